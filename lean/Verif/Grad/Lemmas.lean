import Verif.Grad.Model
import Verif.Stats.Lemmas
import Mathlib.Analysis.Calculus.FDeriv.Comp
import Mathlib.Analysis.Calculus.FDeriv.Linear
import Mathlib.Analysis.Calculus.FDeriv.Add
import Mathlib.Topology.Algebra.Module.FiniteDimension
import Mathlib.Analysis.Normed.Module.FiniteDimension

/-! # Gradients through layers that are affine in their parameters -/

namespace Kfac.Grad

/-- `d` is the gradient of `L` at `s`: the derivative of `L` exists and is the inner product with `d`. -/
def IsGrad {O : Type} [Fintype O] (L : (O → ℝ) → ℝ) (s d : O → ℝ) : Prop :=
  HasFDerivAt L (∑ o, d o • ContinuousLinearMap.proj (R := ℝ) (φ := fun _ : O => ℝ) o) s

theorem IsGrad.unique {O : Type} [Fintype O] [DecidableEq O] {L : (O → ℝ) → ℝ} {s d e : O → ℝ} (h1 : IsGrad L s d)
    (h2 : IsGrad L s e) : d = e := by
  funext o
  have := congrArg (fun f => f (Pi.single o 1)) (HasFDerivAt.unique h1 h2)
  simpa [Pi.single_apply] using this

/-- The chain rule for a map that is affine in the parameters, with coefficients `J k o`. -/
theorem IsGrad.affine {P O : Type} [Fintype P] [Fintype O] {L : (O → ℝ) → ℝ} {layer : (P → ℝ) → O → ℝ}
    (J : P → O → ℝ) (c : O → ℝ) (hl : ∀ θ o, layer θ o = ∑ k, θ k * J k o + c o) {θ : P → ℝ} {d : O → ℝ}
    (h : IsGrad L (layer θ) d) : IsGrad (fun θ => L (layer θ)) θ fun k => ∑ o, d o * J k o := by
  let A : (P → ℝ) →L[ℝ] (O → ℝ) := LinearMap.toContinuousLinearMap
    { toFun := fun θ o => ∑ k, θ k * J k o
      map_add' := fun a b => by funext o; simp [add_mul, Finset.sum_add_distrib]
      map_smul' := fun r a => by funext o; simp [Finset.mul_sum, mul_assoc] }
  have hA : ∀ θ o, A θ o = ∑ k, θ k * J k o := fun θ o => rfl
  have e : layer = fun θ => A θ + c := by
    funext θ o
    simp [hl, hA]
  have h2 : HasFDerivAt layer A θ := by
    rw [e]; exact A.hasFDerivAt.add_const c
  have h3 := HasFDerivAt.comp θ h h2
  refine HasFDerivAt.congr_fderiv h3 ?_
  ext v
  simp only [sum_apply, smul_apply, ContinuousLinearMap.proj_apply,
    ContinuousLinearMap.comp_apply, hA, smul_eq_mul, Finset.mul_sum, Finset.sum_mul]
  conv_rhs => rw [Finset.sum_comm]
  refine Finset.sum_congr rfl fun o _ => Finset.sum_congr rfl fun k _ => ?_
  ring

theorem computeCov_apply {n : ℕ} (rows : Stats.Rows n) (i j : Fin n) :
    Stats.computeCov rows i j = (rows.map fun x => x i * x j).sum / rows.length := by
  rw [Stats.computeCov_eq]
  simp only [Matrix.smul_apply, Stats.list_sum_apply, Matrix.vecMulVec_apply, smul_eq_mul]
  ring

end Kfac.Grad
