import Verif.Block.PropsFull
import Mathlib.Probability.Distributions.Gaussian.HasGaussianLaw.Basic
import Mathlib.Probability.Distributions.Gaussian.Multivariate
import Mathlib.LinearAlgebra.Matrix.Kronecker

/-! # C115: sampling with the Cholesky factors (estimator.py 320-359) -/

namespace Kfac.Block

open Kfac Kfac.Params MeasureTheory ProbabilityTheory

/-! ### Specification -/

variable {Ω : Type*} [MeasurableSpace Ω] {ι : Type*}

/-- Square-integrable entries with mean zero and the covariance matrix `S`. -/
structure HasCovariance (P : Measure Ω) (x : Ω → ι → ℝ) (S : Matrix ι ι ℝ) : Prop where
  square : ∀ i, MemLp (fun ω => x ω i) 2 P
  mean : ∀ i, ∫ ω, x ω i ∂P = 0
  second : ∀ i j, ∫ ω, x ω i * x ω j ∂P = S i j

/-- The samples `x` made from `z`: the covariance is `S`, the law is Gaussian if that of `z` is, and everything uncorrelated
with all entries of `z`, such as the noise of other blocks, is uncorrelated with `x`. -/
structure Samples [Fintype ι] (P : Measure Ω) (z x : Ω → ι → ℝ) (S : Matrix ι ι ℝ) : Prop where
  covariance : HasCovariance P x S
  gaussian : HasGaussianLaw z P → HasGaussianLaw x P
  uncorrelated : ∀ y : Ω → ℝ, MemLp y 2 P → (∀ i, ∫ ω, z ω i * y ω ∂P = 0) → ∀ i, ∫ ω, x ω i * y ω ∂P = 0

/-! ### Linear images -/

theorem samples_of_linear [Fintype ι] [DecidableEq ι] {P : Measure Ω} [IsProbabilityMeasure P] {z x : Ω → ι → ℝ}
    (hz : HasCovariance P z (1 : Matrix ι ι ℝ)) (M : Matrix ι ι ℝ) (hx : ∀ ω, x ω = M.mulVec (z ω)) :
    Samples P z x (M * M.transpose) := by
  have e : ∀ ω i, x ω i = ∑ k, M i k * z ω k := fun ω i => by rw [hx]; rfl
  have h1 : ∀ k, Integrable (fun ω => z ω k) P := fun k => (hz.square k).integrable (by norm_num)
  have h2 : ∀ k l, Integrable (fun ω => z ω k * z ω l) P := fun k l => (hz.square k).integrable_mul (hz.square l)
  refine ⟨⟨fun i => ?_, fun i => ?_, fun i j => ?_⟩, fun hg => ?_, fun y hy h i => ?_⟩
  · simp only [e]
    exact memLp_finsetSum _ fun k _ => (hz.square k).const_mul _
  · simp only [e]
    rw [integral_finsetSum _ fun k _ => (h1 k).const_mul _]
    simp [integral_const_mul, hz.mean]
  · have e2 : ∀ ω, x ω i * x ω j = ∑ k, ∑ l, M i k * M j l * (z ω k * z ω l) := fun ω => by
      rw [e, e, Finset.sum_mul_sum]
      exact Finset.sum_congr rfl fun k _ => Finset.sum_congr rfl fun l _ => by ring
    simp only [e2]
    rw [integral_finsetSum _ fun k _ => integrable_finsetSum _ fun l _ => (h2 k l).const_mul _]
    have e3 : ∀ k, ∫ ω, ∑ l, M i k * M j l * (z ω k * z ω l) ∂P = M i k * M j k := fun k => by
      rw [integral_finsetSum _ fun l _ => (h2 k l).const_mul _]
      simp [integral_const_mul, hz.second, Matrix.one_apply]
    simp only [e3]
    rfl
  · have : x = fun ω => M.mulVecLin.toContinuousLinearMap (z ω) := by
      funext ω
      rw [hx]
      rfl
    rw [this]
    exact hg.map_fun _
  · have e2 : ∀ ω, x ω i * y ω = ∑ k, M i k * (z ω k * y ω) := fun ω => by
      rw [e, Finset.sum_mul]
      exact Finset.sum_congr rfl fun k _ => by ring
    simp only [e2]
    have h3 : ∀ k, Integrable (fun ω => z ω k * y ω) P := fun k => (hz.square k).integrable_mul hy
    rw [integral_finsetSum _ fun k _ => (h3 k).const_mul _]
    simp [integral_const_mul, h]

/-! ### Kronecker-factored blocks -/

/-- The entries of a layer's parameters, indexed by row and column of the stacked matrix. -/
def cells (p c : ℕ) (v : LayerParams ℝ) : Fin p × Fin c → ℝ := fun k => grid p c v k.1 k.2

theorem cells_factored {p c : ℕ} {u v : LayerParams ℝ} {s : ℝ} {A : Matrix (Fin p) (Fin p) ℝ} {G : Matrix (Fin c) (Fin c) ℝ}
    (h : grid p c u = s • (A * grid p c v * G.transpose)) :
    cells p c u = (s • Matrix.kroneckerMap (· * ·) A G).mulVec (cells p c v) := by
  funext ⟨i, j⟩
  simp only [cells, h, Matrix.smul_apply, Matrix.mul_apply, Matrix.transpose_apply, Matrix.mulVec, dotProduct,
    Matrix.kroneckerMap_apply, Fintype.sum_prod_type, smul_eq_mul, Finset.mul_sum, Finset.sum_mul]
  rw [Finset.sum_comm]
  exact Finset.sum_congr rfl fun k _ => Finset.sum_congr rfl fun l _ => by ring

theorem kron_square {p c : ℕ} (s : ℝ) (A : Matrix (Fin p) (Fin p) ℝ) (G : Matrix (Fin c) (Fin c) ℝ) :
    (s • Matrix.kroneckerMap (· * ·) A G) * (s • Matrix.kroneckerMap (· * ·) A G).transpose =
      (s * s) • Matrix.kroneckerMap (· * ·) (A * A.transpose) (G * G.transpose) := by
  rw [Matrix.transpose_smul, Matrix.smul_mul, Matrix.mul_smul, smul_smul, ← Matrix.kroneckerMap_transpose]
  congr 1
  exact (Matrix.mul_kronecker_mul _ _ _ _).symm

section kron

variable {P : Measure Ω} [IsProbabilityMeasure P] {p c : ℕ} {b : KBlock} {v : Ω → LayerParams ℝ}

/-- C115: `multiply_cholesky` turns noise with covariance 1 into samples whose covariance is the block. -/
theorem C115_kronecker (hA : b.input.Good p) (hG : b.output.Good c) (h1 : 0 < b.dIn) (h2 : 0 < b.dOut) (hr : 0 < b.renorm)
    (cA : b.input.CholeskyStored p b.dIn) (cG : b.output.CholeskyStored c b.dOut) (hv : ∀ ω, Fits p c (v ω))
    (hz : HasCovariance P (fun ω => cells p c (v ω)) 1) :
    ∃ out : Ω → LayerParams ℝ, (∀ ω, b.multiplyCholesky (v ω) false = .ok (out ω) ∧ SameShape (out ω) (v ω)) ∧
      Samples P (fun ω => cells p c (v ω)) (fun ω => cells p c (out ω)) (Matrix.of fun k l =>
        b.renorm * (b.input.damped p b.dIn k.1 l.1 * b.output.damped c b.dOut k.2 l.2)) := by
  obtain ⟨LA, XA, a1, a2, a3, a4⟩ := hA.cholesky_is h1 cA
  obtain ⟨LG, XG, g1, g2, g3, g4⟩ := hG.cholesky_is h2 cG
  have h := fun ω => multiplyFactored_spec a1 g1 (hv ω) (b.renorm ^ (1 / 2 : ℝ)) false true
  choose out o1 o2 o3 o4 using h
  refine ⟨out, fun ω => ⟨o1 ω, o2 ω⟩, ?_⟩
  have := samples_of_linear hz (b.renorm ^ (1 / 2 : ℝ) • Matrix.kroneckerMap (· * ·) LA LG) (x := fun ω => cells p c (out ω))
    fun ω => cells_factored (o4 ω)
  rw [kron_square, a3, g3, ← Real.rpow_add hr, show (1 / 2 + 1 / 2 : ℝ) = 1 by norm_num, Real.rpow_one] at this
  exact this

/-- C115: `multiply_cholesky_inverse` with `transpose=True` makes samples whose covariance is the inverse of the block. -/
theorem C115_kronecker_inverse (hA : b.input.Good p) (hG : b.output.Good c) (h1 : 0 < b.dIn) (h2 : 0 < b.dOut) (hr : 0 < b.renorm)
    (cA : b.input.CholeskyStored p b.dIn) (cG : b.output.CholeskyStored c b.dOut) (hv : ∀ ω, Fits p c (v ω))
    (hz : HasCovariance P (fun ω => cells p c (v ω)) 1) :
    ∃ out : Ω → LayerParams ℝ, (∀ ω, b.multiplyCholeskyInverse (v ω) true = .ok (out ω) ∧ SameShape (out ω) (v ω)) ∧
      Samples P (fun ω => cells p c (v ω)) (fun ω => cells p c (out ω)) (Matrix.of fun k l =>
        b.renorm⁻¹ * ((b.input.damped p b.dIn)⁻¹ k.1 l.1 * (b.output.damped c b.dOut)⁻¹ k.2 l.2)) := by
  obtain ⟨LA, XA, a1, a2, a3, a4⟩ := hA.cholesky_is h1 cA
  obtain ⟨LG, XG, g1, g2, g3, g4⟩ := hG.cholesky_is h2 cG
  have h := fun ω => multiplyFactored_spec a2 g2 (hv ω) (b.renorm ^ (-(1 / 2) : ℝ)) true false
  choose out o1 o2 o3 o4 using h
  refine ⟨out, fun ω => ⟨o1 ω, o2 ω⟩, ?_⟩
  have := samples_of_linear hz (b.renorm ^ (-(1 / 2) : ℝ) • Matrix.kroneckerMap (· * ·) XA.transpose XG.transpose)
    (x := fun ω => cells p c (out ω)) fun ω => cells_factored (by
      rw [Matrix.transpose_transpose]
      exact o4 ω)
  have inv : ∀ {n : ℕ} {L X D : Matrix (Fin n) (Fin n) ℝ}, L * L.transpose = D → L * X = 1 →
      X.transpose * X.transpose.transpose = D⁻¹ := by
    intro n L X D h3 h4
    symm
    apply Matrix.inv_eq_right_inv
    have h5 : L.transpose * X.transpose = 1 := by
      rw [← Matrix.transpose_mul, mul_eq_one_comm.1 h4, Matrix.transpose_one]
    rw [← h3, Matrix.transpose_transpose, Matrix.mul_assoc, ← Matrix.mul_assoc L.transpose, h5, Matrix.one_mul, h4]
  rw [kron_square, inv a3 a4, inv g3 g4, ← Real.rpow_add hr, show (-(1 / 2) + -(1 / 2) : ℝ) = -1 by norm_num,
    Real.rpow_neg_one] at this
  exact this

end kron

/-! ### Full and diagonal blocks -/

section full
open Factor

variable {P : Measure Ω} [IsProbabilityMeasure P] {k : ℕ} {D Env : Type} [DecidableEq D]

/-- C115: full blocks, after any registrations and any runs of the inverse updates, the last one with the statistics `cov`. -/
theorem C115_full {la : Linalg k} (hla : la.Good) (c : Constants) (hclip : c.clipThreshold ≤ 0) (regs : List (Reg D Env))
    (agree : ∀ r ∈ regs, ∀ r' ∈ regs, ∀ d d', r.func = some d → r'.func = some d' → d.id = d'.id → d.value = d'.value)
    (flag : Bool) (hist : List (Env × Mat k)) (env : Env) (cov : Mat k) (hcov : Psd cov)
    (hpos : ∀ r ∈ regs, ∀ d, r.func = some d → 0 < d.value env) {v : Ω → Vec} (hv : ∀ ω, (v ω).Good k)
    (hz : HasCovariance P (fun ω => (v ω).entries k) 1) :
    ∃ f f', (Dense.after (k := k) regs).instantiate = .ok f ∧
      ({ f with eigendecomp := flag } : Dense k D Env).runs la c f (hist ++ [(env, cov)]) = .ok f' ∧
      (∀ d, Reg.cholesky d ∈ regs → ∃ out : Ω → Vec, (∀ ω, fullCholesky f' d (v ω) false = .ok (out ω) ∧ (out ω).SameShape (v ω)) ∧
        Samples P (fun ω => (v ω).entries k) (fun ω => (out ω).entries k) (cov + d.value env • 1)) ∧
      (∀ d, Reg.choleskyInverse d ∈ regs → ∃ out : Ω → Vec,
        (∀ ω, fullCholeskyInverse f' d (v ω) true = .ok (out ω) ∧ (out ω).SameShape (v ω)) ∧
        Samples P (fun ω => (v ω).entries k) (fun ω => (out ω).entries k) (cov + d.value env • 1)⁻¹) := by
  obtain ⟨f, f', h1, h2, -, h4, h5⟩ := C47_power hla c hclip regs agree flag hist env cov hcov hpos
  refine ⟨f, f', h1, h2, fun d hd => ?_, fun d hd => ?_⟩
  · obtain ⟨L, e1, -, e3⟩ := h4 d hd
    have h := fun ω => multiplyMatrix_spec (op := .full (ofMat L)) (M := L) rfl (hv ω) false
    choose out o1 o2 o3 o4 using h
    refine ⟨out, fun ω => ⟨by simp only [fullCholesky, e1, o1], o2 ω⟩, ?_⟩
    have := samples_of_linear hz L (x := fun ω => (out ω).entries k) o4
    rw [e3] at this
    exact this
  · obtain ⟨M, L, e1, e2, -, e4, -⟩ := h5 d hd
    have h := fun ω => multiplyMatrix_spec (op := .full (ofMat M)) (M := M) rfl (hv ω) true
    choose out o1 o2 o3 o4 using h
    refine ⟨out, fun ω => ⟨by simp only [fullCholeskyInverse, e1, o1], o2 ω⟩, ?_⟩
    have := samples_of_linear hz M.transpose (x := fun ω => (out ω).entries k) o4
    have e5 : M.transpose * M.transpose.transpose = (cov + d.value env • 1)⁻¹ := by
      symm
      apply Matrix.inv_eq_left_inv
      have e6 : M * L = 1 := e2
      rw [Matrix.transpose_transpose, ← e4, Matrix.mul_assoc, ← Matrix.mul_assoc M, e6, Matrix.one_mul, ← Matrix.transpose_mul,
        mul_eq_one_comm.1 e6, Matrix.transpose_one]
    rw [e5] at this
    exact this

end full

/-- C115: diagonal blocks; here `transpose` has no effect. -/
theorem C115_diagonal {P : Measure Ω} [IsProbabilityMeasure P] {n : ℕ} (cov : Tensor ℝ) (hc : cov.data.length = n)
    (hcov : ∀ x ∈ cov.data, 0 ≤ x) {d : ℝ} (hd : 0 < d) {v : Ω → Vec} (hv : ∀ ω, (v ω).Good n)
    (hz : HasCovariance P (fun ω => (v ω).entries n) 1) (tr : Bool) :
    (∃ out : Ω → Vec, (∀ ω, diagCholesky cov d (v ω) tr = .ok (out ω) ∧ (out ω).SameShape (v ω)) ∧
      Samples P (fun ω => (v ω).entries n) (fun ω => (out ω).entries n) (Matrix.diagonal fun i => cov.data.getD i 0 + d)) ∧
    ∃ out : Ω → Vec, (∀ ω, diagCholeskyInverse cov d (v ω) tr = .ok (out ω) ∧ (out ω).SameShape (v ω)) ∧
      Samples P (fun ω => (v ω).entries n) (fun ω => (out ω).entries n) (Matrix.diagonal fun i => (cov.data.getD i 0 + d)⁻¹) := by
  have hpos : ∀ i : Fin n, 0 < cov.data.getD i 0 + d := by
    intro i
    have hi : i.1 < cov.data.length := hc ▸ i.2
    rw [List.getD_eq_getElem?_getD, List.getElem?_eq_getElem hi, Option.getD_some]
    exact add_pos_of_nonneg_of_pos (hcov _ (List.getElem_mem _)) hd
  have key : ∀ exp : ℝ, ∃ out : Ω → Vec, (∀ ω, multiplyMatrix (diagPower cov d exp) (v ω) false = .ok (out ω) ∧ (out ω).SameShape (v ω)) ∧
      Samples P (fun ω => (v ω).entries n) (fun ω => (out ω).entries n)
        (Matrix.diagonal fun i => (cov.data.getD i 0 + d) ^ (exp + exp)) := by
    intro exp
    have h := fun ω => multiplyMatrix_spec (diagPower_is cov hc d exp) (hv ω) false
    choose out o1 o2 o3 o4 using h
    refine ⟨out, fun ω => ⟨o1 ω, o2 ω⟩, ?_⟩
    have := samples_of_linear hz _ (x := fun ω => (out ω).entries n) o4
    simp only [tr?, Bool.false_eq_true, if_false, Matrix.diagonal_transpose, Matrix.diagonal_mul_diagonal,
      ← Real.rpow_add (hpos _)] at this
    exact this
  constructor
  · have := key (1 / 2)
    simp only [show (1 / 2 + 1 / 2 : ℝ) = 1 by norm_num, Real.rpow_one] at this
    exact this
  · have := key (-(1 / 2))
    simp only [show (-(1 / 2) + -(1 / 2) : ℝ) = -1 by norm_num, Real.rpow_neg_one] at this
    exact this

/-! ### Examples -/

theorem white_gaussian (ι : Type) [Fintype ι] [DecidableEq ι] : HasCovariance (multivariateGaussian (0 : EuclideanSpace ℝ ι) 1) (fun ω i => ω i) 1 ∧
    HasGaussianLaw (fun (ω : EuclideanSpace ℝ ι) i => ω i) (multivariateGaussian (0 : EuclideanSpace ℝ ι) 1) := by
  have hg : HasGaussianLaw (fun (ω : EuclideanSpace ℝ ι) i => ω i) (multivariateGaussian (0 : EuclideanSpace ℝ ι) 1) :=
    (IsGaussian.hasGaussianLaw_id (μ := multivariateGaussian (0 : EuclideanSpace ℝ ι) 1)).map_fun
      (EuclideanSpace.equiv ι ℝ).toContinuousLinearMap
  have hm : ∀ i : ι, ∫ ω : EuclideanSpace ℝ ι, ω i ∂(multivariateGaussian 0 1) = 0 := by
    intro i
    have := (EuclideanSpace.proj i : EuclideanSpace ℝ ι →L[ℝ] ℝ).integral_comp_comm
      (IsGaussian.integrable_fun_id (μ := multivariateGaussian (0 : EuclideanSpace ℝ ι) 1))
    rw [integral_id_multivariateGaussian] at this
    simpa using this
  refine ⟨⟨fun i => (hg.eval i).memLp_two, hm, fun i j => ?_⟩, hg⟩
  have := covariance_eval_multivariateGaussian (μ := 0) (S := (1 : Matrix ι ι ℝ)) Matrix.PosSemidef.one i j
  rw [covariance, hm, hm] at this
  simpa using this

/-- Standard normal noise of three entries in the tensors of a diagonal block. -/
example : ∃ (v out : EuclideanSpace ℝ (Fin 3) → Vec),
    (∀ ω, diagCholeskyInverse ⟨[3], [1, 3, 8]⟩ 1 (v ω) true = .ok (out ω)) ∧
    HasCovariance (multivariateGaussian 0 1) (fun ω => (out ω).entries 3) (Matrix.diagonal ![1 / 2, 1 / 4, 1 / 9]) ∧
    HasGaussianLaw (fun ω => (out ω).entries 3) (multivariateGaussian 0 1) := by
  obtain ⟨h1, h2⟩ := white_gaussian (Fin 3)
  have e : ∀ ω : EuclideanSpace ℝ (Fin 3), Vec.entries 3 (.list [⟨[2], [ω 0, ω 1]⟩, ⟨[1], [ω 2]⟩]) = fun i => ω i := by
    intro ω
    funext i
    fin_cases i <;> rfl
  obtain ⟨-, out, o1, o2⟩ := C115_diagonal (P := multivariateGaussian (0 : EuclideanSpace ℝ (Fin 3)) 1) (n := 3) ⟨[3], [1, 3, 8]⟩ rfl
    (by intro x hx; simp at hx; rcases hx with rfl | rfl | rfl <;> norm_num) one_pos
    (v := fun ω => .list [⟨[2], [ω 0, ω 1]⟩, ⟨[1], [ω 2]⟩]) (fun ω => ⟨rfl, by simp, by simp [Tensor.WF]⟩)
    (by simp only [e]; exact h1) true
  refine ⟨_, out, fun ω => (o1 ω).1, ?_, o2.gaussian (by simp only [e]; exact h2)⟩
  convert o2.covariance using 2
  funext i
  fin_cases i <;> norm_num

/-- Standard normal noise in the weight and the bias of the block `exBlock`. -/
example : ∃ out : EuclideanSpace ℝ (Fin 3 × Fin 2) → LayerParams ℝ,
    (∀ ω, exBlock.multiplyCholesky (.weightBias ⟨[2, 2], [ω (0, 0), ω (0, 1), ω (1, 0), ω (1, 1)]⟩ ⟨[2], [ω (2, 0), ω (2, 1)]⟩) false =
      .ok (out ω)) ∧
    (∫ ω, cells 3 2 (out ω) (0, 1) * cells 3 2 (out ω) (0, 1) ∂(multivariateGaussian 0 1)) = 112 ∧
    (∫ ω, cells 3 2 (out ω) (0, 1) * cells 3 2 (out ω) (2, 1) ∂(multivariateGaussian 0 1)) = 0 := by
  obtain ⟨h1, h2⟩ := white_gaussian (Fin 3 × Fin 2)
  obtain ⟨a1, a2, a3, a4, a5, a6, a7, -⟩ := exBlock_good
  have e : ∀ ω : EuclideanSpace ℝ (Fin 3 × Fin 2),
      cells 3 2 (.weightBias ⟨[2, 2], [ω (0, 0), ω (0, 1), ω (1, 0), ω (1, 1)]⟩ ⟨[2], [ω (2, 0), ω (2, 1)]⟩) = fun i => ω i := by
    intro ω
    funext ⟨i, j⟩
    fin_cases i <;> fin_cases j <;> rfl
  obtain ⟨out, o1, o2⟩ := C115_kronecker (P := multivariateGaussian (0 : EuclideanSpace ℝ (Fin 3 × Fin 2)) 1)
    (v := fun ω => .weightBias ⟨[2, 2], [ω (0, 0), ω (0, 1), ω (1, 0), ω (1, 1)]⟩ ⟨[2], [ω (2, 0), ω (2, 1)]⟩)
    a1 a2 a3 a4 a5 a6 a7 (fun ω => ⟨rfl, rfl, by norm_num, rfl, rfl, rfl⟩) (by simp only [e]; exact h1)
  refine ⟨out, fun ω => (o1 ω).1, ?_, ?_⟩
  · rw [o2.covariance.second]
    simp [exBlock, Factor.damped, exIn, exOut, Factor.covMat, toMat_ofMat, Tensor.get, Tensor.ravel]
    norm_num
  · rw [o2.covariance.second]
    simp [exBlock, Factor.damped, exIn, exOut, Factor.covMat, toMat_ofMat]

end Kfac.Block
