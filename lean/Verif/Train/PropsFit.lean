import Verif.Train.Fit
import Verif.Train.PropsRegression
import Verif.Loss.PropsHessian
import Mathlib.Analysis.Calculus.Deriv.MeanValue
import Mathlib.Analysis.PSeries
import Mathlib.Analysis.Matrix.Order
import Mathlib.Tactic.Abel

/-! # C98: logistic and softmax regression with K-FAC -/

set_option linter.unusedSectionVars false

namespace Kfac.Train

open Kfac.Stats Kfac.Block Kfac.Grad Kfac.Loss Matrix
open scoped MatrixOrder

variable {N n q : ℕ}

/-! ### Specification -/

/-- The mean loss of a network on the training set. -/
noncomputable def meanHead {N n o : ℕ} (x : Fin N → Fin n → ℝ) (loss : Fin N → Head 1 o) (net : Net n o) : ℝ :=
  (∑ i, (loss i).evaluate fun _ => net.eval (x i)) / N

/-- An upper bound for the second derivatives of a loss by its inputs. -/
noncomputable def curvature {o : ℕ} : Head 1 o → ℝ
  | .normalMean var _ => 1 / var
  | .categorical _ => 1 / 2
  | .multiBernoulli _ => 1 / 4

/-- The mean squared length of the inputs. -/
noncomputable def meanSquare (bias : Bool) (x : Fin N → Fin n → ℝ) : ℝ := (∑ i, ∑ r, appendHomog bias (x i) r ^ 2) / N

/-- Decays are not negative and dampings are at least `lam`. -/
def Upkeep.Admissible {n o : ℕ} (lam : ℝ) : Upkeep n o → Prop
  | .cov _ _ decay => 0 ≤ decay
  | .inv damping => lam ≤ damping

/-- The losses of classification. -/
def Classifier {o : ℕ} : Head 1 o → Prop
  | .normalMean _ _ => False
  | _ => True

/-- The data and dampings are bounded, and the covariances are of losses of classification. -/
def Upkeep.Bounded {n o : ℕ} (bias : Bool) (R Λ : ℝ) : Upkeep n o → Prop
  | .cov x sampled _ => (∀ i, ∑ r, appendHomog bias (x i) r ^ 2 ≤ R) ∧ ∀ i, Classifier (sampled i)
  | .inv damping => damping ≤ Λ

/-! ### Smoothness and convexity of the losses -/

/-- A function with second derivatives between zero and `C` lies between its tangent and a parabola. -/
theorem taylor_bounds {φ φ' φ'' : ℝ → ℝ} {C : ℝ} (h1 : ∀ t, HasDerivAt φ (φ' t) t) (h2 : ∀ t, HasDerivAt φ' (φ'' t) t)
    (h0 : ∀ t, 0 ≤ φ'' t) (hC : ∀ t, φ'' t ≤ C) :
    φ 0 + φ' 0 ≤ φ 1 ∧ φ 1 ≤ φ 0 + φ' 0 + C / 2 := by
  have key : ∀ {ψ ψ' ψ'' : ℝ → ℝ}, (∀ t, HasDerivAt ψ (ψ' t) t) → (∀ t, HasDerivAt ψ' (ψ'' t) t) → (∀ t, 0 ≤ ψ'' t) →
      ψ' 0 = 0 → ψ 0 ≤ ψ 1 := by
    intro ψ ψ' ψ'' d1 d2 d0 hz
    have m1 : Monotone ψ' := monotone_of_hasDerivAt_nonneg d2 fun t => d0 t
    have m2 : MonotoneOn ψ (Set.Ici 0) := by
      refine monotoneOn_of_deriv_nonneg (convex_Ici 0) (fun t _ => (d1 t).continuousAt.continuousWithinAt)
        (fun t _ => (d1 t).differentiableAt.differentiableWithinAt) fun t ht => ?_
      rw [(d1 t).deriv, ← hz]
      rw [interior_Ici] at ht
      exact m1 (le_of_lt ht)
    exact m2 (by simp) (by simp) zero_le_one
  constructor
  · have := key (ψ := fun t => φ t - φ' 0 * t) (ψ' := fun t => φ' t - φ' 0) (ψ'' := φ'')
      (fun t => ((h1 t).sub ((hasDerivAt_id t).const_mul (φ' 0))).congr_deriv (by simp))
      (fun t => (h2 t).sub_const (φ' 0)) h0 (by ring)
    simp at this
    linarith
  · have := key (ψ := fun t => φ' 0 * t + C / 2 * t ^ 2 - φ t) (ψ' := fun t => φ' 0 + C * t - φ' t)
      (ψ'' := fun t => C - φ'' t)
      (fun t => by
        have := (((hasDerivAt_id t).const_mul (φ' 0)).add (((hasDerivAt_id t).pow 2).const_mul (C / 2))).sub (h1 t)
        refine this.congr_deriv ?_
        simp
        ring)
      (fun t => by
        have := (((hasDerivAt_id t).const_mul C).const_add (φ' 0)).sub (h2 t)
        refine this.congr_deriv ?_
        simp)
      (fun t => by linarith [hC t]) (by ring)
    simp at this
    linarith

/-- The variance under a distribution. -/
theorem variance_bounds {p v : Fin q → ℝ} (h0 : ∀ i, 0 ≤ p i) (h1 : ∑ i, p i = 1) :
    0 ≤ ∑ i, p i * v i ^ 2 - (∑ i, p i * v i) ^ 2 ∧
      ∑ i, p i * v i ^ 2 - (∑ i, p i * v i) ^ 2 ≤ 1 / 2 * ∑ i, v i ^ 2 := by
  have e : ∀ s : ℝ, ∑ i, ∑ j, p i * p j * (v i + s * v j) ^ 2 =
      (1 + s ^ 2) * ∑ i, p i * v i ^ 2 + 2 * s * (∑ i, p i * v i) ^ 2 := by
    intro s
    have e1 : ∀ i j, p i * p j * (v i + s * v j) ^ 2 =
        p i * v i ^ 2 * p j + 2 * s * (p i * v i * (p j * v j)) + s ^ 2 * (p i * (p j * v j ^ 2)) := fun i j => by ring
    simp only [e1, Finset.sum_add_distrib, ← Finset.mul_sum, ← Finset.sum_mul, h1, pow_two (∑ i, p i * v i)]
    ring
  constructor
  · have h2 := e (-1)
    have h3 : 0 ≤ ∑ i, ∑ j, p i * p j * (v i + -1 * v j) ^ 2 := Finset.sum_nonneg fun i _ => Finset.sum_nonneg fun j _ =>
      mul_nonneg (mul_nonneg (h0 i) (h0 j)) (sq_nonneg _)
    linarith
  · have h2 := e 1
    have h3 : ∑ i, p i * p i * (v i + 1 * v i) ^ 2 ≤ ∑ i, ∑ j, p i * p j * (v i + 1 * v j) ^ 2 :=
      Finset.sum_le_sum fun i _ => Finset.single_le_sum (f := fun j => p i * p j * (v i + 1 * v j) ^ 2)
        (fun j _ => mul_nonneg (mul_nonneg (h0 i) (h0 j)) (sq_nonneg _)) (Finset.mem_univ i)
    have h4 : ∑ i, (2 * p i * v i ^ 2 - p i * p i * (v i + 1 * v i) ^ 2 / 2) ≤ ∑ i, 1 / 2 * v i ^ 2 := by
      refine Finset.sum_le_sum fun i _ => ?_
      nlinarith [mul_nonneg (sq_nonneg (2 * p i - 1)) (sq_nonneg (v i))]
    rw [Finset.sum_sub_distrib, ← Finset.mul_sum, ← Finset.sum_div] at h4
    simp only [mul_assoc, ← Finset.mul_sum] at h4 h2 h3
    linarith

/-- The Gauss-Newton product of one example is between zero and the curvature. -/
theorem ggn_bounds (h : Head 1 q) (hv : h.Valid) (z v u : Batch 1 q)
    (hu : (h.at z).ggn (.single v) = .ok (.single u)) :
    0 ≤ dot v u ∧ dot v u ≤ curvature h * ∑ j, v 0 j ^ 2 := by
  cases h with
  | normalMean var y =>
    have hv : 0 < var := hv
    have e : u = (NormalMean.mk z var).multiplyFisher v := by
      have := Except.ok.inj hu
      injection this with h
      exact h.symm
    subst e
    have e1 : dot v ((NormalMean.mk z var).multiplyFisher v) = 1 / var * ∑ j, v 0 j ^ 2 := by
      simp only [dot, NormalMean.multiplyFisher, Fin.sum_univ_one, Fin.isValue, Finset.mul_sum]
      refine Finset.sum_congr rfl fun j _ => ?_
      ring
    rw [e1]
    exact ⟨mul_nonneg (by positivity) (Finset.sum_nonneg fun j _ => sq_nonneg _), le_refl _⟩
  | categorical y =>
    have e : u = (Categorical.mk z).multiplyFisher v := by
      have := Except.ok.inj hu
      injection this with h
      exact h.symm
    subst e
    have e1 : dot v ((Categorical.mk z).multiplyFisher v) =
        ∑ i, softmax (z 0) i * v 0 i ^ 2 - (∑ i, softmax (z 0) i * v 0 i) ^ 2 := by
      simp only [dot, Categorical.multiplyFisher, Categorical.probs, Fin.sum_univ_one, Fin.isValue, pow_two (∑ i, softmax (z 0) i * v 0 i)]
      rw [Finset.sum_mul, ← Finset.sum_sub_distrib]
      refine Finset.sum_congr rfl fun j _ => ?_
      simp only [mul_comm (v 0 _) (softmax _ _)]
      ring
    rw [e1]
    by_cases hq : q = 0
    · subst hq; simp
    · haveI : NeZero q := ⟨hq⟩
      exact variance_bounds (fun i => (softmax_pos (z 0) i).le) (softmax_sum (z 0) 0)
  | multiBernoulli y =>
    have e : u = (MultiBernoulli.mk z).multiplyFisher v := by
      have := Except.ok.inj hu
      injection this with h
      exact h.symm
    subst e
    simp only [dot, MultiBernoulli.multiplyFisher, MultiBernoulli.probs, Fin.sum_univ_one, Fin.isValue, curvature, Finset.mul_sum]
    have h0 := fun j => And.intro (sigmoid_pos (z 0 j)) (sigmoid_lt_one (z 0 j))
    constructor
    · refine Finset.sum_nonneg fun j _ => ?_
      have := h0 j
      have h1 : 0 ≤ sigmoid (z 0 j) * (1 - sigmoid (z 0 j)) := mul_nonneg this.1.le (by linarith [this.2])
      nlinarith [mul_nonneg h1 (sq_nonneg (v 0 j))]
    · refine Finset.sum_le_sum fun j _ => ?_
      nlinarith [mul_nonneg (sq_nonneg (2 * sigmoid (z 0 j) - 1)) (sq_nonneg (v 0 j))]

/-- The loss of one example lies between its tangents and parabolas. -/
theorem evaluate_bounds (h : Head 1 q) (hv : h.Valid) (z v : Fin q → ℝ) :
    exampleLoss h z + ∑ j, h.slope (fun _ => z) 0 j * v j ≤ exampleLoss h (z + v) ∧
    exampleLoss h (z + v) ≤ exampleLoss h z + ∑ j, h.slope (fun _ => z) 0 j * v j + curvature h / 2 * ∑ j, v j ^ 2 := by
  let Z : ℝ → Batch 1 q := fun t _ j => z j + t * v j
  let V : Batch 1 q := fun _ => v
  have hZ : ∀ t, HasDerivAt Z V t := by
    intro t
    have : HasDerivAt (fun t : ℝ => (fun _ => z : Batch 1 q) + t • V) V t := by
      simpa using ((hasDerivAt_id t).smul_const V).const_add (fun _ => z : Batch 1 q)
    exact this
  choose G hG1 hG2 hG3 using fun t => hasFDerivAt_slope h hv (Z t)
  have h1 : ∀ t, HasDerivAt (fun t => h.evaluate (Z t)) (∑ j, h.slope (Z t) 0 j * v j) t := by
    intro t
    have := (hasFDerivAt_evaluate h hv (Z t)).comp_hasDerivAt t (hZ t)
    refine this.congr_deriv ?_
    simp [V]
  have h2 : ∀ t, HasDerivAt (fun t => ∑ j, h.slope (Z t) 0 j * v j) (dot V (G t V)) t := by
    intro t
    have : HasDerivAt (fun t => ∑ j, h.slope (Z t) 0 j * v j) (∑ j, G t V 0 j * v j) t := by
      refine HasDerivAt.fun_sum fun j _ => ?_
      obtain ⟨L, hL, hL'⟩ := hG3 t 0 j
      have := (hL'.comp_hasDerivAt t (hZ t)).mul_const (v j)
      rw [hL] at this
      exact this
    refine this.congr_deriv ?_
    simp [dot, V, mul_comm]
  have h3 := taylor_bounds h1 h2 (fun t => (ggn_bounds h hv (Z t) V (G t V) (hG1 t V)).1)
    (C := curvature h * ∑ j, v j ^ 2) (fun t => (ggn_bounds h hv (Z t) V (G t V) (hG1 t V)).2)
  have e0 : Z 0 = fun _ => z := by funext _ j; simp [Z]
  have e1 : Z 1 = fun _ => z + v := by funext _ j; simp [Z]
  rw [e0, e1] at h3
  refine ⟨h3.1, h3.2.trans (le_of_eq ?_)⟩
  simp only [exampleLoss]
  ring

/-! ### The loss as a function of the weights -/

/-- The mean loss as a function of the weights. -/
noncomputable def fitLoss (bias : Bool) (x : Fin N → Fin n → ℝ) (loss : Fin N → Head 1 q)
    (w : Fin (n + bias.toNat) → Fin q → ℝ) : ℝ := (∑ i, exampleLoss (loss i) (affine bias w (x i))) / N

/-- Its gradient. -/
noncomputable def fitGrad (bias : Bool) (x : Fin N → Fin n → ℝ) (loss : Fin N → Head 1 q)
    (w : Fin (n + bias.toNat) → Fin q → ℝ) : Matrix (Fin (n + bias.toNat)) (Fin q) ℝ :=
  fun r j => (∑ i, (loss i).slope (fun _ => affine bias w (x i)) 0 j * appendHomog bias (x i) r) / N

/-- The outputs of the layer as a linear function of the weights. -/
noncomputable def affineMap (bias : Bool) (x : Fin n → ℝ) : (Fin (n + bias.toNat) → Fin q → ℝ) →L[ℝ] Batch 1 q :=
  LinearMap.toContinuousLinearMap
    { toFun := fun w _ => affine bias w x
      map_add' := fun a b => by funext _ j; exact affine_add bias a b x j
      map_smul' := fun c a => by funext _ j; exact affine_smul bias c a x j }

@[simp] theorem affineMap_apply (bias : Bool) (x : Fin n → ℝ) (w : Fin (n + bias.toNat) → Fin q → ℝ) :
    affineMap bias x w = fun _ => affine bias w x := rfl

theorem matGradient_fit (bias : Bool) (x : Fin N → Fin n → ℝ) (loss : Fin N → Head 1 q) (hv : ∀ i, (loss i).Valid)
    (w : Fin (n + bias.toNat) → Fin q → ℝ) : matGradient (fitLoss bias x loss) w = fitGrad bias x loss w := by
  have h : HasFDerivAt (fitLoss bias x loss) ((N : ℝ)⁻¹ • ∑ i, (∑ b, ∑ j,
      (loss i).slope (fun _ => affine bias w (x i)) b j • entry b j).comp (affineMap bias (x i))) w := by
    have h1 := (HasFDerivAt.fun_sum (u := Finset.univ) fun i (_ : i ∈ Finset.univ) =>
      (hasFDerivAt_evaluate (loss i) (hv i) (affineMap bias (x i) w)).comp w (affineMap bias (x i)).hasFDerivAt).const_mul
        (N : ℝ)⁻¹
    refine h1.congr_of_eventuallyEq (Filter.Eventually.of_forall fun w => ?_)
    simp only [fitLoss, div_eq_inv_mul]
    rfl
  funext r j
  rw [matGradient, h.fderiv]
  have e : ∀ i j', affine bias (Pi.single r (Pi.single j 1) : Fin (n + bias.toNat) → Fin q → ℝ) (x i) j' =
      if j' = j then appendHomog bias (x i) r else 0 := by
    intro i j'
    unfold affine
    rw [Finset.sum_eq_single r]
    · by_cases hj : j' = j
      · subst hj; simp
      · simp [hj]
    · intro r' _ hr; simp [hr]
    · simp
  simp only [ContinuousLinearMap.smul_apply, ContinuousLinearMap.sum_apply, ContinuousLinearMap.comp_apply, affineMap_apply,
    entry_apply, e, Fin.sum_univ_one, Fin.isValue, smul_eq_mul, mul_ite, mul_zero, Finset.sum_ite_eq', Finset.mem_univ, if_true,
    fitGrad, div_eq_inv_mul]

/-- The inner product of the gradient with a direction. -/
theorem fitGrad_ip (bias : Bool) (x : Fin N → Fin n → ℝ) (loss : Fin N → Head 1 q)
    (w h : Fin (n + bias.toNat) → Fin q → ℝ) : ∑ r, ∑ j, fitGrad bias x loss w r j * h r j =
      (∑ i, ∑ j, (loss i).slope (fun _ => affine bias w (x i)) 0 j * affine bias h (x i) j) / N := by
  simp only [fitGrad, affine, Finset.sum_div, Finset.mul_sum, Finset.sum_mul]
  rw [Finset.sum_comm]
  conv_rhs => rw [Finset.sum_comm]
  refine Finset.sum_congr rfl fun j _ => ?_
  rw [Finset.sum_comm]
  refine Finset.sum_congr rfl fun i _ => Finset.sum_congr rfl fun r _ => ?_
  ring

/-- Sum of the squares of the entries. -/
def sqn {P : ℕ} (a : Fin P → Fin q → ℝ) : ℝ := ∑ r, ∑ j, a r j ^ 2

theorem sqn_nonneg {P : ℕ} (a : Fin P → Fin q → ℝ) : 0 ≤ sqn a :=
  Finset.sum_nonneg fun _ _ => Finset.sum_nonneg fun _ _ => sq_nonneg _

theorem sqn_trace {P : ℕ} (a : Matrix (Fin P) (Fin q) ℝ) : sqn a = (aᵀ * a).trace := by
  rw [← ip_trace]
  simp [sqn, pow_two]

theorem sqn_mul {P m : ℕ} (a : Matrix (Fin P) (Fin m) ℝ) (b : Matrix (Fin m) (Fin q) ℝ) : sqn (a * b) ≤ sqn a * sqn b := by
  have h : ∀ r j, (a * b) r j ^ 2 ≤ (∑ k, a r k ^ 2) * ∑ k, b k j ^ 2 := fun r j =>
    Finset.sum_mul_sq_le_sq_mul_sq Finset.univ (fun k => a r k) fun k => b k j
  refine (Finset.sum_le_sum fun r _ => Finset.sum_le_sum fun j _ => h r j).trans (le_of_eq ?_)
  simp only [sqn, ← Finset.mul_sum, ← Finset.sum_mul]
  rw [Finset.sum_comm (f := fun i j => b j i ^ 2)]

/-- Cauchy-Schwarz. -/
theorem ip_sq {P : ℕ} (a b : Fin P → Fin q → ℝ) : (∑ r, ∑ j, a r j * b r j) ^ 2 ≤ sqn a * sqn b := by
  have := Finset.sum_mul_sq_le_sq_mul_sq (Finset.univ : Finset (Fin P × Fin q)) (fun c => a c.1 c.2) fun c => b c.1 c.2
  simpa only [Fintype.sum_prod_type, sqn] using this

theorem affine_sq (bias : Bool) (x : Fin n → ℝ) (h : Fin (n + bias.toNat) → Fin q → ℝ) :
    ∑ j, affine bias h x j ^ 2 ≤ (∑ r, appendHomog bias x r ^ 2) * sqn h := by
  have : ∀ j, affine bias h x j ^ 2 ≤ (∑ r, h r j ^ 2) * ∑ r, appendHomog bias x r ^ 2 := fun j =>
    Finset.sum_mul_sq_le_sq_mul_sq Finset.univ (fun r => h r j) fun r => appendHomog bias x r
  refine (Finset.sum_le_sum fun j _ => this j).trans (le_of_eq ?_)
  rw [← Finset.sum_mul, Finset.sum_comm, mul_comm]
  rfl

theorem meanSquare_nonneg (bias : Bool) (x : Fin N → Fin n → ℝ) : 0 ≤ meanSquare bias x := by
  unfold meanSquare
  positivity

theorem fitLoss_lower (bias : Bool) (x : Fin N → Fin n → ℝ) (loss : Fin N → Head 1 q) (hv : ∀ i, (loss i).Valid)
    (w h : Fin (n + bias.toNat) → Fin q → ℝ) :
    fitLoss bias x loss w + ∑ r, ∑ j, fitGrad bias x loss w r j * h r j ≤ fitLoss bias x loss (w + h) := by
  rw [fitGrad_ip, fitLoss, fitLoss, ← add_div, ← Finset.sum_add_distrib]
  refine div_le_div_of_nonneg_right (Finset.sum_le_sum fun i _ => ?_) (Nat.cast_nonneg _)
  have ha : affine bias (w + h) (x i) = affine bias w (x i) + affine bias h (x i) := funext fun j => affine_add bias w h (x i) j
  rw [ha]
  exact (evaluate_bounds (loss i) (hv i) _ _).1

theorem fitLoss_upper {β : ℝ} (hβ : 0 ≤ β) (bias : Bool) (x : Fin N → Fin n → ℝ) (loss : Fin N → Head 1 q)
    (hv : ∀ i, (loss i).Valid) (hc : ∀ i, curvature (loss i) ≤ β) (w h : Fin (n + bias.toNat) → Fin q → ℝ) :
    fitLoss bias x loss (w + h) ≤ fitLoss bias x loss w + ∑ r, ∑ j, fitGrad bias x loss w r j * h r j +
      β / 2 * meanSquare bias x * sqn h := by
  have e : β / 2 * meanSquare bias x * sqn h = (∑ i, β / 2 * ((∑ r, appendHomog bias (x i) r ^ 2) * sqn h)) / N := by
    rw [meanSquare, ← Finset.mul_sum, ← Finset.sum_mul]
    ring
  rw [fitGrad_ip, e, fitLoss, fitLoss, ← add_div, ← add_div, ← Finset.sum_add_distrib, ← Finset.sum_add_distrib]
  refine div_le_div_of_nonneg_right (Finset.sum_le_sum fun i _ => ?_) (Nat.cast_nonneg _)
  have ha : affine bias (w + h) (x i) = affine bias w (x i) + affine bias h (x i) := funext fun j => affine_add bias w h (x i) j
  rw [ha]
  refine (evaluate_bounds (loss i) (hv i) _ _).2.trans (add_le_add_right ?_ _)
  have h1 := affine_sq bias (x i) h
  have h2 : 0 ≤ ∑ j, affine bias h (x i) j ^ 2 := Finset.sum_nonneg fun _ _ => sq_nonneg _
  have h3 := hc i
  calc curvature (loss i) / 2 * ∑ j, affine bias h (x i) j ^ 2 ≤ β / 2 * ∑ j, affine bias h (x i) j ^ 2 :=
        mul_le_mul_of_nonneg_right (by linarith) h2
    _ ≤ _ := mul_le_mul_of_nonneg_left h1 (by linarith)

/-! ### Matrices -/

/-- The preconditioned gradient against the gradient. -/
theorem direction_bounds {P : ℕ} {A : Matrix (Fin P) (Fin P) ℝ} {G : Matrix (Fin q) (Fin q) ℝ} {d e : ℝ} (hA : A.PosSemidef)
    (hG : G.PosSemidef) (hd : 0 < d) (he : 0 < e) (g : Matrix (Fin P) (Fin q) ℝ) :
    d * e * sqn ((A + d • 1)⁻¹ * g * (G + e • 1)⁻¹) ≤ ∑ r, ∑ j, g r j * ((A + d • 1)⁻¹ * g * (G + e • 1)⁻¹) r j ∧
    sqn g ≤ (A.trace + P * d) * (G.trace + q * e) * ∑ r, ∑ j, g r j * ((A + d • 1)⁻¹ * g * (G + e • 1)⁻¹) r j := by
  have hM : (A + d • 1).PosDef := Matrix.PosDef.posSemidef_add hA (Matrix.PosDef.one.smul hd)
  have hK : (G + e • 1).PosDef := Matrix.PosDef.posSemidef_add hG (Matrix.PosDef.one.smul he)
  have uM : IsUnit (A + d • 1).det := (Matrix.isUnit_iff_isUnit_det _).1 hM.isUnit
  have uK : IsUnit (G + e • 1).det := (Matrix.isUnit_iff_isUnit_det _).1 hK.isUnit
  set u := (A + d • 1)⁻¹ * g * (G + e • 1)⁻¹ with hu
  have hg : g = (A + d • 1) * u * (G + e • 1) := by
    rw [hu, ← Matrix.mul_assoc, ← Matrix.mul_assoc, Matrix.mul_nonsing_inv _ uM, Matrix.one_mul, Matrix.mul_assoc,
      Matrix.nonsing_inv_mul _ uK, Matrix.mul_one]
  have tr : ∀ {a b : ℕ} (S : Matrix (Fin a) (Fin P) ℝ) (T : Matrix (Fin b) (Fin q) ℝ),
      ∑ r, ∑ j, (Sᵀ * S * u * (Tᵀ * T)) r j * u r j = sqn (S * u * Tᵀ) := by
    intro a b S T
    rw [ip_trace, sqn_trace]
    simp only [Matrix.transpose_mul, Matrix.transpose_transpose]
    rw [Matrix.mul_assoc Tᵀ T, Matrix.mul_assoc Tᵀ, Matrix.trace_mul_comm]
    simp only [Matrix.mul_assoc]
  have root : ∀ {m : ℕ} {M : Matrix (Fin m) (Fin m) ℝ}, M.PosSemidef → ∃ S : Matrix (Fin m) (Fin m) ℝ, M = Sᵀ * S := by
    intro m M hM
    obtain ⟨S, hS⟩ := CStarAlgebra.nonneg_iff_eq_star_mul_self.mp hM.nonneg
    exact ⟨S, by rw [hS, Matrix.star_eq_conjTranspose, Matrix.conjTranspose_eq_transpose_of_trivial]⟩
  constructor
  · obtain ⟨S, hS⟩ := root hA
    obtain ⟨T, hT⟩ := root hG
    let I : Matrix (Fin P) (Fin P) ℝ := 1
    let J : Matrix (Fin q) (Fin q) ℝ := 1
    have e1 : g = Sᵀ * S * u * (Tᵀ * T) + e • (Sᵀ * S * u * (Jᵀ * J)) + d • (Iᵀ * I * u * (Tᵀ * T)) +
        (d * e) • (Iᵀ * I * u * (Jᵀ * J)) := by
      rw [hg, ← hS, ← hT]
      simp only [I, J, Matrix.transpose_one, Matrix.mul_one, Matrix.one_mul, Matrix.add_mul, Matrix.mul_add, Matrix.smul_mul,
        Matrix.mul_smul, smul_add, smul_smul]
      rw [mul_comm d e]
      abel
    have e2 : ∑ r, ∑ j, g r j * u r j = sqn (S * u * Tᵀ) + e * sqn (S * u * Jᵀ) + d * sqn (I * u * Tᵀ) +
        d * e * sqn (I * u * Jᵀ) := by
      rw [← tr, ← tr, ← tr, ← tr]
      simp only [Finset.mul_sum, ← Finset.sum_add_distrib]
      refine Finset.sum_congr rfl fun r _ => Finset.sum_congr rfl fun j _ => ?_
      rw [congrFun (congrFun e1 r) j]
      simp only [Matrix.add_apply, Matrix.smul_apply, smul_eq_mul]
      ring
    rw [e2]
    simp only [I, J, Matrix.one_mul, Matrix.transpose_one, Matrix.mul_one]
    have h1 := sqn_nonneg (S * u * Tᵀ)
    have h2 := mul_nonneg he.le (sqn_nonneg (S * u))
    have h3 := mul_nonneg hd.le (sqn_nonneg (u * Tᵀ))
    linarith
  · obtain ⟨S, hS⟩ := root hM.posSemidef
    obtain ⟨T, hT⟩ := root hK.posSemidef
    have e1 : ∑ r, ∑ j, g r j * u r j = sqn (S * u * Tᵀ) := by
      rw [← tr, ← hS, ← hT, ← hg]
    have e2 : g = Sᵀ * (S * u * Tᵀ) * T := by
      rw [hg, hS, hT]
      simp only [Matrix.mul_assoc]
    have e3 : sqn Sᵀ = A.trace + P * d := by
      rw [sqn_trace, Matrix.transpose_transpose, Matrix.trace_mul_comm, ← hS, Matrix.trace_add, Matrix.trace_smul,
        Matrix.trace_one]
      simp [mul_comm]
    have e4 : sqn T = G.trace + q * e := by
      rw [sqn_trace, ← hT, Matrix.trace_add, Matrix.trace_smul, Matrix.trace_one]
      simp [mul_comm]
    rw [e1]
    calc sqn g = sqn (Sᵀ * (S * u * Tᵀ) * T) := by rw [← e2]
      _ ≤ sqn (Sᵀ * (S * u * Tᵀ)) * sqn T := sqn_mul _ _
      _ ≤ sqn Sᵀ * sqn (S * u * Tᵀ) * sqn T := mul_le_mul_of_nonneg_right (sqn_mul _ _) (sqn_nonneg _)
      _ = _ := by rw [e3, e4]; ring

/-! ### The operations -/

/-- What holds of the covariances: they are averages of second moments, with bounded traces if the data are bounded. -/
def Sound {P : ℕ} (B : Option (ℝ × ℝ)) (l : Layer P q) : Prop :=
  0 ≤ l.input.avg.totalWeight ∧ l.output.avg.totalWeight = l.input.avg.totalWeight ∧ l.input.avg.var.PosSemidef ∧
    l.output.avg.var.PosSemidef ∧ ∀ b ∈ B, l.input.avg.var.trace ≤ b.1 * l.input.avg.totalWeight ∧
      l.output.avg.var.trace ≤ b.2 * l.input.avg.totalWeight

/-- The inverses have not been computed yet. -/
def Idle {P : ℕ} (l : Layer P q) : Prop := l.input.inverse = 0 ∧ l.output.inverse = 0

/-- The inverses have been computed, with a damping of at least `lam`. -/
def Conditioned {P : ℕ} (lam : ℝ) (K : Option ℝ) (l : Layer P q) : Prop :=
  ∃ (A : Matrix (Fin P) (Fin P) ℝ) (G : Matrix (Fin q) (Fin q) ℝ) (d e : ℝ), A.PosSemidef ∧ G.PosSemidef ∧ 0 < d ∧ 0 < e ∧
    lam ≤ d * e ∧ l.input.inverse = (A + d • 1)⁻¹ ∧ l.output.inverse = (G + e • 1)⁻¹ ∧
    ∀ k ∈ K, (A.trace + P * d) * (G.trace + q * e) ≤ k

/-- The derivative of the loss of one example. -/
theorem gradient_example (h : Head 1 q) (hv : h.Valid) (z : Fin q → ℝ) (j : Fin q) :
    gradient (exampleLoss h) z j = h.slope (fun _ => z) 0 j := by
  let D : (Fin q → ℝ) →L[ℝ] Batch 1 q := ContinuousLinearMap.pi fun _ => ContinuousLinearMap.id ℝ _
  have h1 : HasFDerivAt (exampleLoss h) ((∑ b, ∑ i, h.slope (fun _ => z) b i • entry b i).comp D) z :=
    (hasFDerivAt_evaluate h hv (D z)).comp z D.hasFDerivAt
  rw [gradient, h1.fderiv]
  simp [D, Pi.single_apply]

/-- The derivatives of losses of classification are bounded. -/
theorem slope_bound (h : Head 1 q) (hc : Classifier h) (z : Fin q → ℝ) :
    ∑ j, h.slope (fun _ => z) 0 j ^ 2 ≤ q + 1 := by
  cases h with
  | normalMean var y => exact hc.elim
  | categorical y =>
    simp only [slope_categorical]
    have h1 : ∀ j, (softmax z j - if y 0 = j then 1 else 0) ^ 2 ≤ 1 := by
      intro j
      have h2 := softmax_pos z j
      have h3 : softmax z j ≤ 1 := by
        rw [← softmax_sum z j]
        exact Finset.single_le_sum (f := softmax z) (fun i _ => (softmax_pos z i).le) (Finset.mem_univ j)
      split_ifs <;> nlinarith
    refine (Finset.sum_le_sum fun j _ => h1 j).trans ?_
    simp
  | multiBernoulli y =>
    simp only [slope_multiBernoulli]
    have h1 : ∀ j, (sigmoid (z j) - if y (0, j) then 1 else 0) ^ 2 ≤ 1 := by
      intro j
      have h2 := sigmoid_pos (z j)
      have h3 := sigmoid_lt_one (z j)
      split_ifs <;> nlinarith
    refine (Finset.sum_le_sum fun j _ => h1 j).trans ?_
    simp

theorem cov_trace {P M : ℕ} (y : Fin (M + 1) → Fin P → ℝ) {R : ℝ} (h : ∀ i, ∑ r, y i r ^ 2 ≤ R) :
    (computeCov (List.ofFn y)).trace ≤ R := by
  simp only [Matrix.trace, Matrix.diag_apply, computeCov_apply, List.map_ofFn, List.sum_ofFn, List.length_ofFn,
    Function.comp_apply]
  rw [← Finset.sum_div, Finset.sum_comm, div_le_iff₀ (by positivity)]
  refine (Finset.sum_le_sum fun i _ => le_trans (le_of_eq (by simp [pow_two])) (h i)).trans ?_
  simp [mul_comm]

/-- An update of the covariances. -/
theorem cov_fit (cfg : Config) (bias : Bool) {M : ℕ} (x : Fin (M + 1) → Fin n → ℝ) (sampled : Fin (M + 1) → Head 1 q)
    {decay lam R Λ : ℝ} {b : Bool} {K : Option ℝ} {l : Layer (n + bias.toNat) q}
    (hs : Sound (if b then some (R, (q : ℝ) + 1) else none) l)
    (ha : (Upkeep.cov x sampled decay).Admissible lam) (hb : b = true → (Upkeep.cov x sampled decay).Bounded bias R Λ) :
    ∃ l', (linear bias l).step cfg (Upkeep.cov x sampled decay).op = .ok (linear bias l') ∧ l'.weights = l.weights ∧
      Sound (if b then some (R, (q : ℝ) + 1) else none) l' ∧ 0 < l'.input.avg.totalWeight ∧ (Idle l → Idle l') ∧
      (Conditioned lam K l → Conditioned lam K l') := by
  have ha : 0 ≤ decay := ha
  obtain ⟨h1, h2, h3, h4, h5⟩ := hs
  refine ⟨_, rfl, rfl, ⟨?_, ?_, ?_, ?_, ?_⟩, ?_, fun h => h, fun h => h⟩
  · simp only [DenseStat.step, MovAvg.add]
    positivity
  · simp only [DenseStat.step, MovAvg.add, h2]
  · simp only [DenseStat.step, MovAvg.add, cov_one, one_smul]
    exact (h3.smul ha).add (computeCov_psd _)
  · simp only [DenseStat.step, MovAvg.add, cov_one, one_smul]
    exact (h4.smul ha).add (computeCov_psd _)
  · intro B hB
    cases b with
    | false => simp at hB
    | true =>
      obtain ⟨h6, h7⟩ := hb rfl
      obtain ⟨h8, h9⟩ := h5 B hB
      simp at hB
      subst hB
      have t1 := cov_trace (fun i => appendHomog bias (x i)) h6
      have t2 := cov_trace (R := (q : ℝ) + 1)
        (fun i => gradient (fun s => exampleLoss (sampled i) s) (affine bias l.weights (x i))) fun i => by
          have hv : (sampled i).Valid := by
            have := h7 i
            cases hh : sampled i with
            | normalMean var y => rw [hh] at this; exact this.elim
            | categorical y => trivial
            | multiBernoulli y => trivial
          simp only [gradient_example _ hv]
          exact slope_bound _ (h7 i) _
      simp only [DenseStat.step, MovAvg.add, cov_one, one_smul, Matrix.trace_add, Matrix.trace_smul, smul_eq_mul, Net.eval, id]
      constructor
      · nlinarith [mul_le_mul_of_nonneg_left h8 ha]
      · simp only at h9 t2
        nlinarith [mul_le_mul_of_nonneg_left h9 ha]
  · simp only [DenseStat.step, MovAvg.add]
    positivity

/-- The bound for the damped factors. -/
noncomputable def damped (P q : ℕ) (R Λ : ℝ) : ℝ :=
  R * (q + 1) + √Λ * (2 * √(R * q * ((q + 1) * P)) + R * q + (q + 1) * P) + P * q * Λ

theorem setupDamping_bound (rule : PiRule) (power : ℝ) {lt rt damping R Γ Λ d e : ℝ} (P q : ℕ) (h1 : 0 ≤ lt) (h2 : 0 ≤ rt)
    (hR : lt ≤ R) (hΓ : rt ≤ Γ) (hd : 0 ≤ damping) (hΛ : damping ≤ Λ)
    (h : setupDamping rule power lt P rt q damping none = .ok (d, e)) :
    (lt + P * d) * (rt + q * e) ≤ R * Γ + √Λ * (2 * √(R * q * (Γ * P)) + R * q + Γ * P) + P * q * Λ := by
  obtain ⟨d', e', h3, h4, h5, -, h6⟩ := setupDamping_ok rule power lt rt damping P q h1 h2 hd
  have hde : d = d' ∧ e = e' := by
    have := Except.ok.inj (h.symm.trans h3)
    exact ⟨congrArg Prod.fst this, congrArg Prod.snd this⟩
  obtain ⟨rfl, rfl⟩ := hde
  have hR0 := h1.trans hR
  have hΓ0 := h2.trans hΓ
  have hs : √damping ≤ √Λ := Real.sqrt_le_sqrt hΛ
  have key : lt * q * e ≤ √Λ * (√(R * q * (Γ * P)) + R * q) ∧ rt * P * d ≤ √Λ * (√(R * q * (Γ * P)) + Γ * P) := by
    have one : ∀ {d e : ℝ}, d = √damping → e = √damping →
        lt * q * e ≤ √Λ * (√(R * q * (Γ * P)) + R * q) ∧ rt * P * d ≤ √Λ * (√(R * q * (Γ * P)) + Γ * P) := by
      intro d e hd he
      subst hd; subst he
      have a1 : lt * q ≤ √(R * q * (Γ * P)) + R * q := by
        have := mul_le_mul_of_nonneg_right hR (Nat.cast_nonneg (α := ℝ) q)
        linarith [Real.sqrt_nonneg (R * q * (Γ * P))]
      have a2 : rt * P ≤ √(R * q * (Γ * P)) + Γ * P := by
        have := mul_le_mul_of_nonneg_right hΓ (Nat.cast_nonneg (α := ℝ) P)
        linarith [Real.sqrt_nonneg (R * q * (Γ * P))]
      constructor
      · rw [mul_comm]
        exact mul_le_mul hs a1 (by positivity) (Real.sqrt_nonneg _)
      · rw [mul_comm]
        exact mul_le_mul hs a2 (by positivity) (Real.sqrt_nonneg _)
    cases rule with
    | off =>
      simp only [setupDamping] at h
      have := Except.ok.inj h
      exact one (by rw [Real.sqrt_eq_rpow]; exact (congrArg Prod.fst this).symm)
        (by rw [Real.sqrt_eq_rpow]; exact (congrArg Prod.snd this).symm)
    | tracenorm =>
      simp only [setupDamping, piAdjustedDamping, bind, Except.bind, pure, Except.pure] at h
      simp only [piTracenorm] at h
      split_ifs at h with h7 h8
      · have := Except.ok.inj h
        exact one (by rw [Real.sqrt_eq_rpow]; exact (congrArg Prod.fst this).symm.trans (mul_one _))
          (by rw [Real.sqrt_eq_rpow]; exact (congrArg Prod.snd this).symm.trans (div_one _))
      · have := Except.ok.inj h
        have hd' : d = √damping * √(lt * q / (rt * P)) := by
          rw [Real.sqrt_eq_rpow damping]; exact (congrArg Prod.fst this).symm
        have he' : e = √damping / √(lt * q / (rt * P)) := by
          rw [Real.sqrt_eq_rpow damping]; exact (congrArg Prod.snd this).symm
        have p1 : 0 < lt * q := lt_of_le_of_ne (by positivity) fun h0 => h7 (by rw [← h0, zero_mul])
        have r1 : √(lt * q / (rt * P)) = √(lt * q) / √(rt * P) := Real.sqrt_div p1.le _
        have s1 : 0 < √(lt * q) := Real.sqrt_pos.2 p1
        have s2 : 0 < √(rt * P) := Real.sqrt_pos.2 h8
        have m1 : √(lt * q) * √(lt * q) = lt * q := Real.mul_self_sqrt p1.le
        have m2 : √(rt * P) * √(rt * P) = rt * P := Real.mul_self_sqrt h8.le
        have b1 : √(lt * q) * √(rt * P) ≤ √(R * q * (Γ * P)) := by
          rw [← Real.sqrt_mul p1.le]
          refine Real.sqrt_le_sqrt (mul_le_mul ?_ ?_ h8.le (by positivity))
          · exact mul_le_mul_of_nonneg_right hR (Nat.cast_nonneg _)
          · exact mul_le_mul_of_nonneg_right hΓ (Nat.cast_nonneg _)
        have gen : ∀ a b s : ℝ, 0 < a → 0 < b → a * a * (s / (a / b)) = s * (a * b) := by
          intro a b s ha hb
          field_simp
        have gen' : ∀ a b s : ℝ, 0 < a → 0 < b → b * b * (s * (a / b)) = s * (a * b) := by
          intro a b s ha hb
          field_simp
        have e1 : lt * q * e = √damping * (√(lt * q) * √(rt * P)) := by
          rw [he', r1, ← gen _ _ _ s1 s2, m1]
        have e2 : rt * P * d = √damping * (√(lt * q) * √(rt * P)) := by
          rw [hd', r1, ← gen' _ _ _ s1 s2, m2]
        rw [e1, e2]
        have b2 : √damping * (√(lt * q) * √(rt * P)) ≤ √Λ * √(R * q * (Γ * P)) :=
          mul_le_mul hs b1 (by positivity) (Real.sqrt_nonneg _)
        have b3 := mul_nonneg (Real.sqrt_nonneg Λ) (mul_nonneg hR0 (Nat.cast_nonneg (α := ℝ) q))
        have b4 := mul_nonneg (Real.sqrt_nonneg Λ) (mul_nonneg hΓ0 (Nat.cast_nonneg (α := ℝ) P))
        constructor <;> linarith
  have k1 : lt * rt ≤ R * Γ := mul_le_mul hR hΓ h2 hR0
  have k2 : P * q * (d * e) ≤ P * q * Λ := mul_le_mul_of_nonneg_left (h6.le.trans hΛ) (by positivity)
  nlinarith [key.1, key.2]

/-- An update of the inverses. -/
theorem inv_fit (cfg : Config) (bias : Bool) {damping lam R Λ : ℝ} {b : Bool} {l : Layer (n + bias.toNat) q} (hl : 0 < lam)
    (hs : Sound (if b then some (R, (q : ℝ) + 1) else none) l) (hw : 0 < l.input.avg.totalWeight)
    (ha : (Upkeep.inv damping : Upkeep n q).Admissible lam)
    (hb : b = true → (Upkeep.inv damping : Upkeep n q).Bounded bias R Λ) :
    ∃ l', (linear bias l).step cfg (Upkeep.inv damping).op = .ok (linear bias l') ∧ l'.weights = l.weights ∧
      Sound (if b then some (R, (q : ℝ) + 1) else none) l' ∧ 0 < l'.input.avg.totalWeight ∧
      Conditioned lam (if b then some (damped (n + bias.toNat) q R Λ) else none) l' := by
  have ha : lam ≤ damping := ha
  have hpos : 0 < damping := hl.trans_le ha
  obtain ⟨h1, h2, h3, h4, h5⟩ := hs
  set w := l.input.avg.totalWeight with hwdef
  have v1 : l.input.avg.value true = some (w⁻¹ • l.input.avg.var) := by
    simp [MovAvg.value, ← hwdef, hw.ne']
  have v2 : l.output.avg.value true = some (w⁻¹ • l.output.avg.var) := by
    simp [MovAvg.value, h2, hw.ne']
  have p1 : (w⁻¹ • l.input.avg.var).PosSemidef := h3.smul (by positivity)
  have p2 : (w⁻¹ • l.output.avg.var).PosSemidef := h4.smul (by positivity)
  obtain ⟨d, e, h6, -, -, h7, h8⟩ := setupDamping_ok cfg.rule cfg.power _ _ damping (n + bias.toNat) q p1.trace_nonneg
    p2.trace_nonneg hpos.le
  refine ⟨{ l with input := l.input.step (.inv d), output := l.output.step (.inv e) }, ?_, rfl, ?_, ?_, ?_⟩
  · simp only [Upkeep.op, Net.step, Net.invUpdate, Layer.invUpdate, v1, v2, h6, Except.map, bind, Except.bind, pure,
      Except.pure]
  · simp only [Sound, DenseStat.step, v1, v2]
    exact ⟨h1, h2, h3, h4, h5⟩
  · simp only [DenseStat.step, v1]
    exact hw
  · refine ⟨w⁻¹ • l.input.avg.var, w⁻¹ • l.output.avg.var, d, e, p1, p2, (h7 hpos).1, (h7 hpos).2, ha.trans h8.ge, ?_, ?_, ?_⟩
    · simp only [DenseStat.step, v1]
    · simp only [DenseStat.step, v2]
    · intro k hk
      cases b with
      | false => simp at hk
      | true =>
        simp at hk
        subst hk
        have hb : damping ≤ Λ := hb rfl
        obtain ⟨h9, h10⟩ := h5 (R, (q : ℝ) + 1) rfl
        refine setupDamping_bound cfg.rule cfg.power _ q p1.trace_nonneg p2.trace_nonneg ?_ ?_ hpos.le hb h6
        · rw [Matrix.trace_smul, smul_eq_mul, inv_mul_le_iff₀ hw, mul_comm]
          exact h9
        · rw [Matrix.trace_smul, smul_eq_mul, inv_mul_le_iff₀ hw, mul_comm]
          exact h10

/-- A training step. -/
theorem train_fit (hq : q ≠ 0) (cfg : Config) (hm : cfg.momentum = 0) (bias : Bool) (x : Fin N → Fin n → ℝ)
    (loss : Fin N → Head 1 q) (hv : ∀ i, (loss i).Valid) (l : Layer (n + bias.toNat) q) :
    ∃ (κ : ℝ) (l' : Layer (n + bias.toNat) q), 0 ≤ κ ∧ κ ≤ 1 ∧ (cfg.normConstraint = none → κ = 1) ∧
      (linear bias l).step cfg (.train x fun i => exampleLoss (loss i)) = .ok (linear bias l') ∧ l'.input = l.input ∧
      l'.output = l.output ∧ ∀ a j, l'.weights a j = l.weights a j -
        cfg.learningRate * κ * (l.input.inverse * fitGrad bias x loss l.weights * l.output.inverse) a j := by
  have hl : matGradient (lossOf bias id (.nil : Net q q) x fun i => exampleLoss (loss i)) l.weights =
      fitGrad bias x loss l.weights := matGradient_fit bias x loss hv l.weights
  let u : Fin (n + bias.toNat) → Fin q → ℝ := l.input.inverse * fitGrad bias x loss l.weights * l.output.inverse
  have hp : l.precondition bias (fitGrad bias x loss l.weights) = .ok u :=
    precondition_eq hq bias l (fitGrad bias x loss l.weights)
  let r : ℝ := (∑ r, ∑ j, fitGrad bias x loss l.weights r j * u r j) + 0
  have hc := clipFactor_mem cfg.normConstraint cfg.learningRate r
  refine ⟨clipFactor cfg.normConstraint cfg.learningRate r, { l with
      weights := l.weights - cfg.learningRate • (cfg.momentum • l.velocity +
        clipFactor cfg.normConstraint cfg.learningRate r • u)
      velocity := cfg.momentum • l.velocity + clipFactor cfg.normConstraint cfg.learningRate r • u },
    hc.1, hc.2, fun h => by rw [h]; rfl, ?_, rfl, rfl, fun a j => ?_⟩
  · simp only [Net.step, Net.trainStep, Net.sqNorm, Net.update, hl, hp, bind, Except.bind, pure, Except.pure]
    rfl
  · show l.weights a j - cfg.learningRate * (cfg.momentum * l.velocity a j + _ * u a j) = _
    rw [hm]
    ring

theorem run_append {n o : ℕ} (cfg : Config) (a b : List (Op n o)) : ∀ net : Net n o,
    net.run cfg (a ++ b) = (net.run cfg a).bind fun net => net.run cfg b := by
  induction a with
  | nil => intro net; rfl
  | cons op a ih =>
    intro net
    simp only [List.cons_append, Net.run]
    cases net.step cfg op with
    | error e => rfl
    | ok net => exact ih net

/-- The state of the statistics between the operations. -/
def Kept {P : ℕ} (lam R Λ : ℝ) (b : Bool) (l : Layer P q) : Prop :=
  Sound (if b then some (R, (q : ℝ) + 1) else none) l ∧
    (Idle l ∨ Conditioned lam (if b then some (damped P q R Λ) else none) l)

theorem kept_fresh {P : ℕ} (lam R Λ : ℝ) (b : Bool) (w : Fin P → Fin q → ℝ) : Kept lam R Λ b (fresh w) :=
  ⟨⟨le_refl _, rfl, Matrix.PosSemidef.zero, Matrix.PosSemidef.zero, fun b _ => by simp [fresh, MovAvg.init]⟩, .inl ⟨rfl, rfl⟩⟩

/-- Updates once there are statistics. -/
theorem upkeep_ok (cfg : Config) (bias : Bool) {lam R Λ : ℝ} {b : Bool} (hl : 0 < lam) (us : List (Upkeep n q))
    (ha : ∀ u ∈ us, u.Admissible lam) (hb : b = true → ∀ u ∈ us, u.Bounded bias R Λ) :
    ∀ {l : Layer (n + bias.toNat) q}, Kept lam R Λ b l → 0 < l.input.avg.totalWeight →
      ∃ l', (linear bias l).run cfg (us.map Upkeep.op) = .ok (linear bias l') ∧ l'.weights = l.weights ∧ Kept lam R Λ b l' ∧
        0 < l'.input.avg.totalWeight ∧
        ((Conditioned lam (if b then some (damped (n + bias.toNat) q R Λ) else none) l ∨ ∃ damping, .inv damping ∈ us) →
          Conditioned lam (if b then some (damped (n + bias.toNat) q R Λ) else none) l') := by
  induction us with
  | nil =>
    intro l hk hw
    exact ⟨l, rfl, rfl, hk, hw, fun h => h.elim id fun ⟨d, hd⟩ => by simp at hd⟩
  | cons u us ih =>
    intro l hk hw
    have ih := @ih (fun u hu => ha u (by simp [hu])) fun h u hu => hb h u (by simp [hu])
    cases u with
    | cov x sampled decay =>
      obtain ⟨l1, e1, e2, e3, e4, e5, e6⟩ := cov_fit (decay := decay) (K := if b then some (damped (n + bias.toNat) q R Λ) else none) cfg bias x
        sampled hk.1 (ha _ (by simp)) fun h => hb h _ (by simp)
      obtain ⟨l2, f1, f2, f3, f4, f5⟩ := ih (l := l1) ⟨e3, hk.2.imp e5 e6⟩ e4
      refine ⟨l2, ?_, f2.trans e2, f3, f4, fun h => f5 (h.imp e6 fun ⟨d, hd⟩ => ⟨d, by simpa using hd⟩)⟩
      simp only [List.map_cons, Net.run, e1]
      exact f1
    | inv damping =>
      obtain ⟨l1, e1, e2, e3, e4, e5⟩ := inv_fit (damping := damping) cfg bias hl hk.1 hw (ha _ (by simp)) fun h => hb h _ (by simp)
      obtain ⟨l2, f1, f2, f3, f4, f5⟩ := ih (l := l1) ⟨e3, .inr e5⟩ e4
      refine ⟨l2, ?_, f2.trans e2, f3, f4, fun _ => f5 (.inl e5)⟩
      simp only [List.map_cons, Net.run, e1]
      exact f1

/-- Updates beginning with one of the covariances. -/
theorem upkeep_warm (cfg : Config) (bias : Bool) {lam R Λ : ℝ} {b : Bool} (hl : 0 < lam) {M : ℕ}
    (x : Fin (M + 1) → Fin n → ℝ) (sampled : Fin (M + 1) → Head 1 q) (decay : ℝ) (us : List (Upkeep n q))
    (ha : ∀ u ∈ .cov x sampled decay :: us, u.Admissible lam)
    (hb : b = true → ∀ u ∈ .cov x sampled decay :: us, u.Bounded bias R Λ)
    {l : Layer (n + bias.toNat) q} (hk : Kept lam R Λ b l) :
    ∃ l', (linear bias l).run cfg ((.cov x sampled decay :: us).map Upkeep.op) = .ok (linear bias l') ∧ l'.weights = l.weights ∧
      Kept lam R Λ b l' ∧ 0 < l'.input.avg.totalWeight ∧
      ((∃ damping, .inv damping ∈ us) → Conditioned lam (if b then some (damped (n + bias.toNat) q R Λ) else none) l') := by
  obtain ⟨l1, e1, e2, e3, e4, e5, e6⟩ := cov_fit (decay := decay) (K := if b then some (damped (n + bias.toNat) q R Λ) else none) cfg bias x
    sampled hk.1 (ha _ (by simp)) fun h => hb h _ (by simp)
  obtain ⟨l2, f1, f2, f3, f4, f5⟩ := upkeep_ok cfg bias hl us (fun u hu => ha u (by simp [hu]))
    (fun h u hu => hb h u (by simp [hu])) (l := l1) ⟨e3, hk.2.imp e5 e6⟩ e4
  refine ⟨l2, ?_, f2.trans e2, f3, f4, fun h => f5 (.inr h)⟩
  simp only [List.map_cons, Net.run, e1]
  exact f1

/-- Updates that do not fail. -/
theorem upkeep_any (cfg : Config) (bias : Bool) {lam R Λ : ℝ} {b : Bool} (hl : 0 < lam) (us : List (Upkeep n q))
    (ha : ∀ u ∈ us, u.Admissible lam) (hb : b = true → ∀ u ∈ us, u.Bounded bias R Λ)
    {l : Layer (n + bias.toNat) q} (hk : Kept lam R Λ b l) {net : Net n q}
    (h : (linear bias l).run cfg (us.map Upkeep.op) = .ok net) :
    ∃ l', net = linear bias l' ∧ l'.weights = l.weights ∧ Kept lam R Λ b l' := by
  by_cases hw : 0 < l.input.avg.totalWeight
  · obtain ⟨l', h1, h2, h3, -⟩ := upkeep_ok cfg bias hl us ha hb hk hw
    exact ⟨l', Except.ok.inj (h.symm.trans h1), h2, h3⟩
  · cases us with
    | nil => exact ⟨l, (Except.ok.inj h).symm, rfl, hk⟩
    | cons u us =>
      cases u with
      | cov x sampled decay =>
        obtain ⟨l', h1, h2, h3, -⟩ := upkeep_warm cfg bias hl x sampled decay us ha hb hk
        exact ⟨l', Except.ok.inj (h.symm.trans h1), h2, h3⟩
      | inv damping =>
        exfalso
        have h0 : l.input.avg.totalWeight = 0 := le_antisymm (not_lt.1 hw) hk.1.1
        have v1 : l.input.avg.value true = none := by simp [MovAvg.value, h0]
        simp [Net.run, Net.step, Upkeep.op, Net.invUpdate, Layer.invUpdate, v1, bind, Except.bind] at h

/-- The loss after a step. -/
theorem fit_step {β lam c : ℝ} (hβ : 0 ≤ β) (hl : 0 < lam) (bias : Bool) (x : Fin N → Fin n → ℝ)
    (loss : Fin N → Head 1 q) (hv : ∀ i, (loss i).Valid) (hc : ∀ i, curvature (loss i) ≤ β)
    {K : Option ℝ} {m : Layer (n + bias.toNat) q} (hm : Conditioned lam K m) {w w' : Fin (n + bias.toNat) → Fin q → ℝ}
    (hw : ∀ a j, w' a j = w a j - c * (m.input.inverse * fitGrad bias x loss w * m.output.inverse) a j) :
    ∃ γ, 0 ≤ γ ∧ lam * sqn (m.input.inverse * fitGrad bias x loss w * m.output.inverse) ≤ γ ∧
      (∀ k ∈ K, sqn (fitGrad bias x loss w) ≤ k * γ) ∧
      fitLoss bias x loss w' ≤ fitLoss bias x loss w - c * (1 - β * c * meanSquare bias x / (2 * lam)) * γ := by
  obtain ⟨A, G, d, e, hA, hG, hd, he, hde, h1, h2, h3⟩ := hm
  obtain ⟨h4, h5⟩ := direction_bounds hA hG hd he (fitGrad bias x loss w)
  rw [h1, h2] at hw
  rw [h1, h2]
  set u : Fin (n + bias.toNat) → Fin q → ℝ := (A + d • 1)⁻¹ * fitGrad bias x loss w * (G + e • 1)⁻¹ with hu
  set γ := ∑ r, ∑ j, fitGrad bias x loss w r j * u r j with hγ
  have hs := sqn_nonneg u
  have h6 : lam * sqn u ≤ γ := (mul_le_mul_of_nonneg_right hde hs).trans h4
  have h0 : 0 ≤ γ := (mul_nonneg hl.le hs).trans h6
  refine ⟨γ, h0, h6, fun k hk => h5.trans (mul_le_mul_of_nonneg_right (h3 k hk) h0), ?_⟩
  have e1 : w' = w + fun a j => -c * u a j := by
    funext a j
    have : w' a j = w a j - c * u a j := hw a j
    rw [this]
    show _ = w a j + -c * u a j
    ring
  have h7 := fitLoss_upper hβ bias x loss hv hc w fun a j => -c * u a j
  rw [← e1] at h7
  have e2 : ∑ r, ∑ j, fitGrad bias x loss w r j * (-c * u r j) = -c * γ := by
    rw [hγ, Finset.mul_sum]
    refine Finset.sum_congr rfl fun r _ => ?_
    rw [Finset.mul_sum]
    refine Finset.sum_congr rfl fun j _ => ?_
    ring
  have e3 : sqn (fun a j => -c * u a j) = c ^ 2 * sqn u := by
    simp only [sqn, Finset.mul_sum]
    refine Finset.sum_congr rfl fun r _ => Finset.sum_congr rfl fun j _ => ?_
    ring
  rw [e2, e3] at h7
  refine h7.trans ?_
  have h8 : β / 2 * meanSquare bias x * (c ^ 2 * sqn u) ≤ c * (β * c * meanSquare bias x / (2 * lam)) * γ := by
    have e4 : c * (β * c * meanSquare bias x / (2 * lam)) * γ = β / 2 * meanSquare bias x * c ^ 2 * (γ / lam) := by
      field_simp
    rw [e4, ← mul_assoc]
    refine mul_le_mul_of_nonneg_left ?_ (mul_nonneg (mul_nonneg (by linarith) (meanSquare_nonneg _ _)) (sq_nonneg _))
    rw [le_div_iff₀ hl]
    linarith
  linarith

/-- The state after some rounds of updates and training. -/
theorem fit_kept (hq : q ≠ 0) (cfg : Config) (hm : cfg.momentum = 0) (bias : Bool) (x : Fin N → Fin n → ℝ)
    (loss : Fin N → Head 1 q) (hv : ∀ i, (loss i).Valid) {lam : ℝ} (hl : 0 < lam) (upkeep : ℕ → List (Upkeep n q))
    (ha : ∀ k, ∀ u ∈ upkeep k, u.Admissible lam) (w : Fin (n + bias.toNat) → Fin q → ℝ) (k : ℕ) : ∀ {net : Net n q},
    (linear bias (fresh w)).fit cfg x loss upkeep k = .ok net →
      ∃ l, net = linear bias l ∧ Kept lam 0 0 false l ∧ ∀ {net' : Net n q},
        (linear bias (fresh w)).fit cfg x loss upkeep (k + 1) = .ok net' → ∃ (κ : ℝ) (m l' : Layer (n + bias.toNat) q),
          0 ≤ κ ∧ κ ≤ 1 ∧ net' = linear bias l' ∧ Kept lam 0 0 false l' ∧ Kept lam 0 0 false m ∧ ∀ a j, l'.weights a j = l.weights a j -
            cfg.learningRate * κ * (m.input.inverse * fitGrad bias x loss l.weights * m.output.inverse) a j := by
  have next : ∀ k {l : Layer (n + bias.toNat) q} {net' : Net n q}, Kept lam 0 0 false l →
      (linear bias (fresh w)).fit cfg x loss upkeep k = .ok (linear bias l) →
      (linear bias (fresh w)).fit cfg x loss upkeep (k + 1) = .ok net' → ∃ (κ : ℝ) (m l' : Layer (n + bias.toNat) q),
          0 ≤ κ ∧ κ ≤ 1 ∧ net' = linear bias l' ∧ Kept lam 0 0 false l' ∧ Kept lam 0 0 false m ∧ ∀ a j, l'.weights a j = l.weights a j -
            cfg.learningRate * κ * (m.input.inverse * fitGrad bias x loss l.weights * m.output.inverse) a j := by
    intro k l net' hk h1 h2
    rw [Net.fit, h1] at h2
    simp only [Except.bind] at h2
    rw [run_append] at h2
    cases h3 : (linear bias l).run cfg ((upkeep k).map Upkeep.op) with
    | error e => rw [h3] at h2; cases h2
    | ok mid =>
      obtain ⟨m, rfl, hw, hkm⟩ := upkeep_any (b := false) cfg bias hl (upkeep k) (ha k) (by simp) hk h3
      obtain ⟨κ, l', h4, h5, -, h6, h7, h8, h9⟩ := train_fit hq cfg hm bias x loss hv m
      rw [h3] at h2
      simp only [Except.bind, Net.run, h6] at h2
      refine ⟨κ, m, l', h4, h5, (Except.ok.inj h2).symm, ?_, hkm, fun a j => ?_⟩
      · simpa only [Kept, Sound, Idle, Conditioned, h7, h8] using hkm
      · rw [h9, hw]
  induction k with
  | zero =>
    intro net h
    have h' := Except.ok.inj h
    subst h'
    exact ⟨fresh w, rfl, kept_fresh _ _ _ _ _, fun h2 => next 0 (kept_fresh _ _ _ _ _) rfl h2⟩
  | succ k ih =>
    intro net h
    cases h1 : (linear bias (fresh w)).fit cfg x loss upkeep k with
    | error e => rw [Net.fit, h1] at h; cases h
    | ok net0 =>
      obtain ⟨l, rfl, -, h3⟩ := ih h1
      obtain ⟨κ, m, l', -, -, rfl, h4, -⟩ := h3 h
      exact ⟨l', rfl, h4, fun h2 => next (k + 1) h4 h h2⟩

/-! ### Convergence -/

/-- Losses are bounded below. -/
theorem example_lower (h : Head 1 q) (hv : h.Valid) : ∃ m, ∀ z, m ≤ exampleLoss h z := by
  cases h with
  | normalMean var y =>
    have hv : 0 < var := hv
    refine ⟨exampleLoss (.normalMean var y) fun j => y (0, j), fun z => ?_⟩
    have h1 := (evaluate_bounds (.normalMean var y) hv (fun j => y (0, j)) (z - fun j => y (0, j))).1
    simp only [slope_normalMean hv, sub_self, zero_div, zero_mul, Finset.sum_const_zero, add_zero, add_sub_cancel] at h1
    exact h1
  | categorical y =>
    refine ⟨0, fun z => ?_⟩
    simp only [exampleLoss, Head.evaluate, Categorical.evaluate, Fin.sum_univ_one, Fin.isValue]
    have h3 : softmax z (y 0) ≤ 1 := by
      rw [← softmax_sum z (y 0)]
      exact Finset.single_le_sum (f := softmax z) (fun i _ => (softmax_pos z i).le) (Finset.mem_univ _)
    linarith [Real.log_nonpos (softmax_pos z (y 0)).le h3]
  | multiBernoulli y =>
    refine ⟨0, fun z => ?_⟩
    simp only [exampleLoss, Head.evaluate, MultiBernoulli.evaluate]
    rw [neg_nonneg]
    refine Finset.sum_nonpos fun c _ => ?_
    have h2 := sigmoid_pos (z c.2)
    have h3 := sigmoid_lt_one (z c.2)
    split_ifs
    · exact Real.log_nonpos h2.le h3.le
    · exact Real.log_nonpos (by linarith) (by linarith)

theorem fitLoss_bounded (bias : Bool) (x : Fin N → Fin n → ℝ) (loss : Fin N → Head 1 q) (hv : ∀ i, (loss i).Valid) :
    ∃ m, ∀ w, m ≤ fitLoss bias x loss w := by
  choose m hm using fun i => example_lower (loss i) (hv i)
  exact ⟨(∑ i, m i) / N, fun w => div_le_div_of_nonneg_right (Finset.sum_le_sum fun i _ => hm i _) (Nat.cast_nonneg _)⟩

/-- Descent on a convex function reaches every value that the function has. -/
theorem reaches {f γ G D : ℕ → ℝ} {c K A B m v : ℝ} (hc : 0 < c) (hK : 0 ≤ K) (hA : 0 ≤ A) (hB : 0 ≤ B)
    (h0 : ∀ k, 0 ≤ γ k) (h1 : ∀ k, f (k + 1) ≤ f k - c * γ k) (hm : ∀ k, m ≤ f k) (hG : ∀ k, G k ≤ K * γ k)
    (hD0 : ∀ k, 0 ≤ D k) (hD : ∀ k, D k ≤ A + B * k) (hf : ∀ k, v ≤ f k → (f k - v) ^ 2 ≤ G k * D k) {ε : ℝ} (hε : 0 < ε) :
    ∃ k, f k < v + ε := by
  by_contra hno
  push Not at hno
  have hsum : ∀ k, c * ∑ i ∈ Finset.range k, γ i ≤ f 0 - f k := by
    intro k
    induction k with
    | zero => simp
    | succ k ih =>
      rw [Finset.sum_range_succ, mul_add]
      linarith [h1 k]
  set M := (K + 1) * (A + B + 1) with hM
  have hMpos : 0 < M := by positivity
  have hlow : ∀ k : ℕ, ε ^ 2 / M * (1 / ((k : ℝ) + 1)) ≤ γ k := by
    intro k
    have hk := hno k
    have h2 := hf k (by linarith)
    have h3 : ε ^ 2 ≤ (f k - v) ^ 2 := pow_le_pow_left₀ hε.le (by linarith) 2
    have h4 : G k * D k ≤ (K + 1) * γ k * ((A + B + 1) * (k + 1)) := by
      have a1 : G k ≤ (K + 1) * γ k := (hG k).trans (by nlinarith [h0 k])
      have a2 : D k ≤ (A + B + 1) * (k + 1) := (hD k).trans (by
        have : (0 : ℝ) ≤ k := Nat.cast_nonneg k
        nlinarith)
      exact mul_le_mul a1 a2 (hD0 k) (mul_nonneg (by linarith) (h0 k))
    have hk1 : (0 : ℝ) < (k : ℝ) + 1 := by positivity
    rw [mul_one_div, div_div, div_le_iff₀ (by positivity)]
    calc ε ^ 2 ≤ _ := h3.trans (h2.trans h4)
      _ = _ := by rw [hM]; ring
  have hdiv := Real.tendsto_sum_range_one_div_nat_succ_atTop
  obtain ⟨k, hk⟩ := (hdiv.eventually_gt_atTop ((f 0 - m) / c / (ε ^ 2 / M))).exists
  have h5 : ε ^ 2 / M * ∑ i ∈ Finset.range k, (1 / ((i : ℝ) + 1)) ≤ ∑ i ∈ Finset.range k, γ i := by
    rw [Finset.mul_sum]
    exact Finset.sum_le_sum fun i _ => hlow i
  have h6 : ∑ i ∈ Finset.range k, γ i ≤ (f 0 - m) / c := by
    rw [le_div_iff₀ hc, mul_comm]
    linarith [hsum k, hm k]
  rw [div_lt_iff₀ (by positivity), mul_comm] at hk
  linarith

/-- The distance travelled. -/
theorem distance {P : ℕ} {w u : ℕ → Fin P → Fin q → ℝ} {lr : ℝ} (hw : ∀ k a j, w (k + 1) a j = w k a j - lr * u k a j)
    (v : Fin P → Fin q → ℝ) (k : ℕ) :
    sqn (w k - v) ≤ 2 * sqn (w 0 - v) + 2 * lr ^ 2 * (k * ∑ i ∈ Finset.range k, sqn (u i)) := by
  have h1 : ∀ a j, w k a j = w 0 a j - lr * ∑ i ∈ Finset.range k, u i a j := by
    intro a j
    induction k with
    | zero => simp
    | succ k ih =>
      rw [hw, ih, Finset.sum_range_succ]
      ring
  have h2 : ∀ a j, (w k a j - v a j) ^ 2 ≤ 2 * (w 0 a j - v a j) ^ 2 + 2 * lr ^ 2 * (k * ∑ i ∈ Finset.range k, u i a j ^ 2) := by
    intro a j
    have h3 : (∑ i ∈ Finset.range k, u i a j) ^ 2 ≤ k * ∑ i ∈ Finset.range k, u i a j ^ 2 := by
      have := Finset.sum_mul_sq_le_sq_mul_sq (Finset.range k) (fun _ => (1 : ℝ)) fun i => u i a j
      simpa using this
    rw [h1]
    have h4 := mul_le_mul_of_nonneg_left h3 (by positivity : 0 ≤ 2 * lr ^ 2)
    nlinarith [sq_nonneg (w 0 a j - v a j + lr * ∑ i ∈ Finset.range k, u i a j)]
  have h3 : sqn (w k - v) ≤ ∑ a, ∑ j, (2 * (w 0 a j - v a j) ^ 2 + 2 * lr ^ 2 * (k * ∑ i ∈ Finset.range k, u i a j ^ 2)) :=
    Finset.sum_le_sum fun a _ => Finset.sum_le_sum fun j _ => h2 a j
  refine h3.trans (le_of_eq ?_)
  simp only [sqn, Finset.sum_add_distrib, ← Finset.mul_sum, Pi.sub_apply]
  congr 3
  have e : ∀ a, ∑ j, ∑ i ∈ Finset.range k, u i a j ^ 2 = ∑ i ∈ Finset.range k, ∑ j, u i a j ^ 2 := fun a => Finset.sum_comm
  simp only [e]
  exact Finset.sum_comm

/-! ### Theorems -/

/-- With a learning rate that is small against the damping, no step of K-FAC on a linear model with any of the losses increases
the loss on the training set: whatever batches and targets the statistics come from, whenever they and the inverses are updated,
and with or without the norm constraint. -/
theorem C98_descent (hq : q ≠ 0) (cfg : Config) (hm : cfg.momentum = 0) (hlr : 0 ≤ cfg.learningRate) (bias : Bool)
    (x : Fin N → Fin n → ℝ) (loss : Fin N → Head 1 q) (hv : ∀ i, (loss i).Valid) {β lam : ℝ} (hβ : 0 ≤ β)
    (hc : ∀ i, curvature (loss i) ≤ β) (hl : 0 < lam) (hs : β * cfg.learningRate * meanSquare bias x ≤ 2 * lam)
    (upkeep : ℕ → List (Upkeep n q)) (ha : ∀ k, ∀ u ∈ upkeep k, u.Admissible lam) (w : Fin (n + bias.toNat) → Fin q → ℝ)
    {k : ℕ} {net net' : Net n q} (h : (linear bias (fresh w)).fit cfg x loss upkeep k = .ok net)
    (h' : (linear bias (fresh w)).fit cfg x loss upkeep (k + 1) = .ok net') : meanHead x loss net' ≤ meanHead x loss net := by
  obtain ⟨l, rfl, -, h1⟩ := fit_kept hq cfg hm bias x loss hv hl upkeep ha w k h
  obtain ⟨κ, m, l', h2, h3, rfl, -, h4, h5⟩ := h1 h'
  show fitLoss bias x loss l'.weights ≤ fitLoss bias x loss l.weights
  rcases h4.2 with h6 | h6
  · have : l'.weights = l.weights := by
      funext a j
      rw [h5, h6.1]
      simp
    rw [this]
  · have hc0 : 0 ≤ cfg.learningRate * κ := mul_nonneg hlr h2
    obtain ⟨γ, h7, -, -, h8⟩ := fit_step hβ hl bias x loss hv hc h6 h5
    refine h8.trans ?_
    have h9 : β * (cfg.learningRate * κ) * meanSquare bias x / (2 * lam) ≤ 1 := by
      rw [div_le_one (by positivity)]
      have h10 : β * cfg.learningRate * meanSquare bias x * κ ≤ β * cfg.learningRate * meanSquare bias x * 1 :=
        mul_le_mul_of_nonneg_left h3 (mul_nonneg (mul_nonneg hβ hlr) (meanSquare_nonneg _ _))
      linarith
    have := mul_nonneg (mul_nonneg hc0 (sub_nonneg.2 h9)) h7
    linarith

/-- If furthermore the data and the dampings are bounded and the statistics are those of a classification, training converges:
the loss tends to the infimum of the losses of all linear models and the gradient to zero, from every initial value. -/
theorem C98_converges (hq : q ≠ 0) (cfg : Config) (hm : cfg.momentum = 0) (hn : cfg.normConstraint = none)
    (hlr : 0 < cfg.learningRate) (bias : Bool) (x : Fin N → Fin n → ℝ) (loss : Fin N → Head 1 q) (hv : ∀ i, (loss i).Valid)
    {β lam R Λ : ℝ} (hβ : 0 ≤ β) (hc : ∀ i, curvature (loss i) ≤ β) (hl : 0 < lam)
    (hs : β * cfg.learningRate * meanSquare bias x < 2 * lam) (upkeep : ℕ → List (Upkeep n q))
    (ha : ∀ k, ∀ u ∈ upkeep k, u.Admissible lam) (hb : ∀ k, ∀ u ∈ upkeep k, u.Bounded bias R Λ)
    (hw : ∃ (M : ℕ) (x' : Fin (M + 1) → Fin n → ℝ) (sampled : Fin (M + 1) → Head 1 q) (decay damping : ℝ)
      (us : List (Upkeep n q)), upkeep 0 = .cov x' sampled decay :: us ∧ .inv damping ∈ us)
    (w : Fin (n + bias.toNat) → Fin q → ℝ) :
    ∃ (layers : ℕ → Layer (n + bias.toNat) q) (m : ℝ),
      (∀ k, (linear bias (fresh w)).fit cfg x loss upkeep k = .ok (linear bias (layers k))) ∧
      Antitone (fun k => meanHead x loss (linear bias (layers k))) ∧
      IsGLB (Set.range fun l : Layer (n + bias.toNat) q => meanHead x loss (linear bias l)) m ∧
      Filter.Tendsto (fun k => meanHead x loss (linear bias (layers k))) Filter.atTop (nhds m) ∧
      ∀ r j, Filter.Tendsto (fun k => matGradient (fun w => meanHead x loss (linear bias (fresh w))) (layers k).weights r j)
        Filter.atTop (nhds 0) := by
  set K := damped (n + bias.toNat) q R Λ with hK
  -- one round
  have round : ∀ k (l : Layer (n + bias.toNat) q), Kept lam R Λ true l →
      (k ≠ 0 → 0 < l.input.avg.totalWeight ∧ Conditioned lam (some K) l) →
      ∃ m l' : Layer (n + bias.toNat) q, (linear bias l).run cfg ((upkeep k).map Upkeep.op ++ [.train x fun i => exampleLoss (loss i)]) =
          .ok (linear bias l') ∧ Kept lam R Λ true l' ∧ 0 < l'.input.avg.totalWeight ∧ Conditioned lam (some K) l' ∧
        Conditioned lam (some K) m ∧ ∀ a j, l'.weights a j = l.weights a j -
          cfg.learningRate * (m.input.inverse * fitGrad bias x loss l.weights * m.output.inverse) a j := by
    intro k l hk hk0
    obtain ⟨m, e1, e2, e3, e4, e5⟩ : ∃ m, (linear bias l).run cfg ((upkeep k).map Upkeep.op) = .ok (linear bias m) ∧
        m.weights = l.weights ∧ Kept lam R Λ true m ∧ 0 < m.input.avg.totalWeight ∧ Conditioned lam (some K) m := by
      by_cases h0 : k = 0
      · subst h0
        obtain ⟨M, x', sampled, decay, damping, us, h1, h2⟩ := hw
        rw [h1]
        obtain ⟨m, f1, f2, f3, f4, f5⟩ := upkeep_warm (b := true) (R := R) (Λ := Λ) cfg bias hl x' sampled decay us
          (by rw [← h1]; exact ha 0) (fun _ => by rw [← h1]; exact hb 0) hk
        exact ⟨m, f1, f2, f3, f4, f5 ⟨damping, h2⟩⟩
      · obtain ⟨h1, h2⟩ := hk0 h0
        obtain ⟨m, f1, f2, f3, f4, f5⟩ := upkeep_ok (b := true) (R := R) (Λ := Λ) cfg bias hl (upkeep k) (ha k) (fun _ => hb k) hk h1
        exact ⟨m, f1, f2, f3, f4, f5 (.inl h2)⟩
    obtain ⟨κ, l', h4, h5, h5', h6, h7, h8, h9⟩ := train_fit hq cfg hm bias x loss hv m
    refine ⟨m, l', ?_, ?_, ?_, ?_, e5, fun a j => ?_⟩
    · rw [run_append, e1]
      simp only [Except.bind, Net.run, h6]
    · simpa only [Kept, Sound, Idle, Conditioned, h7, h8] using e3
    · rw [h7]; exact e4
    · simpa only [Conditioned, h7, h8] using e5
    · rw [h9, e2, h5' hn, mul_one]
  choose! mid next hrun hkept hpos hcond hmid hstep using round
  let layers : ℕ → Layer (n + bias.toNat) q := fun k => Nat.rec (fresh w) (fun k l => next k l) k
  have hl0 : layers 0 = fresh w := rfl
  have hls : ∀ k, layers (k + 1) = next k (layers k) := fun k => rfl
  have hinv : ∀ k, Kept lam R Λ true (layers k) ∧
      (k ≠ 0 → 0 < (layers k).input.avg.totalWeight ∧ Conditioned lam (some K) (layers k)) := by
    intro k
    induction k with
    | zero => exact ⟨kept_fresh _ _ _ _ _, fun h => absurd rfl h⟩
    | succ k ih =>
      rw [hls]
      exact ⟨hkept k _ ih.1 ih.2, fun _ => ⟨hpos k _ ih.1 ih.2, hcond k _ ih.1 ih.2⟩⟩
  have hfit : ∀ k, (linear bias (fresh w)).fit cfg x loss upkeep k = .ok (linear bias (layers k)) := by
    intro k
    induction k with
    | zero => rfl
    | succ k ih =>
      rw [Net.fit, ih, hls]
      exact hrun k _ (hinv k).1 (hinv k).2
  let W : ℕ → Fin (n + bias.toNat) → Fin q → ℝ := fun k => (layers k).weights
  let U : ℕ → Fin (n + bias.toNat) → Fin q → ℝ := fun k => (mid k (layers k)).input.inverse * fitGrad bias x loss (W k) *
    (mid k (layers k)).output.inverse
  have hW : ∀ k a j, W (k + 1) a j = W k a j - cfg.learningRate * U k a j := by
    intro k a j
    have := hstep k _ (hinv k).1 (hinv k).2 a j
    simp only [W, U, hls]
    exact this
  choose γ hγ0 hγ1 hγ2 hγ3 using fun k => fit_step hβ hl bias x loss hv hc (hmid k _ (hinv k).1 (hinv k).2) (w := W k)
    (w' := W (k + 1)) (c := cfg.learningRate) (hW k)
  set c := cfg.learningRate * (1 - β * cfg.learningRate * meanSquare bias x / (2 * lam)) with hcdef
  have hcpos : 0 < c := by
    refine mul_pos hlr (sub_pos.2 ?_)
    rw [div_lt_one (by positivity)]
    exact hs
  let f : ℕ → ℝ := fun k => fitLoss bias x loss (W k)
  have hdesc : ∀ k, f (k + 1) ≤ f k - c * γ k := hγ3
  obtain ⟨b0, hb0⟩ := fitLoss_bounded bias x loss hv
  have hanti : Antitone f := antitone_nat_of_succ_le fun k => (hdesc k).trans (by
    have := mul_nonneg hcpos.le (hγ0 k)
    linarith)
  have hsum : ∀ k, ∑ i ∈ Finset.range k, γ i ≤ (f 0 - b0) / c := by
    intro k
    have h1 : c * ∑ i ∈ Finset.range k, γ i ≤ f 0 - f k := by
      induction k with
      | zero => simp
      | succ k ih =>
        rw [Finset.sum_range_succ, mul_add]
        linarith [hdesc k]
    rw [le_div_iff₀ hcpos, mul_comm]
    linarith [hb0 (W k), show f k = fitLoss bias x loss (W k) from rfl]
  have hK0 : ∀ k, sqn (fitGrad bias x loss (W k)) ≤ |K| * γ k := fun k =>
    (hγ2 k K rfl).trans (mul_le_mul_of_nonneg_right (le_abs_self K) (hγ0 k))
  have hreach : ∀ v, ∀ ε > 0, ∃ k, f k < fitLoss bias x loss v + ε := by
    intro v ε hε
    refine reaches (γ := γ) (G := fun k => sqn (fitGrad bias x loss (W k))) (D := fun k => sqn (W k - v)) (K := |K|)
      (A := 2 * sqn (W 0 - v)) (B := 2 * cfg.learningRate ^ 2 * ((f 0 - b0) / c / lam)) hcpos (abs_nonneg _)
      (mul_nonneg zero_le_two (sqn_nonneg _)) ?_ hγ0 hdesc (fun k => hb0 (W k)) hK0 (fun k => sqn_nonneg _) ?_ ?_ hε
    · have : 0 ≤ f 0 - b0 := sub_nonneg.2 (hb0 _)
      positivity
    · intro k
      refine (distance hW v k).trans ?_
      have h1 : ∑ i ∈ Finset.range k, sqn (U i) ≤ (f 0 - b0) / c / lam := by
        rw [le_div_iff₀ hl, Finset.sum_mul]
        refine le_trans (Finset.sum_le_sum fun i _ => ?_) (hsum k)
        rw [mul_comm]
        exact hγ1 i
      have h2 := mul_le_mul_of_nonneg_left h1 (Nat.cast_nonneg (α := ℝ) k)
      have h3 := mul_le_mul_of_nonneg_left h2 (by positivity : 0 ≤ 2 * cfg.learningRate ^ 2)
      linarith
    · intro k hk
      have h1 := fitLoss_lower bias x loss hv (W k) (v - W k)
      rw [add_sub_cancel] at h1
      have h2 := ip_sq (fitGrad bias x loss (W k)) (v - W k)
      have h3 : sqn (v - W k) = sqn (W k - v) := by
        simp only [sqn, Pi.sub_apply]
        refine Finset.sum_congr rfl fun a _ => Finset.sum_congr rfl fun j _ => ?_
        ring
      rw [h3] at h2
      refine le_trans ?_ h2
      have h4 : 0 ≤ f k - fitLoss bias x loss v := sub_nonneg.2 hk
      have h5 : f k - fitLoss bias x loss v ≤ -∑ r, ∑ j, fitGrad bias x loss (W k) r j * (v - W k) r j := by
        show fitLoss bias x loss (W k) - _ ≤ _
        linarith
      rw [← neg_sq (∑ r, ∑ j, _)]
      exact pow_le_pow_left₀ h4 h5 2
  have hbdd : BddBelow (Set.range f) := ⟨b0, by rintro _ ⟨k, rfl⟩; exact hb0 _⟩
  have hlim := tendsto_atTop_ciInf hanti hbdd
  have hloss : ∀ l : Layer (n + bias.toNat) q, meanHead x loss (linear bias l) = fitLoss bias x loss l.weights := fun l => rfl
  refine ⟨layers, ⨅ k, f k, hfit, hanti, ⟨?_, ?_⟩, hlim, fun r j => ?_⟩
  · rintro _ ⟨l, rfl⟩
    refine le_of_forall_pos_lt_add fun ε hε => ?_
    obtain ⟨k, hk⟩ := hreach l.weights ε hε
    exact (ciInf_le hbdd k).trans_lt hk
  · intro b hb
    exact le_ciInf fun k => hb ⟨layers k, rfl⟩
  · have hsm : Summable γ := summable_of_sum_range_le hγ0 hsum
    have h1 : Filter.Tendsto (fun k => |K| * γ k) Filter.atTop (nhds 0) := by
      simpa using hsm.tendsto_atTop_zero.const_mul |K|
    have h2 : Filter.Tendsto (fun k => fitGrad bias x loss (W k) r j ^ 2) Filter.atTop (nhds 0) := by
      refine squeeze_zero (fun k => sq_nonneg _) (fun k => le_trans ?_ (hK0 k)) h1
      exact (Finset.single_le_sum (f := fun j => fitGrad bias x loss (W k) r j ^ 2) (fun _ _ => sq_nonneg _)
        (Finset.mem_univ j)).trans (Finset.single_le_sum (f := fun r => ∑ j, fitGrad bias x loss (W k) r j ^ 2)
          (fun _ _ => Finset.sum_nonneg fun _ _ => sq_nonneg _) (Finset.mem_univ r))
    have h3 : ∀ k, matGradient (fun w => meanHead x loss (linear bias (fresh w))) (layers k).weights r j =
        fitGrad bias x loss (W k) r j := fun k => congrFun (congrFun (matGradient_fit bias x loss hv (W k)) r) j
    simp only [h3]
    have h4 := (Real.continuous_sqrt.tendsto 0).comp h2
    simp only [Function.comp_def, Real.sqrt_zero, Real.sqrt_sq_eq_abs] at h4
    exact (tendsto_zero_iff_abs_tendsto_zero _).2 h4

/-- The cross entropy of scaled logits with the largest at the label. -/
theorem categorical_scaled (y : Fin 1 → Fin q) (z : Fin q → ℝ) (h : ∀ j, j ≠ y 0 → z j < z (y 0)) :
    Filter.Tendsto (fun t : ℕ => exampleLoss (.categorical y) fun j => t * z j) Filter.atTop (nhds 0) := by
  have e : ∀ t : ℕ, exampleLoss (.categorical y) (fun j => t * z j) = Real.log (∑ j, Real.exp (z j - z (y 0)) ^ t) := by
    intro t
    simp only [exampleLoss, Head.evaluate, Categorical.evaluate, Fin.sum_univ_one, Fin.isValue]
    rw [← Real.log_inv]
    congr 1
    rw [softmax, inv_div, Finset.sum_div]
    refine Finset.sum_congr rfl fun j _ => ?_
    rw [← Real.exp_sub, ← Real.exp_nat_mul]
    congr 1
    ring
  simp only [e]
  have h1 : Filter.Tendsto (fun t : ℕ => ∑ j, Real.exp (z j - z (y 0)) ^ t) Filter.atTop
      (nhds (∑ j, if j = y 0 then 1 else 0)) := by
    refine tendsto_finsetSum _ fun j _ => ?_
    by_cases hj : j = y 0
    · subst hj
      simp only [sub_self, Real.exp_zero, if_true]
      exact (tendsto_const_nhds (x := (1 : ℝ))).congr fun t => (one_pow t).symm
    · simp only [hj, if_false]
      exact tendsto_pow_atTop_nhds_zero_of_lt_one (Real.exp_pos _).le (Real.exp_lt_one_iff.2 (by linarith [h j hj]))
  have h2 : (∑ j, if j = y 0 then (1 : ℝ) else 0) = 1 := by simp
  rw [h2] at h1
  have h3 := (Real.continuousAt_log one_ne_zero).tendsto.comp h1
  rw [Real.log_one] at h3
  exact h3

/-- Softmax regression on examples that some linear model classifies correctly: the loss tends to zero, and from some step on the
model classifies all of them correctly. -/
theorem C98_separable (hq : q ≠ 0) (cfg : Config) (hm : cfg.momentum = 0) (hn : cfg.normConstraint = none)
    (hlr : 0 < cfg.learningRate) (bias : Bool) (x : Fin N → Fin n → ℝ) (label : Fin N → Fin q)
    {lam R Λ : ℝ} (hl : 0 < lam) (hs : cfg.learningRate * meanSquare bias x < 4 * lam) (upkeep : ℕ → List (Upkeep n q))
    (ha : ∀ k, ∀ u ∈ upkeep k, u.Admissible lam) (hb : ∀ k, ∀ u ∈ upkeep k, u.Bounded bias R Λ)
    (hw : ∃ (M : ℕ) (x' : Fin (M + 1) → Fin n → ℝ) (sampled : Fin (M + 1) → Head 1 q) (decay damping : ℝ)
      (us : List (Upkeep n q)), upkeep 0 = .cov x' sampled decay :: us ∧ .inv damping ∈ us)
    (hsep : ∃ l : Layer (n + bias.toNat) q, ∀ i j, j ≠ label i → (linear bias l).eval (x i) j < (linear bias l).eval (x i) (label i))
    (w : Fin (n + bias.toNat) → Fin q → ℝ) :
    ∃ nets : ℕ → Net n q,
      (∀ k, (linear bias (fresh w)).fit cfg x (fun i => .categorical fun _ => label i) upkeep k = .ok (nets k)) ∧
      Filter.Tendsto (fun k => meanHead x (fun i => .categorical fun _ => label i) (nets k)) Filter.atTop (nhds 0) ∧
      ∃ k₀, ∀ k ≥ k₀, ∀ i j, j ≠ label i → (nets k).eval (x i) j < (nets k).eval (x i) (label i) := by
  set loss : Fin N → Head 1 q := fun i => .categorical fun _ => label i
  obtain ⟨layers, m, h1, -, h3, h4, -⟩ := C98_converges hq cfg hm hn hlr bias x loss (fun i => trivial) (β := 1 / 2) (by norm_num)
    (fun i => le_refl _) hl (by linarith) upkeep ha hb hw w
  have hpos : ∀ i z, 0 ≤ exampleLoss (loss i) z := by
    intro i z
    simp only [loss, exampleLoss, Head.evaluate, Categorical.evaluate, Fin.sum_univ_one]
    have h3 : softmax z (label i) ≤ 1 := by
      rw [← softmax_sum z (label i)]
      exact Finset.single_le_sum (f := softmax z) (fun i _ => (softmax_pos z i).le) (Finset.mem_univ _)
    linarith [Real.log_nonpos (softmax_pos z (label i)).le h3]
  have hm0 : m = 0 := by
    apply le_antisymm
    · obtain ⟨v, hv⟩ := hsep
      have ht : Filter.Tendsto (fun t : ℕ => meanHead x loss (linear bias (fresh fun a j => t * v.weights a j))) Filter.atTop
          (nhds ((∑ i : Fin N, (0 : ℝ)) / N)) := by
        refine Filter.Tendsto.div_const (tendsto_finsetSum _ fun i _ => ?_) _
        have h5 := categorical_scaled (fun _ => label i) (affine bias v.weights (x i)) (hv i)
        refine h5.congr fun t => ?_
        show _ = exampleLoss (loss i) (affine bias (fun a j => t * v.weights a j) (x i))
        congr 1
        funext j
        exact (affine_smul bias (t : ℝ) v.weights (x i) j).symm
      simp only [Finset.sum_const_zero, zero_div] at ht
      exact ge_of_tendsto' ht fun t => h3.1 ⟨_, rfl⟩
    · refine h3.2 ?_
      rintro _ ⟨l, rfl⟩
      exact div_nonneg (Finset.sum_nonneg fun i _ => hpos i _) (Nat.cast_nonneg _)
  subst hm0
  refine ⟨fun k => linear bias (layers k), h1, h4, ?_⟩
  by_cases hN : N = 0
  · subst hN
    exact ⟨0, fun k _ i => i.elim0⟩
  · have hN' : (0 : ℝ) < N := by exact_mod_cast Nat.pos_of_ne_zero hN
    have h5 : (0 : ℝ) < Real.log 2 / N := div_pos (Real.log_pos one_lt_two) hN'
    obtain ⟨k₀, h6⟩ := Filter.eventually_atTop.1 (h4.eventually_lt_const h5)
    refine ⟨k₀, fun k hk i j hj => ?_⟩
    have h7 := h6 k hk
    set z := (linear bias (layers k)).eval (x i) with hz
    have h8 : exampleLoss (loss i) z < Real.log 2 := by
      refine lt_of_le_of_lt ?_ ((div_lt_div_iff_of_pos_right hN').1 h7)
      exact Finset.single_le_sum (f := fun i => exampleLoss (loss i) ((linear bias (layers k)).eval (x i)))
        (fun i _ => hpos i _) (Finset.mem_univ i)
    have h9 : 1 / 2 < softmax z (label i) := by
      simp only [loss, exampleLoss, Head.evaluate, Categorical.evaluate, Fin.sum_univ_one] at h8
      have h10 : Real.log (1 / 2) < Real.log (softmax z (label i)) := by
        rw [one_div, Real.log_inv]
        linarith
      exact (Real.log_lt_log_iff (by norm_num) (softmax_pos z _)).1 h10
    have h11 : softmax z j + softmax z (label i) ≤ 1 := by
      rw [← softmax_sum z j, ← Finset.sum_pair hj]
      exact Finset.sum_le_sum_of_subset_of_nonneg (Finset.subset_univ _) fun i _ _ => (softmax_pos z i).le
    have h12 : softmax z j < softmax z (label i) := by linarith
    have h13 : 0 < ∑ a, Real.exp (z a) := Finset.sum_pos (fun a _ => Real.exp_pos _) ⟨j, Finset.mem_univ _⟩
    rw [softmax, softmax, div_lt_div_iff_of_pos_right h13, Real.exp_lt_exp] at h12
    exact h12

theorem homog_sum (F : Fin (1 + true.toNat) → ℝ → ℝ) (a : ℝ) :
    ∑ r, F r (appendHomog true (fun _ : Fin 1 => a) r) = F (0 : Fin 2) a + F (1 : Fin 2) 1 := by
  show ∑ r : Fin (1 + 1), F r (Fin.append (fun _ : Fin 1 => a) (fun _ : Fin 1 => 1) r) = _
  rw [Fin.sum_univ_two]
  rfl

/-- Two examples with different labels: K-FAC with the statistics and inverses computed once learns to tell them apart from any
initial weights. -/
example (w : Fin (1 + true.toNat) → Fin 2 → ℝ) : ∃ nets : ℕ → Net 1 2,
    (∀ k, (linear true (fresh w)).fit ⟨1, 0, none, .tracenorm, 1⟩ (fun (i : Fin 2) _ => if i = 0 then 1 else -1)
      (fun i => .categorical fun _ => i)
      (fun k => if k = 0 then [.cov (fun (_ : Fin 1) _ => 3) (fun _ => .categorical fun _ => 1) (1 / 2), .inv 1] else []) k =
        .ok (nets k)) ∧
    Filter.Tendsto (fun k => meanHead (fun (i : Fin 2) _ => if i = 0 then 1 else -1) (fun i => .categorical fun _ => i) (nets k))
      Filter.atTop (nhds 0) ∧
    ∃ k₀, ∀ k ≥ k₀, ∀ i j, j ≠ i → (nets k).eval (fun _ => if i = 0 then 1 else -1) j <
      (nets k).eval (fun _ => if i = 0 then 1 else -1) i := by
  refine C98_separable (by norm_num) ⟨1, 0, none, .tracenorm, 1⟩ rfl rfl one_pos true _ (fun i => i) (lam := 1) (R := 10) (Λ := 1)
    one_pos ?_ _ ?_ ?_ ⟨0, _, _, _, _, _, rfl, by simp; rfl⟩ ⟨fresh fun a j => if a = (0 : Fin 2) then if j = 0 then 1 else -1 else 0, ?_⟩ w
  · have e : ∀ i : Fin 2, ∑ r, appendHomog true (fun _ : Fin 1 => if i = 0 then (1 : ℝ) else -1) r ^ 2 = 2 := by
      intro i
      rw [homog_sum fun _ t => t ^ 2]
      split_ifs <;> norm_num
    norm_num [meanSquare, e]
  · intro k u hu
    by_cases hk : k = 0
    · simp only [hk, if_true, List.mem_cons, List.not_mem_nil, or_false] at hu
      rcases hu with rfl | rfl
      · show (0 : ℝ) ≤ 1 / 2; norm_num
      · exact le_refl (1 : ℝ)
    · simp [hk] at hu
  · intro k u hu
    by_cases hk : k = 0
    · simp only [hk, if_true, List.mem_cons, List.not_mem_nil, or_false] at hu
      rcases hu with rfl | rfl
      · refine ⟨fun i => ?_, fun i => trivial⟩
        rw [homog_sum fun _ t => t ^ 2]
        norm_num
      · exact le_refl (1 : ℝ)
    · simp [hk] at hu
  · intro i j hj
    show affine true _ _ _ < affine true _ _ _
    unfold affine
    let v : Fin (1 + true.toNat) → Fin 2 → ℝ := fun a j => if a = (0 : Fin 2) then if j = 0 then 1 else -1 else 0
    show ∑ r, v r j * _ < ∑ r, v r i * _
    rw [homog_sum fun r t => v r j * t, homog_sum fun r t => v r i * t]
    have v0 : ∀ j, v (0 : Fin 2) j = if j = 0 then 1 else -1 := fun j => rfl
    have v1 : ∀ j, v (1 : Fin 2) j = 0 := fun j => rfl
    rw [v0, v0, v1, v1]
    fin_cases i <;> fin_cases j <;> simp_all <;> norm_num

end Kfac.Train
