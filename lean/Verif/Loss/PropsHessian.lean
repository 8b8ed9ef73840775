import Verif.Loss.Hessian
import Mathlib.Analysis.Calculus.ContDiff.Basic
import Mathlib.Analysis.Calculus.FDeriv.Pi

/-! # C93: the Gauss-Newton product and the Hessian product -/

namespace Kfac.Loss

variable {B n P : ℕ}

/-! ### Specification -/

/-- The derivative of a loss by one entry of its inputs. -/
noncomputable def Head.slope (h : Head B n) (z : Batch B n) (b : Fin B) (i : Fin n) : ℝ :=
  deriv (fun t => h.evaluate (setEntry z b i t)) (z b i)

/-- A Gaussian has a positive variance. -/
def Head.Valid : Head B n → Prop
  | .normalMean var _ => 0 < var
  | _ => True

/-- The second derivatives of the inputs of a loss, weighted with the derivatives of the loss: what the Gauss-Newton matrix
leaves out of the Hessian. -/
noncomputable def FnLoss.residual (l : FnLoss P) (θ v : Fin P → ℝ) (q : Fin P) : ℝ :=
  ∑ b, ∑ i, l.head.slope (l.inputs θ) b i * ∑ p, v p *
    fderiv ℝ (fun θ => fderiv ℝ (fun θ => l.inputs θ b i) θ (Pi.single p 1)) θ (Pi.single q 1)

/-! ### Lemmas -/

/-- One entry, as a linear function. -/
noncomputable def entry (b : Fin B) (i : Fin n) : Batch B n →L[ℝ] ℝ :=
  (ContinuousLinearMap.proj (R := ℝ) (φ := fun _ : Fin n => ℝ) i).comp
    (ContinuousLinearMap.proj (R := ℝ) (φ := fun _ : Fin B => Fin n → ℝ) b)

@[simp] theorem entry_apply (b : Fin B) (i : Fin n) (z : Batch B n) : entry b i z = z b i := rfl

theorem hasFDerivAt_entry (b : Fin B) (i : Fin n) (z : Batch B n) : HasFDerivAt (fun z : Batch B n => z b i) (entry b i) z :=
  (entry b i).hasFDerivAt

theorem slope_normalMean {var : ℝ} (hv : 0 < var) (y : Fin B × Fin n → ℝ) (z : Batch B n) (b : Fin B) (i : Fin n) :
    (Head.normalMean var y).slope z b i = (z b i - y (b, i)) / var := by
  have := NormalMean.score_eq ⟨z, var⟩ hv y b i
  rw [← neg_sub, neg_div]
  exact this

theorem slope_categorical (y : Fin B → Fin n) (z : Batch B n) (b : Fin B) (i : Fin n) :
    (Head.categorical y).slope z b i = softmax (z b) i - if y b = i then 1 else 0 :=
  Categorical.score_eq ⟨z⟩ y b i

theorem slope_multiBernoulli (y : Fin B × Fin n → Bool) (z : Batch B n) (b : Fin B) (i : Fin n) :
    (Head.multiBernoulli y).slope z b i = sigmoid (z b i) - if y (b, i) then 1 else 0 :=
  MultiBernoulli.score_eq ⟨z⟩ y b i

theorem hasFDerivAt_logSum (z : Batch B n) (b : Fin B) (i : Fin n) :
    HasFDerivAt (fun z : Batch B n => Real.log (∑ j, Real.exp (z b j))) (∑ j, softmax (z b) j • entry b j) z := by
  have hpos : 0 < ∑ j, Real.exp (z b j) := Finset.sum_pos (fun j _ => Real.exp_pos _) ⟨i, Finset.mem_univ _⟩
  have h1 : HasFDerivAt (fun z : Batch B n => ∑ j, Real.exp (z b j)) (∑ j, Real.exp (z b j) • entry b j) z :=
    HasFDerivAt.fun_sum fun j _ => (hasFDerivAt_entry b j z).exp
  refine (h1.log hpos.ne').congr_fderiv ?_
  rw [Finset.smul_sum]
  refine Finset.sum_congr rfl fun j _ => ?_
  rw [smul_smul, softmax, div_eq_inv_mul]

theorem hasFDerivAt_softmax (z : Batch B n) (b : Fin B) (i : Fin n) :
    HasFDerivAt (fun z : Batch B n => softmax (z b) i) (softmax (z b) i • (entry b i - ∑ j, softmax (z b) j • entry b j)) z := by
  have e : ∀ x : Fin n → ℝ, softmax x i = Real.exp (x i - Real.log (∑ j, Real.exp (x j))) := by
    intro x
    rw [← log_softmax, Real.exp_log (softmax_pos x i)]
  have h := ((hasFDerivAt_entry b i z).sub (hasFDerivAt_logSum z b i)).exp
  simp only [e]
  exact h

/-- The derivative of a loss. -/
theorem hasFDerivAt_evaluate (h : Head B n) (hv : h.Valid) (z : Batch B n) :
    HasFDerivAt h.evaluate (∑ b, ∑ i, h.slope z b i • entry b i) z := by
  cases h with
  | normalMean var y =>
    have h1 : HasFDerivAt (fun z : Batch B n => -∑ c : Fin B × Fin n, normalLogProb (z c.1 c.2) (Real.sqrt var) (y c))
        (-∑ c : Fin B × Fin n, ((y c - z c.1 c.2) / Real.sqrt var ^ 2) • entry c.1 c.2) z :=
      (HasFDerivAt.fun_sum fun c _ =>
        (hasDerivAt_mean (z c.1 c.2) (Real.sqrt var) (y c)).comp_hasFDerivAt z (hasFDerivAt_entry c.1 c.2 z)).neg
    refine h1.congr_fderiv ?_
    rw [Fintype.sum_prod_type, ← Finset.sum_neg_distrib]
    refine Finset.sum_congr rfl fun b _ => ?_
    rw [← Finset.sum_neg_distrib]
    refine Finset.sum_congr rfl fun i _ => ?_
    rw [slope_normalMean hv, Real.sq_sqrt (le_of_lt hv)]
    ext v
    simp
    ring
  | categorical y =>
    have h1 : HasFDerivAt (fun z : Batch B n => -∑ b, (z b (y b) - Real.log (∑ j, Real.exp (z b j))))
        (-∑ b, (entry b (y b) - ∑ j, softmax (z b) j • entry b j)) z :=
      (HasFDerivAt.fun_sum fun b _ => (hasFDerivAt_entry b (y b) z).sub (hasFDerivAt_logSum z b (y b))).neg
    have e : (Head.categorical y).evaluate = fun z : Batch B n => -∑ b, (z b (y b) - Real.log (∑ j, Real.exp (z b j))) := by
      funext z
      simp only [Head.evaluate, Categorical.evaluate, log_softmax]
    rw [e]
    refine h1.congr_fderiv ?_
    rw [← Finset.sum_neg_distrib]
    refine Finset.sum_congr rfl fun b _ => ?_
    ext v
    simp [slope_categorical, sub_mul]
  | multiBernoulli y =>
    have h1 : HasFDerivAt (fun z : Batch B n => -∑ c : Fin B × Fin n,
        Real.log (if y c then sigmoid (z c.1 c.2) else 1 - sigmoid (z c.1 c.2)))
        (-∑ c : Fin B × Fin n, ((if y c then 1 else 0) - sigmoid (z c.1 c.2)) • entry c.1 c.2) z :=
      (HasFDerivAt.fun_sum fun c _ =>
        (hasDerivAt_log_bernoulli (z c.1 c.2) (y c)).comp_hasFDerivAt z (hasFDerivAt_entry c.1 c.2 z)).neg
    refine h1.congr_fderiv ?_
    rw [Fintype.sum_prod_type, ← Finset.sum_neg_distrib]
    refine Finset.sum_congr rfl fun b _ => ?_
    rw [← Finset.sum_neg_distrib]
    refine Finset.sum_congr rfl fun i _ => ?_
    rw [slope_multiBernoulli]
    ext v
    simp
    ring

/-- The derivative of the derivative of a loss is the Gauss-Newton product. -/
theorem hasFDerivAt_slope (h : Head B n) (hv : h.Valid) (z : Batch B n) :
    ∃ G : Batch B n → Batch B n, (∀ v, (h.at z).ggn (.single v) = .ok (.single (G v))) ∧
      (∀ u v, dot u (G v) = dot (G u) v) ∧
      ∀ b i, ∃ L : Batch B n →L[ℝ] ℝ, (∀ v, L v = G v b i) ∧ HasFDerivAt (fun z => h.slope z b i) L z := by
  cases h with
  | normalMean var y =>
    refine ⟨(NormalMean.mk z var).multiplyFisher, fun v => rfl, (C13_normal_mean ⟨z, var⟩ hv).symm, fun b i =>
      ⟨var⁻¹ • entry b i, fun v => ?_, ?_⟩⟩
    · simp [NormalMean.multiplyFisher]
    · simp only [slope_normalMean hv]
      have h1 := ((hasFDerivAt_entry b i z).sub_const (y (b, i))).const_mul var⁻¹
      simpa [div_eq_inv_mul] using h1
  | categorical y =>
    refine ⟨(Categorical.mk z).multiplyFisher, fun v => rfl, (C13_categorical ⟨z⟩).symm, fun b i =>
      ⟨_, fun v => ?_, by simpa only [slope_categorical] using (hasFDerivAt_softmax z b i).sub_const _⟩⟩
    simp [Categorical.multiplyFisher, Categorical.probs, mul_sub, mul_comm]
  | multiBernoulli y =>
    refine ⟨(MultiBernoulli.mk z).multiplyFisher, fun v => rfl, (C13_multi_bernoulli ⟨z⟩).symm, fun b i =>
      ⟨(sigmoid (z b i) * (1 - sigmoid (z b i))) • entry b i, fun v => ?_, ?_⟩⟩
    · simp [MultiBernoulli.multiplyFisher, MultiBernoulli.probs]
    · simp only [slope_multiBernoulli]
      exact ((hasDerivAt_sigmoid (z b i)).comp_hasFDerivAt z (hasFDerivAt_entry b i z)).sub_const _

theorem hasFDerivAt_list_sum {α : Type} (ls : List α) (f : α → (Fin P → ℝ) → ℝ) (f' : α → (Fin P → ℝ) →L[ℝ] ℝ)
    (θ : Fin P → ℝ) (h : ∀ l ∈ ls, HasFDerivAt (f l) (f' l) θ) :
    HasFDerivAt (fun θ => (ls.map fun l => f l θ).sum) (ls.map f').sum θ := by
  induction ls with
  | nil => exact hasFDerivAt_const _ _
  | cons l ls ih =>
    simp only [List.map_cons, List.sum_cons]
    exact (h l (by simp)).add (ih fun l hl => h l (by simp [hl]))

/-- The gradient of one loss. -/
theorem tfGradients_loss (l : FnLoss P) (hv : l.head.Valid) (hc : ContDiff ℝ 2 l.inputs) (θ : Fin P → ℝ) :
    HasFDerivAt (fun θ => l.coeff * l.head.evaluate (l.inputs θ))
      (l.coeff • (∑ b, ∑ i, l.head.slope (l.inputs θ) b i • entry b i).comp (fderiv ℝ l.inputs θ)) θ :=
  ((hasFDerivAt_evaluate l.head hv (l.inputs θ)).comp θ
    ((hc.differentiable (by norm_num)) θ).hasFDerivAt).const_mul l.coeff

theorem fderiv_entry (l : FnLoss P) (hc : ContDiff ℝ 2 l.inputs) (θ : Fin P → ℝ) (b : Fin l.B) (i : Fin l.n) (x : Fin P → ℝ) :
    fderiv ℝ (fun θ => l.inputs θ b i) θ x = fderiv ℝ l.inputs θ x b i := by
  have h := (hasFDerivAt_entry b i (l.inputs θ)).comp θ ((hc.differentiable (by norm_num)) θ).hasFDerivAt
  have h2 : fderiv ℝ (fun θ => l.inputs θ b i) θ = (entry b i).comp (fderiv ℝ l.inputs θ) := h.fderiv
  rw [h2]
  rfl

/-- The gradient of one loss in terms of the Jacobian. -/
theorem gradient_loss (l : FnLoss P) (hv : l.head.Valid) (hc : ContDiff ℝ 2 l.inputs) (θ : Fin P → ℝ) (p : Fin P) :
    (l.coeff • (∑ b, ∑ i, l.head.slope (l.inputs θ) b i • entry b i).comp (fderiv ℝ l.inputs θ)) (Pi.single p 1) =
      l.coeff * ∑ b, ∑ i, l.head.slope (l.inputs θ) b i * fderiv ℝ (fun θ => l.inputs θ b i) θ (Pi.single p 1) := by
  simp only [fderiv_entry l hc]
  simp

/-- The second derivative of one loss. -/
theorem hessian_loss (l : FnLoss P) (hv : l.head.Valid) (hc : ContDiff ℝ 2 l.inputs) (θ v : Fin P → ℝ) :
    ∃ (g : Fin P → ℝ) (H : (Fin P → ℝ) →L[ℝ] ℝ),
      (do let u ← (l.at θ).reg.loss.ggn ((l.at θ).jac.mul v)
          let u ← scaleVal (l.at θ).reg.coeff u
          (l.at θ).jac.mulT u : Except String (Fin P → ℝ)) = .ok g ∧
      HasFDerivAt (fun θ => ∑ p, v p * (l.coeff * ∑ b, ∑ i, l.head.slope (l.inputs θ) b i *
        fderiv ℝ (fun θ => l.inputs θ b i) θ (Pi.single p 1))) H θ ∧
      ∀ q, H (Pi.single q 1) = g q + l.coeff * l.residual θ v q := by
  obtain ⟨G, h1, h2, h3⟩ := hasFDerivAt_slope l.head hv (l.inputs θ)
  choose L hL hL' using h3
  have hd : ∀ b i p, DifferentiableAt ℝ (fun θ => fderiv ℝ (fun θ => l.inputs θ b i) θ (Pi.single p 1)) θ := by
    intro b i p
    have hc' : ContDiff ℝ 2 (fun θ => l.inputs θ b i) := (entry b i).contDiff.comp hc
    have h4 : ContDiff ℝ 1 (fderiv ℝ (fun θ => l.inputs θ b i)) := hc'.fderiv_right (by norm_num)
    exact ((h4.differentiable (by norm_num)) θ).clm_apply (differentiableAt_const _)
  have hs : ∀ b i, HasFDerivAt (fun θ => l.head.slope (l.inputs θ) b i) ((L b i).comp (fderiv ℝ l.inputs θ)) θ := by
    intro b i
    exact (hL' b i).comp θ ((hc.differentiable (by norm_num)) θ).hasFDerivAt
  have hH := HasFDerivAt.fun_sum (u := Finset.univ) fun p (_ : p ∈ Finset.univ) =>
    ((HasFDerivAt.fun_sum (u := Finset.univ) fun b (_ : b ∈ Finset.univ) =>
      HasFDerivAt.fun_sum (u := Finset.univ) fun i (_ : i ∈ Finset.univ) =>
        (hs b i).mul (hd b i p).hasFDerivAt).const_mul l.coeff).const_mul (v p)
  let J : Fin P → Batch l.B l.n := fun q => fderiv ℝ l.inputs θ (Pi.single q 1)
  let Jv : Batch l.B l.n := fun b i => ∑ p, tfGradients (fun θ => l.inputs θ b i) θ p * v p
  refine ⟨fun q => ∑ b, ∑ i, tfGradients (fun θ => l.inputs θ b i) θ q * (l.coeff * G Jv b i), _, ?_, hH, fun q => ?_⟩
  · have h4 : (l.at θ).reg.loss.ggn ((l.at θ).jac.mul v) = .ok (.single (G Jv)) := h1 Jv
    rw [h4]
    rfl
  · have e1 : ∀ b i, tfGradients (fun θ => l.inputs θ b i) θ q = J q b i := fun b i => fderiv_entry l hc θ b i _
    have e2 : ∑ b, ∑ i, tfGradients (fun θ => l.inputs θ b i) θ q * (l.coeff * G Jv b i) = l.coeff * dot (G (J q)) Jv := by
      rw [← h2]
      simp only [e1, dot, Finset.mul_sum]
      refine Finset.sum_congr rfl fun b _ => Finset.sum_congr rfl fun i _ => ?_
      ring
    have e3 : ∀ b i, (L b i) (fderiv ℝ l.inputs θ (Pi.single q 1)) = G (J q) b i := fun b i => hL b i _
    beta_reduce
    rw [e2]
    simp only [ContinuousLinearMap.sum_apply, ContinuousLinearMap.smul_apply, _root_.add_apply,
      ContinuousLinearMap.comp_apply, e3, smul_eq_mul, dot, FnLoss.residual, Jv, tfGradients, Finset.mul_sum, mul_add,
      Finset.sum_add_distrib]
    rw [add_comm]
    congr 1
    · rw [Finset.sum_comm]
      refine Finset.sum_congr rfl fun b _ => ?_
      rw [Finset.sum_comm]
      refine Finset.sum_congr rfl fun i _ => Finset.sum_congr rfl fun p _ => ?_
      ring
    · rw [Finset.sum_comm]
      refine Finset.sum_congr rfl fun b _ => ?_
      rw [Finset.sum_comm]
      refine Finset.sum_congr rfl fun i _ => Finset.sum_congr rfl fun p _ => ?_
      ring

/-! ### Theorems -/

/-- For every loss with natural parameters as inputs, `multiply_ggn` multiplies by the Hessian of the loss by its inputs,
whatever the targets are. -/
theorem C93_loss_hessian (h : Head B n) (hv : h.Valid) (z v : Batch B n) :
    ∃ g, (h.at z).ggn (.single v) = .ok (.single g) ∧
      ∀ b i, HasDerivAt (fun t : ℝ => h.slope (fun b i => z b i + t * v b i) b i) (g b i) 0 := by
  obtain ⟨G, h1, -, h3⟩ := hasFDerivAt_slope h hv z
  refine ⟨G v, h1 v, fun b i => ?_⟩
  obtain ⟨L, hL, h4⟩ := h3 b i
  have h5 : HasDerivAt (fun t : ℝ => z + t • v) v 0 := by
    simpa using ((hasDerivAt_id (0 : ℝ)).smul_const v).const_add z
  have h6 : HasFDerivAt (fun z => h.slope z b i) L (z + (0 : ℝ) • v) := by simpa using h4
  have h7 := h6.comp_hasDerivAt (0 : ℝ) h5
  rw [hL] at h7
  exact h7

/-- The Hessian product is the Gauss-Newton product plus the second derivatives of the model weighted with the derivatives of
the losses, for all models and targets. -/
theorem C93_decomposition (ls : List (FnLoss P)) (hne : ls ≠ []) (hv : ∀ l ∈ ls, l.head.Valid)
    (hc : ∀ l ∈ ls, ContDiff ℝ 2 l.inputs) (θ v : Fin P → ℝ) :
    ∃ g, fnMultiplyGGN ls θ v = .ok g ∧ multiplyHessian ls θ v =
      .ok fun q => g q + (ls.map fun l => l.coeff * l.residual θ v q).sum := by
  choose! g H hg hH hq using fun l (hl : l ∈ ls) => hessian_loss l (hv l hl) (hc l hl) θ v
  refine ⟨fun q => (ls.map fun l => g l q).sum, ?_, ?_⟩
  · unfold fnMultiplyGGN multiplyGGN
    rw [List.mapM_map, Function.comp_def]
    rw [mapM_ok _ g ls fun l hl => hg l hl]
    simp only [bind, Except.bind, pure, Except.pure]
    congr 1
    funext q
    rw [sumContribs, List.map_map]
    rfl
  · have he : ls.isEmpty = false := by simpa using hne
    simp only [multiplyHessian, fnTotalLoss, he, Except.map, Bool.false_eq_true, if_false]
    congr 1
    have h1 : ∀ θ p, tfGradients (fun θ => (ls.map fun l => l.coeff * l.head.evaluate (l.inputs θ)).sum) θ p =
        (ls.map fun l => l.coeff * ∑ b, ∑ i, l.head.slope (l.inputs θ) b i *
          fderiv ℝ (fun θ => l.inputs θ b i) θ (Pi.single p 1)).sum := by
      intro θ p
      rw [tfGradients, (hasFDerivAt_list_sum ls _ _ θ fun l hl => tfGradients_loss l (hv l hl) (hc l hl) θ).fderiv]
      clear hne he hg hH hq
      induction ls with
      | nil => rfl
      | cons l ls ih =>
        simp only [List.map_cons, List.sum_cons, _root_.add_apply]
        rw [ih (fun l hl => hv l (by simp [hl])) fun l hl => hc l (by simp [hl]), gradient_loss l (hv l (by simp)) (hc l (by simp))]
    have h2 : (fun θ => ∑ p, v p * tfGradients (fun θ => (ls.map fun l => l.coeff * l.head.evaluate (l.inputs θ)).sum) θ p) =
        fun θ => (ls.map fun l => ∑ p, v p * (l.coeff * ∑ b, ∑ i, l.head.slope (l.inputs θ) b i *
          fderiv ℝ (fun θ => l.inputs θ b i) θ (Pi.single p 1))).sum := by
      funext θ
      simp only [h1]
      clear h1 hne he hg hH hq hv hc
      induction ls with
      | nil => simp
      | cons l ls ih => simp only [List.map_cons, List.sum_cons, mul_add, Finset.sum_add_distrib, ih]
    rw [h2]
    funext q
    rw [tfGradients, (hasFDerivAt_list_sum ls _ H θ fun l hl => hH l hl).fderiv]
    clear h1 h2 hne he hg hH hv hc
    induction ls with
    | nil => simp
    | cons l ls ih =>
      simp only [List.map_cons, List.sum_cons, _root_.add_apply]
      rw [ih fun l hl => hq l (by simp [hl]), hq l (by simp)]
      ring

/-- If the inputs of all losses are affine functions of the parameters, the two products agree. -/
theorem C93_linear (ls : List (FnLoss P)) (hne : ls ≠ []) (hv : ∀ l ∈ ls, l.head.Valid)
    (ha : ∀ l ∈ ls, ∃ (A : (b : Fin l.B) → (i : Fin l.n) → Fin P → ℝ) (c : Batch l.B l.n),
      ∀ θ b i, l.inputs θ b i = ∑ p, A b i p * θ p + c b i) (θ v : Fin P → ℝ) :
    ∃ g, fnMultiplyGGN ls θ v = .ok g ∧ multiplyHessian ls θ v = .ok g := by
  have hl : ∀ l ∈ ls, ∃ A : (b : Fin l.B) → (i : Fin l.n) → (Fin P → ℝ) →L[ℝ] ℝ,
      ∀ θ b i, HasFDerivAt (fun θ => l.inputs θ b i) (A b i) θ := by
    intro l hl
    obtain ⟨A, c, h⟩ := ha l hl
    refine ⟨fun b i => ∑ p, A b i p • ContinuousLinearMap.proj (R := ℝ) (φ := fun _ : Fin P => ℝ) p, fun θ b i => ?_⟩
    simp only [h]
    exact (HasFDerivAt.fun_sum fun p _ =>
      ((ContinuousLinearMap.proj (R := ℝ) (φ := fun _ : Fin P => ℝ) p).hasFDerivAt.const_mul (A b i p))).add_const _
  obtain ⟨g, h1, h2⟩ := C93_decomposition ls hne hv (fun l hl => by
    obtain ⟨A, c, h⟩ := ha l hl
    refine contDiff_pi.2 fun b => contDiff_pi.2 fun i => ?_
    simp only [h]
    fun_prop) θ v
  refine ⟨g, h1, h2.trans ?_⟩
  congr 1
  funext q
  have : ∀ l ∈ ls, l.residual θ v q = 0 := by
    intro l hl'
    obtain ⟨A, h⟩ := hl l hl'
    have e : ∀ b i p, (fun θ => fderiv ℝ (fun θ => l.inputs θ b i) θ (Pi.single p 1)) = fun _ => A b i (Pi.single p 1) := by
      intro b i p
      funext θ
      rw [(h θ b i).fderiv]
    simp [FnLoss.residual, e]
  have h3 : (ls.map fun l => l.coeff * l.residual θ v q) = ls.map fun _ => 0 :=
    List.map_congr_left fun l hl => by rw [this l hl, mul_zero]
  rw [h3]
  simp

/-- If all losses are stationary at the outputs of the model, for example because every target is fitted exactly, they agree
for every model. -/
theorem C93_stationary (ls : List (FnLoss P)) (hne : ls ≠ []) (hv : ∀ l ∈ ls, l.head.Valid)
    (hc : ∀ l ∈ ls, ContDiff ℝ 2 l.inputs) (θ v : Fin P → ℝ) (h0 : ∀ l ∈ ls, ∀ b i, l.head.slope (l.inputs θ) b i = 0) :
    ∃ g, fnMultiplyGGN ls θ v = .ok g ∧ multiplyHessian ls θ v = .ok g := by
  obtain ⟨g, h1, h2⟩ := C93_decomposition ls hne hv hc θ v
  refine ⟨g, h1, h2.trans ?_⟩
  congr 1
  funext q
  have h3 : (ls.map fun l => l.coeff * l.residual θ v q) = ls.map fun _ => 0 :=
    List.map_congr_left fun l hl => by simp [FnLoss.residual, h0 l hl]
  rw [h3]
  simp

/-- A model for which the two products differ: the square of the parameter, fitted to the target one, at zero. -/
def squareLoss : FnLoss 1 := ⟨1, 1, .normalMean 1 fun _ => 1, fun θ _ _ => θ 0 ^ 2, 3⟩

theorem square_contDiff : ContDiff ℝ 2 squareLoss.inputs := by
  refine contDiff_pi.2 fun b => contDiff_pi.2 fun i => ?_
  show ContDiff ℝ 2 fun θ : Fin 1 → ℝ => θ 0 ^ 2
  fun_prop

example : fnMultiplyGGN [squareLoss] 0 (fun _ => 1) = .ok (fun _ => 0) ∧
    multiplyHessian [squareLoss] 0 (fun _ => 1) = .ok (fun _ => -6) := by
  have e1 : ∀ θ x : Fin 1 → ℝ, fderiv ℝ (fun θ : Fin 1 → ℝ => θ 0 ^ 2) θ x = 2 * θ 0 * x 0 := by
    intro θ x
    have h : HasFDerivAt (fun θ : Fin 1 → ℝ => θ 0 ^ 2)
        ((2 * θ 0 ^ (2 - 1)) • ContinuousLinearMap.proj (R := ℝ) (φ := fun _ : Fin 1 => ℝ) 0) θ := by
      have := (ContinuousLinearMap.proj (R := ℝ) (φ := fun _ : Fin 1 => ℝ) 0).hasFDerivAt.pow (x := θ) 2
      simpa using this
    rw [h.fderiv]
    simp
  have hg : fnMultiplyGGN [squareLoss] 0 (fun _ => 1) = .ok (fun _ => 0) := by
    simp only [fnMultiplyGGN, multiplyGGN, List.map_cons, List.map_nil, List.mapM_cons, List.mapM_nil, FnLoss.at, Head.at, Jac.mul,
      AnyLoss.ggn, AnyLoss.fisher, scaleVal, Jac.mulT, bind, Except.bind, pure, Except.pure, squareLoss,
      NormalMean.multiplyFisher, tfGradients, e1]
    congr 1
    funext p
    simp [sumContribs]
  refine ⟨hg, ?_⟩
  obtain ⟨g, h1, h2⟩ := C93_decomposition [squareLoss] (by simp) (by simp [squareLoss, Head.Valid])
    (by simpa using square_contDiff) 0 (fun _ => 1)
  rw [h2]
  congr 1
  have hz : g = fun _ => 0 := (Except.ok.inj (h1.symm.trans hg))
  funext q
  have e2 : fderiv ℝ (fun θ : Fin 1 → ℝ => 2 * θ 0) 0 (Pi.single 0 1) = 2 := by
    have h : HasFDerivAt (fun θ : Fin 1 → ℝ => 2 * θ 0)
        ((2 : ℝ) • ContinuousLinearMap.proj (R := ℝ) (φ := fun _ : Fin 1 => ℝ) 0) 0 :=
      (ContinuousLinearMap.proj (R := ℝ) (φ := fun _ : Fin 1 => ℝ) 0).hasFDerivAt.const_mul 2
    rw [h.fderiv]
    simp
  have hr : squareLoss.residual 0 (fun _ => 1) q = -2 := by
    have hs : ∀ b i, squareLoss.head.slope (squareLoss.inputs 0) b i = -1 := by
      intro b i
      have := slope_normalMean one_pos (fun _ => 1) (squareLoss.inputs 0) b i
      refine this.trans ?_
      simp [squareLoss]
    have hq : q = 0 := Subsingleton.elim _ _
    subst hq
    simp only [FnLoss.residual, hs]
    show ∑ b : Fin 1, ∑ i : Fin 1, -1 * ∑ p : Fin 1, 1 *
      fderiv ℝ (fun θ => fderiv ℝ (fun θ : Fin 1 → ℝ => θ 0 ^ 2) θ (Pi.single p 1)) 0 (Pi.single 0 1) = -2
    simp only [e1, Fin.sum_univ_one, Fin.isValue, Pi.single_eq_same, mul_one, e2]
    norm_num
  rw [hz]
  simp [hr]
  norm_num [squareLoss]

/-- A linear model with two kinds of losses. -/
example (θ v : Fin 2 → ℝ) : ∃ g,
    fnMultiplyGGN [⟨1, 2, .categorical fun _ => 1, fun θ _ i => θ i + 1, 2⟩,
      ⟨1, 1, .multiBernoulli fun _ => true, fun θ _ _ => θ 0 - θ 1, 1⟩] θ v = .ok g ∧
    multiplyHessian [⟨1, 2, .categorical fun _ => 1, fun θ _ i => θ i + 1, 2⟩,
      ⟨1, 1, .multiBernoulli fun _ => true, fun θ _ _ => θ 0 - θ 1, 1⟩] θ v = .ok g := by
  refine C93_linear _ (by simp) (by simp [Head.Valid]) ?_ θ v
  intro l hl
  simp only [List.mem_cons, List.not_mem_nil, or_false] at hl
  rcases hl with rfl | rfl
  · exact ⟨fun _ i p => if p = i then 1 else 0, fun _ _ => 1, fun θ b i => by simp⟩
  · exact ⟨fun _ _ p => if p = 0 then 1 else -1, fun _ _ => 0, fun θ b i => by simp [Fin.sum_univ_two]; ring⟩

end Kfac.Loss
