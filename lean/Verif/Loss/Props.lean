import Verif.Loss.Lemmas

/-!
# C13, C15, C16, C17: loss curvature products
-/

namespace Kfac.Loss
variable {B n : Nat}

/-! ### Specification -/

/-- Inner product of two tensors of the same shape. -/
def dot (u v : Batch B n) : ℝ := ∑ b, ∑ i, u b i * v b i

/-- Inner product of two (mean, variance) pairs. -/
def dot2 (u v : Batch B n × Batch B n) : ℝ := dot u.1 v.1 + dot u.2 v.2

/-- What is asked of the three products of a loss with input vectors `X` and inner vectors `I`. -/
structure Consistent {X I : Type} (dX : X → X → ℝ) (dI : I → I → ℝ) (fisher : X → X) (factor : I → X)
    (factorT : X → I) : Prop where
  /-- The Fisher product is the factor times its transpose. -/
  factored : ∀ v, fisher v = factor (factorT v)
  /-- The factor and its transpose are adjoint. -/
  adjoint : ∀ u x, dX u (factor x) = dI (factorT u) x
  /-- The Fisher is symmetric. -/
  symm : ∀ u v, dX u (fisher v) = dX (fisher u) v
  /-- The Fisher is positive semidefinite. -/
  psd : ∀ v, 0 ≤ dX v (fisher v)

theorem dot_comm (u v : Batch B n) : dot u v = dot v u :=
  Finset.sum_congr rfl fun _ _ => Finset.sum_congr rfl fun _ _ => mul_comm _ _

theorem dot_self_nonneg (u : Batch B n) : 0 ≤ dot u u :=
  Finset.sum_nonneg fun _ _ => Finset.sum_nonneg fun _ _ => mul_self_nonneg _

/-- Symmetry and positivity follow from the factorisation. -/
theorem Consistent.mk' {X I : Type} {dX : X → X → ℝ} {dI : I → I → ℝ} {fisher : X → X} {factor : I → X}
    {factorT : X → I} (hX : ∀ u v, dX u v = dX v u) (hI : ∀ u v, dI u v = dI v u)
    (hI0 : ∀ u, 0 ≤ dI u u) (h1 : ∀ v, fisher v = factor (factorT v))
    (h2 : ∀ u x, dX u (factor x) = dI (factorT u) x) : Consistent dX dI fisher factor factorT where
  factored := h1
  adjoint := h2
  symm u v := by rw [h1, h1, h2, hX, h2, hI]
  psd v := by rw [h1, h2]; exact hI0 _

/-! ## C13 -/

/-- Gaussian with fixed variance (any positive variance). -/
theorem C13_normal_mean (l : NormalMean B n) (hv : 0 < l.var) :
    Consistent dot dot l.multiplyFisher l.multiplyFactor l.multiplyFactorT := by
  apply Consistent.mk' dot_comm dot_comm dot_self_nonneg
  · intro v; funext b i
    simp only [NormalMean.multiplyFisher, NormalMean.multiplyFactor, NormalMean.multiplyFactorT]
    rw [← mul_assoc, rpow_half_mul hv]
  · intro u x
    simp only [dot, NormalMean.multiplyFactor, NormalMean.multiplyFactorT]
    exact Finset.sum_congr rfl fun _ _ => Finset.sum_congr rfl fun _ _ => by ring

/-- Gaussian with mean and variance (all variances positive). -/
theorem C13_normal_mean_variance (l : NormalMeanVar B n) (hv : ∀ b i, 0 < l.variance b i) :
    Consistent dot2 dot l.multiplyFisher l.multiplyFactor l.multiplyFactorT := by
  apply Consistent.mk' (fun u v => by simp only [dot2, dot_comm u.1, dot_comm u.2]) dot_comm
    dot_self_nonneg
  · intro v
    simp only [NormalMeanVar.multiplyFisher, NormalMeanVar.multiplyFactor,
      NormalMeanVar.multiplyFactorT, splitB, concatB, Fin.append_left, Fin.append_right, Prod.mk.injEq]
    constructor
    · funext b i
      have h := hv b i
      have hs : Real.sqrt (l.variance b i) * Real.sqrt (l.variance b i) = l.variance b i :=
        Real.mul_self_sqrt h.le
      have hs0 := Real.sqrt_pos.2 h
      simp only [NormalMeanVar.fisherMean, NormalMeanVar.fisherMeanFactor]
      rw [← mul_assoc, div_mul_div_comm, hs, one_mul]
    · funext b i
      have h := hv b i
      have hs : Real.sqrt 2 * Real.sqrt 2 = 2 := Real.mul_self_sqrt (by norm_num)
      have hs0 : 0 < Real.sqrt 2 := Real.sqrt_pos.2 (by norm_num)
      simp only [NormalMeanVar.fisherVar, NormalMeanVar.fisherVarFactor]
      rw [← mul_assoc, div_mul_div_comm, one_mul]
      congr 2
      rw [mul_mul_mul_comm, hs]; ring
  · intro u x
    simp only [dot2, dot, NormalMeanVar.multiplyFactor, NormalMeanVar.multiplyFactorT, splitB, concatB]
    rw [← Finset.sum_add_distrib]
    apply Finset.sum_congr rfl; intro b _
    rw [Fin.sum_univ_add]
    simp only [Fin.append_left, Fin.append_right]
    congr 1 <;> exact Finset.sum_congr rfl fun _ _ => by ring

/-- Categorical (and one-hot categorical) with any logits. -/
theorem C13_categorical (l : Categorical B n) :
    Consistent dot dot l.multiplyFisher l.multiplyFactor l.multiplyFactorT := by
  apply Consistent.mk' dot_comm dot_comm dot_self_nonneg
  · intro v; funext b i
    exact categorical_case (l.probs b) (l.sqrtProbs b) (v b)
      (fun j => Real.mul_self_sqrt (softmax_pos _ j).le) (softmax_sum _ i) i
  · intro u x
    exact Finset.sum_congr rfl fun b _ => categorical_adj (l.probs b) (l.sqrtProbs b) (u b) (x b)

/-- Independent Bernoullis with any logits. -/
theorem C13_multi_bernoulli (l : MultiBernoulli B n) :
    Consistent dot dot l.multiplyFisher l.multiplyFactor l.multiplyFactorT := by
  apply Consistent.mk' dot_comm dot_comm dot_self_nonneg
  · intro v; funext b i
    have h : 0 ≤ l.probs b i * (1 - l.probs b i) :=
      mul_nonneg (sigmoid_pos _).le (by have := sigmoid_lt_one (l.logits b i); exact sub_nonneg.2 this.le)
    simp only [MultiBernoulli.multiplyFisher, MultiBernoulli.multiplyFactor,
      MultiBernoulli.multiplyFactorT]
    rw [← mul_assoc, Real.mul_self_sqrt h]
  · intro u x
    simp only [dot, MultiBernoulli.multiplyFactor, MultiBernoulli.multiplyFactorT]
    exact Finset.sum_congr rfl fun _ _ => Finset.sum_congr rfl fun _ _ => by ring

example : (0 : ℝ) < (NormalMean.mk (B := 2) (n := 3) (fun _ _ => 1) 0.5).var := by norm_num
example : ∀ b i, 0 < (NormalMeanVar.mk (B := 2) (n := 3) (fun _ _ => 1) fun b i => b.1 + i.1 + 1).variance
    b i := by intro b i; positivity

/-! ## C15 -/

/-- The replicated one-hot tensor: 1 at `index` in every case. -/
def replicatedOneHot (B m : Nat) (index : Nat) : Batch B m := fun _ j => if j.1 = index then 1 else 0

theorem C15_normal_mean (l : NormalMean B n) (i : Nat) (hi : i < n) :
    l.oneHot [i] = .ok (l.multiplyFactor (replicatedOneHot B n i)) := by
  simp only [NormalMean.oneHot, insertSlice, dif_pos, hi, if_true]
  congr 1
  funext b j
  simp only [NormalMean.multiplyFactor, replicatedOneHot]
  split <;> simp

theorem C15_normal_mean_variance (l : NormalMeanVar B n) (i : Nat) (hi : i < n + n) :
    l.oneHot [i] = .ok (l.multiplyFactor (replicatedOneHot B (n + n) i)) := by
  simp only [NormalMeanVar.oneHot]
  by_cases h : i < n
  · rw [if_pos h]
    simp only [column, h, dif_pos, insertSlice, if_true, bind, Except.bind, pure, Except.pure]
    congr 1
    simp only [NormalMeanVar.multiplyFactor, splitB, replicatedOneHot, Prod.mk.injEq]
    constructor
    · funext b j
      simp only [Fin.val_castAdd]
      split
      · rename_i hj
        have : j = ⟨i, h⟩ := Fin.ext hj
        rw [this, mul_one]
      · simp
    · funext b j
      simp only [Fin.val_natAdd]
      rw [if_neg (by omega), mul_zero]
  · have h2 : i - n < n := by omega
    rw [if_neg h]
    simp only [column, h2, dif_pos, insertSlice, if_true, bind, Except.bind, pure, Except.pure]
    congr 1
    simp only [NormalMeanVar.multiplyFactor, splitB, replicatedOneHot, Prod.mk.injEq]
    constructor
    · funext b j
      simp only [Fin.val_castAdd]
      rw [if_neg (by omega), mul_zero]
    · funext b j
      simp only [Fin.val_natAdd]
      by_cases hj : j.1 = i - n
      · have : j = ⟨i - n, h2⟩ := Fin.ext hj
        rw [if_pos hj, if_pos (by omega), this, mul_one]
      · rw [if_neg hj, if_neg (by omega), mul_zero]

theorem C15_categorical (l : Categorical B n) (i : Nat) (hi : i < n) :
    l.oneHot [i] = .ok (l.multiplyFactor (replicatedOneHot B n i)) := by
  simp only [Categorical.oneHot, column, hi, dif_pos, insertSlice, if_true, bind, Except.bind, pure,
    Except.pure]
  congr 1
  funext b j
  simp only [Categorical.multiplyFactor, replicatedOneHot]
  have hs : ∑ k, l.sqrtProbs b k * (if k.1 = i then (1 : ℝ) else 0) = l.sqrtProbs b ⟨i, hi⟩ := by
    rw [Finset.sum_eq_single ⟨i, hi⟩]
    · simp
    · intro k _ hk
      rw [if_neg (fun h => hk (Fin.ext h)), mul_zero]
    · simp
  rw [hs]
  split
  · rename_i hj
    have : j = ⟨i, hi⟩ := Fin.ext hj
    rw [this, mul_one]
  · simp

theorem C15_multi_bernoulli (l : MultiBernoulli B n) (i : Nat) (hi : i < n) :
    l.oneHot [i] = .ok (l.multiplyFactor (replicatedOneHot B n i)) := by
  simp only [MultiBernoulli.oneHot, column, hi, dif_pos, insertSlice, if_true, bind, Except.bind]
  congr 1
  funext b j
  simp only [MultiBernoulli.multiplyFactor, replicatedOneHot]
  split
  · rename_i hj
    have : j = ⟨i, hi⟩ := Fin.ext hj
    rw [this, mul_one]
  · simp

/-- An index list whose length is not one is rejected by every loss. -/
theorem C15_wrong_length_rejected (index : List Nat) (h : index.length ≠ 1) (l1 : NormalMean B n)
    (l2 : NormalMeanVar B n) (l3 : Categorical B n) (l4 : MultiBernoulli B n) :
    (∃ e, l1.oneHot index = .error e) ∧ (∃ e, l2.oneHot index = .error e) ∧
    (∃ e, l3.oneHot index = .error e) ∧ (∃ e, l4.oneHot index = .error e) := by
  match index, h with
  | [], _ => exact ⟨⟨_, rfl⟩, ⟨_, rfl⟩, ⟨_, rfl⟩, ⟨_, rfl⟩⟩
  | _ :: _ :: _, _ => exact ⟨⟨_, rfl⟩, ⟨_, rfl⟩, ⟨_, rfl⟩, ⟨_, rfl⟩⟩

/-- An index outside the inner shape is rejected by every loss. -/
theorem C15_out_of_range_rejected (i : Nat) (l1 : NormalMean B n)
    (l2 : NormalMeanVar B n) (l3 : Categorical B n) (l4 : MultiBernoulli B n) :
    (n ≤ i → ∃ e, l1.oneHot [i] = .error e) ∧ (n + n ≤ i → ∃ e, l2.oneHot [i] = .error e) ∧
    (n ≤ i → ∃ e, l3.oneHot [i] = .error e) ∧ (n ≤ i → ∃ e, l4.oneHot [i] = .error e) := by
  refine ⟨fun h => ?_, fun h => ?_, fun h => ?_, fun h => ?_⟩
  · simp only [NormalMean.oneHot, insertSlice, dif_pos, if_neg (Nat.not_lt.2 h)]
    exact ⟨_, rfl⟩
  · have h1 : ¬ i < n := by omega
    have h2 : ¬ i - n < n := by omega
    simp only [NormalMeanVar.oneHot, column, h1, h2, dif_neg, if_false, not_false_eq_true, bind,
      Except.bind]
    exact ⟨_, rfl⟩
  · have h1 : ¬ i < n := by omega
    simp only [Categorical.oneHot, column, h1, dif_neg, not_false_eq_true, bind, Except.bind]
    exact ⟨_, rfl⟩
  · have h1 : ¬ i < n := by omega
    simp only [MultiBernoulli.oneHot, column, h1, dif_neg, not_false_eq_true, bind, Except.bind]
    exact ⟨_, rfl⟩

/-! ## C16 -/

/-- The claim is false for the mean-variance Gaussian: for inputs of shape `[2, 3]` the static shape is
`[3, 6]`, the vectors have shape `[2, 6]`. -/
theorem C16_mean_variance_counterexample :
    ∃ shape s, Kind.normalMeanVar.innerStaticShape shape = .ok s ∧
      s ≠ Kind.normalMeanVar.innerShape shape :=
  ⟨[2, 3], [3, 6], rfl, by decide⟩

/-- Partial: true for every other loss and shape, and true for the mean-variance Gaussian exactly when
its rank-2 input is square. Missing: non-square inputs, where the claim is false. -/
theorem C16_static_shape_partial (k : Kind) (shape : List Nat) (b n : Nat) :
    (k ≠ .normalMeanVar → k.innerStaticShape shape = .ok (k.innerShape shape)) ∧
    (Kind.normalMeanVar.innerStaticShape [b, n] = .ok (Kind.normalMeanVar.innerShape [b, n]) ↔ b = n) := by
  constructor
  · intro h
    cases k <;> simp_all [Kind.innerStaticShape, Kind.innerShape]
  · simp [Kind.innerStaticShape, Kind.innerShape, eq_comm]

/-- For rank-2 inputs the part that the "exact" estimation mode uses (everything but the batch dimension)
is right for every loss: it enumerates exactly the inner coordinates of one case. -/
theorem C16_exact_coordinates_partial (k : Kind) (b n : Nat) :
    exactCount .fisher k [b, n] = .ok ((k.innerShape [b, n]).drop 1).prod := by
  rw [exactCount, if_pos (by decide)]
  cases k <;> rfl

/-- With the GGN the "exact" estimation mode fails for every loss and every shape. -/
theorem C16_ggn_exact_counterexample (k : Kind) (shape : List Nat) :
    ∃ e, exactCount .ggn k shape = .error e := by
  rw [exactCount, if_neg (by decide)]
  exact ⟨_, rfl⟩

/-! ## C17 — curvature products through the model -/

/-- A registered loss the curvature products support: inputs are a single tensor, non-negative
coefficient, positive variance for a Gaussian. -/
def LossJ.Ok {P : Nat} (l : LossJ P) : Prop :=
  0 ≤ l.reg.coeff ∧ (∃ j, l.jac = .single j) ∧
    match l.reg.loss with
    | .normalMean g => 0 < g.var
    | .normalMeanVar _ => False
    | _ => True

/-- Coefficient times the inner product of `J u` with the loss's Fisher times `J v`, for one loss. -/
noncomputable def LossJ.form {P : Nat} (l : LossJ P) (u v : Fin P → ℝ) : ℝ :=
  match l.jac.mul u, l.reg.loss.fisher (l.jac.mul v) with
  | .single a, .ok (.single b) => l.reg.coeff * dot a b
  | .pair a a', .ok (.pair b b') => l.reg.coeff * dot2 (a, a') (b, b')
  | _, _ => 0

/-- What the three products of a supported loss do, as functions. -/
theorem LossJ.Ok.ops {P : Nat} {l : LossJ P} (h : l.Ok) :
    ∃ (j : Fin l.reg.B → Fin l.reg.n → Fin P → ℝ) (F Bf Bt : Batch l.reg.B l.reg.n → Batch l.reg.B l.reg.n),
      l.jac = .single j ∧ (∀ v, l.reg.loss.fisher (.single v) = .ok (.single (F v))) ∧
      (∀ v, l.reg.loss.ggn (.single v) = .ok (.single (F v))) ∧
      (∀ v, l.reg.loss.factor (.inl v) = .ok (.single (Bf v))) ∧
      (∀ v, l.reg.loss.factorT (.single v) = .ok (.inl (Bt v))) ∧
      Consistent dot dot F Bf Bt ∧
      (∀ (a : ℝ) v, Bf (fun b i => a * v b i) = fun b i => a * Bf v b i) ∧
      (∀ (a : ℝ) u v, F (fun b i => a * u b i + v b i) = fun b i => a * F u b i + F v b i) := by
  obtain ⟨hc, ⟨j, hj⟩, hl⟩ := h
  cases hloss : l.reg.loss with
  | normalMean g =>
    rw [hloss] at hl
    refine ⟨j, _, _, _, hj, fun _ => rfl, fun _ => rfl, fun _ => rfl, fun _ => rfl,
      C13_normal_mean g hl, ?_, ?_⟩
    · intro a v; funext b i; simp only [NormalMean.multiplyFactor]; ring
    · intro a u v; funext b i; simp only [NormalMean.multiplyFisher]; ring
  | normalMeanVar g => rw [hloss] at hl; exact hl.elim
  | categorical g =>
    refine ⟨j, _, _, _, hj, fun _ => rfl, fun _ => rfl, fun _ => rfl, fun _ => rfl,
      C13_categorical g, ?_, ?_⟩
    · intro a v; funext b i
      have e : ∑ j, g.sqrtProbs b j * (a * v b j) = a * ∑ j, g.sqrtProbs b j * v b j := by
        rw [Finset.mul_sum]; exact Finset.sum_congr rfl fun _ _ => by ring
      simp only [Categorical.multiplyFactor, e]; ring
    · intro a u v; funext b i
      have e : ∑ j, (a * u b j + v b j) * g.probs b j
          = a * ∑ j, u b j * g.probs b j + ∑ j, v b j * g.probs b j := by
        rw [Finset.mul_sum, ← Finset.sum_add_distrib]
        exact Finset.sum_congr rfl fun _ _ => by ring
      simp only [Categorical.multiplyFisher, e]; ring
  | multiBernoulli g =>
    refine ⟨j, _, _, _, hj, fun _ => rfl, fun _ => rfl, fun _ => rfl, fun _ => rfl,
      C13_multi_bernoulli g, ?_, ?_⟩
    · intro a v; funext b i; simp only [MultiBernoulli.multiplyFactor]; ring
    · intro a u v; funext b i; simp only [MultiBernoulli.multiplyFisher]; ring

theorem mapM_ok {α β : Type} (f : α → Except String β) (g : α → β) (l : List α)
    (h : ∀ x ∈ l, f x = .ok (g x)) : l.mapM f = .ok (l.map g) := by
  induction l with
  | nil => rfl
  | cons x l ih =>
    rw [List.mapM_cons, h x (by simp), ih fun y hy => h y (by simp [hy])]
    rfl

theorem dot_jac {P : Nat} (j : Fin B → Fin n → Fin P → ℝ) (u : Fin P → ℝ) (x : Batch B n) :
    ∑ p, u p * ∑ b, ∑ i, j b i p * x b i = dot (fun b i => ∑ p, j b i p * u p) x := by
  simp only [dot, Finset.mul_sum, Finset.sum_mul]
  rw [Finset.sum_comm]
  apply Finset.sum_congr rfl; intro b _
  rw [Finset.sum_comm]
  exact Finset.sum_congr rfl fun i _ => Finset.sum_congr rfl fun p _ => by ring

theorem dot_smul (a : ℝ) (u v : Batch B n) : dot u (fun b i => a * v b i) = a * dot u v := by
  simp only [dot, Finset.mul_sum]
  exact Finset.sum_congr rfl fun i _ => Finset.sum_congr rfl fun p _ => by ring

theorem LossJ.Ok.contrib {P : Nat} {l : LossJ P} (h : l.Ok) :
    ∃ (C : (Fin P → ℝ) → Fin P → ℝ) (X : (Fin P → ℝ) → Inner),
      (∀ v, (do let u ← l.reg.loss.fisher (l.jac.mul v)
                let u ← scaleVal l.reg.coeff u
                l.jac.mulT u : Except String (Fin P → ℝ)) = .ok (C v)) ∧
      (∀ v, (do let u ← l.reg.loss.ggn (l.jac.mul v)
                let u ← scaleVal l.reg.coeff u
                l.jac.mulT u : Except String (Fin P → ℝ)) = .ok (C v)) ∧
      (∀ v, (do let u ← l.reg.loss.factorT (l.jac.mul v)
                return ⟨l.reg.B, l.reg.n, scaleInner (Real.sqrt l.reg.coeff) u⟩
                : Except String Inner) = .ok (X v)) ∧
      (∀ v, (if h : (X v).1 = l.reg.B ∧ (X v).2.1 = l.reg.n then (do
                let u ← l.reg.loss.factor (h.1 ▸ h.2 ▸ (X v).2.2)
                let u ← scaleVal (Real.sqrt l.reg.coeff) u
                l.jac.mulT u)
              else .error "shape mismatch" : Except String (Fin P → ℝ)) = .ok (C v)) ∧
      (∀ u v, ∑ p, u p * C v p = l.form u v) ∧
      (∀ u v, l.form u v = l.form v u) ∧ (∀ v, 0 ≤ l.form v v) ∧
      (∀ (a : ℝ) u v, C (fun p => a * u p + v p) = fun p => a * C u p + C v p) := by
  obtain ⟨j, F, Bf, Bt, hj, hF, hG, hBf, hBt, hcons, hlinB, hlin⟩ := h.ops
  have hform : ∀ u v, l.form u v
      = l.reg.coeff * dot (fun b i => ∑ p, j b i p * u p) (F fun b i => ∑ p, j b i p * v p) := by
    intro u v
    simp only [LossJ.form, hj, Jac.mul, hF]
  have hs : Real.sqrt l.reg.coeff * Real.sqrt l.reg.coeff = l.reg.coeff := Real.mul_self_sqrt h.1
  refine ⟨fun v p => ∑ b, ∑ i, j b i p * (l.reg.coeff * F (fun b i => ∑ p, j b i p * v p) b i),
    fun v => ⟨l.reg.B, l.reg.n,
      .inl fun b i => Real.sqrt l.reg.coeff * Bt (fun b i => ∑ p, j b i p * v p) b i⟩,
    ?_, ?_, ?_, ?_, ?_, ?_, ?_, ?_⟩
  · intro v
    simp only [hj, Jac.mul, hF, bind, Except.bind, scaleVal, Jac.mulT]
  · intro v
    simp only [hj, Jac.mul, hG, bind, Except.bind, scaleVal, Jac.mulT]
  · intro v
    simp only [hj, Jac.mul, hBt, bind, Except.bind, pure, Except.pure, scaleInner]
  · intro v
    simp only [hj, and_self, dif_pos, hBf, bind, Except.bind, scaleVal, Jac.mulT]
    congr 1
    funext p
    apply Finset.sum_congr rfl; intro b _
    apply Finset.sum_congr rfl; intro i _
    rw [hlinB, ← mul_assoc (Real.sqrt _), hs, ← hcons.factored]
  · intro u v
    rw [hform, dot_jac, dot_smul]
  · intro u v
    rw [hform, hform, hcons.symm, dot_comm]
  · intro v
    rw [hform]
    exact mul_nonneg h.1 (hcons.psd _)
  · intro a u v
    have e : (fun b i => ∑ p, j b i p * (a * u p + v p))
        = fun b i => a * (∑ p, j b i p * u p) + ∑ p, j b i p * v p := by
      funext b i
      rw [Finset.mul_sum, ← Finset.sum_add_distrib]
      exact Finset.sum_congr rfl fun _ _ => by ring
    funext p
    simp only [e, hlin]
    rw [Finset.mul_sum, ← Finset.sum_add_distrib]
    apply Finset.sum_congr rfl; intro b _
    rw [Finset.mul_sum, ← Finset.sum_add_distrib]
    exact Finset.sum_congr rfl fun _ _ => by ring

/-- For any list of supported losses with any Jacobians: the Fisher product, the GGN product and the
product of the factor with its transpose all succeed and are one linear function `F`, whose bilinear form
is the coefficient-weighted sum of the losses' forms pulled back through the Jacobians; it is symmetric
and positive semidefinite. Missing from the full claim: losses with a tuple of inputs, see below. -/
theorem C17_products_partial {P : Nat} (ls : List (LossJ P)) (h : ∀ l ∈ ls, l.Ok) :
    ∃ F : (Fin P → ℝ) → Fin P → ℝ,
      (∀ v, multiplyFisher ls v = .ok (F v)) ∧
      (∀ v, multiplyGGN ls v = .ok (F v)) ∧
      (∀ v, ∃ xs, multiplyFisherFactorT ls v = .ok xs ∧ multiplyFisherFactor ls xs = .ok (F v)) ∧
      (∀ u v, ∑ p, u p * F v p = (ls.map fun l => l.form u v).sum) ∧
      (∀ u v, ∑ p, u p * F v p = ∑ p, F u p * v p) ∧
      (∀ v, 0 ≤ ∑ p, v p * F v p) ∧
      (∀ (a : ℝ) u v, F (fun p => a * u p + v p) = fun p => a * F u p + F v p) := by
  choose! C X hC hG hT hB hform hsymm hpos hlin using fun l (hl : l ∈ ls) => (h l hl).contrib
  have hsum : ∀ u v, ∑ p, u p * sumContribs (ls.map fun l => C l v) p
      = (ls.map fun l => l.form u v).sum := by
    intro u v
    clear hC hG hT hB hsymm hpos hlin
    simp only [sumContribs, List.map_map]
    induction ls with
    | nil => simp
    | cons l ls ih =>
      simp only [List.map_cons, List.sum_cons, mul_add, Finset.sum_add_distrib]
      rw [ih (fun x hx => h x (by simp [hx])) fun x hx => hform x (by simp [hx])]
      congr 1
      exact hform l (by simp) u v
  refine ⟨fun v => sumContribs (ls.map fun l => C l v), ?_, ?_, ?_, hsum, ?_, ?_, ?_⟩
  · intro v
    rw [multiplyFisher, mapM_ok _ (fun l => C l v) ls fun l hl => hC l hl v]
    rfl
  · intro v
    rw [multiplyGGN, mapM_ok _ (fun l => C l v) ls fun l hl => hG l hl v]
    rfl
  · intro v
    refine ⟨ls.map fun l => X l v, ?_, ?_⟩
    · rw [multiplyFisherFactorT, mapM_ok _ (fun l => X l v) ls fun l hl => hT l hl v]
    · have hz : ls.zip (ls.map fun l => X l v) = ls.map fun l => (l, X l v) := by
        clear hsum hC hG hT hB hsymm hpos hlin hform h
        induction ls with
        | nil => rfl
        | cons l ls ih => simp [ih]
      have hm : ∀ l ∈ ls.map fun l => (l, X l v), (fun (lx : LossJ P × Inner) =>
          (if h : lx.2.1 = lx.1.reg.B ∧ lx.2.2.1 = lx.1.reg.n then (do
            let u ← lx.1.reg.loss.factor (h.1 ▸ h.2 ▸ lx.2.2.2)
            let u ← scaleVal (Real.sqrt lx.1.reg.coeff) u
            lx.1.jac.mulT u)
          else .error "shape mismatch" : Except String (Fin P → ℝ))) l = .ok (C l.1 v) := by
        intro l hl
        simp only [List.mem_map] at hl
        obtain ⟨l', hl', rfl⟩ := hl
        exact hB l' hl' v
      rw [multiplyFisherFactor, hz, mapM_ok _ (fun lx : LossJ P × Inner => C lx.1 v) _ hm,
        List.map_map]
      rfl
  · intro u v
    rw [hsum]
    have : ∑ p, sumContribs (ls.map fun l => C l u) p * v p
        = ∑ p, v p * sumContribs (ls.map fun l => C l u) p :=
      Finset.sum_congr rfl fun _ _ => mul_comm _ _
    rw [this, hsum]
    congr 1
    exact List.map_congr_left fun l hl => hsymm l hl u v
  · intro v
    rw [hsum]
    apply List.sum_nonneg
    intro x hx
    simp only [List.mem_map] at hx
    obtain ⟨l, hl, rfl⟩ := hx
    exact hpos l hl v
  · intro a u v
    funext p
    simp only [sumContribs, List.map_map]
    clear hsum hC hG hT hB hsymm hpos hform
    induction ls with
    | nil => simp
    | cons l ls ih =>
      simp only [List.map_cons, List.sum_cons, Function.comp]
      have := ih (fun x hx => h x (by simp [hx])) fun x hx => hlin x (by simp [hx])
      simp only [Function.comp_def] at this ⊢
      rw [this, congrFun (hlin l (by simp) a u v) p]
      ring

/-- The full claim is false for the mean-variance Gaussian: its products are tuples, on which
`_multiply_across_losses` fails, whatever the parameters, coefficient, Jacobian and vector. -/
theorem C17_tuple_inputs_counterexample {P : Nat} (g : NormalMeanVar B n) (c : ℝ)
    (j1 j2 : Fin B → Fin n → Fin P → ℝ) (v : Fin P → ℝ) :
    multiplyFisher [⟨⟨B, n, .normalMeanVar g, c⟩, .pair j1 j2⟩] v
      = .error "AttributeError: 'tuple' object has no attribute 'dtype'" ∧
    multiplyGGN [⟨⟨B, n, .normalMeanVar g, c⟩, .pair j1 j2⟩] v = .error "NotImplementedError" :=
  ⟨rfl, rfl⟩

/-- A loss of any of the four kinds with the Jacobian of its one or two inputs, positive variances and a non-negative coefficient. -/
def LossJ.Regular {P : Nat} (l : LossJ P) : Prop :=
  0 ≤ l.reg.coeff ∧
    match l.reg.loss, l.jac with
    | .normalMean g, .single _ => 0 < g.var
    | .normalMeanVar g, .pair _ _ => ∀ b i, 0 < g.variance b i
    | .categorical _, .single _ => True
    | .multiBernoulli _, .single _ => True
    | _, _ => False

/-- Inner product of two inner vectors (0 if the shapes differ). -/
def Inner.dot : Inner → Inner → ℝ
  | ⟨B, n, .inl x⟩, ⟨B', n', .inl y⟩ =>
    if h : B' = B ∧ n' = n then Loss.dot x fun b i => y (Fin.cast h.1.symm b) (Fin.cast h.2.symm i) else 0
  | ⟨B, n, .inr x⟩, ⟨B', n', .inr y⟩ =>
    if h : B' = B ∧ n' = n then Loss.dot x fun b i => y (Fin.cast h.1.symm b) (Fin.cast (by rw [h.2]) i) else 0
  | _, _ => 0

/-- C17: the transposed factor, which the optimizer uses for its quadratic model, works for losses of all four kinds, also with
tuples of inputs: the inner products of its values are the form of the Fisher. -/
theorem C17_inner_products {P : Nat} (ls : List (LossJ P)) (h : ∀ l ∈ ls, l.Regular) :
    ∃ X : (Fin P → ℝ) → List Inner, (∀ v, multiplyFisherFactorT ls v = .ok (X v)) ∧ (∀ v, (X v).length = ls.length) ∧
      ∀ u v, (List.zipWith Inner.dot (X u) (X v)).sum = (ls.map fun l => l.form u v).sum := by
  have one : ∀ l : LossJ P, l.Regular → ∃ X : (Fin P → ℝ) → Inner,
      (∀ v, (do let u ← l.reg.loss.factorT (l.jac.mul v)
                return ⟨l.reg.B, l.reg.n, scaleInner (Real.sqrt l.reg.coeff) u⟩ : Except String Inner) = .ok (X v)) ∧
      ∀ u v, (X u).dot (X v) = l.form u v := by
    rintro ⟨⟨B, n, loss, c⟩, jac⟩ ⟨hc, hl⟩
    have hs : Real.sqrt c * Real.sqrt c = c := Real.mul_self_sqrt hc
    have hdot : ∀ {m : Nat} (x y : Batch B m), dot (fun b i => Real.sqrt c * x b i) (fun b i => Real.sqrt c * y b i) = c * dot x y := by
      intro m x y
      rw [dot_smul, dot_comm, dot_smul, ← mul_assoc, hs, dot_comm]
    have single : ∀ (j : Fin B → Fin n → Fin P → ℝ) (F Bf Bt : Batch B n → Batch B n), Consistent dot dot F Bf Bt →
        (∀ v, loss.fisher (.single v) = .ok (.single (F v))) → (∀ v, loss.factorT (.single v) = .ok (.inl (Bt v))) →
        ∃ X : (Fin P → ℝ) → Inner,
          (∀ v, (do let u ← loss.factorT ((Jac.single j).mul v)
                    return ⟨B, n, scaleInner (Real.sqrt c) u⟩ : Except String Inner) = .ok (X v)) ∧
          ∀ u v, (X u).dot (X v) = LossJ.form ⟨⟨B, n, loss, c⟩, .single j⟩ u v := by
      intro j F Bf Bt hcons hF hT
      refine ⟨fun v => ⟨B, n, .inl fun b i => Real.sqrt c * Bt (fun b i => ∑ p, j b i p * v p) b i⟩, fun v => ?_, fun u v => ?_⟩
      · simp only [Jac.mul, hT, bind, Except.bind, pure, Except.pure, scaleInner]
      · simp only [Inner.dot, and_self, dif_pos, Fin.cast_eq_self, LossJ.form, Jac.mul, hF]
        rw [hdot, hcons.factored, hcons.adjoint]
    match loss, jac, hl with
    | .normalMean g, .single j, hl => exact single j _ _ _ (C13_normal_mean g hl) (fun _ => rfl) fun _ => rfl
    | .categorical g, .single j, _ => exact single j _ _ _ (C13_categorical g) (fun _ => rfl) fun _ => rfl
    | .multiBernoulli g, .single j, _ => exact single j _ _ _ (C13_multi_bernoulli g) (fun _ => rfl) fun _ => rfl
    | .normalMeanVar g, .pair j1 j2, hl =>
      have hcons := C13_normal_mean_variance g hl
      refine ⟨fun v => ⟨B, n, .inr fun b i => Real.sqrt c *
        g.multiplyFactorT (fun b i => ∑ p, j1 b i p * v p, fun b i => ∑ p, j2 b i p * v p) b i⟩, fun v => rfl, fun u v => ?_⟩
      simp only [Inner.dot, and_self, dif_pos, Fin.cast_eq_self, LossJ.form, Jac.mul, AnyLoss.fisher]
      rw [hdot, Prod.mk.eta, hcons.factored, hcons.adjoint]
  choose! X hX hform using one
  refine ⟨fun v => ls.map fun l => X l v, fun v => ?_, fun v => List.length_map _, fun u v => ?_⟩
  · exact mapM_ok _ _ ls fun l hl => hX l (h l hl) v
  · congr 1
    clear hX
    induction ls with
    | nil => rfl
    | cons l ls ih =>
      simp only [List.map_cons, List.zipWith_cons_cons]
      rw [hform l (h l (by simp)), ih fun x hx => h x (by simp [hx])]

/-- A Gaussian with two inputs and a categorical loss. -/
example : ∀ l ∈ [(⟨⟨2, 3, .normalMeanVar ⟨fun _ _ => 0, fun b i => 1 + b + i⟩, 0.3⟩, .pair (fun b i p => b + i * p) fun b i p => b - p⟩ : LossJ 4),
    ⟨⟨2, 5, .categorical ⟨fun b i => b * i⟩, 1⟩, .single fun b i p => b - i + p⟩], l.Regular := by
  intro l hl
  simp only [List.mem_cons, List.not_mem_nil, or_false] at hl
  rcases hl with rfl | rfl
  · exact ⟨by norm_num, fun b i => by positivity⟩
  · exact ⟨by norm_num, trivial⟩

/-- Two losses, a weighted Gaussian and a categorical one, of different sizes. -/
example : ∀ l ∈ [(⟨⟨2, 3, .normalMean ⟨fun _ _ => 0, 0.5⟩, 0.3⟩, .single fun b i p => b + i * p⟩ : LossJ 4),
    ⟨⟨2, 5, .categorical ⟨fun b i => b * i⟩, 1⟩, .single fun b i p => b - i + p⟩], l.Ok := by
  intro l hl
  simp only [List.mem_cons, List.not_mem_nil, or_false] at hl
  rcases hl with rfl | rfl
  · exact ⟨by norm_num, ⟨_, rfl⟩, by norm_num⟩
  · exact ⟨by norm_num, ⟨_, rfl⟩, trivial⟩

end Kfac.Loss
