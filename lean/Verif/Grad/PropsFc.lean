import Verif.Grad.PropsKfc
import Verif.Factor.MultiUse

/-! # C82: the Kronecker factors of fully connected layers -/

namespace Kfac.Grad

open Kfac.Stats Kfac.Factor

/-! ### Specification -/

/-- The parameter in row `r` and column `j` of the stacked matrix: a weight, or in the last row the bias. -/
def stackedAt {p q : ℕ} (bias : Bool) (r : Fin (p + bias.toNat)) (j : Fin q) : (Fin p × Fin q) ⊕ Fin q :=
  Fin.addCases (fun i => .inl (i, j)) (fun _ => .inr j) r

/-- A layer used `T` times on one example. -/
def fcUsed {p q : ℕ} (bias : Bool) (T : ℕ) (θ : (Fin p × Fin q) ⊕ Fin q → ℝ) (x : Fin T → Fin p → ℝ) (o : Fin T × Fin q) : ℝ :=
  fcLayer bias θ (x o.1) o.2

/-- What is registered for a layer used `T` times on `N` examples: a list of tensors, one per use. -/
def useList {N T : ℕ} {α : Type} (x : Fin N → Fin T → α) : UseData α :=
  .uses (List.ofFn fun t => List.ofFn fun n => x n t)

/-- The same as a single tensor. -/
def useTensor {N T : ℕ} {α : Type} (x : Fin N → Fin T → α) : UseData α :=
  .tensor (List.ofFn fun t => List.ofFn fun n => x n t).flatten

/-! ### Lemmas -/

/-- The gradient of one example, by stacked position. -/
def fcUsedGrad {p q T : ℕ} (bias : Bool) (x : Fin T → Fin p → ℝ) (ds : Fin T × Fin q → ℝ) :
    (Fin p × Fin q) ⊕ Fin q → ℝ
  | .inl (i, j) => ∑ t, x t i * ds (t, j)
  | .inr j => if bias then ∑ t, ds (t, j) else 0

theorem fcUsedGrad_isGrad {p q T : ℕ} (bias : Bool) (x : Fin T → Fin p → ℝ) (L : (Fin T × Fin q → ℝ) → ℝ)
    (θ : (Fin p × Fin q) ⊕ Fin q → ℝ) (ds : Fin T × Fin q → ℝ) (h : IsGrad L (fcUsed bias T θ x) ds) :
    IsGrad (fun θ => L (fcUsed bias T θ x)) θ (fcUsedGrad bias x ds) := by
  have := IsGrad.affine (layer := fun θ => fcUsed bias T θ x)
    (fun k o => match k with
      | .inl (i, j) => if j = o.2 then x o.1 i else 0
      | .inr j => if bias = true ∧ j = o.2 then 1 else 0) (fun _ => 0)
    (fun θ o => by
      simp only [fcUsed, fcLayer, Fintype.sum_sum_type, Fintype.sum_prod_type, mul_ite, mul_zero, mul_one, add_zero]
      congr 1
      · refine Finset.sum_congr rfl fun i _ => ?_
        simp [mul_comm]
      · cases bias <;> simp) h
  convert this using 1
  funext k
  rcases k with ⟨i, j⟩ | j
  · simp [fcUsedGrad, Fintype.sum_prod_type, mul_comm]
  · cases bias <;> simp [fcUsedGrad, Fintype.sum_prod_type]

theorem fcUsedGrad_at {p q T : ℕ} (bias : Bool) (x : Fin T → Fin p → ℝ) (ds : Fin T × Fin q → ℝ) (r : Fin (p + bias.toNat))
    (j : Fin q) : fcUsedGrad bias x ds (stackedAt bias r j) = ∑ t, appendHomog bias (x t) r * ds (t, j) := by
  refine Fin.addCases (fun i => ?_) (fun b => ?_) r
  · simp [stackedAt, fcUsedGrad, appendHomog_left]
  · have hb : bias = true := by cases bias <;> [exact b.elim0; rfl]
    simp [stackedAt, fcUsedGrad, appendHomog_right, hb]

theorem used_cov {N T p : ℕ} (x : Fin N → Fin T → Fin p → ℝ) (f : (Fin p → ℝ) → ℝ) :
    (((List.ofFn fun t => List.ofFn fun n => x n t).flatten).map f).sum = ∑ t, ∑ n, f (x n t) := sum_grid _ _

theorem mean_used {N T : ℕ} (f : Fin N → Fin T → ℝ) : (∑ t, ∑ n, f n t) / (T * N : ℕ) = (∑ t, batchMean fun n => f n t) / T := by
  simp only [batchMean, ← Finset.sum_div]
  push_cast
  rw [div_div, mul_comm (N : ℝ)]

/-! ### The theorems -/

/-- The factors see all uses of all examples, for lists and tensors and under both tower strategies (one tower; for several
see C81). -/
theorem C82_factors_data {N T : ℕ} {α β : Type} (hT : 0 < T) (strategy : String)
    (hs : strategy = "concat" ∨ strategy = "separate") (lists : Bool) (x : Fin N → Fin T → α) (ds : Fin N → Fin T → β) :
    processUses strategy (some T) [if lists then useList x else useTensor x] [[if lists then useList ds else useTensor ds]] =
      .ok ([(List.ofFn fun t => List.ofFn fun n => x n t).flatten], [[(List.ofFn fun t => List.ofFn fun n => ds n t).flatten]],
        T) := by
  have key : ∀ {γ : Type} (y : Fin N → Fin T → γ),
      processSources strategy (some T) [[if lists then useList y else useTensor y]] =
        .ok ([[(List.ofFn fun t => List.ofFn fun n => y n t).flatten]], some T) := by
    intro γ y
    cases lists with
    | false => rfl
    | true =>
      have hne : ¬ (List.ofFn fun t => List.ofFn fun n => y n t).isEmpty = true := by
        rw [List.isEmpty_iff, List.ofFn_eq_nil_iff]; omega
      have hm : mergeUses strategy T [List.ofFn fun t => List.ofFn fun n => y n t] =
          .ok [(List.ofFn fun t => List.ofFn fun n => y n t).flatten] := by
        rcases hs with rfl | rfl
        · have hz : (zipStar T [List.ofFn fun t => List.ofFn fun n => y n t]).flatten =
              List.ofFn fun t => List.ofFn fun n => y n t := by
            have h1 : zipStar T [List.ofFn fun t => List.ofFn fun n => y n t] =
                (List.ofFn fun t => List.ofFn fun n => y n t).map fun l => [l] := by
              apply List.ext_getElem
              · simp [zipStar]
              · intro i h1 h2
                simp [zipStar] at h1 ⊢
                simp [h1]
            rw [h1, ← List.flatMap_def, List.flatMap_singleton']
          rw [mergeUses, if_pos rfl, hz, partitioned, if_neg hne]
          rfl
        · rw [mergeUses, if_neg (by decide), if_pos rfl, List.mapM_cons, partitioned, if_neg hne]
          rfl
      simp only [processSources, useList, if_true, List.length_ofFn, List.flatten_cons, List.flatten_nil, List.append_nil,
        sameLength, List.mapM_cons, List.map_cons, List.map_nil, UseData.lists, hm]
      simp [bind, Except.bind, pure, Except.pure]
  simp only [processUses, key, bind, Except.bind]
  rfl

/-- Where the assumptions of the "independence across time" approximation hold on the batch, `T` (the coefficient of the
block) times the Kronecker product of the two factors is the mean outer product of the true per-example gradients by
the stacked weights and bias. The assumptions: products of inputs and products of output derivatives are
uncorrelated; the derivatives of different uses are uncorrelated; and the second moments of the inputs, or those of the
derivatives, are the same for all uses. -/
theorem C82_exact {N T p q : ℕ} (bias : Bool) (x : Fin N → Fin T → Fin p → ℝ) (L : Fin N → (Fin T × Fin q → ℝ) → ℝ)
    (θ : (Fin p × Fin q) ⊕ Fin q → ℝ) (ds : Fin N → Fin T × Fin q → ℝ)
    (h : ∀ n, IsGrad (L n) (fcUsed bias T θ (x n)) (ds n))
    (a : Fin N → Fin T → Fin (p + bias.toNat) → ℝ) (ha : a = fun n t => appendHomog bias (x n t))
    (uncorrelated : ∀ t t' r r' j j', batchMean (fun n => a n t r * a n t' r' * (ds n (t, j) * ds n (t', j'))) =
      batchMean (fun n => a n t r * a n t' r') * batchMean (fun n => ds n (t, j) * ds n (t', j')))
    (temporal : ∀ t t' j j', t ≠ t' → batchMean (fun n => ds n (t, j) * ds n (t', j')) = 0)
    (homogeneous : (∃ Ω : Fin (p + bias.toNat) → Fin (p + bias.toNat) → ℝ, ∀ t r r',
        batchMean (fun n => a n t r * a n t r') = Ω r r') ∨
      ∃ Γ : Fin q → Fin q → ℝ, ∀ t j j', batchMean (fun n => ds n (t, j) * ds n (t, j')) = Γ j j') :
    ∃ g : Fin N → (Fin p × Fin q) ⊕ Fin q → ℝ,
      (∀ n, IsGrad (fun θ => L n (fcUsed bias T θ (x n))) θ (g n)) ∧
      ∀ r j r' j', batchMean (fun n => g n (stackedAt bias r j) * g n (stackedAt bias r' j')) =
        T * (homogCov bias (List.ofFn fun t => List.ofFn fun n => x n t).flatten r r' *
          computeCov (List.ofFn fun t => List.ofFn fun n j => ds n (t, j)).flatten j j') := by
  refine ⟨fun n => fcUsedGrad bias (x n) (ds n), fun n => fcUsedGrad_isGrad bias (x n) (L n) θ (ds n) (h n), fun r j r' j' => ?_⟩
  have hA : homogCov bias (List.ofFn fun t => List.ofFn fun n => x n t).flatten r r' =
      (∑ t, batchMean fun n => a n t r * a n t r') / T := by
    rw [homogCov, computeCov_apply, List.map_map, List.length_map, length_grid, ← mean_used,
      show ((fun y : Fin (p + bias.toNat) → ℝ => y r * y r') ∘ appendHomog bias) =
        fun y => appendHomog bias y r * appendHomog bias y r' from rfl, used_cov, ha]
  have hG : computeCov (List.ofFn fun t => List.ofFn fun n j => ds n (t, j)).flatten j j' =
      (∑ t, batchMean fun n => ds n (t, j) * ds n (t, j')) / T := by
    rw [computeCov_apply, length_grid, ← mean_used, used_cov (fun n t j => ds n (t, j))]
  have h1 : batchMean (fun n => fcUsedGrad bias (x n) (ds n) (stackedAt bias r j) *
      fcUsedGrad bias (x n) (ds n) (stackedAt bias r' j')) =
      ∑ t, ∑ t', batchMean (fun n => a n t r * a n t' r' * (ds n (t, j) * ds n (t', j'))) := by
    simp only [fcUsedGrad_at, batchMean, ← Finset.sum_div, Finset.sum_mul_sum, ha]
    rw [Finset.sum_comm]
    congr 1
    refine Finset.sum_congr rfl fun t _ => ?_
    rw [Finset.sum_comm]
    refine Finset.sum_congr rfl fun t' _ => Finset.sum_congr rfl fun n _ => ?_
    ring
  have h2 : ∀ t, ∑ t', batchMean (fun n => a n t r * a n t' r' * (ds n (t, j) * ds n (t', j'))) =
      batchMean (fun n => a n t r * a n t r') * batchMean (fun n => ds n (t, j) * ds n (t, j')) := by
    intro t
    rw [Finset.sum_eq_single t]
    · exact uncorrelated _ _ _ _ _ _
    · intro t' _ ht
      rw [uncorrelated, temporal t t' j j' (Ne.symm ht), mul_zero]
    · simp
  rw [h1, hA, hG]
  simp only [h2]
  rcases Nat.eq_zero_or_pos T with rfl | hT
  · simp
  have hT' : (T : ℝ) ≠ 0 := by exact_mod_cast hT.ne'
  rcases homogeneous with ⟨Ω, hΩ⟩ | ⟨Γ, hΓ⟩
  · simp only [hΩ, ← Finset.mul_sum, Finset.sum_const, Finset.card_univ, Fintype.card_fin, nsmul_eq_mul]
    field_simp
  · simp only [hΓ, ← Finset.sum_mul, Finset.sum_const, Finset.card_univ, Fintype.card_fin, nsmul_eq_mul]
    field_simp

/-- A layer used once: if products of inputs and products of output derivatives are uncorrelated over the batch, the
Kronecker product of the factors is the mean outer product of the true gradients. -/
theorem C82_single_use {N p q : ℕ} (bias : Bool) (x : Fin N → Fin p → ℝ) (L : Fin N → (Fin q → ℝ) → ℝ)
    (θ : (Fin p × Fin q) ⊕ Fin q → ℝ) (ds : Fin N → Fin q → ℝ) (h : ∀ n, IsGrad (L n) (fcLayer bias θ (x n)) (ds n))
    (uncorrelated : ∀ r r' j j', batchMean (fun n => appendHomog bias (x n) r * appendHomog bias (x n) r' * (ds n j * ds n j')) =
      batchMean (fun n => appendHomog bias (x n) r * appendHomog bias (x n) r') * batchMean (fun n => ds n j * ds n j')) :
    ∃ g : Fin N → (Fin p × Fin q) ⊕ Fin q → ℝ, (∀ n, IsGrad (fun θ => L n (fcLayer bias θ (x n))) θ (g n)) ∧
      ∀ r j r' j', batchMean (fun n => g n (stackedAt bias r j) * g n (stackedAt bias r' j')) =
        homogCov bias (List.ofFn x) r r' * computeCov (List.ofFn ds) j j' := by
  refine ⟨fun n k => match k with
    | .inl (i, j) => x n i * ds n j
    | .inr j => if bias then ds n j else 0, fun n => ?_, fun r j r' j' => ?_⟩
  · have := IsGrad.affine (layer := fun θ => fcLayer bias θ (x n))
      (fun k o => match k with
        | .inl (i, j) => if j = o then x n i else 0
        | .inr j => if bias = true ∧ j = o then 1 else 0) (fun _ => 0)
      (fun θ o => by
        simp only [fcLayer, Fintype.sum_sum_type, Fintype.sum_prod_type, mul_ite, mul_zero, mul_one, add_zero]
        congr 1
        · refine Finset.sum_congr rfl fun i _ => ?_
          simp [mul_comm]
        · cases bias <;> simp) (h n)
    convert this using 1
    funext k
    rcases k with ⟨i, j⟩ | j
    · simp [mul_comm]
    · cases bias <;> simp
  · have e : ∀ n (r : Fin (p + bias.toNat)) j, (match stackedAt bias r j with
        | .inl (i, j) => x n i * ds n j
        | .inr j => if bias then ds n j else 0) = appendHomog bias (x n) r * ds n j := by
      intro n r j
      refine Fin.addCases (fun i => ?_) (fun b => ?_) r
      · simp [stackedAt, appendHomog_left]
      · have hb : bias = true := by cases bias <;> [exact b.elim0; rfl]
        simp [stackedAt, appendHomog_right, hb]
    simp only [e]
    simp only [homogCov, computeCov_apply, List.map_map, List.map_ofFn, List.sum_ofFn, List.length_map, List.length_ofFn]
    have := uncorrelated r r' j j'
    simp only [batchMean, Function.comp_apply] at this ⊢
    rw [← this]
    congr 1
    refine Finset.sum_congr rfl fun n _ => ?_
    ring

/-- In particular a single example is always represented exactly. -/
theorem C82_single_example {p q : ℕ} (bias : Bool) (x : Fin p → ℝ) (L : (Fin q → ℝ) → ℝ)
    (θ : (Fin p × Fin q) ⊕ Fin q → ℝ) (ds : Fin q → ℝ) (h : IsGrad L (fcLayer bias θ x) ds) :
    ∃ g : (Fin p × Fin q) ⊕ Fin q → ℝ, IsGrad (fun θ => L (fcLayer bias θ x)) θ g ∧
      ∀ r j r' j', g (stackedAt bias r j) * g (stackedAt bias r' j') =
        homogCov bias [x] r r' * computeCov [ds] j j' := by
  obtain ⟨g, h1, h2⟩ := C82_single_use (N := 1) bias (fun _ => x) (fun _ => L) θ (fun _ => ds) (fun _ => h)
    (fun r r' j j' => by simp [batchMean])
  refine ⟨g 0, h1 0, fun r j r' j' => ?_⟩
  have := h2 r j r' j'
  simpa [batchMean] using this

/-- Two examples, a layer used twice on constant inputs, with the derivatives `(1, 1)` and `(1, -1)`: the gradients are 2 and
0, their mean square is 2, the number of uses. -/
example : ∃ g : Fin 2 → (Fin 1 × Fin 1) ⊕ Fin 1 → ℝ,
    batchMean (fun n => g n (stackedAt false (0 : Fin 1) 0) * g n (stackedAt false (0 : Fin 1) 0)) = 2 * (1 * 1) := by
  let ds : Fin 2 → Fin 2 × Fin 1 → ℝ := fun n o => if n = 1 ∧ o.1 = 1 then -1 else 1
  obtain ⟨g, -, h⟩ := C82_exact (N := 2) (T := 2) (p := 1) (q := 1) false (fun _ _ _ => 1) (fun n s => ∑ o, ds n o * s o)
    (fun _ => 0) ds
    (fun n => by
      refine HasFDerivAt.congr_fderiv (HasFDerivAt.fun_sum fun o _ =>
        ((ContinuousLinearMap.proj (R := ℝ) (φ := fun _ : Fin 2 × Fin 1 => ℝ) o).hasFDerivAt.const_mul (ds n o))) rfl)
    _ rfl
    (by
      intro t t' r r' j j'
      have : ∀ r, appendHomog false (fun _ : Fin 1 => (1 : ℝ)) r = 1 := fun r => by
        rw [show r = Fin.castAdd _ (0 : Fin 1) from Subsingleton.elim (α := Fin 1) _ _, appendHomog_left]
      simp [batchMean, this])
    (by
      intro t t' l l' ht
      simp only [batchMean, ds, Fin.sum_univ_two]
      fin_cases t <;> fin_cases t' <;> simp at ht ⊢)
    (.inl ⟨fun _ _ => 1, fun t r r' => by
      have : ∀ r, appendHomog false (fun _ : Fin 1 => (1 : ℝ)) r = 1 := fun r => by
        rw [show r = Fin.castAdd _ (0 : Fin 1) from Subsingleton.elim (α := Fin 1) _ _, appendHomog_left]
      simp [batchMean, this]⟩)
  refine ⟨g, ?_⟩
  refine (h 0 0 0 0).trans ?_
  have h1 : appendHomog false (fun _ : Fin 1 => (1 : ℝ)) 0 = 1 := appendHomog_left false (fun _ : Fin 1 => (1 : ℝ)) 0
  have h2 : homogCov false (List.ofFn fun _ : Fin 2 => List.ofFn fun (_ : Fin 2) (_ : Fin 1) => (1 : ℝ)).flatten 0 0 = 1 := by
    rw [homogCov, computeCov_apply]
    simp [h1]
    norm_num
  have h3 : computeCov (List.ofFn fun t => List.ofFn fun n j => ds n (t, j)).flatten 0 0 = 1 := by
    rw [computeCov_apply, used_cov (fun n t j => ds n (t, j))]
    simp [ds, Fin.sum_univ_two]
    norm_num
  rw [h2, h3]
  norm_num

/-- Inputs 1 and 2 with equal derivatives are uncorrelated with them. -/
example : batchMean (fun n : Fin 2 => ((n : ℕ) + 1 : ℝ) * ((n : ℕ) + 1 : ℝ) * (3 * 3)) =
    batchMean (fun n : Fin 2 => ((n : ℕ) + 1 : ℝ) * ((n : ℕ) + 1 : ℝ)) * batchMean (fun _ : Fin 2 => (3 * 3 : ℝ)) := by
  simp [batchMean, Fin.sum_univ_two]
  norm_num

end Kfac.Grad
