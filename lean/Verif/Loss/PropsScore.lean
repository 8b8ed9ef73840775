import Verif.Loss.Score

/-!
# C14 (discrete losses): the Fisher product is the expected score product
-/

namespace Kfac.Loss
variable {B n : Nat}

/-- Changing one entry of a tensor. -/
def setEntry (x : Batch B n) (b : Fin B) (i : Fin n) (t : ℝ) : Batch B n :=
  Function.update x b (Function.update (x b) i t)

/-- The gradient of the loss on the given targets with respect to one logit. -/
noncomputable def Categorical.score (l : Categorical B n) (targets : Fin B → Fin n) : Batch B n :=
  fun b i => deriv (fun t => Categorical.evaluate ⟨setEntry l.logits b i t⟩ targets) (l.logits b i)

/-- The gradient of the loss on the given targets with respect to one logit. -/
noncomputable def MultiBernoulli.score (l : MultiBernoulli B n) (targets : Fin B × Fin n → Bool) :
    Batch B n :=
  fun b i => deriv (fun t => MultiBernoulli.evaluate ⟨setEntry l.logits b i t⟩ targets) (l.logits b i)

theorem Categorical.score_eq (l : Categorical B n) (y : Fin B → Fin n) (b : Fin B) (i : Fin n) :
    l.score y b i = softmax (l.logits b) i - (if y b = i then 1 else 0) := by
  have h : ∀ c, HasDerivAt (fun t => Real.log (softmax (setEntry l.logits b i t c) (y c)))
      (if c = b then (if y b = i then 1 else 0) - softmax (l.logits b) i else 0) (l.logits b i) := by
    intro c
    by_cases hc : c = b
    · subst hc
      simpa [setEntry] using hasDerivAt_log_softmax (l.logits c) (y c) i
    · simpa [setEntry, Function.update_of_ne hc, hc] using
        hasDerivAt_const (l.logits b i) (Real.log (softmax (l.logits c) (y c)))
  have h2 := (HasDerivAt.fun_sum fun c (_ : c ∈ Finset.univ) => h c).neg
  have h3 : l.score y b i = _ := h2.deriv
  rw [h3]
  simp

theorem MultiBernoulli.score_eq (l : MultiBernoulli B n) (y : Fin B × Fin n → Bool) (b : Fin B)
    (i : Fin n) : l.score y b i = sigmoid (l.logits b i) - (if y (b, i) then 1 else 0) := by
  have h : ∀ c : Fin B × Fin n, HasDerivAt (fun t => Real.log (if y c then
        sigmoid (setEntry l.logits b i t c.1 c.2) else 1 - sigmoid (setEntry l.logits b i t c.1 c.2)))
      (if c = (b, i) then (if y (b, i) then 1 else 0) - sigmoid (l.logits b i) else 0)
      (l.logits b i) := by
    intro c
    by_cases hc : c = (b, i)
    · subst hc
      simpa [setEntry] using hasDerivAt_log_bernoulli (l.logits b i) (y (b, i))
    · have e : ∀ t, setEntry l.logits b i t c.1 c.2 = l.logits c.1 c.2 := by
        intro t
        unfold setEntry
        by_cases h1 : c.1 = b
        · have h2 : c.2 ≠ i := fun h => hc (Prod.ext h1 h)
          subst h1
          simp [Function.update_of_ne h2]
        · simp [Function.update_of_ne h1]
      simp only [e, if_neg hc]
      exact hasDerivAt_const _ _
  have h2 := (HasDerivAt.fun_sum fun c (_ : c ∈ Finset.univ) => h c).neg
  have h3 : l.score y b i = _ := h2.deriv
  rw [h3]
  simp

/-- Categorical: with targets of all cases drawn independently from the predictive distribution, the
expectation of `score · ⟨score, v⟩` is `multiply_fisher(v)`. The sum ranges over all target vectors, whose
probability is the product of the softmax probabilities. -/
theorem C14_categorical (l : Categorical B n) (v : Batch B n) (b : Fin B) (i : Fin n) :
    l.multiplyFisher v b i = ∑ y : Fin B → Fin n, (∏ c, softmax (l.logits c) (y c)) *
      (l.score y b i * ∑ b', ∑ j, l.score y b' j * v b' j) := by
  have hsum : ∀ c, ∑ k, softmax (l.logits c) k = 1 := fun c => softmax_sum _ i
  have hmean : ∀ c j, ∑ k, softmax (l.logits c) k * (softmax (l.logits c) j - if k = j then 1 else 0)
      = 0 := by
    intro c j
    simp only [mul_sub, Finset.sum_sub_distrib, ← Finset.sum_mul, hsum, mul_ite, mul_one, mul_zero,
      Finset.sum_ite_eq', Finset.mem_univ, if_true]
    ring
  have hpair : ∀ b' j, ∑ y : Fin B → Fin n, (∏ c, softmax (l.logits c) (y c)) *
      (l.score y b i * l.score y b' j)
      = if b = b' then ∑ k, softmax (l.logits b) k *
          ((softmax (l.logits b) i - if k = i then 1 else 0) *
            (softmax (l.logits b') j - if k = j then 1 else 0)) else 0 := by
    intro b' j
    simp only [Categorical.score_eq]
    rw [expect_pair (fun c k => softmax (l.logits c) k) hsum b b'
      (fun k => softmax (l.logits b) i - if k = i then 1 else 0)
      (fun k => softmax (l.logits b') j - if k = j then 1 else 0)]
    congr 1
    rw [hmean, hmean, mul_zero]
  have e1 : ∀ y : Fin B → Fin n, (∏ c, softmax (l.logits c) (y c)) *
      (l.score y b i * ∑ b', ∑ j, l.score y b' j * v b' j)
      = ∑ b', ∑ j, v b' j * ((∏ c, softmax (l.logits c) (y c)) *
        (l.score y b i * l.score y b' j)) := by
    intro y
    simp only [Finset.mul_sum]
    exact Finset.sum_congr rfl fun _ _ => Finset.sum_congr rfl fun _ _ => by ring
  rw [Finset.sum_congr rfl fun y _ => e1 y, Finset.sum_comm]
  have e2 : ∀ b', ∑ y : Fin B → Fin n, ∑ j, v b' j * ((∏ c, softmax (l.logits c) (y c)) *
      (l.score y b i * l.score y b' j))
      = ∑ j, v b' j * if b = b' then ∑ k, softmax (l.logits b) k *
          ((softmax (l.logits b) i - if k = i then 1 else 0) *
            (softmax (l.logits b') j - if k = j then 1 else 0)) else 0 := by
    intro b'
    rw [Finset.sum_comm]
    exact Finset.sum_congr rfl fun j _ => by rw [← Finset.mul_sum, hpair]
  rw [Finset.sum_congr rfl fun b' _ => e2 b', Finset.sum_eq_single b]
  · simp only [if_true]
    have e3 : ∀ j, ∑ k, softmax (l.logits b) k *
        ((softmax (l.logits b) i - if k = i then 1 else 0) *
          (softmax (l.logits b) j - if k = j then 1 else 0))
        = (if i = j then softmax (l.logits b) i else 0)
          - softmax (l.logits b) i * softmax (l.logits b) j := by
      intro j
      have : ∀ k, softmax (l.logits b) k *
        ((softmax (l.logits b) i - if k = i then 1 else 0) *
          (softmax (l.logits b) j - if k = j then 1 else 0))
          = softmax (l.logits b) i * (softmax (l.logits b) k *
              (softmax (l.logits b) j - if k = j then 1 else 0))
            - (if k = i then softmax (l.logits b) k *
              (softmax (l.logits b) j - if k = j then 1 else 0) else 0) := by
        intro k; split <;> ring
      rw [Finset.sum_congr rfl fun k _ => this k, Finset.sum_sub_distrib, ← Finset.mul_sum, hmean,
        Finset.sum_ite_eq']
      simp only [Finset.mem_univ, if_true]
      split <;> ring
    simp only [e3]
    simp only [Categorical.multiplyFisher, Categorical.probs, mul_sub, Finset.sum_sub_distrib,
      mul_ite, mul_zero, Finset.sum_ite_eq, Finset.mem_univ, if_true, Finset.mul_sum]
    congr 1
    exact Finset.sum_congr rfl fun _ _ => by ring
  · intro b' _ hb'
    simp only [if_neg (Ne.symm hb'), mul_zero, Finset.sum_const_zero]
  · simp

/-- Multi-Bernoulli: the same, over all independent 0/1 targets. -/
theorem C14_multi_bernoulli (l : MultiBernoulli B n) (v : Batch B n) (b : Fin B) (i : Fin n) :
    l.multiplyFisher v b i = ∑ y : Fin B × Fin n → Bool,
      (∏ c, if y c then sigmoid (l.logits c.1 c.2) else 1 - sigmoid (l.logits c.1 c.2)) *
      (l.score y b i * ∑ b', ∑ j, l.score y b' j * v b' j) := by
  let p : Fin B × Fin n → Bool → ℝ := fun c k =>
    if k then sigmoid (l.logits c.1 c.2) else 1 - sigmoid (l.logits c.1 c.2)
  have hp : ∀ c, ∑ k, p c k = 1 := by intro c; simp [p]
  have hpair : ∀ b' j, ∑ y : Fin B × Fin n → Bool, (∏ c, p c (y c)) * (l.score y b i * l.score y b' j)
      = if (b, i) = (b', j) then sigmoid (l.logits b i) * (1 - sigmoid (l.logits b i)) else 0 := by
    intro b' j
    simp only [MultiBernoulli.score_eq]
    rw [expect_pair p hp (b, i) (b', j)
      (fun k => sigmoid (l.logits b i) - if k then 1 else 0)
      (fun k => sigmoid (l.logits b' j) - if k then 1 else 0)]
    by_cases h : (b, i) = (b', j)
    · rw [if_pos h, if_pos h]
      obtain ⟨rfl, rfl⟩ := Prod.mk.inj h
      simp [p]; ring
    · rw [if_neg h, if_neg h]
      have : ∑ k, p (b, i) k * (sigmoid (l.logits b i) - if k then 1 else 0) = 0 := by
        simp [p]; ring
      rw [this, zero_mul]
  have e1 : ∀ y : Fin B × Fin n → Bool, (∏ c, p c (y c)) *
      (l.score y b i * ∑ b', ∑ j, l.score y b' j * v b' j)
      = ∑ b', ∑ j, v b' j * ((∏ c, p c (y c)) * (l.score y b i * l.score y b' j)) := by
    intro y
    simp only [Finset.mul_sum]
    exact Finset.sum_congr rfl fun _ _ => Finset.sum_congr rfl fun _ _ => by ring
  show _ = ∑ y : Fin B × Fin n → Bool, (∏ c, p c (y c)) *
      (l.score y b i * ∑ b', ∑ j, l.score y b' j * v b' j)
  rw [Finset.sum_congr rfl fun y _ => e1 y, Finset.sum_comm]
  have e2 : ∀ b', ∑ y : Fin B × Fin n → Bool, ∑ j, v b' j * ((∏ c, p c (y c)) *
      (l.score y b i * l.score y b' j))
      = ∑ j, v b' j * if (b, i) = (b', j) then sigmoid (l.logits b i) * (1 - sigmoid (l.logits b i))
        else 0 := by
    intro b'
    rw [Finset.sum_comm]
    exact Finset.sum_congr rfl fun j _ => by rw [← Finset.mul_sum, hpair]
  rw [Finset.sum_congr rfl fun b' _ => e2 b', Finset.sum_eq_single b]
  · rw [Finset.sum_eq_single i]
    · simp only [if_true, MultiBernoulli.multiplyFisher, MultiBernoulli.probs]; ring
    · intro j _ hj
      rw [if_neg (by simp [Ne.symm hj]), mul_zero]
    · simp
  · intro b' _ hb'
    apply Finset.sum_eq_zero
    intro j _
    rw [if_neg (by simp [Ne.symm hb']), mul_zero]
  · simp

/-- The score has mean zero under the model's own predictions (so its second moment above is its
covariance). -/
theorem C14_score_mean_zero (l : Categorical B n) (b : Fin B) (i : Fin n) :
    ∑ y : Fin B → Fin n, (∏ c, softmax (l.logits c) (y c)) * l.score y b i = 0 := by
  have hsum : ∀ c, ∑ k, softmax (l.logits c) k = 1 := fun c => softmax_sum _ i
  have h := expect_pair (fun c k => softmax (l.logits c) k) hsum b b
      (fun k => softmax (l.logits b) i - if k = i then 1 else 0) (fun _ => 1)
  simp only [mul_one, if_true] at h
  simp only [Categorical.score_eq]
  rw [h]
  simp only [mul_sub, Finset.sum_sub_distrib, ← Finset.sum_mul, hsum, mul_ite, mul_one, mul_zero,
      Finset.sum_ite_eq', Finset.mem_univ, if_true]
  ring

end Kfac.Loss
