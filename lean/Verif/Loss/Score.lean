import Verif.Loss.Lemmas
import Mathlib.Analysis.SpecialFunctions.ExpDeriv
import Mathlib.Analysis.SpecialFunctions.Log.Deriv
import Mathlib.Analysis.SpecialFunctions.Sqrt
import Mathlib.Algebra.BigOperators.Ring.Finset
import Mathlib.Data.Fintype.BigOperators

/-! Evaluating the discrete losses, and expectations over independent targets. -/

namespace Kfac.Loss
variable {B n : Nat}

/-! ### Model: `_evaluate` (loss_functions.py 363-364) -/

/-- `-reduce_sum(dist.log_prob(targets))` with TFP's categorical distribution: the log-probability of a
target is the log of its softmax probability. -/
noncomputable def Categorical.evaluate (l : Categorical B n) (targets : Fin B → Fin n) : ℝ :=
  -∑ b, Real.log (softmax (l.logits b) (targets b))

/-- The same with independent Bernoullis. -/
noncomputable def MultiBernoulli.evaluate (l : MultiBernoulli B n) (targets : Fin B × Fin n → Bool) : ℝ :=
  -∑ c, Real.log (if targets c then sigmoid (l.logits c.1 c.2) else 1 - sigmoid (l.logits c.1 c.2))

/-! ### Expectations over independent coordinates -/

/-- Expectation of a product of functions of two coordinates of independent discrete variables. -/
theorem expect_pair {ι κ : Type} [Fintype ι] [DecidableEq ι] [Fintype κ] (p : ι → κ → ℝ)
    (hp : ∀ i, ∑ k, p i k = 1) (b b' : ι) (f g : κ → ℝ) :
    ∑ y : ι → κ, (∏ i, p i (y i)) * (f (y b) * g (y b'))
      = if b = b' then ∑ k, p b k * (f k * g k) else (∑ k, p b k * f k) * ∑ k, p b' k * g k := by
  have h1 : ∀ y : ι → κ, (∏ i, p i (y i)) * (f (y b) * g (y b'))
      = ∏ i, p i (y i) * ((if i = b then f (y i) else 1) * (if i = b' then g (y i) else 1)) := by
    intro y
    rw [Finset.prod_mul_distrib, Finset.prod_mul_distrib, Finset.prod_ite_eq' , Finset.prod_ite_eq']
    simp
  have h2 := Finset.prod_univ_sum (fun _ : ι => (Finset.univ : Finset κ))
    (fun i k => p i k * ((if i = b then f k else 1) * (if i = b' then g k else 1)))
  rw [Fintype.piFinset_univ] at h2
  rw [Finset.sum_congr rfl fun y _ => h1 y, ← h2]
  have hone : ∀ i, i ≠ b → i ≠ b' →
      ∑ k, p i k * ((if i = b then f k else 1) * (if i = b' then g k else 1)) = 1 := by
    intro i hi hi'
    simp only [if_neg hi, if_neg hi', mul_one, hp]
  by_cases hb : b = b'
  · subst hb
    rw [Finset.prod_eq_single b (fun i _ hi => hone i hi hi) (by simp)]
    simp
  · rw [Finset.prod_eq_mul b b' hb (fun i _ hi => hone i hi.1 hi.2) (by simp) (by simp)]
    simp only [if_true, if_neg hb, if_neg (Ne.symm hb), mul_one, one_mul]

/-! ### Derivatives -/

theorem log_softmax (x : Fin n → ℝ) (y : Fin n) :
    Real.log (softmax x y) = x y - Real.log (∑ j, Real.exp (x j)) := by
  have : 0 < ∑ j, Real.exp (x j) := Finset.sum_pos (fun j _ => Real.exp_pos _) ⟨y, Finset.mem_univ _⟩
  rw [softmax, Real.log_div (Real.exp_pos _).ne' this.ne', Real.log_exp]

/-- The derivative of the log-probability of `y` with respect to logit `i`. -/
theorem hasDerivAt_log_softmax (x : Fin n → ℝ) (y i : Fin n) :
    HasDerivAt (fun t => Real.log (softmax (Function.update x i t) y))
      ((if y = i then 1 else 0) - softmax x i) (x i) := by
  simp only [log_softmax]
  have h1 : ∀ j, HasDerivAt (fun t => Function.update x i t j) (if j = i then 1 else 0) (x i) := by
    intro j
    by_cases h : j = i
    · subst h; simpa using hasDerivAt_id' (x j)
    · simpa [Function.update_of_ne h, h] using hasDerivAt_const (x i) (x j)
  have hpos : 0 < ∑ j, Real.exp (Function.update x i (x i) j) :=
    Finset.sum_pos (fun j _ => Real.exp_pos _) ⟨y, Finset.mem_univ _⟩
  have h2 : HasDerivAt (fun t => ∑ j, Real.exp (Function.update x i t j))
      (∑ j, Real.exp (Function.update x i (x i) j) * if j = i then 1 else 0) (x i) :=
    HasDerivAt.fun_sum fun j _ => (h1 j).exp
  have h3 := (h1 y).sub (h2.log hpos.ne')
  have e : softmax x i = (∑ j, Real.exp (Function.update x i (x i) j) * if j = i then 1 else 0)
      / ∑ j, Real.exp (Function.update x i (x i) j) := by
    rw [softmax]
    simp [Function.update_eq_self]
  rw [e]
  exact h3

theorem hasDerivAt_sigmoid (x : ℝ) : HasDerivAt sigmoid (sigmoid x * (1 - sigmoid x)) x := by
  have h1 : HasDerivAt (fun t => 1 + Real.exp (-t)) (Real.exp (-x) * (-1)) x := by
    simpa using ((hasDerivAt_id x).neg.exp).const_add 1
  have hpos : 0 < 1 + Real.exp (-x) := by positivity
  have h2 := (hasDerivAt_const x (1 : ℝ)).div h1 hpos.ne'
  have e : sigmoid x * (1 - sigmoid x)
      = (0 * (1 + Real.exp (-x)) - 1 * (Real.exp (-x) * -1)) / (1 + Real.exp (-x)) ^ 2 := by
    unfold sigmoid; field_simp; ring
  rw [e]
  exact h2

theorem hasDerivAt_log_bernoulli (x : ℝ) (y : Bool) :
    HasDerivAt (fun t => Real.log (if y then sigmoid t else 1 - sigmoid t))
      ((if y then 1 else 0) - sigmoid x) x := by
  have h0 := sigmoid_pos x
  have h1 := sigmoid_lt_one x
  cases y with
  | true =>
    have h := (hasDerivAt_sigmoid x).log h0.ne'
    have e : (1 : ℝ) - sigmoid x = sigmoid x * (1 - sigmoid x) / sigmoid x := by field_simp
    simp only [if_true]
    rw [e]; exact h
  | false =>
    have hne : 1 - sigmoid x ≠ 0 := by linarith
    have h := ((hasDerivAt_sigmoid x).const_sub 1).log hne
    have e : (0 : ℝ) - sigmoid x = -(sigmoid x * (1 - sigmoid x)) / (1 - sigmoid x) := by
      field_simp; ring
    simp only [Bool.false_eq_true, if_false]
    rw [e]; exact h

end Kfac.Loss
