import Verif.Loss.Model
import Mathlib.Algebra.BigOperators.Field
import Mathlib.Tactic.FieldSimp
import Mathlib.Tactic.Ring
import Mathlib.Tactic.Linarith
import Mathlib.Tactic.Positivity
import Mathlib.Tactic.NormNum

/-! Helper lemmas for the loss-function properties. -/

namespace Kfac.Loss
variable {B n : Nat}

theorem softmax_pos (x : Fin n → ℝ) (i : Fin n) : 0 < softmax x i := by
  have : 0 < ∑ j, Real.exp (x j) := Finset.sum_pos (fun j _ => Real.exp_pos _) ⟨i, Finset.mem_univ _⟩
  exact div_pos (Real.exp_pos _) this

theorem softmax_sum (x : Fin n → ℝ) (i : Fin n) : ∑ j, softmax x j = 1 := by
  have : 0 < ∑ j, Real.exp (x j) := Finset.sum_pos (fun j _ => Real.exp_pos _) ⟨i, Finset.mem_univ _⟩
  unfold softmax
  rw [← Finset.sum_div, div_self this.ne']

theorem sigmoid_pos (x : ℝ) : 0 < sigmoid x := by unfold sigmoid; positivity

theorem sigmoid_lt_one (x : ℝ) : sigmoid x < 1 := by
  unfold sigmoid
  rw [div_lt_one (by positivity)]
  have := Real.exp_pos (-x)
  linarith

theorem rpow_half_mul {a : ℝ} (h : 0 < a) : a ^ (-(1 / 2) : ℝ) * a ^ (-(1 / 2) : ℝ) = 1 / a := by
  rw [← Real.rpow_add h]
  norm_num
  rw [Real.rpow_neg_one]

/-- One case of the categorical Fisher: the factor identity. -/
theorem categorical_case (p q v : Fin n → ℝ) (hq : ∀ i, q i * q i = p i) (hp : ∑ i, p i = 1) (i : Fin n) :
    v i * p i - p i * ∑ j, v j * p j
      = q i * (q i * v i - q i * ∑ j, p j * v j)
        - p i * ∑ j, q j * (q j * v j - q j * ∑ k, p k * v k) := by
  have e : ∀ j, q j * (q j * v j - q j * ∑ k, p k * v k) = p j * v j - p j * ∑ k, p k * v k := by
    intro j; rw [← hq j]; ring
  rw [e i]
  simp only [e, Finset.sum_sub_distrib, ← Finset.sum_mul, hp]
  have e2 : ∑ j, v j * p j = ∑ j, p j * v j := Finset.sum_congr rfl fun j _ => mul_comm _ _
  rw [e2]; ring

theorem categorical_adj (p q u v : Fin n → ℝ) :
    ∑ i, u i * (q i * v i - p i * ∑ j, q j * v j)
      = ∑ i, (q i * u i - q i * ∑ j, p j * u j) * v i := by
  simp only [mul_sub, sub_mul, Finset.sum_sub_distrib]
  congr 1
  · exact Finset.sum_congr rfl fun i _ => by ring
  · have h1 : ∑ i, u i * (p i * ∑ j, q j * v j) = (∑ i, p i * u i) * ∑ j, q j * v j := by
      rw [Finset.sum_mul]; exact Finset.sum_congr rfl fun i _ => by ring
    have h2 : ∑ i, q i * (∑ j, p j * u j) * v i = (∑ i, p i * u i) * ∑ j, q j * v j := by
      rw [Finset.mul_sum]; exact Finset.sum_congr rfl fun i _ => by ring
    rw [h1, h2]

end Kfac.Loss
