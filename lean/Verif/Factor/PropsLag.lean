import Verif.Factor.RnnLemmas

/-! # C64: the lag-one statistics -/

namespace Kfac.Factor

open Matrix Kfac.Stats

variable {n : ℕ}

/-- The time-major tensor `[T * B, n]` whose row `t * B + b` is `x t b`. -/
def timeMajor (T B : ℕ) (x : ℕ → ℕ → Fin n → ℝ) : Rows n :=
  (List.range T).flatMap fun t => (List.range B).map (x t)

theorem timeMajor_length (T B : ℕ) (x : ℕ → ℕ → Fin n → ℝ) : (timeMajor T B x).length = T * B := by
  simp [timeMajor, List.length_flatMap]

theorem timeMajor_drop (S B : ℕ) (x : ℕ → ℕ → Fin n → ℝ) :
    (timeMajor (S + 1) B x).drop B = timeMajor S B fun t => x (t + 1) := by
  rw [timeMajor, List.range_succ_eq_map, List.flatMap_cons, List.drop_append_of_le_length (by simp),
    List.drop_eq_nil_of_le (by simp), List.nil_append, List.flatMap_map, timeMajor]

theorem timeMajor_take (S B : ℕ) (x : ℕ → ℕ → Fin n → ℝ) :
    (timeMajor (S + 1) B x).take (S * B) = timeMajor S B x := by
  have h : timeMajor (S + 1) B x = timeMajor S B x ++ (List.range B).map (x S) := by
    simp [timeMajor, List.range_succ]
  rw [h, List.take_append_of_le_length (by rw [timeMajor_length]), List.take_of_length_le (by rw [timeMajor_length])]

theorem timeMajor_zip (S B : ℕ) (x y : ℕ → ℕ → Fin n → ℝ) (i j : Fin n) :
    ((List.zip (timeMajor S B x) (timeMajor S B y)).map fun p => p.1 i * p.2 j).sum =
      ∑ t ∈ Finset.range S, ∑ b ∈ Finset.range B, x t b i * y t b j := by
  induction S with
  | zero => simp [timeMajor]
  | succ S ih =>
    have h : ∀ z : ℕ → ℕ → Fin n → ℝ,
        timeMajor (S + 1) B z = timeMajor S B z ++ (List.range B).map (z S) := fun z => by
      simp [timeMajor, List.range_succ]
    rw [h, h, List.zip_append (by simp [timeMajor_length]), List.map_append, List.sum_append, ih,
      Finset.sum_range_succ]
    congr 1
    rw [List.zip_map', List.map_map]
    clear ih h
    induction B with
    | zero => simp
    | succ B ih => rw [List.range_succ, List.map_append, List.sum_append, ih, Finset.sum_range_succ]; simp

/-- C64: on a time-major tensor of `T ≥ 1` steps and any batch size, the lag-one statistic is the sum of the products
of each step with the step before it, of the same example, divided by the number of rows. -/
theorem C64_lag_statistic (T B : ℕ) (hT : 0 < T) (x : ℕ → ℕ → Fin n → ℝ) (i j : Fin n) :
    newCovDt1 T (timeMajor T B x) i j =
      (∑ t ∈ Finset.range (T - 1), ∑ b ∈ Finset.range B, x (t + 1) b i * x t b j) / (T * B : ℕ) := by
  obtain ⟨S, rfl⟩ : ∃ S, T = S + 1 := ⟨T - 1, by omega⟩
  have hb : (S + 1) * B / (S + 1) = B := Nat.mul_div_cancel_left _ hT
  have hs : (S + 1) * B - B = S * B := by rw [Nat.succ_mul]; omega
  simp only [newCovDt1, crossCov, timeMajor_length, hb, hs, timeMajor_drop, timeMajor_take, timeMajor_zip,
    Nat.add_sub_cancel]

/-- Three steps of two examples with values `10 t + b`: `(10·0 + 11·1 + 20·10 + 21·11) / 6`. -/
example : newCovDt1 3 (timeMajor 3 2 fun t b => fun _ : Fin 1 => (10 * t + b : ℝ)) 0 0 = 442 / 6 := by
  rw [C64_lag_statistic 3 2 (by norm_num)]
  norm_num [Finset.sum_range_succ]

end Kfac.Factor
