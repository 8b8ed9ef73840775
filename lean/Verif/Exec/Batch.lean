import Verif.Exec.Model
import Mathlib.Data.List.Nodup
import Mathlib.Tactic.Ring
import Mathlib.Algebra.BigOperators.Fin
import Mathlib.Data.Nat.Periodic
import Mathlib.Data.Finset.Range

/-! Arithmetic behind `batch_execute`. -/

namespace Kfac.Exec

theorem batchCondition_eq (t b n j : Nat) (hj : j < n) :
    batchCondition t b n j = decide ((t * b + n - 1 - j + b) % n < b) := by
  unfold batchCondition
  have h : ((b : Int) - 1 + t * b - j) % n = ((t * b + n - 1 - j + b) % n : Nat) := by
    have : (((t * b + n - 1 - j + b : Nat) : Int)) = ((b : Int) - 1 + t * b - j) + n := by
      have : t * b + n - 1 - j + b + 1 + j = t * b + n + b := by omega
      have h2 := congrArg (Nat.cast (R := Int)) this
      push_cast at h2
      omega
    rw [Int.natCast_mod, this, Int.add_emod_right]
  rw [h]
  congr 1
  exact propext (by norm_cast)

theorem div_step (x b n : Nat) (hb : b ≤ n) (hn : 0 < n) :
    (x + b) / n = x / n + if (x + b) % n < b then 1 else 0 := by
  have h1 := Nat.div_add_mod x n
  have h2 := Nat.mod_lt x hn
  have e : (x + b) = x % n + b + n * (x / n) := by omega
  have e1 : (x + b) / n = (x % n + b) / n + x / n := by
    conv_lhs => rw [e]
    rw [Nat.add_mul_div_left _ _ hn]
  have e2 : (x + b) % n = (x % n + b) % n := by
    conv_lhs => rw [e]
    rw [Nat.add_mul_mod_self_left]
  rw [e1, e2]
  by_cases h : x % n + b < n
  · rw [Nat.div_eq_of_lt h, Nat.mod_eq_of_lt h, if_neg (by omega)]; omega
  · have h3 : x % n + b = (x % n + b - n) + n := by omega
    rw [h3, Nat.add_div_right _ hn, Nat.add_mod_right]
    by_cases h4 : x % n + b - n < n
    · rw [Nat.div_eq_of_lt h4, Nat.mod_eq_of_lt h4, if_pos (by omega)]; omega
    · omega

/-- Number of executions of thunk `j` in `k` steps from step `s`. -/
def runs (b n s k j : Nat) : Nat :=
  ((List.range k).filter fun t => decide (j ∈ batchExecute (s + t) b n)).length

theorem mem_batchExecute (t b n j : Nat) :
    j ∈ batchExecute t b n ↔ j < n ∧ batchCondition t b n j = true := by
  simp [batchExecute]

theorem runs_succ (b n s k j : Nat) :
    runs b n s (k + 1) j = runs b n s k j + if j ∈ batchExecute (s + k) b n then 1 else 0 := by
  unfold runs
  rw [List.range_succ, List.filter_append, List.length_append]
  congr 1
  by_cases h : j ∈ batchExecute (s + k) b n <;> simp [h]

theorem runs_eq (b n s k j : Nat) (hb : b ≤ n) (hj : j < n) :
    runs b n s k j + (s * b + n - 1 - j) / n = (s * b + n - 1 - j + k * b) / n := by
  induction k with
  | zero => simp [runs]
  | succ k ih =>
    rw [runs_succ]
    have hx : s * b + n - 1 - j + (k + 1) * b = (s * b + n - 1 - j + k * b) + b := by ring
    have hy : (s + k) * b + n - 1 - j + b = (s * b + n - 1 - j + k * b) + b := by
      have : (s + k) * b = s * b + k * b := by ring
      omega
    rw [hx, div_step _ b n hb (by omega), ← ih]
    have : (j ∈ batchExecute (s + k) b n) ↔ ((s * b + n - 1 - j + k * b) + b) % n < b := by
      rw [mem_batchExecute, batchCondition_eq _ _ _ _ hj, hy]
      simp [hj]
    simp only [this]
    omega

theorem condition_of_large (t b n j : Nat) (hb : n < b) (hj : j < n) :
    j ∈ batchExecute t b n := by
  rw [mem_batchExecute, batchCondition_eq _ _ _ _ hj]
  have := Nat.mod_lt (t * b + n - 1 - j + b) (by omega : n > 0)
  simp only [hj, true_and, decide_eq_true_eq]
  omega

theorem runs_of_large (b n s k j : Nat) (hb : n < b) (hj : j < n) : runs b n s k j = k := by
  induction k with
  | zero => simp [runs]
  | succ k ih => rw [runs_succ, ih, if_pos (condition_of_large _ _ _ _ hb hj)]

theorem batchExecute_length (t b n : Nat) : (batchExecute t b n).length = min b n := by
  rcases Nat.eq_zero_or_pos n with rfl | hn
  · simp [batchExecute]
  by_cases hb : b ≤ n
  · rw [Nat.min_eq_left hb]
    have h1 : batchExecute t b n
        = (List.range n).filter fun j => decide ((t * b + n - 1 - j + b) % n < b) := by
      unfold batchExecute
      apply List.filter_congr
      intro j hj
      exact batchCondition_eq _ _ _ _ (List.mem_range.1 hj)
    rw [h1]
    have h2 : ((List.range n).filter fun j => decide ((t * b + n - 1 - j + b) % n < b)).length
        = ((Finset.range n).filter fun j => (t * b + n - 1 - j + b) % n < b).card := by
      simp [Finset.card, Finset.filter, Finset.range, Multiset.range]
    rw [h2]
    have h3 : ((Finset.range n).filter fun j => (t * b + n - 1 - j + b) % n < b).card
        = ((Finset.Ico (t * b + b) (t * b + b + n)).filter fun m => m % n < b).card := by
      apply Finset.card_bij (fun j _ => t * b + n - 1 - j + b)
      · intro j hj
        simp only [Finset.mem_filter, Finset.mem_range, Finset.mem_Ico] at hj ⊢
        exact ⟨⟨by omega, by omega⟩, hj.2⟩
      · intro j hj j' hj' h
        simp only [Finset.mem_filter, Finset.mem_range] at hj hj'
        omega
      · intro m hm
        simp only [Finset.mem_filter, Finset.mem_Ico] at hm
        refine ⟨t * b + b + n - 1 - m, ?_, ?_⟩
        · simp only [Finset.mem_filter, Finset.mem_range]
          have : t * b + n - 1 - (t * b + b + n - 1 - m) + b = m := by omega
          rw [this]
          exact ⟨by omega, hm.2⟩
        · omega
    rw [h3, Nat.filter_Ico_card_eq_of_periodic (t * b + b) n (fun m => m % n < b)
      (fun m => by simp), Nat.count_eq_card_filter_range]
    have h4 : (Finset.range n).filter (fun m => m % n < b) = Finset.range b := by
      ext m
      simp only [Finset.mem_filter, Finset.mem_range]
      constructor
      · rintro ⟨h, h'⟩; rwa [Nat.mod_eq_of_lt h] at h'
      · intro h
        have : m < n := by omega
        exact ⟨this, by rwa [Nat.mod_eq_of_lt this]⟩
    rw [h4, Finset.card_range]
  · rw [Nat.min_eq_right (by omega)]
    have : batchExecute t b n = List.range n := by
      unfold batchExecute
      apply List.filter_eq_self.2
      intro j hj
      have := condition_of_large t b n j (by omega) (List.mem_range.1 hj)
      exact ((mem_batchExecute _ _ _ _).1 this).2
    rw [this, List.length_range]

end Kfac.Exec
