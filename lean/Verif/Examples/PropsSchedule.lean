import Verif.Examples.Schedule
import Verif.Reader.Props
import Mathlib.Data.List.Perm.Subperm
import Mathlib.Tactic.Positivity
import Mathlib.Tactic.Linarith
import Mathlib.Tactic.FieldSimp

/-! # C120: growing mini-batches -/

namespace Kfac.Examples

open Kfac.Reader

/-- The exact size the schedule of the paper asks for at step `k`: from `start` to `max` in `target - 1` steps, each by the same
factor. -/
noncomputable def paperSize (target start max : ℕ) (k : ℕ) : ℝ :=
  (start : ℝ) * ((max : ℝ) / start) ^ ((k : ℝ) / (target - 1))

theorem two_rpow_eq {target start max : ℕ} (ht : 2 ≤ target) (hs : 0 < start) (hm : 0 < max)
    (hl : Real.logb 2 ((max : ℝ) / start) ≠ 0) (k : ℕ) :
    (2 : ℝ) ^ ((k : ℝ) / (((target : ℝ) - 1) / Real.logb 2 ((max : ℝ) / start))) * start = paperSize target start max k := by
  have hs' : (0 : ℝ) < start := by exact_mod_cast hs
  have hm' : (0 : ℝ) < max := by exact_mod_cast hm
  have ht' : (2 : ℝ) ≤ target := by exact_mod_cast ht
  have ht1 : (target : ℝ) - 1 ≠ 0 := by linarith
  have h1 : (k : ℝ) / (((target : ℝ) - 1) / Real.logb 2 ((max : ℝ) / start)) =
      Real.logb 2 ((max : ℝ) / start) * ((k : ℝ) / (target - 1)) := by field_simp
  rw [h1, Real.rpow_mul (by norm_num), Real.rpow_logb (by norm_num) (by norm_num) (by positivity), paperSize, mul_comm]

theorem logb_ne {start max : ℕ} (hs : 0 < start) (hm : 0 < max) (hne : max ≠ start) :
    Real.logb 2 ((max : ℝ) / start) ≠ 0 := by
  have hs' : (0 : ℝ) < start := by exact_mod_cast hs
  have hm' : (0 : ℝ) < max := by exact_mod_cast hm
  have hne' : (max : ℝ) ≠ start := by exact_mod_cast hne
  have hpos : (0 : ℝ) < max / start := by positivity
  rw [Ne, Real.logb_eq_zero]
  rintro (h | h | h | h | h | h)
  · norm_num at h
  · norm_num at h
  · norm_num at h
  · linarith
  · exact hne' ((div_eq_one_iff_eq hs'.ne').mp h)
  · linarith

theorem schedule_ok {target start max : ℕ} (ht : 2 ≤ target) (hs : 0 < start) (hm : 0 < max) (hne : max ≠ start) :
    batchSizeSchedule target start max = .ok ((List.range target).map fun k => min ⌊paperSize target start max k⌋₊ max) := by
  have hl := logb_ne hs hm hne
  rw [batchSizeSchedule, if_neg hm.ne', if_neg hl]
  refine congrArg Except.ok (List.map_congr_left fun k _ => ?_)
  rw [two_rpow_eq ht hs hm hl]

theorem batchSizeAt_schedule {target start max : ℕ} (ht : 2 ≤ target) (i : ℕ) :
    batchSizeAt ((List.range target).map fun k => min ⌊paperSize target start max k⌋₊ max) i =
      some (min ⌊paperSize target start max (min i (target - 1))⌋₊ max) := by
  simp only [batchSizeAt, List.length_map, List.length_range]
  rw [List.getElem?_map, List.getElem?_range (by omega)]
  rfl

theorem paperSize_zero (target start max : ℕ) : paperSize target start max 0 = start := by
  simp [paperSize]

theorem paperSize_last {target start max : ℕ} (ht : 2 ≤ target) (hs : 0 < start) :
    paperSize target start max (target - 1) = max := by
  have hs' : (start : ℝ) ≠ 0 := by exact_mod_cast hs.ne'
  have ht' : (2 : ℝ) ≤ target := by exact_mod_cast ht
  rw [paperSize, Nat.cast_sub (by omega), Nat.cast_one, div_self (by linarith), Real.rpow_one]
  field_simp

theorem paperSize_mono {target start max : ℕ} (ht : 2 ≤ target) (hs : 0 < start) (hsm : start ≤ max) {i j : ℕ} (h : i ≤ j) :
    paperSize target start max i ≤ paperSize target start max j := by
  have hs' : (0 : ℝ) < start := by exact_mod_cast hs
  have hm' : (start : ℝ) ≤ max := by exact_mod_cast hsm
  have ht' : (2 : ℝ) ≤ target := by exact_mod_cast ht
  have hij : (i : ℝ) ≤ j := by exact_mod_cast h
  refine mul_le_mul_of_nonneg_left ?_ hs'.le
  refine Real.rpow_le_rpow_of_exponent_le ((one_le_div hs').mpr hm') ?_
  exact div_le_div_of_nonneg_right hij (by linarith)

/-- C120 for more examples than the starting size (partial: not exactly `start` examples): the schedule exists; the mini-batch
at step `i` has the size the paper asks for, rounded down; the sizes start at `start`, never decrease, never exceed the number
of examples, and are the number of examples from step `target - 1` on. -/
theorem C120_grows_partial {target start max : ℕ} (ht : 2 ≤ target) (hs : 0 < start) (hsm : start < max) :
    ∃ (s : List ℕ) (b : ℕ → ℕ), batchSizeSchedule target start max = .ok s ∧ s.length = target ∧
      (∀ i, batchSizeAt s i = some (b i)) ∧
      (∀ i < target, (b i : ℝ) ≤ paperSize target start max i ∧ paperSize target start max i < b i + 1) ∧
      b 0 = start ∧ Monotone b ∧ (∀ i, b i ≤ max) ∧ ∀ i, target - 1 ≤ i → b i = max := by
  have hle : ∀ k, k ≤ target - 1 → paperSize target start max k ≤ max := by
    intro k hk
    rw [← paperSize_last (max := max) ht hs]
    exact paperSize_mono ht hs hsm.le hk
  have hfl : ∀ k, k ≤ target - 1 → ⌊paperSize target start max k⌋₊ ≤ max := by
    intro k hk
    have := Nat.floor_le_floor (hle k hk)
    rwa [Nat.floor_natCast] at this
  have hpos : ∀ k, 0 ≤ paperSize target start max k := by
    intro k; unfold paperSize; positivity
  refine ⟨_, fun i => min ⌊paperSize target start max (min i (target - 1))⌋₊ max,
    schedule_ok ht hs (by omega) (by omega), by simp, batchSizeAt_schedule ht, ?_, ?_, ?_, ?_, ?_⟩
  · intro i hi
    have h1 : min i (target - 1) = i := by omega
    simp only [h1, min_eq_left (hfl i (by omega))]
    exact ⟨Nat.floor_le (hpos i), Nat.lt_floor_add_one _⟩
  · simp only [Nat.zero_min, paperSize_zero, Nat.floor_natCast]
    omega
  · intro i j hij
    refine min_le_min (Nat.floor_le_floor (paperSize_mono ht hs hsm.le ?_)) le_rfl
    omega
  · intro i; exact min_le_right _ _
  · intro i hi
    simp only [min_eq_right hi, paperSize_last ht hs, Nat.floor_natCast, min_self]

/-- C120 for fewer examples than the starting size: every mini-batch is the whole training set. -/
theorem C120_small_partial {target start max : ℕ} (ht : 2 ≤ target) (hm : 0 < max) (hsm : max < start) :
    ∃ s : List ℕ, batchSizeSchedule target start max = .ok s ∧ ∀ i, batchSizeAt s i = some max := by
  have hs : 0 < start := by omega
  refine ⟨_, schedule_ok ht hs hm (by omega), fun i => ?_⟩
  rw [batchSizeAt_schedule ht]
  have hs' : (0 : ℝ) < start := by exact_mod_cast hs
  have hm' : (0 : ℝ) < max := by exact_mod_cast hm
  have hsm' : (max : ℝ) ≤ start := by exact_mod_cast hsm.le
  have ht' : (2 : ℝ) ≤ target := by exact_mod_cast ht
  have key : (max : ℝ) ≤ paperSize target start max (min i (target - 1)) := by
    rw [← paperSize_last (max := max) ht hs]
    refine mul_le_mul_of_nonneg_left ?_ hs'.le
    refine Real.rpow_le_rpow_of_exponent_ge (by positivity) ((div_le_one hs').mpr hsm') ?_
    refine div_le_div_of_nonneg_right ?_ (by linarith)
    exact_mod_cast min_le_right _ _
  rw [min_eq_right]
  exact Nat.le_floor key

/-- C120 for exactly `start` examples is false: the schedule fails with a division by zero, although every batch could be the
whole training set. -/
theorem C120_equal_counterexample (target : ℕ) {start : ℕ} (hs : 0 < start) :
    ∃ e, batchSizeSchedule target start start = .error e := by
  have hs' : (start : ℝ) ≠ 0 := by exact_mod_cast hs.ne'
  exact ⟨_, by rw [batchSizeSchedule, if_neg hs.ne', div_self hs', Real.logb_one, if_pos rfl]⟩

/-- C120, batches: read with the alternative data reader, no batch of the schedule is refused, whatever the order of
execution, and from step `target - 1` on every batch consists of all examples of the training set in some order (for every
tensor of the dataset in the same order). -/
theorem C120_batches_partial {α : Type} {target start n m : ℕ} (ht : 2 ≤ target) (hs : 0 < start) (hsn : start < n) (hm : 0 < m)
    (data : ℕ → List α) (hd : ∀ i < m, (data i).length = n) (c c' : ACache) (i b : ℕ) (s : List ℕ)
    (hsch : batchSizeSchedule target start n = .ok s) (hb : batchSizeAt s i = some b) (out : Option (ARun α))
    (hr : ARead m n c b data out c') :
    ∃ r, out = some r ∧ (target - 1 ≤ i → ∃ idx : List ℕ, idx.Perm (List.range n) ∧ ∀ j < m,
      ∃ rows, r.retV j = some rows ∧ rows.map some = idx.map (fun k => (data j)[k]?)) := by
  obtain ⟨s', b', h1, -, h2, -, -, -, h3, h4⟩ := C120_grows_partial ht hs hsn
  rw [hsch] at h1
  obtain rfl := Except.ok.inj h1
  rw [h2] at hb
  obtain rfl := Option.some.inj hb
  cases out with
  | none =>
    exfalso
    cases hr with
    | rejected hnot => exact hnot (h3 i)
  | some r =>
    refine ⟨r, rfl, fun hi => ?_⟩
    obtain ⟨idx, g1, g2, g3, g4⟩ := C52_alt hm hd hr
    refine ⟨idx, ?_, fun j hj => (g4 j hj).1⟩
    have hsub : idx.Subperm (List.range n) := List.subperm_of_subset g1 (fun k hk => List.mem_range.mpr (g3 k hk))
    exact hsub.perm_of_length_le (by rw [List.length_range, g2, h4 i hi])

/-- The schedule of classifier_mnist.py for MNIST. -/
example : ∃ (s : List ℕ) (b : ℕ → ℕ), batchSizeSchedule 100 1000 60000 = .ok s ∧ s.length = 100 ∧
    (∀ i, batchSizeAt s i = some (b i)) ∧ b 0 = 1000 ∧ ∀ i, 99 ≤ i → b i = 60000 := by
  obtain ⟨s, b, h1, h2, h3, -, h5, -, -, h8⟩ := C120_grows_partial (target := 100) (start := 1000) (max := 60000)
    (by norm_num) (by norm_num) (by norm_num)
  exact ⟨s, b, h1, h2, h3, h5, h8⟩

end Kfac.Examples
