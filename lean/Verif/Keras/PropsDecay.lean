import Verif.Keras.Decay
import Mathlib.Tactic.Linarith
import Mathlib.Tactic.Positivity

/-! # C56: decay callbacks -/

namespace Kfac.Keras.Decay

/-- A schedule active for the steps `1, …, last` (without end if `last = none`), with value `f`. -/
def Follows (sched : Schedule) (f : ℤ → ℝ) (last : Option ℤ) : Prop :=
  ∀ step, sched step = if 0 < step ∧ (∀ l, last = some l → step ≤ l) then some (f step) else none

/-- What a hyperparameter that starts at `v0` has to be at iteration `t`: untouched up to the delay, then `f` at the
number of steps since the delay, which stops growing at `last`. -/
noncomputable def documented (f : ℤ → ℝ) (delay : ℤ) (last : Option ℤ) (v0 : ℝ) (t : ℕ) : ℝ :=
  if (t : ℤ) ≤ delay then v0
  else match last with
    | none => f (t - delay)
    | some l => if l ≤ 0 then v0 else f (min (t - delay) l)

theorem valueAt_follows {sched : Schedule} {f : ℤ → ℝ} {last : Option ℤ} (h : Follows sched f last) (delay : ℤ)
    (hd : 0 ≤ delay) (v0 : ℝ) (t : ℕ) : valueAt sched delay 0 v0 t = documented f delay last v0 t := by
  induction t with
  | zero =>
    have h1 : ¬ (0 : ℤ) < ((0 : ℕ) : ℤ) - delay := by omega
    have h2 : sched (((0 : ℕ) : ℤ) - delay) = none := by rw [h, if_neg (fun c => h1 c.1)]
    simp only [valueAt, onBatchBegin, documented, h2]
    rw [if_pos (by omega)]
  | succ n ih =>
    simp only [valueAt, Nat.zero_add, onBatchBegin, ih]
    rw [h]
    by_cases hlt : (0 : ℤ) < ((n + 1 : ℕ) : ℤ) - delay
    · cases last with
      | none =>
        rw [if_pos ⟨hlt, by simp⟩]
        simp only [documented]
        rw [if_neg (by omega)]
      | some l =>
        by_cases hl : ((n + 1 : ℕ) : ℤ) - delay ≤ l
        · rw [if_pos ⟨hlt, by rintro l' ⟨⟩; exact hl⟩]
          simp only [documented]
          rw [if_neg (by omega), if_neg (by omega), min_eq_left hl]
        · rw [if_neg (fun c => hl (c.2 l rfl))]
          simp only [documented]
          rw [if_neg (by omega : ¬ ((n + 1 : ℕ) : ℤ) ≤ delay)]
          by_cases hl0 : l ≤ 0
          · simp only [hl0, if_true, ite_self]
          · rw [if_neg hl0, if_neg hl0, if_neg (by omega), min_eq_right (by omega), min_eq_right (by omega)]
    · rw [if_neg (fun c => hlt c.1)]
      simp only [documented]
      rw [if_pos (by omega), if_pos (by omega)]

/-- A run that is resumed at iteration `t0` and meets the first active step later on uses the same values from then
on. -/
theorem valueAt_resume {sched : Schedule} {f : ℤ → ℝ} {last : Option ℤ} (h : Follows sched f last) (delay : ℤ)
    (t0 : ℕ) (v0 w0 : ℝ) (n : ℕ) (ha : (0 : ℤ) < (t0 + n : ℕ) - delay)
    (hl : ∀ l, last = some l → (t0 : ℤ) - delay ≤ l ∧ 0 < l) :
    valueAt sched delay t0 w0 n = documented f delay last v0 (t0 + n) := by
  induction n with
  | zero =>
    simp only [valueAt, onBatchBegin]
    rw [h, if_pos ⟨by simpa using ha, fun l hl' => (hl l hl').1⟩]
    simp only [documented, Nat.add_zero] at ha ⊢
    rw [if_neg (by omega)]
    cases last with
    | none => rfl
    | some l => simp only; rw [if_neg (by have := (hl l rfl).2; omega), min_eq_left (hl l rfl).1]
  | succ n ih =>
    simp only [valueAt, onBatchBegin]
    rw [h]
    cases last with
    | none =>
      rw [if_pos ⟨ha, by simp⟩]
      simp only [documented]
      rw [if_neg (by omega)]
    | some l =>
      by_cases hle : ((t0 + (n + 1) : ℕ) : ℤ) - delay ≤ l
      · rw [if_pos ⟨ha, by rintro l' ⟨⟩; exact hle⟩]
        simp only [documented]
        rw [if_neg (by omega), if_neg (by have := (hl l rfl).2; omega), min_eq_left hle]
      · rw [if_neg (fun c => hle (c.2 l rfl))]
        have h0 := hl l rfl
        simp only
        rw [ih (by omega)]
        simp only [documented]
        rw [if_neg (by omega), if_neg (by omega), if_neg (by omega), if_neg (by omega), min_eq_right (by omega),
          min_eq_right (by omega)]

theorem polynomial_follows (init final power : ℝ) (num : ℤ) :
    Follows (polynomial init final power num) (fun s => (init - final) * (1 - (s : ℝ) / num) ^ power + final)
      (some num) := by
  intro step
  simp only [polynomial, Option.some.injEq, forall_eq']

/-- C56, polynomial decay with a positive power and at least one step: the hyperparameter is untouched during the
delay, then equals the documented expression of the steps taken since, is exactly the final value when the steps are
used up and ever after, and always lies between the initial and the final value. A run resumed before the end of the
decay has the same values. -/
theorem C56_polynomial (init final power : ℝ) (num : ℤ) (hp : 0 < power) (hn : 0 < num) (delay : ℤ) (hd : 0 ≤ delay)
    (v0 : ℝ) (t : ℕ) :
    valueAt (polynomial init final power num) delay 0 v0 t =
      (if (t : ℤ) ≤ delay then v0
       else (init - final) * (1 - ((min (t - delay) num : ℤ) : ℝ) / num) ^ power + final) ∧
    (delay + num ≤ t → valueAt (polynomial init final power num) delay 0 v0 t = final) ∧
    (delay < t → min init final ≤ valueAt (polynomial init final power num) delay 0 v0 t ∧
      valueAt (polynomial init final power num) delay 0 v0 t ≤ max init final) ∧
    (∀ (t0 n : ℕ) (w0 : ℝ), t0 + n = t → delay < t → (t0 : ℤ) ≤ delay + num →
      valueAt (polynomial init final power num) delay t0 w0 n =
        valueAt (polynomial init final power num) delay 0 v0 t) := by
  have key := valueAt_follows (polynomial_follows init final power num) delay hd v0 t
  have e : valueAt (polynomial init final power num) delay 0 v0 t =
      (if (t : ℤ) ≤ delay then v0
       else (init - final) * (1 - ((min (t - delay) num : ℤ) : ℝ) / num) ^ power + final) := by
    rw [key]
    simp only [documented]
    rw [if_neg (by omega : ¬ num ≤ 0)]
  have hn' : (0 : ℝ) < num := by exact_mod_cast hn
  refine ⟨e, ?_, ?_, ?_⟩
  · intro h
    rw [e, if_neg (by omega), min_eq_right (by omega), div_self hn'.ne', sub_self, Real.zero_rpow hp.ne', mul_zero,
      zero_add]
  · intro h
    rw [e, if_neg (by omega)]
    set x : ℝ := (1 - ((min (t - delay) num : ℤ) : ℝ) / num) ^ power with hx
    have h1 : ((min (t - delay) num : ℤ) : ℝ) / num ≤ 1 := by
      rw [div_le_one hn']
      exact_mod_cast min_le_right _ _
    have h2 : 0 ≤ ((min (t - delay) num : ℤ) : ℝ) / num := by
      apply div_nonneg _ hn'.le
      have : (0 : ℤ) ≤ min (t - delay) num := by omega
      exact_mod_cast this
    have x0 : 0 ≤ x := Real.rpow_nonneg (by linarith) _
    have x1 : x ≤ 1 := Real.rpow_le_one (by linarith) (by linarith) hp.le
    constructor
    · rcases le_total init final with hif | hif
      · rw [min_eq_left hif]; nlinarith
      · rw [min_eq_right hif]; nlinarith
    · rcases le_total init final with hif | hif
      · rw [max_eq_right hif]; nlinarith
      · rw [max_eq_left hif]; nlinarith
  · rintro t0 n w0 rfl h1 h2
    rw [valueAt_resume (polynomial_follows init final power num) delay t0 v0 w0 n (by omega)
      (by rintro l ⟨⟩; omega), key]

/-- The number of arguments that were passed. -/
def passed (final rate : Option ℝ) (num : Option ℤ) : ℕ :=
  final.toList.length + rate.toList.length + num.toList.length

/-- C56, exponential decay is accepted iff exactly two of the three arguments are passed, provided none of them is
zero. Missing: zero, which the code does not distinguish from a missing argument. -/
theorem C56_exponential_accepted_partial (init : ℝ) (final rate : Option ℝ) (num : Option ℤ)
    (h0 : final ≠ some 0) (h1 : rate ≠ some 0) (h2 : num ≠ some 0) :
    (∃ s, exponential init final rate num = .ok s) ↔ passed final rate num = 2 := by
  have g0 : given final = final.isSome := by
    cases final with
    | none => rfl
    | some x => simp only [given, Option.isSome_some, decide_eq_true_eq]; exact fun h => h0 (h ▸ rfl)
  have g1 : given rate = rate.isSome := by
    cases rate with
    | none => rfl
    | some x => simp only [given, Option.isSome_some, decide_eq_true_eq]; exact fun h => h1 (h ▸ rfl)
  have g2 : given (asReal num) = num.isSome := by
    cases num with
    | none => rfl
    | some x =>
      have hx : x ≠ 0 := fun h => h2 (h ▸ rfl)
      simp [asReal, given, hx]
  unfold exponential decayFunc
  rw [g0, g1, g2]
  cases final <;> cases rate <;> cases num <;> simp [passed, Except.map]

/-- C56, violated for zero: a decay to zero, or over zero steps, or with rate zero is rejected although exactly two
arguments are passed; and a zero makes it accept all three. -/
theorem C56_zero_counterexample (init r : ℝ) (n : ℤ) (hr : r ≠ 0) (hn : n ≠ 0) :
    (∀ s, exponential init (some 0) (some r) none ≠ .ok s) ∧
    (∀ s, exponential init (some 0) none (some n) ≠ .ok s) ∧
    (∀ s, exponential init none (some 0) (some n) ≠ .ok s) ∧
    ∃ s, exponential init (some 0) (some r) (some n) = .ok s := by
  have hn' : (n : ℝ) ≠ 0 := by exact_mod_cast hn
  refine ⟨?_, ?_, ?_, ?_⟩ <;>
    simp [exponential, decayFunc, given, asReal, hr, hn', Except.map]

/-- C56, exponential decay with a rate and a number of steps: the value is multiplied by the rate at every step after
the delay until the steps are used up. -/
theorem C56_exponential_steps (init rate : ℝ) (num : ℤ) (hr : rate ≠ 0) (hn : 0 < num) (delay : ℤ) (hd : 0 ≤ delay)
    (v0 : ℝ) (t : ℕ) :
    ∃ s, exponential init none (some rate) (some num) = .ok s ∧
      valueAt s delay 0 v0 t = if (t : ℤ) ≤ delay then v0 else init * rate ^ (min (t - delay) num) := by
  refine ⟨fun step => if 0 < step ∧ step ≤ num then some (init * rate ^ step) else none,
    by simp [exponential, decayFunc, given, asReal, hr, hn.ne', Except.map], ?_⟩
  rw [valueAt_follows (f := fun s => init * rate ^ s) (last := some num) ?_ delay hd]
  · simp only [documented]
    rw [if_neg (by omega : ¬ num ≤ 0)]
  · intro step
    simp

/-- C56, exponential decay with a rate and a final value: never ends, and does not fall below the final value. -/
theorem C56_exponential_floor (init rate final : ℝ) (hr : rate ≠ 0) (hf : final ≠ 0) (delay : ℤ) (hd : 0 ≤ delay)
    (v0 : ℝ) (t : ℕ) :
    ∃ s, exponential init (some final) (some rate) none = .ok s ∧
      valueAt s delay 0 v0 t = if (t : ℤ) ≤ delay then v0 else max (init * rate ^ (t - delay)) final := by
  refine ⟨fun step => if 0 < step then some (max (init * rate ^ step) final) else none,
    by simp [exponential, decayFunc, given, asReal, hr, hf, Except.map], ?_⟩
  rw [valueAt_follows (f := fun s => max (init * rate ^ s) final) (last := none) ?_ delay hd]
  · simp only [documented]
  · intro step
    simp

/-- C56, exponential decay with a final value of the sign of the initial one and a number of steps: the documented
expression, which reaches the final value with the last step and lies between the two values. -/
theorem C56_exponential_final (init final : ℝ) (num : ℤ) (hi : 0 < final / init) (hn : 0 < num)
    (delay : ℤ) (hd : 0 ≤ delay) (v0 : ℝ) (t : ℕ) :
    ∃ s, exponential init (some final) none (some num) = .ok s ∧
      (valueAt s delay 0 v0 t = if (t : ℤ) ≤ delay then v0
        else init * (final / init) ^ (((min (t - delay) num : ℤ) : ℝ) / num)) ∧
      (delay + num ≤ t → valueAt s delay 0 v0 t = final) ∧
      (delay < t → min init final ≤ valueAt s delay 0 v0 t ∧ valueAt s delay 0 v0 t ≤ max init final) := by
  have hn' : (0 : ℝ) < num := by exact_mod_cast hn
  have hf : final ≠ 0 := by rintro rfl; simp at hi
  have hi0 : init ≠ 0 := by rintro rfl; simp at hi
  refine ⟨fun step => if 0 < step ∧ step ≤ num then some (init * (final / init) ^ ((step : ℝ) / num)) else none,
    by simp [exponential, decayFunc, given, asReal, hf, hn.ne', Except.map], ?_⟩
  rw [valueAt_follows (f := fun s => init * (final / init) ^ ((s : ℝ) / num)) (last := some num) ?_ delay hd]
  · simp only [documented]
    rw [if_neg (by omega : ¬ num ≤ 0)]
    refine ⟨rfl, ?_, ?_⟩
    · intro h
      rw [if_neg (by omega), min_eq_right (by omega), div_self hn'.ne', Real.rpow_one, mul_div_cancel₀ _ hi0]
    · intro h
      rw [if_neg (by omega)]
      set q := ((min (t - delay) num : ℤ) : ℝ) / num with hq
      have q1 : q ≤ 1 := by
        rw [hq, div_le_one hn']
        exact_mod_cast min_le_right _ _
      have q0 : 0 ≤ q := by
        apply div_nonneg _ hn'.le
        have : (0 : ℤ) ≤ min (t - delay) num := by omega
        exact_mod_cast this
      have hfi : final = init * (final / init) := by rw [mul_div_cancel₀ _ hi0]
      generalize final / init = r at hi hfi
      subst hfi
      rcases le_total r 1 with hr | hr
      · have a1 : r ^ q ≤ 1 := Real.rpow_le_one hi.le hr q0
        have a2 : r ≤ r ^ q := by
          have := Real.rpow_le_rpow_of_exponent_ge hi hr q1
          rwa [Real.rpow_one] at this
        rcases lt_or_gt_of_ne hi0 with hneg | hpos
        · rw [min_eq_left (by nlinarith), max_eq_right (by nlinarith)]
          constructor <;> nlinarith
        · rw [min_eq_right (by nlinarith), max_eq_left (by nlinarith)]
          constructor <;> nlinarith
      · have a1 : 1 ≤ r ^ q := Real.one_le_rpow hr q0
        have a2 : r ^ q ≤ r := by
          have := Real.rpow_le_rpow_of_exponent_le hr q1
          rwa [Real.rpow_one] at this
        rcases lt_or_gt_of_ne hi0 with hneg | hpos
        · rw [min_eq_right (by nlinarith), max_eq_left (by nlinarith)]
          constructor <;> nlinarith
        · rw [min_eq_left (by nlinarith), max_eq_right (by nlinarith)]
          constructor <;> nlinarith
  · intro step
    simp

/-- Decay from 1 to 0 with power 2 over 4 steps after a delay of 3: at iteration 5 two steps are done. -/
example : valueAt (polynomial 1 0 2 4) 3 0 1 5 = 1 / 4 := by
  rw [(C56_polynomial 1 0 2 4 (by norm_num) (by norm_num) 3 (by norm_num) 1 5).1]
  norm_num

end Kfac.Keras.Decay
