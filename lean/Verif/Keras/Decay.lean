import Mathlib.Analysis.SpecialFunctions.Pow.Real

/-! # Decay of hyperparameters (kfac/python/keras/callbacks.py)

The hyperparameter is a real number; `iterations` is the counter of the optimizer, which every batch increases by one. -/

namespace Kfac.Keras.Decay

/-- A callback: what `on_batch_begin` assigns when the step `iterations - num_delay_steps` has the given value; `none`
when it assigns nothing. -/
abbrev Schedule := ℤ → Option ℝ

/-- `on_batch_begin` at iteration `t` (callbacks.py 65-67 with 107-113 or 181-186). -/
def onBatchBegin (sched : Schedule) (delay : ℤ) (t : ℕ) (value : ℝ) : ℝ :=
  match sched (t - delay) with
  | some v => v
  | none => value

/-- The value of the hyperparameter used by batch `n` (from 0) of a run that starts at iteration `t0` with value
`v0`. -/
def valueAt (sched : Schedule) (delay : ℤ) (t0 : ℕ) (v0 : ℝ) : ℕ → ℝ
  | 0 => onBatchBegin sched delay t0 v0
  | n + 1 => onBatchBegin sched delay (t0 + (n + 1)) (valueAt sched delay t0 v0 n)

/-- `PolynomialDecay.on_batch_begin` (callbacks.py 107-113). `0 ** power` for a negative power, which numpy makes
infinite, is 0 here. -/
noncomputable def polynomial (init final power : ℝ) (num : ℤ) : Schedule := fun step =>
  if 0 < step ∧ step ≤ num then some ((init - final) * (1 - (step : ℝ) / num) ^ power + final) else none

/-- Python's truth value of an optional number. -/
noncomputable def given (x : Option ℝ) : Bool := match x with
  | none => false
  | some r => decide (r ≠ 0)

/-- The number of steps as a number. -/
def asReal : Option ℤ → Option ℝ
  | none => none
  | some k => some (k : ℝ)

/-- `ExponentialDecay.__init__` (callbacks.py 137-179): the function of the step. The power with a negative base and a
fractional exponent, which is complex in Python, is some real number here. -/
noncomputable def decayFunc (init : ℝ) (final rate : Option ℝ) (num : Option ℤ) : Except String (ℤ → ℝ) :=
  if given final && given rate && given (asReal num) then .error "ValueError: exactly two"
  else if given final && given rate then
    .ok fun step => max (init * rate.getD 0 ^ step) (final.getD 0)
  else if given rate && given (asReal num) then
    .ok fun step => init * rate.getD 0 ^ step
  else if given final && given (asReal num) then
    .ok fun step => init * (final.getD 0 / init) ^ ((step : ℝ) / (num.getD 0 : ℝ))
  else .error "ValueError: exactly two"

/-- `ExponentialDecay` with its `on_batch_begin` (callbacks.py 181-186). -/
noncomputable def exponential (init : ℝ) (final rate : Option ℝ) (num : Option ℤ) : Except String Schedule :=
  (decayFunc init final rate num).map fun f step =>
    if 0 < step ∧ (given (asReal num) = false ∨ step ≤ num.getD 0) then some (f step) else none

end Kfac.Keras.Decay
