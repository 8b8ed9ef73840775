import Verif.Reader.Model
import Mathlib.Analysis.SpecialFunctions.Log.Base

/-! # Growing mini-batches (kfac/examples/autoencoder_mnist.py 493-504, classifier_mnist.py 334-346, rnn_mnist.py 317-326)

Floating-point numbers are exact. -/

namespace Kfac.Examples

/-- `_get_batch_size_schedule` with `minibatch_maxsize_targetiter = target` (500, or 100 in classifier_mnist.py) and
`minibatch_startsize = start` (1000), for `max` examples. `int` of a positive number rounds down. -/
noncomputable def batchSizeSchedule (target start max : ℕ) : Except String (List ℕ) :=
  if max = 0 then .error "ValueError: math domain error"
  else if Real.logb 2 ((max : ℝ) / start) = 0 then .error "ZeroDivisionError: float division by zero"
  else
    let div := ((target : ℝ) - 1) / Real.logb 2 ((max : ℝ) / start)
    .ok ((List.range target).map fun k : ℕ => min ⌊(2 : ℝ) ^ ((k : ℝ) / div) * start⌋₊ max)

/-- `batch_size_schedule[min(i, len(batch_size_schedule) - 1)]` at global step `i` (autoencoder_mnist.py 621-624). -/
def batchSizeAt (schedule : List ℕ) (i : ℕ) : Option ℕ := schedule[min i (schedule.length - 1)]?

end Kfac.Examples
