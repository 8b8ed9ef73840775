import Mathlib.Data.Real.Basic
import Mathlib.Algebra.Module.Basic

/-!
# `train_mnist_multitower` (kfac/examples/convnet.py 607-700)

An example has type `α`. What is averaged over examples and then over towers (loss, accuracy and, through automatic
differentiation, gradients and second moments) is a vector `q s a` for parameters `s` and example `a`; the update is a function
of the average.
-/

namespace Kfac.Examples.Towers

variable {α σ E : Type} [AddCommGroup E] [Module ℝ E]

/-- `n` consecutive pieces of length `k`; the last ones are shorter if there are too few elements. -/
def pieces (k : ℕ) : ℕ → List α → List (List α)
  | 0, _ => []
  | n + 1, xs => xs.take k :: pieces k n (xs.drop k)

/-- `dataset.batch(batch_size)` (mnist.py 126): the last batch may be smaller. -/
def batches (batchSize : ℕ) (data : List α) : List (List α) :=
  pieces batchSize ((data.length + batchSize - 1) / batchSize) data

/-- `tf.split(examples, num_towers)` (convnet.py 640-641), of a batch whose size is known only when it is run. -/
def split (numTowers : ℕ) (batch : List α) : Except String (List (List α)) :=
  if numTowers = 0 ∨ batch.length % numTowers ≠ 0 then
    .error "InvalidArgumentError: Number of ways to split should evenly divide the split dimension"
  else .ok (pieces (batch.length / numTowers) numTowers batch)

/-- `tf.reduce_mean` over a list. -/
noncomputable def mean (xs : List E) : E := (xs.length : ℝ)⁻¹ • xs.sum

/-- One run of the training op (convnet.py 646-666, 684): the mean within each tower (`build_model`, 185-189), the mean over towers,
and the update. -/
noncomputable def step (numTowers : ℕ) (q : σ → α → E) (update : σ → E → σ) (batch : List α) (s : σ) :
    Except String (E × σ) := do
  let towers ← split numTowers batch
  let m := mean (towers.map fun t => mean (t.map (q s)))
  return (m, update s m)

/-- The loop (convnet.py 694-700), until the data is used up: the averages of all steps and the final parameters. -/
noncomputable def loop (numTowers : ℕ) (q : σ → α → E) (update : σ → E → σ) : List (List α) → σ →
    Except String (List E × σ)
  | [], s => .ok ([], s)
  | b :: bs, s => do
    let r ← step numTowers q update b s
    let rest ← loop numTowers q update bs r.2
    return (r.1 :: rest.1, rest.2)

/-- `train_mnist_multitower` (convnet.py 626-700) on the repeated data, with `tower_batch_size` (629); the argument `num_towers` is
overwritten (626) and tower `i` is placed on `devices[i]` (647). -/
noncomputable def train (towerBatchSize : ℕ) (devices : List String) (q : σ → α → E) (update : σ → E → σ)
    (data : List α) (s : σ) : Except String (List E × σ) :=
  let numTowers := if devices = [] then 1 else devices.length
  if devices.length < numTowers then .error "IndexError: list index out of range"
  else loop numTowers q update (batches (towerBatchSize * numTowers) data) s

end Kfac.Examples.Towers
