import Verif.Opt.Model

/-! # The losses of the examples (kfac/examples/autoencoder_mnist.py, classifier_mnist.py)

The regulariser of a variable made by Sonnet or `tf.get_variable` is a tensor that is created together with the variable,
outside of any control dependency, and put into the collection REGULARIZATION_LOSSES; using the variable again adds nothing. In
one `session.run` it has one value, computed from one read of the variable. The weights of a model are the values of its
variables, each as a list of numbers. -/

namespace Kfac.Examples

/-- The models of classifier_mnist.py: the one that is trained and the one for evaluation. -/
inductive Which where
  | train
  | eval
  deriving DecidableEq

abbrev Weights := List (List ℝ)

/-- `tf.nn.l2_loss`. -/
noncomputable def l2Loss (w : List ℝ) : ℝ := (w.map fun x => x ^ 2).sum / 2

/-- The collection of regularisers: the model and the number of the variable. -/
abbrev Collection := List (Which × ℕ)

/-- The first call of a model with `n` variables; `regularized` says whether the variables get regularisers
(autoencoder_mnist.py 257-259: always, classifier_mnist.py 146-150: if the coefficient is not zero). -/
def build (regularized : Bool) (m : Which) (n : ℕ) (col : Collection) : Collection :=
  if regularized then col ++ (List.range n).map fun i => (m, i) else col

/-- `compute_loss` (autoencoder_mnist.py 432-452, classifier_mnist.py 272-293, autoencoder_mnist_tpu_estimator.py 102-110): the
data loss plus `tf.add_n` of the collection, which must not be empty; `read` are the values the regularisers have read. -/
noncomputable def computeLoss (l2Reg : ℝ) (col : Collection) (read : Which → Weights) (data : ℝ) : Except String ℝ :=
  if col = [] then .error "ValueError: inputs must be a list of at least one Tensor/IndexedSlices with the same dtype and shape"
  else .ok (data + (col.map fun v => l2Reg * l2Loss ((read v.1).getD v.2 [])).sum)

/-- What one run of the training op sees of the loss when the damping is updated immediately: the loss of the mini-batch
before the update (`batch_loss`), and the value of `loss_fn` after it (optimizer.py 1317-1319). The first is stored before the
update (728-730), so the regularisers have read the weights before the update. -/
noncomputable def trainLosses (regularized : Bool) (l2Reg : ℝ) (data : Weights → ℝ) (w w' : Weights) : Except String (ℝ × ℝ) := do
  let col := build regularized .train w.length []
  let before ← computeLoss l2Reg col (fun _ => w) (data w)
  let after ← computeLoss l2Reg col (fun _ => w) (data w')
  return (before, after)

/-- `make_eval_ops` (classifier_mnist.py 353-380) after the training graph was built and the collection cleared (434-442): the
losses with the weights `w` of the trained model and with their moving averages `avg`. The evaluation model has the weights
`stale` when the run starts. `late` says whether its regularisers read the variables after the first assignment; nothing orders
them (simplified: all of them early or all late). They are read before the second assignment, which waits for the first loss. -/
noncomputable def evalLosses (regularized late : Bool) (l2Reg : ℝ) (data : Weights → ℝ) (w avg stale : Weights) :
    Except String (ℝ × ℝ) := do
  let col := build regularized .train w.length []
  let col := col.filter fun _ => false
  let col := build regularized .eval w.length col
  let read : Which → Weights := fun
    | .train => w
    | .eval => if late then w else stale
  let loss ← computeLoss l2Reg col read (data w)
  let lossAvg ← computeLoss l2Reg col read (data avg)
  return (loss, lossAvg)

/-- `compute_loss` with a Keras model (autoencoder_mnist.py 383-390, 437-438, autoencoder_mnist_tpu_strategy.py 106-112):
`tf.keras.regularizers.l2(l)` is `l` times the sum of the squares, and `model.losses` makes new tensors whenever it is read, so
the weights are the ones of the data loss. -/
noncomputable def kerasLoss (l2Reg : ℝ) (data : Weights → ℝ) (w : Weights) : ℝ :=
  data w + (w.map fun v => l2Reg * (v.map fun x => x ^ 2).sum).sum

end Kfac.Examples
