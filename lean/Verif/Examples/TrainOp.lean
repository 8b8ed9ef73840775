import Verif.Opt.Model

/-!
# `make_train_op` of the examples (kfac/examples/autoencoder_mnist.py, classifier_mnist.py, rnn_mnist.py)

A mini-batch has type `B`, a loss tensor type `L`; None is `none`. Both branches of a `tf.cond` are built, so every loss that may
be evaluated while training is constructed by `minimize`.
-/

namespace Kfac.Examples.TrainOp

open Kfac.Opt

variable {B L : Type}

/-- The flags read by `make_train_op` (autoencoder_mnist.py 63-120, classifier_mnist.py 62-118, rnn_mnist.py 57-78). -/
structure Flags where
  optimizer : String
  lrmuAdaptation : String
  learningRate : ℝ
  momentum : ℝ
  damping : ℝ
  initialDamping : ℝ
  adaptDamping : Bool
  updateDampingImmediately : Bool

/-- The learning rate, momentum and momentum type chosen by `--lrmu_adaptation` (autoencoder_mnist.py 183-195,
classifier_mnist.py 213-225, rnn_mnist.py 124-136). For any other value the names are never bound. -/
def lrmu (f : Flags) : Except String (Option ℝ × Option ℝ × String) :=
  if f.lrmuAdaptation = "on" then .ok (none, none, "qmodel")
  else if f.lrmuAdaptation = "only_lr" then .ok (none, some f.momentum, "qmodel_fixedmu")
  else if f.lrmuAdaptation = "off" then .ok (some f.learningRate, some f.momentum, "adam")
  else .error "UnboundLocalError: local variable 'learning_rate' referenced before assignment"

/-- The attributes of `KfacOptimizer` read by the damping adaptation (optimizer.py 315-344). -/
structure Adaptation (B L : Type) where
  adaptDamping : Bool
  updateDampingImmediately : Bool
  isChief : Bool
  usePassedLoss : Bool
  trainBatch : Option B
  prevTrainBatch : Option B
  lossFn : Option B → Except String L

/-- `_get_current_loss` (optimizer.py 1317-1321), without the average over replicas. -/
def Adaptation.currentLoss (a : Adaptation B L) : Except String L :=
  if a.updateDampingImmediately then a.lossFn a.trainBatch else a.lossFn a.prevTrainBatch

/-- The losses constructed by `minimize` of `PeriodicInvCovUpdateKfacOpt`: by `maybe_pre_update_adapt_damping`
(optimizer.py 673-702, called in periodic_inv_cov_update_kfac_opt.py 207), by `_maybe_update_prev_loss` (653-671) if the
passed loss is not used, and by `_maybe_post_update_adapt_damping` (704-714). -/
def Adaptation.losses (a : Adaptation B L) : Except String (List L) := do
  let pre ← if !a.adaptDamping || !a.isChief || a.updateDampingImmediately then pure [] else a.currentLoss.map ([·])
  let prev ← if a.adaptDamping && !a.usePassedLoss then (a.lossFn a.trainBatch).map ([·]) else pure []
  let post ← if !a.updateDampingImmediately || !a.adaptDamping then pure [] else a.currentLoss.map ([·])
  return pre ++ prev ++ post

/-- What `make_train_op` has set up: the optimizer's name, its stored momentum type, base learning rate, momentum and initial
damping, and the losses constructed for the damping adaptation. -/
structure Built (L : Type) where
  optimizer : String
  momentumType : String
  learningRate : ℝ
  momentum : Option ℝ
  damping : ℝ
  losses : List L

/-- `make_train_op` of autoencoder_mnist.py (143-240) and classifier_mnist.py (173-269). For Adam `momentum` is `beta1` and
`damping` is `epsilon`. -/
def makeTrainOp (f : Flags) (lossFn : Option B → Except String L) (minibatch prevTrainBatch : Option B) :
    Except String (Built L) :=
  if f.optimizer = "kfac" then do
    let (learningRate, momentum, momentumType) ← lrmu f
    let damping := if f.adaptDamping then f.initialDamping else f.damping
    let (t, lr) ← construct { momentumType, momentum, normConstraint := none, learningRate, rescale := none,
                              usePassedLoss := true, trainBatch := minibatch.isSome }
    let losses ← Adaptation.losses
      { adaptDamping := f.adaptDamping, updateDampingImmediately := f.updateDampingImmediately, isChief := true,
        usePassedLoss := true, trainBatch := minibatch, prevTrainBatch, lossFn }
    return ⟨"kfac", t, lr, momentum, damping, losses⟩
  else if f.optimizer = "adam" then return ⟨"adam", "adam", f.learningRate, some f.momentum, f.damping, []⟩
  else .error "UnboundLocalError: local variable 'optimizer' referenced before assignment"

/-- `make_train_op` of the TPU examples (autoencoder_mnist_tpu_estimator.py 58-93, autoencoder_mnist_tpu_strategy.py 62-97,
classifier_mnist_tpu_estimator.py 58-93): `prev_train_batch=None`. -/
def tpuMakeTrainOp (f : Flags) (lossFn : Option B → Except String L) (minibatch : B) : Except String (Built L) :=
  makeTrainOp f lossFn (some minibatch) none

/-- The optimizer of `make_train_op` in rnn_mnist.py (124-162): the flags `optimizer`, `damping`, `adapt_damping` and
`update_damping_immediately` do not exist, `update_damping_immediately` and `train_batch` have their defaults True and None
(optimizer.py 71, 84). -/
noncomputable def rnnMakeTrainOp (f : Flags) (lossFn : Option B → Except String L) (cachedBatch : B) :
    Except String (Built L) := do
  let (learningRate, momentum, momentumType) ← lrmu f
  let (t, lr) ← construct { momentumType, momentum, normConstraint := none, learningRate, rescale := none,
                            usePassedLoss := true, trainBatch := false }
  let losses ← Adaptation.losses
    { adaptDamping := true, updateDampingImmediately := true, isChief := true, usePassedLoss := true, trainBatch := none,
      prevTrainBatch := some cachedBatch, lossFn }
  return ⟨"kfac", t, lr, momentum, 150, losses⟩

/-- `loss_fn` of the examples (autoencoder_mnist.py 527-544, classifier_mnist.py 401-408, rnn_mnist.py 332-334), which takes the
mini-batch apart: None has no components. -/
def onBatch (loss : B → L) : Option B → Except String L
  | some b => .ok (loss b)
  | none => .error "TypeError: 'NoneType' object is not subscriptable"

end Kfac.Examples.TrainOp
