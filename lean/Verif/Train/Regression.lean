import Verif.Train.Model
import Verif.Loss.Model

/-! # Training on squared errors with the estimation mode "exact" -/

namespace Kfac.Train

open Kfac.Stats Kfac.Block Kfac.Grad Kfac.Loss

/-- The covariance updates with the gradients of `_get_grads_lists_exact` (estimator.py 698-724) for one loss with
coefficient one: `sources` are the transformed one-hot vectors, and `tf.gradients(outputs, tensor, grad_ys=v)` is the
derivative of the inner product of the outputs with `v`. Each source contributes to the output factor
(fisher_factors.py 536-567). -/
noncomputable def Net.covExact {N n o : ℕ} (decay : ℝ) (sources : List (Fin N → Fin o → ℝ)) (net : Net n o)
    (x : Fin N → Fin n → ℝ) : Net n o :=
  match net with
  | .nil => .nil
  | .cons bias l φ rest =>
    let s := fun i => affine bias l.weights (x i)
    let ds := fun (v : Fin N → Fin o → ℝ) i => gradient (fun s => ∑ j, v i j * rest.eval (φ s) j) (s i)
    .cons bias
      { l with
        input := l.input.step (.cov [[[List.ofFn fun i => appendHomog bias (x i)]]] decay)
        output := l.output.step (.cov [sources.map fun v => [List.ofFn (ds v)]] decay) }
      φ (rest.covExact decay sources fun i => φ (s i))

/-- The transformed one-hot vectors of the loss made by `register_squared_error_loss` (layer_collection.py 1618-1655), whose
variance is one half. -/
noncomputable def exactSources {N o : ℕ} (prediction : Fin N → Fin o → ℝ) : Except String (List (Fin N → Fin o → ℝ)) :=
  (List.range o).mapM fun k => (NormalMean.mk prediction (1 / 2)).oneHot [k]

/-- The user's training loss: the squared error of one example. -/
def squaredLoss {N o : ℕ} (y : Fin N → Fin o → ℝ) (i : Fin N) (z : Fin o → ℝ) : ℝ := ∑ j, (z j - y i j) ^ 2

/-- What can happen: updates of the statistics, or a training step, always on the whole training set. -/
inductive RegOp where
  | cov (decay : ℝ)
  | inv (damping : ℝ)
  | train

/-- One operation. -/
noncomputable def Net.regStep {N n o : ℕ} (cfg : Config) (x : Fin N → Fin n → ℝ) (y : Fin N → Fin o → ℝ) (net : Net n o) :
    RegOp → Except String (Net n o)
  | .cov decay => (exactSources fun i => net.eval (x i)).map fun sources => net.covExact decay sources x
  | .inv damping => net.invUpdate cfg.rule cfg.power damping
  | .train => net.trainStep cfg x (squaredLoss y)

/-- Operations in any order. -/
noncomputable def Net.regRun {N n o : ℕ} (cfg : Config) (x : Fin N → Fin n → ℝ) (y : Fin N → Fin o → ℝ) (net : Net n o) :
    List RegOp → Except String (Net n o)
  | [] => .ok net
  | op :: ops => (net.regStep cfg x y op).bind fun net => net.regRun cfg x y ops

end Kfac.Train
