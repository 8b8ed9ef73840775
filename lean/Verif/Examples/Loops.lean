import Verif.Train.Periodic
import Verif.Exec.Batch

/-! # The training loops of kfac/examples/convnet.py -/

namespace Kfac.Examples

open Kfac.Train

/-- The settings of `minimize_loss_single_machine_manual` (convnet.py 298-307) and `_INVERT_EVERY` (57). -/
structure Manual where
  base : Config
  invertEvery : ℕ
  covEmaDecay : ℝ
  damping : ℝ

/-- One run of the training op of `minimize_loss_single_machine_manual` (convnet.py 315-322): covariances, then inverses if the
global step is a multiple of `_INVERT_EVERY`, then the update, which increments the global step. The chief worker of
`distributed_grads_only_and_ops_chief_worker` does the same (454-461), with the gradients of several workers. -/
noncomputable def Manual.step {n o : ℕ} (p : Manual) (b : BatchOf n o) (s : Net n o × ℕ) : Except String (Net n o × ℕ) :=
  if p.invertEvery = 0 then .error "Integer division by zero"
  else
    let net := s.1.covUpdate p.covEmaDecay b.x b.sampled
    (if s.2 % p.invertEvery = 0 then net.invUpdate p.base.rule p.base.power p.damping else .ok net).bind
      fun net => (net.trainStep p.base b.x b.loss).map fun net => (net, s.2 + 1)

/-- The loop (convnet.py 326-328), starting at global step `start`. -/
noncomputable def Manual.run {n o : ℕ} (p : Manual) (batch : ℕ → BatchOf n o) (net : Net n o) (start : ℕ) :
    ℕ → Except String (Net n o × ℕ)
  | 0 => .ok (net, start)
  | t + 1 => (p.run batch net start t).bind (p.step (batch t))

/-- The inverse updates of `train_mnist_estimator` at a global step (convnet.py 828-838), as numbers of thunks. -/
def estimatorInverses (globalStep numThunks : ℕ) : List ℕ :=
  if globalStep = 0 then List.range numThunks else Exec.batchExecute globalStep 1 numThunks

end Kfac.Examples
