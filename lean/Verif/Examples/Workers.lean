import Verif.Train.Model

/-! # Dedicated workers (kfac/examples/convnet.py 337-362 and 485-554)

`0.6 * num_tasks` is computed in floating point; its value is the parameter `x`. -/

namespace Kfac.Examples

open Kfac.Train

/-- What a worker does in its loop. -/
inductive Role where
  | gradient
  | covariance
  | inverse
  deriving DecidableEq

open Classical in
/-- `_is_gradient_task` (convnet.py 337-341). -/
noncomputable def isGradientTask (x : ℝ) (task num : ℕ) : Bool :=
  if num < 3 then true else decide ((task : ℝ) < x)

open Classical in
/-- `_is_cov_update_task` (convnet.py 344-348). -/
noncomputable def isCovUpdateTask (x : ℝ) (task num : ℕ) : Bool :=
  if num < 3 then false else decide (x ≤ task ∧ (task : ℝ) < num - 1)

/-- `_is_inv_update_task` (convnet.py 351-355). -/
def isInvUpdateTask (task num : ℕ) : Bool :=
  if num < 3 then false else decide (task + 1 = num)

/-- `_num_gradient_tasks` (convnet.py 358-362). -/
noncomputable def numGradientTasks (x : ℝ) (num : ℕ) : ℕ :=
  if num < 3 then num else ⌈x⌉₊

/-- The choice of the op in the loop of `distributed_grads_and_ops_dedicated_workers` (convnet.py 538-547). -/
noncomputable def chooseOp (x : ℝ) (task num : ℕ) : Except String Role :=
  if isGradientTask x task num then .ok .gradient
  else if isCovUpdateTask x task num then .ok .covariance
  else if isInvUpdateTask task num then .ok .inverse
  else .error "ValueError: Which op should the task do?"

/-- The kind of an operation. An operation of the inverse worker stands for one round of its queue (convnet.py 520, 545; see
C23): all factors are inverted. -/
def roleOf {n o : ℕ} : Op n o → Role
  | .cov .. => .covariance
  | .inv _ => .inverse
  | .train .. => .gradient

/-- A run of `num` workers: what happens, in the order it happens, with the number of the worker; every worker keeps to the
op chosen for it. -/
def IsRun {n o : ℕ} (x : ℝ) (num : ℕ) (events : List (ℕ × Op n o)) : Prop :=
  ∀ e ∈ events, e.1 < num ∧ chooseOp x e.1 num = .ok (roleOf e.2)

end Kfac.Examples
