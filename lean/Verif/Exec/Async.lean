import Verif.Exec.Model

/-!
# Model of `AsyncInvCovUpdateKfacOpt` (kfac_utils/async_inv_cov_update_kfac_opt.py)

The threads started by `run_cov_inv_ops` are state machines; a run is any finite interleaving of their steps
with a call of `stop_cov_inv_ops`. One `session.run` of the iterator is one atomic step (the iterator resource
is locked by TensorFlow), and so is the completion of one `session.run` of an op.
-/

namespace Kfac.Exec

/-! ### Number of threads and devices -/

/-- `num_cov_inv_update_threads or max(int(len(ops_to_run) / 2), 10)`
(async_inv_cov_update_kfac_opt.py 135-136, 27); `None` and `0` are false in Python. -/
def asyncThreads (given : Option Nat) (numOps : Nat) : Nat :=
  if given.getD 0 = 0 then max (numOps / 2) 10 else given.getD 0

/-- The keyword arguments the constructor passes on to `KfacOptimizer`, and from there through its `**kwargs`
to the estimator: those it does not name itself, and the placement strategy
(async_inv_cov_update_kfac_opt.py 50-54, 78-79; optimizer.py 409-419). Values are device lists here, other
arguments are of no concern. -/
def asyncForwarded {D : Type} (kwargs : List (String × Devices D)) : List (String × Devices D) :=
  kwargs.filter fun kv => decide (kv.1 ∉ ["cov_devices", "inv_devices", "num_cov_inv_update_threads"])

/-- A keyword argument of the estimator's placement mixin, `None` when it is not passed
(placement.py 36-60). -/
def deviceArg {D : Type} (kwargs : List (String × Devices D)) (key : String) : Devices D :=
  ((kwargs.find? fun kv => kv.1 = key).map (·.2)).getD .none

/-- The placed thunks of an asynchronous optimizer constructed with `cov_devices`, `inv_devices` and further
keyword arguments (async_inv_cov_update_kfac_opt.py 50-79, 84-85; placement.py 93-166). -/
def asyncThunks {D X : Type} (covDevices invDevices : Devices D) (kwargs : List (String × Devices D))
    (covVars covUps invVars invUps : List X) : Thunks D X :=
  let forwarded := asyncForwarded
    (("cov_devices", covDevices) :: ("inv_devices", invDevices) :: kwargs)
  createThunks (deviceArg forwarded "cov_devices") (deviceArg forwarded "inv_devices")
    covVars covUps invVars invUps

/-! ### The threads -/

/-- Where a thread stands in the loop of `_run_ops` (async_inv_cov_update_kfac_opt.py 115-118): about to
evaluate `should_stop`, about to draw a name, running an operation, or terminated (normally, or by an
exception in the look-up or in the iterator). -/
inductive Phase (Op : Type) where
  | check
  | draw
  | running (o : Op)
  | done
  deriving DecidableEq

/-- The shared state: the position of the one-shot iterator, the coordinator's stop flag, the phases of the
threads, and the logs of operations started and finished. -/
structure AsyncState (Op : Type) (T : Nat) where
  pos : Nat
  stop : Bool
  phase : Fin T → Phase Op
  started : List Op
  finished : List Op

/-- What happens next: a step of one thread, or the call of `request_stop`
(async_inv_cov_update_kfac_opt.py 122-125). -/
inductive Event (T : Nat) where
  | thread (i : Fin T)
  | requestStop
  deriving DecidableEq

/-- The `k`-th element of `from_tensor_slices(sorted(names)).repeat()`; nothing for an empty list
(async_inv_cov_update_kfac_opt.py 138-140). -/
def asyncName {Op : Type} (name : Op → String) (ops : List Op) (k : Nat) : Option String :=
  ((ops.map name).mergeSort fun a b => decide (a ≤ b))[k % ops.length]?

/-- One pass of the body of `_run_ops` is cut into its three atomic steps
(async_inv_cov_update_kfac_opt.py 115-118). -/
def threadStep {Op : Type} {T : Nat} (name : Op → String) (ops : List Op) (st : AsyncState Op T) (i : Fin T) :
    AsyncState Op T :=
  match st.phase i with
  | .check =>
    { st with phase := fun j => if j = i then (if st.stop then .done else .draw) else st.phase j }
  | .draw =>
    match (asyncName name ops st.pos).bind (lookupOp name ops) with
    | some o =>
      { st with
        pos := st.pos + 1
        phase := fun j => if j = i then .running o else st.phase j
        started := st.started ++ [o] }
    | none =>
      { st with
        pos := st.pos + 1
        phase := fun j => if j = i then .done else st.phase j }
  | .running o =>
    { st with
      phase := fun j => if j = i then .check else st.phase j
      finished := st.finished ++ [o] }
  | .done => st

/-- One event. -/
def asyncStep {Op : Type} {T : Nat} (name : Op → String) (ops : List Op) (st : AsyncState Op T) :
    Event T → AsyncState Op T
  | .thread i => threadStep name ops st i
  | .requestStop => { st with stop := true }

/-- The state when the threads are started (async_inv_cov_update_kfac_opt.py 95-104). -/
def asyncInit (Op : Type) (T : Nat) : AsyncState Op T where
  pos := 0
  stop := false
  phase := fun _ => .check
  started := []
  finished := []

/-- A run: any interleaving of events. -/
def asyncRun {Op : Type} {T : Nat} (name : Op → String) (ops : List Op) (es : List (Event T))
    (st : AsyncState Op T) : AsyncState Op T :=
  es.foldl (asyncStep name ops) st

end Kfac.Exec
