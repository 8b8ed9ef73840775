import Verif.Keras.Decay

/-! # Training with decay callbacks (kfac/python/keras/callbacks.py 27-67)

What `model.fit` does with a list of `HyperparameterDecay` callbacks. The loop of Keras is trusted: it calls
`on_train_begin` of every callback, then for every epoch `on_epoch_begin` of every callback, for every batch
`on_batch_begin` of every callback followed by one step of the optimizer, and `on_epoch_end` of every callback with one
dictionary of logs, always in the order of the list. An attribute of the optimizer is a real number. -/

namespace Kfac.Keras.Decay

/-- The optimizer as the callbacks see it: its numerical attributes and the counter `iterations`, if it has one. -/
structure Opt where
  attrs : String → Option ℝ
  iterations : Option ℕ

/-- A callback (callbacks.py 30-43): the attribute, the delay, the verbosity and the schedule of the subclass. -/
structure Callback where
  hyperparameter : String
  delay : ℤ
  verbose : ℤ
  sched : Schedule

/-- `on_train_begin` (callbacks.py 45-51). -/
def onTrainBegin (cb : Callback) (o : Opt) : Except String Unit :=
  if (o.attrs cb.hyperparameter).isNone then .error "ValueError: Optimizer must have the attribute"
  else if o.iterations.isNone then .error "ValueError: Optimizer must have a \"iterations\" attribute"
  else .ok ()

/-- `on_train_begin` of every callback. -/
def trainBegin (o : Opt) : List Callback → Except String Unit
  | [] => .ok ()
  | cb :: cbs => do
    onTrainBegin cb o
    trainBegin o cbs

/-- `on_epoch_begin` (callbacks.py 53-58): the lines printed, as the number of the epoch, the name and the value. -/
def onEpochBegin (epoch : ℕ) (cb : Callback) (o : Opt) : List (ℕ × String × ℝ) :=
  if 0 < cb.verbose then
    match o.attrs cb.hyperparameter with
    | some v => [(epoch + 1, cb.hyperparameter, v)]
    | none => []
  else []

/-- `on_epoch_end` (callbacks.py 60-63): the value is written into the logs. -/
def onEpochEnd (o : Opt) (logs : String → Option ℝ) (cb : Callback) : String → Option ℝ := fun k =>
  if k = cb.hyperparameter then o.attrs cb.hyperparameter else logs k

/-- `on_batch_begin` with `setattr` (callbacks.py 107-113 and 181-186, `_get_global_step` 65-67). -/
def assign (o : Opt) (cb : Callback) : Opt :=
  match o.iterations, o.attrs cb.hyperparameter with
  | some t, some v =>
    { o with attrs := fun k => if k = cb.hyperparameter then some (onBatchBegin cb.sched cb.delay t v) else o.attrs k }
  | _, _ => o

/-- One batch: the callbacks, then the step of the optimizer, which uses the attributes (the second component) and
increases the counter. -/
def batch (cbs : List Callback) (o : Opt) : Opt × (String → Option ℝ) :=
  let o' := cbs.foldl assign o
  ({ o' with iterations := o'.iterations.map (· + 1) }, o'.attrs)

/-- `n` batches, with the attributes used by each. -/
def batches (cbs : List Callback) : ℕ → Opt → Opt × List (String → Option ℝ)
  | 0, o => (o, [])
  | n + 1, o =>
    let r := batch cbs o
    let s := batches cbs n r.1
    (s.1, r.2 :: s.2)

/-- What a run leaves behind: the optimizer, the attributes used by each batch, the printed lines and the logs of each
epoch. -/
structure History where
  opt : Opt
  used : List (String → Option ℝ)
  printed : List (ℕ × String × ℝ)
  logs : List (String → Option ℝ)

/-- The epochs from number `e` on; `ns` are their numbers of batches and `metrics` what Keras has put into the logs. -/
def epochs (cbs : List Callback) (metrics : String → Option ℝ) : ℕ → List ℕ → Opt → History
  | _, [], o => ⟨o, [], [], []⟩
  | e, n :: ns, o =>
    let r := batches cbs n o
    let h := epochs cbs metrics (e + 1) ns r.1
    ⟨h.opt, r.2 ++ h.used, (cbs.flatMap fun cb => onEpochBegin e cb o) ++ h.printed,
      cbs.foldl (onEpochEnd r.1) metrics :: h.logs⟩

/-- `model.fit`, from epoch number `e` on. -/
def fit (cbs : List Callback) (metrics : String → Option ℝ) (e : ℕ) (ns : List ℕ) (o : Opt) : Except String History := do
  trainBegin o cbs
  return epochs cbs metrics e ns o

end Kfac.Keras.Decay
