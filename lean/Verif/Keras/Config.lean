import Verif.Opt.Model

/-! # The Keras optimizer: keyword arguments and configuration (kfac/python/keras/optimizers.py 53-433)

Python dictionaries with string keys are partial functions. TensorFlow objects are opaque. -/

namespace Kfac.Keras

open Kfac.Opt (lower isQmodel)

/-- Python values. `inst` is an object with a `get_config` method (the instance of a loss class), `func` an object with
a `__name__`, `obj` anything else (tensors, variables, lists of them). -/
inductive Val where
  | none
  | bool (b : Bool)
  | int (n : ℤ)
  | float (r : ℝ)
  | str (s : String)
  | func (name : String)
  | inst (cls : String) (config : List (String × Val))
  | dict (items : List (String × Val))
  | list (items : List Val)
  | obj (id : ℕ)

/-- Truth value (`if x`). -/
noncomputable def Val.truthy : Val → Bool
  | .none => false
  | .bool b => b
  | .int n => decide (n ≠ 0)
  | .float r => decide (r ≠ 0)
  | .str s => decide (s ≠ "")
  | .func _ => true
  | .inst _ _ => true
  | .dict l => !l.isEmpty
  | .list l => !l.isEmpty
  | .obj _ => true

abbrev Dict := String → Option Val

/-- `d.update(e)`. -/
def Dict.update (d e : Dict) : Dict := fun k => (e k).or (d k)

/-- `d[k] = v`. -/
def Dict.set (d : Dict) (k : String) (v : Val) : Dict := fun j => if j = k then some v else d j

/-- `del d[k]`. -/
def Dict.erase (d : Dict) (k : String) : Dict := fun j => if j = k then none else d j

/-- A dictionary literal with distinct keys. -/
def Dict.lit (l : List (String × Val)) : Dict := fun k => l.lookup k

/-- `d.get(k)`. -/
def Dict.get (d : Dict) (k : String) : Val := (d k).getD .none

/-- `_DEFAULT_KWARGS` (optimizers.py 37-44): the defaults of `KfacOptimizer.__init__` (optimizer.py 52-88) and of
`PeriodicInvCovUpdateKfacOpt.__init__` (periodic_inv_cov_update_kfac_opt.py 51-55). -/
noncomputable def defaults : Dict := Dict.lit [
  ("cov_ema_decay", .float 0.95), ("var_list", .none), ("momentum", .float 0.9), ("momentum_type", .str "adam"),
  ("use_weight_decay", .bool false), ("weight_decay_coeff", .float 0.1), ("qmodel_update_rescale", .none),
  ("norm_constraint", .none), ("name", .str "KFAC"), ("estimation_mode", .str "gradients"),
  ("colocate_gradients_with_ops", .bool true), ("batch_size", .none), ("placement_strategy", .none),
  ("compute_params_stats", .bool false), ("adapt_damping", .bool false), ("update_damping_immediately", .bool true),
  ("is_chief", .bool true), ("prev_train_batch", .none), ("loss", .none), ("loss_fn", .none),
  ("min_damping", .float 1e-8), ("l2_reg", .float 0), ("damping_adaptation_decay", .float 0.95),
  ("damping_adaptation_interval", .int 5), ("damping_decrease_rho_threshold", .float 0.75),
  ("damping_increase_rho_threshold", .float 0.25), ("precon_damping_mult", .float 1), ("use_passed_loss", .bool true),
  ("train_batch", .none), ("print_logs", .bool false), ("tf_replicator", .none), ("dtype", .str "float32"),
  ("invert_every", .int 10), ("cov_update_every", .int 1), ("num_burnin_steps", .int 0)]

/-- What adaptive mode sets (optimizers.py 79-84). -/
def adaptiveKwargs : Dict := Dict.lit [("adapt_damping", .bool true), ("momentum", .none), ("momentum_type", .str "qmodel")]

/-- What adaptive damping sets if missing (optimizers.py 93). -/
def dampingKwargs : Dict := Dict.lit [("use_passed_loss", .bool true), ("update_damping_immediately", .bool true)]

/-- `x.lower().startswith('qmodel')`; only strings have `lower`. -/
def startsQmodel : Val → Except String Bool
  | .str s => .ok (isQmodel (lower s))
  | _ => .error "AttributeError: lower"

/-- The last part of `_configure_kfac_kwargs_for_adaptive` (optimizers.py 92-102). -/
noncomputable def configureDamping (kw : Dict) : Dict :=
  if (kw.get "adapt_damping").truthy then
    let kw := kw.update (dampingKwargs.update kw)
    if (kw "invert_every").isSome && (kw "damping_adaptation_interval").isSome then kw
    else (kw.set "invert_every" (.int 5)).set "damping_adaptation_interval" (.int 5)
  else kw

/-- `_configure_kfac_kwargs_for_adaptive` (optimizers.py 53-102). -/
noncomputable def configure (kw : Dict) (adaptive : Bool) : Except String Dict :=
  let kw := if adaptive then kw.update adaptiveKwargs else kw
  match startsQmodel ((kw "momentum_type").getD (.str "regular")) with
  | .error e => .error e
  | .ok q =>
    if q && (kw.get "learning_rate").truthy then .error "ValueError: learning_rate must be None"
    else if q && (kw.get "momentum").truthy then .error "ValueError: momentum must be None"
    else .ok (configureDamping kw)

/-- `losses.serialize`, external to the library: names of functions, class name and configuration of instances. -/
def lossesSerialize : Val → Except String Val
  | .none => .ok .none
  | .inst cls config => .ok (.dict [("class_name", .str cls), ("config", .dict config)])
  | .func name => .ok (.str name)
  | _ => .error "ValueError: Cannot serialize"

/-- The inner `serialize` (utils.py 72-73). -/
def serializeOne : Val → Except String Val
  | .str s => .ok (.str s)
  | v => lossesSerialize v

/-- `serialize_loss` (utils.py 70-82). -/
noncomputable def serializeLoss (v : Val) : Except String Val :=
  if v.truthy = false then .ok v
  else match v with
    | .str s => .ok (.str s)
    | .dict items => (items.mapM fun e => (serializeOne e.2).map fun x => (e.1, x)).map .dict
    | .list items => (items.mapM serializeOne).map .list
    | v => lossesSerialize v

/-- The parameters of `Kfac.__init__` (optimizers.py 108-121); all other keywords go to `kfac_kwargs`. -/
def named : List String := ["_sentinel", "learning_rate", "damping", "model", "loss", "loss_weights", "fisher_approx",
  "layer_collection", "adaptive", "train_batch", "name", "seed"]

/-- `_MUTABLE_HYPER_PARAMS` (optimizers.py 46-50). -/
def mutableHypers : List String := ["learning_rate", "momentum", "damping", "weight_decay_coeff", "norm_constraint"]

/-- The attributes of the Keras optimizer that matter here; `hyper` are the current values of `self._hyper`. -/
structure KOpt where
  kwargs : Dict
  config : Dict
  hyper : Dict

/-- The hyperparameters (optimizers.py 244-253). -/
noncomputable def hypersOf (config : Dict) (q : Bool) : Dict := fun k =>
  if mutableHypers.contains k && !(k = "damping" && (config.get "adapt_damping").truthy) &&
      !(q && (k = "learning_rate" || k = "momentum")) then
    match config k with
    | some .none => none
    | v => v
  else none

/-- `Kfac(**args)` (optimizers.py 108-258) without the registration of a layer collection or train batch passed along.
`unique` is the name Keras makes up when none is given. Dictionaries of approximations are taken to be serialised,
so `serialize_fisher_approx` is left out. -/
noncomputable def init (unique : String) (args : Dict) : Except String KOpt :=
  if (args.get "_sentinel").truthy then .error "ValueError: positional"
  else match args.get "damping" with
  | .none => .error "ValueError: Please provide a value for damping."
  | damping =>
    let kw : Dict := fun k => if named.contains k then none else args k
    if (kw "clipvalue").isSome || (kw "clipnorm").isSome then .error "ValueError: clip"
    else
      let name := if (args.get "name").truthy then args.get "name" else .str unique
      let kw := kw.update (Dict.lit [("name", name), ("learning_rate", args.get "learning_rate"), ("damping", damping)])
      match configure kw (args.get "adaptive").truthy with
      | .error e => .error e
      | .ok kw =>
        match serializeLoss (args.get "loss") with
        | .error e => .error e
        | .ok loss =>
          let lc := Dict.lit [("loss_weights", args.get "loss_weights"), ("fisher_approx", args.get "fisher_approx"),
            ("seed", args.get "seed")]
          let config := ((defaults.update kw).update lc).set "loss" loss
          let kwargs := match kw "loss_tensor" with
            | some t => (kw.erase "loss_tensor").set "loss" t
            | none => kw
          match startsQmodel (config.get "momentum_type") with
          | .error e => .error e
          | .ok q => .ok ⟨kwargs, config, hypersOf config q⟩

/-- `get_config` (optimizers.py 344-348). -/
def getConfig (o : KOpt) : Dict := o.config.update o.hyper

/-- `register_train_batch` (optimizers.py 310-328) with a tuple of tensors; `dim` is the first dimension of the input if
statically known. -/
def registerTrainBatch (o : KOpt) (batch : Val) (dim : Option ℕ) : Except String KOpt :=
  let kw := o.kwargs.set "train_batch" batch
  match kw "batch_size" with
  | some _ => .ok { o with kwargs := kw }
  | none => match dim with
    | some (n + 1) => .ok { o with kwargs := kw.set "batch_size" (.int (n + 1)) }
    | _ => .error "ValueError: Could not infer batch_size"

/-- `cov_ema_decay ** cov_update_every` (periodic_inv_cov_update_kfac_opt.py 93-94). -/
noncomputable def power : Val → Val → Val
  | .float r, .int n => .float (r ^ n)
  | .int m, .int n => .float ((m : ℝ) ^ n)
  | v, _ => v

/-- The setting that `PeriodicInvCovUpdateKfacOpt(**passed)` and `KfacOptimizer` work with. -/
noncomputable def effective (passed : Dict) (k : String) : Option Val :=
  let given := (passed k).or (defaults k)
  if k = "cov_ema_decay" && (passed k).isSome then
    given.map fun v => power v (((passed "cov_update_every").or (defaults "cov_update_every")).getD .none)
  else given

/-- `register_train_batch` if it is called. -/
def attachBatch (o : KOpt) : Option (Val × Option ℕ) → Except String KOpt
  | none => .ok o
  | some b => registerTrainBatch o b.1 b.2

/-- `_create_optimizer` (optimizers.py 350-400) after `register_layers` with a layer collection whose registered
variables are `vars`, and after `register_train_batch` if `batch` is given; `lossFn` is what `get_loss_fn` returns. The
result are the settings of the optimizer made. -/
noncomputable def create (o : KOpt) (collection vars lossFn : Val) (batch : Option (Val × Option ℕ)) :
    Except String Dict :=
  let o := { o with kwargs := o.kwargs.set "var_list" vars }
  match attachBatch o batch with
  | .error e => .error e
  | .ok o =>
    if (o.config.get "adapt_damping").truthy && (o.kwargs "train_batch").isNone then
      .error "ValueError: Must provide a train_batch tuple"
    else
      let kw := if (o.config.get "adapt_damping").truthy && (o.kwargs "loss_fn").isNone
        then o.kwargs.set "loss_fn" lossFn else o.kwargs
      .ok (effective ((kw.update o.hyper).set "layer_collection" collection))

end Kfac.Keras
