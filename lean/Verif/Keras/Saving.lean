import Verif.Keras.Config

/-! # Loading a saved Keras model (kfac/python/keras/saving_utils.py)

Keras itself (reading the architecture, compiling) is external. -/

namespace Kfac.Keras

mutual

/-- `tf.nest.map_structure` of one structure: dictionaries and lists are walked through, everything else is a leaf. -/
def mapStructure (f : Val → Val) : Val → Val
  | .dict items => .dict (mapItems f items)
  | .list items => .list (mapVals f items)
  | v => f v

def mapItems (f : Val → Val) : List (String × Val) → List (String × Val)
  | [] => []
  | e :: l => (e.1, mapStructure f e.2) :: mapItems f l

def mapVals (f : Val → Val) : List Val → List Val
  | [] => []
  | v :: l => mapStructure f v :: mapVals f l

end

/-- `custom_objects.get(obj, obj)`; the keys are strings. -/
def lookupCustom (custom : Dict) : Val → Val
  | .str s => (custom s).getD (.str s)
  | v => v

/-- `training_config`, as JSON. -/
structure TrainingConfig where
  optimizerClass : String
  optimizerConfig : Dict
  loss : Val
  metrics : Val
  weightedMetrics : Val
  sampleWeightMode : Val
  lossWeights : Val

/-- The arguments of `model.compile`. -/
structure CompileArgs where
  optimizer : KOpt
  loss : Val
  metrics : Val
  weightedMetrics : Val
  lossWeights : Val
  sampleWeightMode : Val

/-- `tf.keras.losses.get` of a serialised loss class: classes of Keras (`known`) only, without the custom objects. -/
def lossesGet (known : String → Bool) (items : List (String × Val)) : Except String Val :=
  match items.lookup "class_name", items.lookup "config" with
  | some (.str cls), some (.dict config) =>
    if known cls then .ok (.inst cls config) else .error "ValueError: Unknown loss function"
  | _, _ => .error "ValueError: Improper config format"

/-- `if isinstance(loss_config, dict) and 'class_name' in loss_config` (saving_utils.py 49-50). -/
def lossConfig (known : String → Bool) : Val → Except String Val
  | .dict items => if (items.lookup "class_name").isSome then lossesGet known items else .ok (.dict items)
  | v => .ok v

/-- `_compile_args_from_training_config` (saving_utils.py 38-66). An optimizer that is not `Kfac` has no
`register_layers`; the failure there (saving_utils.py 136) is put here. -/
noncomputable def compileArgs (known : String → Bool) (unique : String) (custom : Dict) (t : TrainingConfig) :
    Except String CompileArgs :=
  if t.optimizerClass = "Kfac" then
    match init unique t.optimizerConfig with
    | .error e => .error e
    | .ok o =>
      match lossConfig known t.loss with
      | .error e => .error e
      | .ok loss => .ok
        { optimizer := o
          loss := mapStructure (lookupCustom custom) loss
          metrics := mapStructure (lookupCustom custom) t.metrics
          weightedMetrics := mapStructure (lookupCustom custom) t.weightedMetrics
          lossWeights := t.lossWeights
          sampleWeightMode := t.sampleWeightMode }
  else .error "AttributeError: register_layers"

variable {V : Type}

/-- What the HDF5 file holds; `model` is the outcome of reading the architecture and the weights
(`tf.keras.models.load_model(..., compile=False)`). -/
structure Saved (V : Type) where
  model : Except String Unit
  trainingConfig : Option TrainingConfig
  optimizerWeights : Option (List V)

/-- The rest of the world: the losses Keras knows, the name made up for an optimizer, the layer collection
`register_layers` makes for the loaded model, its variables, and the loss function; the initial values of the optimizer's
variables (with their shapes) by its settings. -/
structure World (V : Type) where
  known : String → Bool
  unique : String
  collection : Val
  vars : Val
  lossFn : Val
  shape : V → List ℕ
  fresh : Dict → List V

/-- The `name` setter before the variables exist (optimizers.py 265-273). -/
def setName (o : KOpt) (name : String) : KOpt :=
  { o with config := o.config.set "name" (.str name), kwargs := o.kwargs.set "name" (.str name) }

/-- `if optimizer_name: model.optimizer.name = optimizer_name` (saving_utils.py 137-138). -/
def withName (name : Option String) (o : KOpt) : KOpt :=
  match name with
  | none => o
  | some n => if n = "" then o else setName o n

/-- `optimizer.set_weights`, external to the library: numbers of values and shapes must agree. -/
def setWeights (shape : V → List ℕ) (old vals : List V) : Except String (List V) :=
  if vals.map shape = old.map shape then .ok vals else .error "ValueError: optimizer weight shape"

/-- The loaded model's optimizer; `built` are its settings and the values of its variables if they exist. -/
structure Loaded (V : Type) where
  args : CompileArgs
  optimizer : KOpt
  built : Option (Dict × List V)

/-- The part of `load_model` inside `try` (saving_utils.py 124-153). -/
noncomputable def loadBody (w : World V) (custom : Dict) (name : Option String) (f : Saved V) : Except String (Loaded V) :=
  match f.trainingConfig with
  | none => .error "ValueError: No training configuration found in save file"
  | some t =>
    match compileArgs w.known w.unique custom t with
    | .error e => .error e
    | .ok a =>
      let o := withName name a.optimizer
      match f.optimizerWeights with
      | none => .ok ⟨a, o, none⟩
      | some vals =>
        match create o w.collection w.vars w.lossFn none with
        | .error e => .error e
        | .ok settings =>
          match setWeights w.shape (w.fresh settings) vals with
          | .error _ => .ok ⟨a, o, some (settings, w.fresh settings)⟩
          | .ok vals => .ok ⟨a, o, some (settings, vals)⟩

/-- What the caller sees: their dictionary of custom objects afterwards, whether a file `load_model` opened is still open,
and the result. -/
structure Outcome (V : Type) where
  custom : Option (List (String × Val))
  leftOpen : Bool
  result : Except String (Loaded V)

/-- The class `Kfac` as an object. -/
def kfacClass : Val := .func "Kfac"

/-- `custom_objects['Kfac'] = optimizers.Kfac`, in the caller's dictionary if it is not empty (saving_utils.py 112-114). -/
def addKfac : Option (List (String × Val)) → Option (List (String × Val))
  | some (e :: l) => some (("Kfac", kfacClass) :: (e :: l).filter fun e => e.1 ≠ "Kfac")
  | c => c

/-- The dictionary used. -/
def customDict (c : Option (List (String × Val))) : Dict := Dict.lit (("Kfac", kfacClass) :: c.getD [])

/-- `load_model` (saving_utils.py 69-158) with h5py; `path` says whether the argument is a path. -/
noncomputable def loadModel (w : World V) (path : Bool) (custom : Option (List (String × Val))) (name : Option String)
    (f : Saved V) : Outcome V :=
  match f.model with
  | .error e => ⟨addKfac custom, path, .error e⟩
  | .ok _ => ⟨addKfac custom, false, loadBody w (customDict custom) name f⟩

end Kfac.Keras
