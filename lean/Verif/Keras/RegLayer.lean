import Mathlib.Data.Real.Basic
import Verif.Match.Patterns

/-! # Registering one Keras layer (kfac/python/keras/utils.py 48-67 and 119-223)

Tensors and variables are numbers; the TensorFlow graph is the one of `Verif.Match.Patterns`. The result is the sequence
of calls made on the layer collection. Keras is that of TensorFlow 1.15. -/

namespace Kfac.Keras.RegLayer

open Kfac.Match (TFGraph)

/-- The Keras layer classes that have parameters or an activation, as far as the dispatch can tell them apart. -/
inductive Cls where
  | dense | embedding | batchNormalization | layerNormalization
  | conv1d | conv2d | conv3d | conv2dTranspose | conv3dTranspose | depthwiseConv2d
  | separableConv1d | separableConv2d | locallyConnected1d | locallyConnected2d
  | activation | recurrent | other
deriving DecidableEq, Repr

/-- The class and its base classes among these, from the class definitions of tf.keras. -/
def Cls.bases : Cls → List Cls
  | .conv2dTranspose => [.conv2dTranspose, .conv2d]
  | .conv3dTranspose => [.conv3dTranspose, .conv3d]
  | .depthwiseConv2d => [.depthwiseConv2d, .conv2d]
  | c => [c]

/-- `isinstance(layer, layers.X)`. -/
def isInstance (c d : Cls) : Bool := c.bases.contains d

/-- The attributes of a convolutional layer. -/
structure Geometry where
  strides : List ℕ
  padding : String
  dilationRate : List ℕ
  dataFormat : String

/-- The input or output tensors of a node: a tensor or a list. -/
inductive Tensors where
  | one (t : ℕ)
  | many (ts : List ℕ)

/-- An inbound node of a layer: one call of the layer. -/
structure CallNode where
  inputs : Tensors
  outputs : Tensors

/-- A Keras layer. Attributes that a class need not have are optional: `activation` (the name of the function), the
geometry (present if `strides`, `padding` and `dilation_rate` all are), `fused`. The last inbound node is kept apart. -/
structure KLayer where
  cls : Cls
  activation : Option String := none
  earlier : List CallNode := []
  last : CallNode
  countParams : ℕ
  trainable : Bool
  weights : List ℕ
  geometry : Option Geometry := none
  scale : Bool := true
  center : Bool := true
  fused : Option Bool := none

/-- `expand_inputs` on the output of a layer (tensorflow_graph_util.py 105-116); `None` has no length. -/
def expandOut (g : TFGraph) : Tensors → Except String (List ℕ)
  | .one t => match g.expandInputs (.tensor t) with
    | some ns => .ok (ns.filterMap fun n => match n with | .op o => some o | .tensor _ => none)
    | none => .error "TypeError: object of type 'NoneType' has no len()"
  | .many ts => match (ts.map fun t => g.producer (g.reduce t)).dedup with
    | [o] => .ok [o]
    | _ => .error "ValueError"

/-- `get_parent` (utils.py 48-67). -/
def getParent (g : TFGraph) (ts : Tensors) : Except String ℕ :=
  match expandOut g ts with
  | .error e => .error e
  | .ok [o] =>
    match (g.opInputs o).map g.reduce with
    | [p] => .ok p
    | _ => .error "ValueError: has more than one parent tensor."
  | .ok _ => .error "ValueError: has more than one input op."

/-- `hasattr(layer, 'activation') and layer.activation != activations.linear`. -/
def nonlinear (l : KLayer) : Bool :=
  match l.activation with
  | some a => a != "linear"
  | none => false

/-- `pre_activation_output` (utils.py 145-148). -/
def preActivation (g : TFGraph) (l : KLayer) : Except String Tensors :=
  if nonlinear l then (getParent g l.last.outputs).map .one else .ok l.last.outputs

/-- The argument `params`: a variable or a list. -/
inductive Params where
  | single (v : ℕ)
  | list (vs : List ℕ)
deriving DecidableEq, Repr

/-- The variables in `params`. -/
def Params.vars : Params → List ℕ
  | .single v => [v]
  | .list vs => vs

/-- The argument `inputs`: a tensor of the model, or the new tensor `(out - shift) / scale`, `out / scale`. -/
inductive Source where
  | tensor (t : ℕ)
  | unscaled (out scale : ℕ) (shift : Option ℕ)
deriving DecidableEq, Repr

/-- The calls made on the layer collection. -/
inductive Call where
  | fullyConnected (params : Params) (inputs outputs : ℕ) (dense : Bool) (approx : Option String)
  | scaleAndShift (params : Params) (inputs : Source) (outputs : ℕ) (approx : Option String)
  | conv1d (params : Params) (inputs outputs : ℕ) (strides : List ℕ) (padding : String) (dilations : List ℕ)
      (approx : Option String)
  | conv2d (params : Params) (inputs outputs : ℕ) (strides : List ℕ) (padding : String) (dilations : List ℕ)
      (approx : Option String)
  | addUses (vars : List ℕ) (n : ℕ)
deriving DecidableEq, Repr

/-- `str.upper`. -/
def upper (s : String) : String := String.ofList (s.toList.map Char.toUpper)

/-- The value of `K.get_value(K.learning_phase())`: a Boolean if the phase has not been set, else the integer given. -/
inductive PyNum where
  | bool (b : Bool)
  | int (n : ℕ)

/-- The number a Boolean is in Python comparisons. -/
def PyNum.num : PyNum → ℕ
  | .bool b => b.toNat
  | .int n => n

/-- `a != b` in Python. -/
def PyNum.ne (a b : PyNum) : Bool := a.num != b.num

/-- The learning phase: not set, or set to 0 (test) or 1 (train). -/
inductive Phase where
  | unset
  | test
  | train
deriving DecidableEq

/-- `K.get_value(K.learning_phase())`. -/
def Phase.value : Phase → PyNum
  | .unset => .bool false
  | .test => .int 0
  | .train => .int 1

/-- The inputs given to the registration of a normalisation layer (utils.py 181-182). Dividing by a list of one variable
is dividing by the variable. -/
def normSource (l : KLayer) (out : ℕ) : Except String Source :=
  match l.weights with
  | [] => .error "IndexError"
  | [v] => if l.center then .error "IndexError" else .ok (.unscaled out v none)
  | v :: w :: _ => if l.center then .ok (.unscaled out v (some w)) else .error "InvalidArgumentError"

/-- The branch for normalisation layers (utils.py 172-199). -/
def registerNorm (phase : Phase) (l : KLayer) (params : Params) (out : ℕ) (approx : Option String) :
    Except String (List Call) :=
  if !l.scale then .error "ValueError: Kfac currently does not support normalization with scale=False."
  else (normSource l out).map fun s =>
      let isPhaseSet := phase.value.ne (.bool false)
      [.scaleAndShift params s out approx] ++
        if l.fused.getD false && !isPhaseSet then [.addUses l.weights 1] else []

/-- The branch for convolutions (utils.py 201-220). -/
def registerConv (l : KLayer) (geo : Geometry) (params : Params) (x out : ℕ) (approx : Option String) :
    Except String (List Call) :=
  if geo.dataFormat ≠ "channels_last" then .error "ValueError: KFAC currently only supports \"channels_last\""
  else
    let padding := upper geo.padding
    let strides := [1] ++ geo.strides ++ [1]
    let dilations := [1] ++ geo.dilationRate ++ [1]
    if isInstance l.cls .conv2d then .ok [.conv2d params x out strides padding dilations approx]
    else if isInstance l.cls .conv1d then .ok [.conv1d params x out strides padding dilations approx]
    else .error "ValueError: Unsupported convolutional layer type"

/-- The dispatch on the class of the layer (utils.py 168-223). -/
def dispatch (phase : Phase) (l : KLayer) (params : Params) (x out : ℕ) (approx : Option String) :
    Except String (List Call) :=
  if isInstance l.cls .dense then .ok [.fullyConnected params x out true approx]
  else if isInstance l.cls .embedding then .ok [.fullyConnected params x out false approx]
  else if isInstance l.cls .batchNormalization || isInstance l.cls .layerNormalization then
    registerNorm phase l params out approx
  else match l.geometry with
    | some geo => registerConv l geo params x out approx
    | none => .error "ValueError: Unsupported layer type"

/-- `params` (utils.py 163). -/
def paramsOf : List ℕ → Except String Params
  | [] => .error "IndexError"
  | [v] => .ok (.single v)
  | vs => .ok (.list vs)

/-- `register_layer` (utils.py 119-223). -/
def registerLayer (g : TFGraph) (phase : Phase) (l : KLayer) (approx : Option String) : Except String (List Call) :=
  match preActivation g l with
  | .error e => .error e
  | .ok pre =>
    if l.countParams ≠ 0 && l.trainable then
      match l.last.inputs, l.last.outputs, pre with
      | .one x, .one _, .one out =>
        match paramsOf l.weights with
        | .error e => .error e
        | .ok params => dispatch phase l params x out approx
      | _, _, _ => .error "ValueError: Individual layers can only have 1 input_tensor and 1 output tensor."
    else .ok []

/-- The uses of a variable that a call registers: every registration of a layer adds one use of its parameters
(layer_collection.py 794, 855, 964, 1487), `_add_uses` the given number. -/
def Call.uses (v : ℕ) : Call → ℕ
  | .fullyConnected p _ _ _ _ => p.vars.count v
  | .scaleAndShift p _ _ _ => p.vars.count v
  | .conv1d p _ _ _ _ _ _ => p.vars.count v
  | .conv2d p _ _ _ _ _ _ => p.vars.count v
  | .addUses vs n => n * vs.count v

end Kfac.Keras.RegLayer
