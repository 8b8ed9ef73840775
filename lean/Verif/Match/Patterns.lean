import Mathlib.Data.List.Infix
import Verif.Match.Model

/-! # The layer patterns and the records made from their matches
(kfac/python/ops/tensormatch/{tensorflow_graph_util,graph_patterns}.py, graph_search.py 70-247)

The TensorFlow graph is given by its operations and tensors. Python objects are represented by numbers. -/

namespace Kfac.Match

/-- A node of the graph: an operation or a tensor. -/
inductive Node where
  | op (o : ℕ)
  | tensor (t : ℕ)
deriving DecidableEq, Repr

/-- The attributes of operations which `record_affine_from_bindings` reads (graph_search.py 122-141), and the dilations
of a convolution, which it does not read. -/
structure Attrs where
  transposeA : Bool := false
  transposeB : Bool := false
  strides : List ℕ := []
  padding : String := ""
  dataFormat : String := ""
  dilations : List ℕ := []
deriving DecidableEq

/-- A TensorFlow graph, as far as it is looked at. `refVar t` stands for `is_resource_variable` or
`is_reference_variable`, `resource t` for `dtype == tf.resource`. -/
structure TFGraph where
  opType : ℕ → String
  opInputs : ℕ → List ℕ
  opOutputs : ℕ → List ℕ
  attrs : ℕ → Attrs
  producer : ℕ → ℕ
  consumers : ℕ → List ℕ
  shape : ℕ → List ℕ
  refVar : ℕ → Bool
  resource : ℕ → Bool
  /-- an upper bound of the length of the chains of identity operations that end in an operation -/
  depth : ℕ → ℕ

variable (g : TFGraph)

/-- `is_op` (tensorflow_graph_util.py 35-36). -/
def isOp : Node → Bool
  | .op _ => true
  | .tensor _ => false

/-- `is_tensor` (39-44). -/
def isTensor : Node → Bool
  | .op _ => false
  | .tensor _ => true

/-- `is_var` on a tensor (47-61). -/
def TFGraph.varTensor (t : ℕ) : Bool :=
  "Variable".toList.isPrefixOf (g.opType (g.producer t)).toList || g.refVar t ||
    (g.resource t && (g.opType (g.producer t) == "VarHandleOp" || g.opType (g.producer t) == "Placeholder"))

/-- `is_var` (47-61). -/
def TFGraph.isVar : Node → Bool
  | .op _ => false
  | .tensor t => g.varTensor t

/-- `is_leaf` on a tensor (64-73). -/
def TFGraph.leafTensor (t : ℕ) : Bool :=
  g.varTensor t || g.opType (g.producer t) == "Const" || g.opType (g.producer t) == "Placeholder"

/-- The test of the operation type in `is_identity` (76-82). -/
def identityType (s : String) : Bool :=
  ["Identity", "ReadVariableOp", "Enter", "IdentityN"].contains s ||
    decide ("convert_gradient_to_tensor".toList <:+: s.toList)

/-- `is_identity` on an operation (76-82). -/
def TFGraph.isIdentity (o : ℕ) : Bool := identityType (g.opType o)

/-- `op_type_is(typename)` (85-90). -/
def TFGraph.opTypeIs (typename : String) : Node → Bool
  | .op o => g.opType o == typename
  | .tensor _ => false

/-- The loop of `reduce_identity_ops` (93-102), at most `n` times. -/
def TFGraph.reduceN : ℕ → ℕ → ℕ
  | 0, t => t
  | n + 1, t => if g.isIdentity (g.producer t) then
      match g.opInputs (g.producer t) with
      | [] => t
      | x :: _ => TFGraph.reduceN n x
    else t

/-- `reduce_identity_ops` (93-102). That the loop ends is part of `WellFormed`; so is the assertion. -/
def TFGraph.reduce (t : ℕ) : ℕ := g.reduceN (g.depth (g.producer t)) t

/-- `expand_inputs` (105-116) on a single node. -/
def TFGraph.expandInputs : Node → Option (List Node)
  | .op o => some ((g.opInputs o).map fun t => .tensor (g.reduce t))
  | .tensor t => if g.leafTensor t then none else some [.op (g.producer (g.reduce t))]

/-- `expand_outputs` (119-127) on a single node. -/
def TFGraph.expandOutputs : Node → Option (List Node)
  | .op o => some ((g.opOutputs o).map .tensor)
  | .tensor t => some ((g.consumers t).map .op)

/-- The graph as the matcher sees it. -/
def TFGraph.toGraph : Graph Node where
  inputs := g.expandInputs
  outputs := g.expandOutputs

/-- Chains of identity operations end, and every identity operation has inputs that are all the same (otherwise the
assertion in `reduce_identity_ops` fails, except that it looks only at the first two inputs of `IdentityN`). -/
structure TFGraph.WellFormed : Prop where
  input : ∀ o, g.isIdentity o = true → g.opInputs o ≠ []
  same : ∀ o x l, g.isIdentity o = true → g.opInputs o = x :: l → ∀ y ∈ l, y = x
  depth : ∀ o, g.isIdentity o = true → ∀ t ∈ g.opInputs o, g.depth (g.producer t) < g.depth o

/-! ### Patterns -/

abbrev P := Pat Node String

/-- `Tensor(name)` (graph_patterns.py 33-34). -/
def tensorP (name : Option String := none) : P := .elem name [isTensor]

/-- `Variable(name)` (37-38). -/
def variableP (name : String) : P := .elem (some name) [g.isVar]

/-- The pattern of an operation type, `make_op_pattern` (tensorflow_graph_util.py 131-145). -/
def opP (typename : String) (name : Option String := none) : P := .elem name [g.opTypeIs typename]

/-- `BatchNorm` (graph_patterns.py 62-78). -/
def batchNormP : P :=
  let invP : P := .internalIn (tensorP (some "inv"))
    [.choice [opP g "Rsqrt",
      .internalIn (opP g "Mul") [.internalIn (tensorP none) [opP g "Rsqrt"], tensorP (some "scale")]]]
  let withoutOffset : P := .internalIn (opP g "Mul") [tensorP none, tensorP (some "inv")]
  let withOffset : P := .internalIn (opP g "Sub") [tensorP (some "offset"),
    .internalIn (tensorP none) [.internalIn (opP g "Mul") [tensorP none, tensorP (some "inv")]]]
  .internalIn (tensorP (some "out"))
    [.internalIn (opP g "AddV2")
      [.internalIn (tensorP none) [.internalIn (opP g "Mul") [tensorP (some "in"), invP]],
        .internalIn (tensorP none) [.choice [withOffset, withoutOffset]]]]

/-- `FusedBatchNormOutput` (81-90). -/
def fusedBatchNormP : P :=
  .internalIn (tensorP (some "out"))
    [.internalIn (.choice [opP g "FusedBatchNorm", opP g "FusedBatchNormV2", opP g "FusedBatchNormV3"])
      [tensorP (some "in"), tensorP (some "scale"), tensorP (some "offset"), tensorP none, tensorP none]]

/-- `scale_pat` inside `ScaleAndShift` (103-106). -/
def scaleP : P := .choice [.internalIn (opP g "Mul") [tensorP (some "in"), variableP g "scale"],
  .internalIn (opP g "Mul") [variableP g "scale", tensorP (some "in")]]

/-- `ScaleAndShift` (97-113). -/
def scaleAndShiftP : P :=
  .internalIn (tensorP (some "out"))
    [.choice [
      .internalIn (.choice [opP g "Add", opP g "AddV2"])
        [.internalIn (tensorP none) [scaleP g], variableP g "shift"],
      .internalIn (.choice [opP g "Add", opP g "AddV2"])
        [variableP g "shift", .internalIn (tensorP none) [scaleP g]],
      scaleP g]]

/-- `linear_pat` inside `Affine` (122-124). -/
def linearP : P :=
  .internalIn (.choice [opP g "Conv2D" (some "linear_op"), opP g "MatMul" (some "linear_op"),
    opP g "BatchMatMulV2" (some "linear_op")]) [tensorP (some "in"), variableP g "weights"]

/-- `Affine` (116-130). -/
def affineP : P :=
  .internalIn (tensorP (some "pre_activations"))
    [.choice [
      .choice [
        .internalIn (.choice [opP g "Add", opP g "BiasAdd", opP g "AddV2"])
          [.internalIn (tensorP none) [linearP g], variableP g "biases"],
        .internalIn (.choice [opP g "Add", opP g "BiasAdd", opP g "AddV2"])
          [variableP g "biases", .internalIn (tensorP none) [linearP g]]],
      linearP g]]

/-- `Embed` (133-147). -/
def embedP : P :=
  .internalIn (tensorP (some "pre_activations"))
    [.choice [
      .internalIn (.choice [opP g "Gather" (some "linear_op"), opP g "ResourceGather" (some "linear_op")])
        [variableP g "weights", tensorP (some "in")],
      .internalIn (opP g "GatherV2" (some "linear_op"))
        [variableP g "weights", tensorP (some "in"), tensorP (some "axis")]]]

/-! ### Records -/

/-- The parameters of a record: a variable or a pair. -/
inductive RecParams where
  | single (v : ℕ)
  | pair (v w : ℕ)
deriving DecidableEq, Repr

/-- The data of a `MatchRecord` by record type. -/
inductive RecData where
  | fullyConnected (dense : Bool)
  | conv2d (strides : List ℕ) (padding dataFormat : String)
  | scaleAndShift
  | batchNorm
deriving DecidableEq, Repr

/-- A `MatchRecord` (graph_search.py 41-60) without its tensor set (see `Kfac.Auto`). -/
structure LayerRecord where
  params : RecParams
  inputs : ℕ
  outputs : ℕ
  data : RecData
deriving DecidableEq, Repr

/-- `tensors_to_variables.get(bindings[name])` when `bindings` may lack the name (graph_search.py 89-93). -/
def lookupVar (b : Bind Node String) (T : ℕ → Option ℕ) (name : String) : Option ℕ :=
  match b name with
  | some (.tensor t) => T t
  | _ => none

/-- The parameters when the first variable is required (100-103, 190-193). -/
def recParams (first second : Option ℕ) : Option RecParams :=
  match first, second with
  | some v, some w => some (.pair v w)
  | some v, none => some (.single v)
  | none, _ => none

/-- The record type and data by operation type (108-152). -/
def affineData (o x : ℕ) : Except String RecData :=
  let ty := g.opType o
  let sparse := ty == "Gather" || ty == "GatherV2" || ty == "ResourceGather"
  if ty == "MatMul" || ty == "BatchMatMulV2" || sparse then
    if 4 ≤ (g.shape x).length || (sparse && 3 ≤ (g.shape x).length) then
      .error "ValueError: more than two batch/time dimensions"
    else if (ty == "MatMul" || ty == "BatchMatMulV2") && ((g.attrs o).transposeA || (g.attrs o).transposeB) then
      .error "ValueError: transposed inputs or weights"
    else .ok (.fullyConnected !sparse)
  else if ty == "Conv2D" then .ok (.conv2d (g.attrs o).strides (g.attrs o).padding (g.attrs o).dataFormat)
  else .error "ValueError: Can't register operation"

/-- `record_affine_from_bindings` (graph_search.py 71-158). A missing name is a `KeyError`. -/
def recordAffine (b : Bind Node String) (T : ℕ → Option ℕ) : Except String (Option LayerRecord) :=
  let biases := lookupVar b T "biases"
  let weights := lookupVar b T "weights"
  match b "in", b "pre_activations", b "linear_op" with
  | some (.tensor x), some (.tensor y), some (.op o) =>
    if biases.isSome && weights.isNone then .error "ValueError: Can't register linear layer part with only biases."
    else match recParams weights biases with
      | none => .ok none
      | some p => (affineData g o x).map fun d => some { params := p, inputs := x, outputs := y, data := d }
  | _, _, _ => .error "KeyError"

/-- `record_scale_and_shift_from_bindings` (161-202). -/
def recordScaleAndShift (b : Bind Node String) (T : ℕ → Option ℕ) : Except String (Option LayerRecord) :=
  let shift := lookupVar b T "shift"
  let scale := lookupVar b T "scale"
  match b "in", b "out" with
  | some (.tensor x), some (.tensor y) =>
    if shift.isSome && scale.isNone then .error "ValueError: Can't register scale_and_shift with only shift."
    else .ok ((recParams scale shift).map fun p => { params := p, inputs := x, outputs := y, data := .scaleAndShift })
  | _, _ => .error "KeyError"

/-- `record_batch_norm_from_bindings` (205-247). -/
def recordBatchNorm (b : Bind Node String) (T : ℕ → Option ℕ) : Except String (Option LayerRecord) :=
  let offset := lookupVar b T "offset"
  let scale := lookupVar b T "scale"
  match b "in", b "out" with
  | some (.tensor x), some (.tensor y) =>
    .ok (((recParams scale offset).or (offset.map .single)).map fun p =>
      { params := p, inputs := x, outputs := y, data := .batchNorm })
  | _, _ => .error "KeyError"

/-- One entry of `match_register_list` applied to a tensor (graph_search.py 364-374, 405-411). -/
def tryPattern (p : P) (rec : Bind Node String → (ℕ → Option ℕ) → Except String (Option LayerRecord))
    (T : ℕ → Option ℕ) (t : ℕ) : Except String (Option LayerRecord) :=
  match matcherWithConsumed g.toGraph p (.tensor t) with
  | none => .ok none
  | some r => rec r.1 T

/-- The records of a tensor: the loop over `match_register_list` (graph_search.py 364-374, 404-414). -/
def recordsOf (T : ℕ → Option ℕ) (t : ℕ) : Except String (List LayerRecord) := do
  let a ← tryPattern g (affineP g) (recordAffine g) T t
  let s ← tryPattern g (scaleAndShiftP g) recordScaleAndShift T t
  let n ← tryPattern g (batchNormP g) recordBatchNorm T t
  let f ← tryPattern g (fusedBatchNormP g) recordBatchNorm T t
  let e ← tryPattern g (embedP g) (recordAffine g) T t
  return a.toList ++ s.toList ++ n.toList ++ f.toList ++ e.toList

end Kfac.Match
