import Mathlib.Data.Finset.Basic
import Mathlib.Data.Rat.Defs

/-!
# Model of `LayerCollection` (`kfac/python/ops/layer_collection.py`)

A call returns the state after it together with its result, so that what an exception leaves behind is
visible.
-/

namespace Kfac.Reg

/-! ### Dictionaries as association lists in insertion order -/

section Assoc
variable {K V : Type} [DecidableEq K]

/-- `d.get(k)` -/
def lookup (l : List (K × V)) (k : K) : Option V := (l.find? fun e => e.1 = k).map (·.2)

/-- `d[k] = v`: an existing key keeps its position. -/
def upsert (l : List (K × V)) (k : K) (v : V) : List (K × V) :=
  if k ∈ l.map (·.1) then l.map fun e => if e.1 = k then (k, v) else e else l ++ [(k, v)]

end Assoc

/-! ### Variables and parameter groups -/

/-- A variable: its identity and static shape. -/
structure Var where
  id : Nat
  shape : List Nat
deriving DecidableEq

/-- The parameters of a layer: one variable or a tuple/list. Lists are turned into tuples wherever they
are used as keys (`_canonicalize_key`, layer_collection.py 157-160). -/
inductive Params where
  | single (v : Var)
  | seq (vs : List Var)
deriving DecidableEq

/-- `utils.ensure_sequence` (utils.py 711-716). -/
def Params.vars : Params → List Var
  | .single v => [v]
  | .seq vs => vs

/-- `isinstance(params, (tuple, list))` -/
def Params.isSeq : Params → Bool
  | .single _ => false
  | .seq _ => true

/-! ### `LayerParametersDict` (layer_collection.py 126-160) -/

/-- The dictionary and its private set `_tensors`. -/
structure LPD (V : Type) where
  entries : List (Params × V)
  tensors : Finset Var

variable {V : Type}

/-- A new dictionary (layer_collection.py 132-134). -/
def LPD.empty : LPD V := ⟨[], ∅⟩

def LPD.keys (d : LPD V) : List Params := d.entries.map (·.1)

/-- `__setitem__` (layer_collection.py 136-143). -/
def LPD.setItem (d : LPD V) (k : Params) (v : V) : Except String (LPD V) :=
  if d.tensors ∩ k.vars.toFinset ≠ ∅ then .error "ValueError: Key(s) already present"
  else .ok ⟨upsert d.entries k v, d.tensors ∪ k.vars.toFinset⟩

/-- `__delitem__` (layer_collection.py 145-148). `_tensors` holds variables, so `_tensors.remove(key)`
raises for every tuple. -/
def LPD.delItem (d : LPD V) (k : Params) : LPD V × Except String Unit :=
  match k with
  | .seq _ => (d, .error "KeyError")
  | .single v =>
    if v ∈ d.tensors then
      if k ∈ d.keys then (⟨d.entries.filter fun e => e.1 ≠ k, d.tensors.erase v⟩, .ok ())
      else (⟨d.entries, d.tensors.erase v⟩, .error "KeyError")
    else (d, .error "KeyError")

/-- `__getitem__` (layer_collection.py 150-152). -/
def LPD.get (d : LPD V) (k : Params) : Option V := lookup d.entries k

/-- Operations on the dictionary. -/
inductive DictOp (V : Type) where
  | set (k : Params) (v : V)
  | del (k : Params)

/-- The dictionary after an operation, and its result. -/
def LPD.step (d : LPD V) : DictOp V → LPD V × Except String Unit
  | .set k v =>
    match d.setItem k v with
    | .ok d' => (d', .ok ())
    | .error e => (d, .error e)
  | .del k => d.delItem k

/-! ### Blocks, approximations -/

/-- The kinds of layers with an approximation table of their own. -/
inductive LayerType where
  | generic
  | fullyConnected
  | conv2d
  | fullyConnectedMulti
  | conv2dMulti
  | scaleAndShift
deriving DecidableEq

/-- What the tables hold: the block class and the keyword arguments bound by `partial`. -/
structure BlockSpec where
  cls : String
  diagIn : Bool := false
  diagOut : Bool := false
  option : Nat := 0
  sua : Bool := false
deriving DecidableEq

/-- The tables (layer_collection.py 221-273); `kron_sua` uses the class of `kron` with
`use_sua_approx_for_input_factor=True` (950-957). -/
def table : LayerType → List (String × BlockSpec)
  | .generic => [("full", { cls := "NaiveFullFB" }), ("diagonal", { cls := "NaiveDiagonalFB" })]
  | .fullyConnected =>
    [("kron", { cls := "FullyConnectedKFACBasicFB" }),
     ("kron_in_diag", { cls := "FullyConnectedKFACBasicFB", diagIn := true }),
     ("kron_out_diag", { cls := "FullyConnectedKFACBasicFB", diagOut := true }),
     ("kron_both_diag", { cls := "FullyConnectedKFACBasicFB", diagIn := true, diagOut := true }),
     ("diagonal", { cls := "FullyConnectedDiagonalFB" })]
  | .conv2d =>
    [("kron", { cls := "ConvKFCBasicFB" }), ("diagonal", { cls := "ConvDiagonalFB" }),
     ("kron_sua", { cls := "ConvKFCBasicFB", sua := true })]
  | .fullyConnectedMulti =>
    [("kron_indep", { cls := "FullyConnectedMultiIndepFB" }),
     ("kron_indep_in_diag", { cls := "FullyConnectedMultiIndepFB", diagIn := true }),
     ("kron_indep_out_diag", { cls := "FullyConnectedMultiIndepFB", diagOut := true }),
     ("kron_indep_both_diag", { cls := "FullyConnectedMultiIndepFB", diagIn := true, diagOut := true }),
     ("kron_series_1", { cls := "FullyConnectedSeriesFB", option := 1 }),
     ("kron_series_2", { cls := "FullyConnectedSeriesFB", option := 2 })]
  | .conv2dMulti => [("kron_indep", { cls := "ConvKFCBasicMultiIndepFB" })]
  | .scaleAndShift =>
    [("full", { cls := "ScaleAndShiftFullFB" }), ("diagonal", { cls := "ScaleAndShiftDiagonalFB" })]

/-- The initial defaults (layer_collection.py 206-213). -/
def initialDefault : LayerType → String
  | .generic => "diagonal"
  | .fullyConnected => "kron"
  | .conv2d => "kron"
  | .fullyConnectedMulti => "kron_indep"
  | .conv2dMulti => "kron_indep"
  | .scaleAndShift => "full"

/-- The tensor arguments of a registration: one tensor or a tuple/list of tensors. -/
inductive TensorArg where
  | tensor (id : Nat)
  | list (ids : List Nat)
deriving DecidableEq

/-- What `register_additional_tower` is given. -/
inductive Data where
  | batch (size : Nat)
  | io (inputs outputs : TensorArg)
deriving DecidableEq

/-- A registered block with its towers (fisher_blocks.py 348-354, 435-441, 518-520). -/
structure Block where
  spec : BlockSpec
  towers : List Data
deriving DecidableEq

/-- Number of registered uses: an integer or `float("inf")`. -/
inductive Uses where
  | fin (n : Nat)
  | inf
deriving DecidableEq

def Uses.add : Uses → Uses → Uses
  | .fin a, .fin b => .fin (a + b)
  | _, _ => .inf

/-! ### The collection -/

/-- The state of a `LayerCollection` (layer_collection.py 193-219). Losses are numbered in the order in
which they are created. -/
structure LC where
  blocks : LPD Block
  linked : List (Finset Var × Option String)
  defaults : LayerType → String
  lossDict : List (String × List Nat)
  lossCoeffs : List (Nat × ℚ)
  nextLoss : Nat
  uses : List (Var × Uses)
  finalized : Bool

/-- A new collection (layer_collection.py 193-219). -/
def LC.init : LC := ⟨LPD.empty, [], initialDefault, [], [], 0, [], false⟩

/-- Values of a reuse flag in TF. -/
inductive Reuse where
  | yes
  | no
  | auto
deriving DecidableEq

/-- The `reuse` argument: given explicitly, or `VARIABLE_SCOPE` together with the flag of the variable
scope that is current during the call. -/
inductive ReuseArg where
  | explicit (r : Reuse)
  | variableScope (current : Reuse)
deriving DecidableEq

/-- `if reuse is VARIABLE_SCOPE: reuse = tf.get_variable_scope().reuse` -/
def ReuseArg.resolve : ReuseArg → Reuse
  | .explicit r => r
  | .variableScope r => r

/-- `_register_block` (layer_collection.py 421-494): the collection in which the block is present, new or
found. Nothing is changed when it raises. -/
def registerBlock (lc : LC) (key : Params) (spec : BlockSpec) (reuse : ReuseArg) : Except String LC :=
  if lc.finalized then .error "ValueError: You cannot register additional losses or layers"
  else
    let r := reuse.resolve
    if r = .yes ∨ (r = .auto ∧ key ∈ lc.blocks.keys) then
      match lc.blocks.get key with
      | none => .error "ValueError: no previously registered layer was found"
      | some b =>
        if b.spec.cls ≠ spec.cls then .error "ValueError: existing FisherBlock has a different type"
        else .ok lc
    else if r = .no ∧ key ∈ lc.blocks.keys then .error "ValueError: FisherBlock is already in LayerCollection"
    else if key ∈ lc.blocks.keys then .error "ValueError: Duplicate registration"
    else if key.vars.any fun v => (lc.blocks.keys.flatMap Params.vars).contains v then
      .error "ValueError: variable was already registered"
    else
      match lc.blocks.setItem key ⟨spec, []⟩ with
      | .error e => .error e
      | .ok bs => .ok { lc with blocks := bs }

/-- `_get_linked_approx` (layer_collection.py 724-730). -/
def linkedApprox (lc : LC) (params : Params) : Option String :=
  (lookup lc.linked params.vars.toFinset).join

/-- `_get_block_type` (layer_collection.py 732-741): table entry and approximation name. -/
def getBlockType (lc : LC) (ty : LayerType) (params : Params) (approx : Option String) :
    Except String (BlockSpec × String) :=
  let a := match approx with
    | some a => a
    | none =>
      match linkedApprox lc params with
      | some a => a
      | none => lc.defaults ty
  match lookup (table ty) a with
  | some s => .ok (s, a)
  | none => .error "ValueError: Bad value for approx."

/-- `block.register_additional_tower(data)` on the block stored under `key`. -/
def addTower (lc : LC) (key : Params) (data : Data) : LC :=
  { lc with blocks := { lc.blocks with
      entries := lc.blocks.entries.map fun e =>
        if e.1 = key then (e.1, { e.2 with towers := e.2.towers ++ [data] }) else e } }

/-- One step of the loop of `_add_uses`. -/
def bump (u : Uses) (m : List (Var × Uses)) (v : Var) : List (Var × Uses) :=
  upsert m v (((lookup m v).getD (.fin 0)).add u)

/-- `_add_uses` (layer_collection.py 571-580) on the `defaultdict`. -/
def addUses (lc : LC) (params : Params) (u : Uses) : LC :=
  { lc with uses := params.vars.foldl (bump u) lc.uses }

/-! ### Layer registrations

All layer registration functions have the same skeleton: determine the block, `_register_block`, possibly
annotate sparse inputs, `register_additional_tower`, possibly check lengths, `_add_uses`. -/

/-- What a registration function does on top of the skeleton. -/
structure LayerCall where
  params : Params
  reuse : ReuseArg
  /-- the block class, or the error raised before `_register_block` -/
  block : Except String BlockSpec
  /-- an error raised between `_register_block` and `register_additional_tower` -/
  mid : Option String
  data : Data
  /-- an error raised between `register_additional_tower` and `_add_uses` -/
  post : Option String
  uses : Uses

/-- The skeleton. -/
def runLayer (lc : LC) (c : LayerCall) : LC × Except String Unit :=
  match c.block with
  | .error e => (lc, .error e)
  | .ok spec =>
    match registerBlock lc c.params spec c.reuse with
    | .error e => (lc, .error e)
    | .ok lc1 =>
      match c.mid with
      | some e => (lc1, .error e)
      | none =>
        match c.post with
        | some e => (addTower lc1 c.params c.data, .error e)
        | none => (addUses (addTower lc1 c.params c.data) c.params c.uses, .ok ())

/-- The loop over the trailing dimensions in `register_scale_and_shift` (1440-1452 for the shift, which also
rejects larger parameters, 1464-1472 for the scale, which does not). -/
def dimsLoop (strict : Bool) (p d : List Nat) (start : Nat) : List Nat → Except String (List Nat)
  | [] => .ok []
  | i :: is =>
    let ps := p.getD (i - start) 0
    let ds := d.getD i 0
    if ps < ds then
      if ps = 1 then do
        let rest ← dimsLoop strict p d start is
        return i :: rest
      else .error "ValueError: incompatible shapes"
    else if strict && decide (ps > ds) then .error "ValueError: incompatible shapes"
    else dimsLoop strict p d start is

/-- The broadcast dimensions computed by `register_scale_and_shift` for a parameter of shape `p` combined
with data of shape `d` (layer_collection.py 1435-1473). -/
def broadcastDims (strict : Bool) (p d : List Nat) : Except String (List Nat) :=
  if d.length < p.length then .error "ValueError: rank"
  else
    let start := d.length - p.length
    if start = 0 ∧ p.head? = none then .error "IndexError"
    else if start = 0 ∧ p.head? ≠ some 1 then .error "ValueError: batch dimension"
    else do
      let rest ← dimsLoop strict p d start
        ((List.range d.length).filter fun i => max start 1 ≤ i)
      return ((List.range start).filter fun i => 1 ≤ i) ++ rest

/-- The calls of the user. Arguments that only end up inside the block (paddings, dilations, sub-sampling
flags) are left out; `shapes` of `scaleAndShift` are the static shapes of inputs and outputs. -/
inductive LayerOp where
  | fullyConnected (params : Params) (inputs outputs : TensorArg) (approx : Option String) (dense : Bool)
      (reuse : ReuseArg)
  | conv1d (params : Params) (inputs outputs : TensorArg) (approx : Option String) (reuse : ReuseArg)
  | conv2d (params : Params) (strides : List Nat) (dataFormat : Option String) (inputs outputs : TensorArg)
      (approx : Option String) (reuse : ReuseArg)
  | convolution (params : Params) (inputs outputs : TensorArg) (approx : Option String) (reuse : ReuseArg)
  | depthwise (params : Params) (dataFormat : Option String) (inputs outputs : TensorArg)
      (approx : Option String) (reuse : ReuseArg)
  | generic (params : Params) (batchSize : Nat) (approx : Option String) (reuse : ReuseArg)
  | fullyConnectedMulti (params : Params) (inputs outputs : TensorArg) (approx : Option String)
      (dense : Bool) (reuse : ReuseArg)
  | conv2dMulti (params : Params) (dataFormat : Option String) (inputs outputs : TensorArg)
      (approx : Option String) (reuse : ReuseArg)
  | scaleAndShift (params : Params) (inputs outputs : TensorArg) (inShape outShape : List Nat)
      (approx : Option String) (reuse : ReuseArg)

/-- `assert data_format in [None, "NHWC"]` -/
def formatOk (f : Option String) : Bool := f = none ∨ f = some "NHWC"

/-- `inputs.one_hot_depth = int(params.shape[0])`: a tuple has no shape. -/
def sparseError (params : Params) : Option String :=
  if params.isSeq then some "AttributeError: 'tuple' object has no attribute 'shape'" else none

/-- `assert len(inputs) == len(outputs)` when the inputs are a sequence; `len` of a tensor raises
(1285-1287, 1373-1375). -/
def lengthError (inputs outputs : TensorArg) : Option String :=
  match inputs, outputs with
  | .tensor _, _ => none
  | .list xs, .list ys => if xs.length = ys.length then none else some "AssertionError"
  | .list _, .tensor _ => some "TypeError: len is not well defined for a symbolic Tensor"

/-- Uses added by the multi-use registrations (1285-1289, 1373-1377). -/
def multiUses : TensorArg → Uses
  | .tensor _ => .fin 1
  | .list xs => .fin xs.length

/-- The shape checks at the start of `register_scale_and_shift` (1429-1473). -/
def scaleShiftCheck (params : Params) (inShape outShape : List Nat) : Except String Unit :=
  match params with
  | .single scale => do
    let _ ← broadcastDims false scale.shape inShape
    return ()
  | .seq (scale :: shift :: _) => do
    let _ ← broadcastDims true shift.shape outShape
    let _ ← broadcastDims false scale.shape inShape
    return ()
  | .seq _ => .error "IndexError"

/-- `register_fully_connected` (743-794), `register_conv1d` (796-855), `register_conv2d` (857-964),
`register_convolution` (966-1025), `register_depthwise_conv2d` (1027-1084), `register_generic` (1159-1198),
`register_fully_connected_multi` (1200-1289), `register_conv2d_multi` (1291-1377),
`register_scale_and_shift` (1379-1487). -/
def LayerOp.call (lc : LC) : LayerOp → LayerCall
  | .fullyConnected params inputs outputs approx dense reuse =>
    { params, reuse
      block := (getBlockType lc .fullyConnected params approx).map (·.1)
      mid := if dense then none else sparseError params
      data := .io inputs outputs, post := none, uses := .fin 1 }
  | .conv1d params inputs outputs approx reuse =>
    { params, reuse
      block := if approx = none ∨ approx = some "kron" then .ok { cls := "ConvKFCBasicFB" }
        else .error "AssertionError"
      mid := none, data := .io inputs outputs, post := none, uses := .fin 1 }
  | .conv2d params strides dataFormat inputs outputs approx reuse =>
    { params, reuse
      block :=
        if formatOk dataFormat then
          match getBlockType lc .conv2d params approx with
          | .error e => .error e
          | .ok (spec, a) =>
            if a = "diagonal" ∧ ¬(strides.head? = some 1 ∧ strides.getLast? = some 1) then
              .error "AssertionError"
            else .ok spec
        else .error "AssertionError"
      mid := none, data := .io inputs outputs, post := none, uses := .fin 1 }
  | .convolution params inputs outputs approx reuse =>
    { params, reuse
      block := if approx = none ∨ approx = some "kron" then .ok { cls := "ConvKFCBasicFB" }
        else .error "AssertionError"
      mid := none, data := .io inputs outputs, post := none, uses := .fin 1 }
  | .depthwise params dataFormat inputs outputs approx reuse =>
    { params, reuse
      block := if (approx = none ∨ approx = some "diagonal") ∧ formatOk dataFormat then
          .ok { cls := "DepthwiseConvDiagonalFB" }
        else .error "AssertionError"
      mid := none, data := .io inputs outputs, post := none, uses := .fin 1 }
  | .generic params batchSize approx reuse =>
    { params, reuse
      block :=
        match getBlockType lc .generic params approx with
        | .error e => .error e
        | .ok (spec, a) =>
          if a = "diagonal" ∧ params.isSeq then
            .error "ValueError: Params must be a Variable if using the diagonal approximation."
          else .ok spec
      mid := none, data := .batch batchSize, post := none, uses := .inf }
  | .fullyConnectedMulti params inputs outputs approx dense reuse =>
    { params, reuse
      block := (getBlockType lc .fullyConnectedMulti params approx).map (·.1)
      mid := if dense then none else
        match inputs with
        | .list [] => none
        | _ => sparseError params
      data := .io inputs outputs, post := lengthError inputs outputs, uses := multiUses inputs }
  | .conv2dMulti params dataFormat inputs outputs approx reuse =>
    { params, reuse
      block := if formatOk dataFormat then (getBlockType lc .conv2dMulti params approx).map (·.1)
        else .error "AssertionError"
      mid := none, data := .io inputs outputs, post := lengthError inputs outputs
      uses := multiUses inputs }
  | .scaleAndShift params inputs outputs inShape outShape approx reuse =>
    { params, reuse
      block :=
        match scaleShiftCheck params inShape outShape with
        | .error e => .error e
        | .ok _ => (getBlockType lc .scaleAndShift params approx).map (·.1)
      mid := none, data := .io inputs outputs, post := none, uses := .fin 1 }

def LayerOp.params (op : LayerOp) : Params := (op.call LC.init).params
def LayerOp.reuse (op : LayerOp) : ReuseArg := (op.call LC.init).reuse

/-- `register_separable_conv2d` (1086-1157): two registrations one after the other. -/
def registerSeparable (lc : LC) (depthwiseParams pointwiseParams : Params) (dataFormat : Option String)
    (inputs depthwiseOutputs pointwiseOutputs : TensorArg) (approx : Option String) (reuse : ReuseArg) :
    LC × Except String Unit :=
  match runLayer lc ((LayerOp.depthwise depthwiseParams dataFormat inputs depthwiseOutputs
      (some "diagonal") reuse).call lc) with
  | (lc1, .error e) => (lc1, .error e)
  | (lc1, .ok _) =>
    runLayer lc1 ((LayerOp.conv2d pointwiseParams [1, 1, 1, 1] dataFormat depthwiseOutputs
      pointwiseOutputs approx reuse).call lc1)

/-! ### Losses -/

/-- `_register_loss_function` (layer_collection.py 496-565). `graphName` is what
`graph.unique_name(base_name)` returns. A nonempty `name` wins (`name or ...`). A reuse flag of
`tf.AUTO_REUSE` is an enum member and therefore true. -/
def registerLoss (lc : LC) (name : Option String) (graphName : String) (coeff : ℚ) (reuse : ReuseArg) :
    LC × Except String Unit :=
  if lc.finalized then (lc, .error "ValueError: You cannot register additional losses or layers")
  else
    let nm := match name with
      | some n => if n = "" then graphName else n
      | none => graphName
    -- the loss object is created by the caller before this function runs
    let loss := lc.nextLoss
    if reuse.resolve ≠ .no then
      match lookup lc.lossDict nm with
      | none => (lc, .error "KeyError: Unable to find loss function")
      | some losses =>
        if (losses.head?.bind (lookup lc.lossCoeffs)) ≠ some coeff then
          (lc, .error "ValueError: Reused loss function's coeff didn't match")
        else
          ({ lc with lossDict := upsert lc.lossDict nm (losses ++ [loss])
                     lossCoeffs := upsert lc.lossCoeffs loss coeff
                     nextLoss := loss + 1 }, .ok ())
    else if nm ∈ lc.lossDict.map (·.1) then (lc, .error "KeyError: Loss function already exists")
    else
      ({ lc with lossDict := upsert lc.lossDict nm [loss]
                 lossCoeffs := upsert lc.lossCoeffs loss coeff
                 nextLoss := loss + 1 }, .ok ())

/-- `towers_by_loss` and `losses` (layer_collection.py 275-283). -/
def LC.towersByLoss (lc : LC) : List (List Nat) := lc.lossDict.map (·.2)

def LC.losses (lc : LC) : List Nat := lc.towersByLoss.flatten

/-! ### The rest of the interface -/

/-- The `set_default_*_approximation` methods (layer_collection.py 307-368). -/
def setDefault (lc : LC) (ty : LayerType) (value : String) : LC × Except String Unit :=
  if value ∈ (table ty).map (·.1) then
    ({ lc with defaults := fun t => if t = ty then value else lc.defaults t }, .ok ())
  else (lc, .error "ValueError: not a valid approximation")

/-- `define_linked_parameters` (layer_collection.py 640-684). -/
def link (lc : LC) (params : Params) (approx : Option String) : LC × Except String Unit :=
  let group := params.vars.toFinset
  if lc.blocks.keys.any fun k => decide (group ∩ k.vars.toFinset ≠ ∅ ∧ group ≠ k.vars.toFinset) then
    (lc, .error "ValueError: Can't link parameters, variable was already registered")
  else if lc.linked.any fun g => decide (group ∩ g.1 ≠ ∅) then
    (lc, .error "ValueError: Can't link parameters, variable was already linked")
  else ({ lc with linked := upsert lc.linked group approx }, .ok ())

/-- `finalize` with `_create_subgraph` (layer_collection.py 411-419, 686-690). -/
def finalize (lc : LC) : LC × Except String Unit :=
  if lc.finalized then (lc, .error "ValueError: LayerCollection was finalized a second time")
  else if lc.losses = [] then (lc, .error "ValueError: Must have at least one registered loss.")
  else ({ lc with finalized := true }, .ok ())

/-- Reading a `defaultdict` inserts the default. -/
def touch (m : List (Var × Uses)) (v : Var) : List (Var × Uses) :=
  if v ∈ m.map (·.1) then m else m ++ [(v, .fin 0)]

/-- The loop of `check_registration` (layer_collection.py 602-613): the map afterwards and whether every
variable was fine. `graphUses` is `subgraph.variable_uses`. -/
def checkLoop (graphUses : Var → Nat) : List Var → List (Var × Uses) → List (Var × Uses) × Bool
  | [], m => (m, true)
  | v :: vs, m =>
    let m1 := touch m v
    let good := match lookup m1 v with
      | some (.fin n) => decide (n ≠ 0 ∧ n = graphUses v)
      | some .inf => true
      | none => false
    let (m2, rest) := checkLoop graphUses vs m1
    (m2, good && rest)

/-- `check_registration` (layer_collection.py 582-624). Before finalisation there is no subgraph. -/
def checkRegistration (graphUses : Var → Nat) (lc : LC) (vars : List Var) : LC × Except String Unit :=
  if lc.finalized = false ∧ vars ≠ [] then
    (lc, .error "AttributeError: 'NoneType' object has no attribute 'variable_uses'")
  else
    let (m, good) := checkLoop graphUses vars lc.uses
    if good ∧ ¬ m.length > vars.length then ({ lc with uses := m }, .ok ())
    else ({ lc with uses := m }, .error "ValueError: Found the following errors with variable registration")

/-- Everything a user can do with a collection. -/
inductive Op where
  | layer (op : LayerOp)
  | separable (depthwiseParams pointwiseParams : Params) (dataFormat : Option String)
      (inputs depthwiseOutputs pointwiseOutputs : TensorArg) (approx : Option String) (reuse : ReuseArg)
  | loss (name : Option String) (graphName : String) (coeff : ℚ) (reuse : ReuseArg)
  | setDefault (ty : LayerType) (value : String)
  | link (params : Params) (approx : Option String)
  | finalize
  | checkRegistration (vars : List Var)

/-- One call. -/
def step (graphUses : Var → Nat) (lc : LC) : Op → LC × Except String Unit
  | .layer op => runLayer lc (op.call lc)
  | .separable d p f i m o a r => registerSeparable lc d p f i m o a r
  | .loss n g c r => registerLoss lc n g c r
  | .setDefault t v => setDefault lc t v
  | .link p a => link lc p a
  | .finalize => finalize lc
  | .checkRegistration vs => checkRegistration graphUses lc vs

/-- The state after a sequence of calls, each of which may have raised. -/
def runAll (graphUses : Var → Nat) (lc : LC) (ops : List Op) : LC :=
  ops.foldl (fun s op => (step graphUses s op).1) lc

/-! ### Estimator finalisation (estimator.py 424-431) -/

/-- `FisherEstimator._finalize` as far as the collection is concerned: the collection afterwards, the
estimator's own flag, and the result. Creating the factors and registering matrix functions do not touch the
registrations. -/
def estimatorFinalize (graphUses : Var → Nat) (vars : List Var) (lc : LC) (estFinalized : Bool) :
    LC × Bool × Except String Unit :=
  if estFinalized then (lc, true, .ok ())
  else
    match finalize lc with
    | (lc1, .error e) => (lc1, false, .error e)
    | (lc1, .ok _) =>
      match checkRegistration graphUses lc1 vars with
      | (lc2, .error e) => (lc2, false, .error e)
      | (lc2, .ok _) => (lc2, true, .ok ())

/-! ### Factors (layer_collection.py 1741-1770) -/

/-- `make_or_get_factor(cls, args)` on the table of factors; factors are numbered in order of creation. -/
def makeOrGetFactor {K : Type} [DecidableEq K] (factors : List (K × Nat)) (key : K) :
    List (K × Nat) × Nat :=
  match lookup factors key with
  | some f => (factors, f)
  | none => (factors ++ [(key, factors.length)], factors.length)

/-! ### The default collection (layer_collection.py 104-123, 1772-1777) -/

/-- Programs that use the default collection. -/
inductive Prog where
  | skip
  | fail
  | get
  | seq (p q : Prog)
  | withDefault (lc : Nat) (body : Prog)
  | attempt (p : Prog)

/-- Running a program: the global variable afterwards, what `get_default_layer_collection` returned, and
whether an exception escaped. `with lc.as_default()` sets the global, runs the body, and resets the global
only if the body did not raise, because the generator has no `try/finally`. -/
def Prog.run : Prog → Option Nat → Option Nat × List Nat × Bool
  | .skip, g => (g, [], false)
  | .fail, g => (g, [], true)
  | .get, g =>
    match g with
    | some c => (g, [c], false)
    | none => (g, [], true)
  | .seq p q, g =>
    match p.run g with
    | (g1, o1, true) => (g1, o1, true)
    | (g1, o1, false) =>
      match q.run g1 with
      | (g2, o2, e) => (g2, o1 ++ o2, e)
  | .withDefault lc body, g =>
    match g with
    | some _ => (g, [], true)
    | none =>
      match body.run (some lc) with
      | (g1, o, true) => (g1, o, true)
      | (_, o, false) => (none, o, false)
  | .attempt p, g =>
    match p.run g with
    | (g1, o, _) => (g1, o, false)

end Kfac.Reg
