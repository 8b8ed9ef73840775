import Verif.Reg.Model
import Mathlib.Data.List.Basic
import Mathlib.Data.Finset.Card

/-! # Automatic registration (kfac/python/ops/tensormatch/graph_search.py 30-816)

The search over the graph delivers a list of match records; from there on everything is modelled, on top of the model
of `LayerCollection`. -/

namespace Kfac.Auto

open Kfac.Reg

/-- `RecordType` (graph_search.py 29-33). -/
inductive RecordType where
  | fullyConnected
  | conv2d
  | scaleAndShift
  | batchNorm
deriving DecidableEq

/-- `MatchRecord` (graph_search.py 40-61). `tensors` is its `tensor_set`. Of the data
the inputs and outputs are kept with the static shape of the inputs, whether the inputs are dense, the strides and
the data format. -/
structure Record where
  ty : RecordType
  params : Params
  tensors : Finset Nat
  inputs : Nat
  outputs : Nat
  inShape : List (Option Nat)
  outShape : List (Option Nat)
  dense : Bool
  strides : List Nat
  format : Option String
deriving DecidableEq

/-- A dict from parameters to lists of records, in insertion order. -/
abbrev RDict := List (Params × List Record)

/-- `d[record.params].append(record)`, creating the list if necessary (graph_search.py 419-421, 524-525). -/
def addRecord (d : RDict) (r : Record) : RDict :=
  if r.params ∈ d.map (·.1) then d.map fun e => if e.1 = r.params then (e.1, e.2 ++ [r]) else e
  else d ++ [(r.params, [r])]

/-- Collecting the records of all matches (graph_search.py 411-421), and the unflattening (522-527). -/
def group (rs : List Record) : RDict := rs.foldl addRecord []

/-- `filter_user_registered_records` (graph_search.py 471-479). -/
def filterUser (d : RDict) (user : List Var) : RDict :=
  d.filter fun e => !(e.1.vars.any fun v => user.contains v)

/-- `filter_grouped_variable_records` (graph_search.py 482-493). -/
def filterGrouped (linked : List (Finset Var)) (d : RDict) : RDict :=
  d.filter fun e => !(linked.any fun g => decide (e.1.vars.toFinset ∩ g ≠ ∅ ∧ e.1.vars.toFinset ≠ g))

/-- `filter_subgraph_records` (graph_search.py 496-527). The objects in `records_to_remove` are compared by content,
which makes no difference as the criterion depends on the content only. -/
def filterSubgraph (d : RDict) : RDict :=
  let flat := d.flatMap (·.2)
  let remove := flat.filter fun r => r.params.vars.any fun v =>
    (flat.filter fun o => o.params.vars.contains v).any fun o => decide (r.tensors ⊂ o.tensors)
  group (flat.filter fun r => !remove.contains r)

/-- The consistency check of `filter_records` (graph_search.py 563-575): `recorded_params` is a list of variables
here, and only whether an error was found matters. -/
def ambiguous (d : RDict) : Bool :=
  let step := fun (s : List Var × Bool) (v : Var) => if s.1.contains v then (s.1, true) else (s.1 ++ [v], s.2)
  ((d.flatMap fun e => e.1.vars).foldl step ([], false)).2

/-- `filter_records` (graph_search.py 530-577). -/
def filterRecords (linked : List (Finset Var)) (d : RDict) (user : List Var) : Except String RDict :=
  let d := filterSubgraph (filterGrouped linked (filterUser d user))
  if ambiguous d then .error "AmbiguousRegistrationError" else .ok d

/-- Python sequencing of a call after another. -/
def andThen (x : LC × Except String Unit) (f : LC → LC × Except String Unit) : LC × Except String Unit :=
  match x.2 with
  | .error e => (x.1, .error e)
  | .ok _ => f x.1

def runOp (lc : LC) (op : LayerOp) : LC × Except String Unit := runLayer lc (op.call lc)

/-- The decision between one use and folded or separate uses (graph_search.py 657-692, 728-754): `none` when the layer
is registered as single-use, the number of uses otherwise. -/
def foldedUses (shape : List (Option Nat)) (limit : Nat) (batch : Option Nat) (separate : Except String (Option Nat)) :
    Except String (Option (Option Nat)) :=
  match shape with
  | [] => .error "IndexError"
  | first :: _ =>
    let folded := match batch, first with
      | some b, some f => decide (f ≠ b) && decide (shape.length ≤ limit)
      | _, _ => false
    if folded then
      match batch, first with
      | some b, some f =>
        if b = 0 then .error "ZeroDivisionError"
        else if f % b ≠ 0 then .error "ValueError: Passed batch_size did not divide first dimension"
        else .ok (some (some (f / b)))
      | _, _ => .ok none
    else if shape.length > limit then separate.map some
    else .ok none

/-- The same for a fully connected layer (graph_search.py 644-692); with a separate dimension the code reads
`shape[1]`. -/
def fcUses (r : Record) (batch : Option Nat) : Except String (Option (Option Nat)) :=
  foldedUses r.inShape (if r.dense then 2 else 1) batch (.ok (r.inShape.getD 1 none))

/-- A static shape as compared by `register_scale_and_shift`: comparisons with an unknown dimension are falsy in
TensorFlow 1, as if it were equal to the size of the parameter in that dimension. -/
def fillShape (p : List Nat) (s : List (Option Nat)) : List Nat :=
  s.mapIdx fun i d => d.getD (p.getD (i - (s.length - p.length)) 0)

/-- Body of the loop of `register_records` for records of one type (graph_search.py 624-812). -/
def registerGroup (lc : LC) (params : Params) (recs : List Record) (reuse : Bool) (batch : Option Nat) :
    LC × Except String Unit :=
  let ru : ReuseArg := .explicit (if reuse then .yes else .no)
  match recs with
  | [] => (lc, .error "IndexError")
  | r :: rest =>
    match r.ty with
    | .fullyConnected =>
      let approx := if r.dense = false ∧ linkedApprox lc params = none then some "kron_indep_in_diag" else none
      if rest ≠ [] then
        runOp lc (.fullyConnectedMulti params (.list (recs.map (·.inputs))) (.list (recs.map (·.outputs))) approx
          r.dense ru)
      else
        match fcUses r batch with
        | .error e => (lc, .error e)
        | .ok (some _) => runOp lc (.fullyConnectedMulti params (.tensor r.inputs) (.tensor r.outputs) approx r.dense ru)
        | .ok none => runOp lc (.fullyConnected params (.tensor r.inputs) (.tensor r.outputs) approx r.dense ru)
    | .conv2d =>
      if rest ≠ [] then
        runOp lc (.conv2dMulti params r.format (.list (recs.map (·.inputs))) (.list (recs.map (·.outputs))) none ru)
      else
        match foldedUses r.inShape 4 batch (.error "ValueError: Currently not supporting conv layers") with
        | .error e => (lc, .error e)
        | .ok (some _) => runOp lc (.conv2dMulti params r.format (.tensor r.inputs) (.tensor r.outputs) none ru)
        | .ok none => runOp lc (.conv2d params r.strides r.format (.tensor r.inputs) (.tensor r.outputs) none ru)
    | .scaleAndShift =>
      if rest ≠ [] then (lc, .error "ValueError: Multi-use registrations currently not supported")
      else runOp lc (.scaleAndShift params (.tensor r.inputs) (.tensor r.outputs)
        (fillShape ((params.vars.getD 0 ⟨0, []⟩).shape) r.inShape)
        (fillShape ((params.vars.getD 1 ⟨0, []⟩).shape) r.outShape) none ru)
    | .batchNorm =>
      match batch with
      | none => (lc, .error "AmbiguousRegistrationError")
      | some b =>
        if linkedApprox lc params = some "diagonal" ∨
            (lc.defaults .generic = "diagonal" ∧ linkedApprox lc params = none) then
          params.vars.foldl (fun x v => andThen x fun lc => runOp lc (.generic (.single v) b none ru)) (lc, .ok ())
        else runOp lc (.generic params b none ru)

/-- The loop of `register_records` over `sorted(record_list_dict.keys(), key=str)` (graph_search.py 612-622): `order`
is that list; the flag says whether groups of mixed type were met. -/
def registerLoop (d : RDict) (reuse : Bool) (batch : Option Nat) :
    List Params → LC → Bool → LC × Except String Bool
  | [], lc, mixed => (lc, .ok mixed)
  | p :: ps, lc, mixed =>
    let recs := (lookup d p).getD []
    if recs.any fun r => decide (some r.ty ≠ (recs.head?.map (·.ty))) then registerLoop d reuse batch ps lc true
    else
      match registerGroup lc p recs reuse batch with
      | (lc1, .error e) => (lc1, .error e)
      | (lc1, .ok _) => registerLoop d reuse batch ps lc1 mixed

/-- `register_records` (graph_search.py 580-816). -/
def registerRecords (lc : LC) (d : RDict) (order : List Params) (reuse : Bool) (batch : Option Nat) :
    LC × Except String Unit :=
  match registerLoop d reuse batch order lc false with
  | (lc1, .error e) => (lc1, .error e)
  | (lc1, .ok true) => (lc1, .error "ValueError: mixed record types")
  | (lc1, .ok false) => (lc1, .ok ())

/-- The loop that registers the remaining variables (graph_search.py 440-468). -/
def genericLoop (registered : List Var) (reuse : Bool) (batch : Option Nat) : List Var → LC → LC × Except String Unit
  | [], lc => (lc, .ok ())
  | v :: vs, lc =>
    if registered.contains v then genericLoop registered reuse batch vs lc
    else if lc.linked.any fun g => decide (v ∈ g.1 ∧ 1 < g.1.card) then
      (lc, .error "ValueError: Variable in linked group was not matched.")
    else
      match batch with
      | none => (lc, .error "AmbiguousRegistrationError")
      | some b =>
        andThen (runOp lc (.generic (.single v) b none (.explicit (if reuse then .yes else .no))))
          (genericLoop registered reuse batch vs)

/-- What one tower's subgraph contains: the records in the order in which they are found, and the order of the
filtered groups by `str`. -/
structure Tower where
  records : List Record
  order : RDict → List Params

/-- `register_subgraph_layers` after the search (graph_search.py 423-468). -/
def registerSubgraph (lc : LC) (varlist : List Var) (t : Tower) (user : List Var) (reuse : Bool)
    (batch : Option Nat) : LC × Except String Unit :=
  match filterRecords (lc.linked.map (·.1)) (group t.records) user with
  | .error e => (lc, .error e)
  | .ok d =>
    andThen (registerRecords lc d (t.order d) reuse batch)
      (genericLoop ((d.flatMap fun e => e.1.vars) ++ user) reuse batch varlist)

/-- The towers one after the other, `reuse` being true from the second on (graph_search.py 310-321). -/
def towerLoop (varlist user : List Var) (batch : Option Nat) : List Tower → Bool → LC → LC × Except String Unit
  | [], _, lc => (lc, .ok ())
  | t :: ts, reuse, lc =>
    andThen (registerSubgraph lc varlist t user reuse batch) (towerLoop varlist user batch ts true)

/-- `register_layers` (graph_search.py 251-327); `towers k` is what is found in the subgraph of tower `k`. -/
def registerLayers (lc : LC) (varlist : List Var) (batch : Option Nat) (towers : Nat → Tower) :
    LC × Except String Unit :=
  let user := lc.blocks.keys.flatMap Params.vars
  if lc.losses = [] then (lc, .error "ValueError: No registered losses found.")
  else
    let numTowers := (lc.towersByLoss.headD []).length
    if lc.towersByLoss.any fun l => decide (l.length ≠ numTowers) then
      (lc, .error "ValueError: each name must be registered the same number of times.")
    else towerLoop varlist user batch ((List.range numTowers).map towers) false lc

end Kfac.Auto
