import Verif.Factor.Rnn

/-! # The data of layers used several times (`InputOutputMultiTowerMultiUse`, fisher_blocks.py 1330-1484) -/

namespace Kfac.Factor

open Kfac.Stats

/-- What is registered for one tower: a list with one tensor per use, or one tensor with all uses. A tensor is the list of
its slices along the first axis: vectors for fully connected layers, images for convolutions. A tensor of shape
`[num_uses, batch_size, n]` is given by its rows after the reshape that the factors apply (fisher_factors.py 2576-2577,
2586-2587); its rows are then the same as those of the tensor `[num_uses * batch_size, n]`. -/
inductive UseData (α : Type) where
  | uses (tensors : List (List α))
  | tensor (rows : List α)

/-- `PartitionedTensor(tensors)` read as a tensor (utils.py 1035-1121): the concatenation along the first axis. -/
def partitioned {α : Type} (tensors : List (List α)) : Except String (List α) :=
  if tensors.isEmpty then .error "ValueError: tensors must be a list of 1+ Tensors." else .ok tensors.flatten

/-- `all(len(input_) == num_uses for input_ in inputs)`; `len` of a tensor raises. -/
def sameLength {α : Type} (k : ℕ) : List (UseData α) → Except String Bool
  | [] => .ok true
  | .tensor _ :: _ => .error "TypeError: object of type 'Tensor' has no len()"
  | .uses l :: rest => if l.length = k then sameLength k rest else .ok false

/-- The tensor of a tower in the second format. A list here is passed on by the code and fails in the factor, which
reads its shape; the error is raised here instead. -/
def UseData.single {α : Type} : UseData α → Except String (List α)
  | .uses _ => .error "AttributeError: 'list' object has no attribute 'shape'"
  | .tensor r => .ok r

/-- The tensors of a tower whose data is a list (only applied to lists, see `sameLength`). -/
def UseData.lists {α : Type} : UseData α → List (List α)
  | .uses l => l
  | .tensor r => [r]

/-- `zip(*lists)` for the lists of `k` tensors each (fisher_blocks.py 1411, 1453): element `t` holds element `t` of every
list. -/
def zipStar {α : Type} (k : ℕ) (lists : List (List α)) : List (List α) :=
  (List.range k).map fun t => lists.filterMap fun l => l[t]?

/-- One source in the first format (fisher_blocks.py 1408-1430, 1450-1475): under "concat" the towers of use 0, those of
use 1 and so on in one tensor; under "separate" one tensor per tower. -/
def mergeUses {α : Type} (strategy : String) (k : ℕ) (towers : List (List (List α))) : Except String (List (List α)) :=
  if strategy = "concat" then do
    let t ← partitioned (zipStar k towers).flatten
    return [t]
  else if strategy = "separate" then towers.mapM partitioned
  else .error "ValueError: Global config variable TOWER_STRATEGY must be one of 'concat' or 'separate'."

/-- The two halves of `_process_data` (fisher_blocks.py 1393-1434 for the inputs, a single source; 1439-1478 for the
gradients, a list over sources of lists over towers). Returns the tensors for the factors and the new `self._num_uses`. The
texts of the errors are shortened. -/
def processSources {α : Type} (strategy : String) (numUses : Option ℕ) (data : List (List (UseData α))) :
    Except String (List (List (List α)) × Option ℕ) :=
  match data with
  | [] => .error "IndexError"
  | [] :: _ => .error "IndexError"
  | (.uses first :: rest) :: sources => do
    let k := first.length
    if numUses.isSome ∧ numUses ≠ some k then throw "ValueError: num_uses doesn't match length"
    if !(← sameLength k ((.uses first :: rest) :: sources).flatten) then throw "ValueError: inconsistent across towers"
    let out ← ((.uses first :: rest) :: sources).mapM fun towers => mergeUses strategy k (towers.map UseData.lists)
    return (out, some k)
  | (.tensor first :: rest) :: sources => do
    let out ← ((.tensor first :: rest) :: sources).mapM fun towers => towers.mapM UseData.single
    return (out, numUses)

/-- `_process_data` (fisher_blocks.py 1339-1484): inputs, gradients and the number of uses. -/
def processUses {α β : Type} (strategy : String) (numUses : Option ℕ) (inputs : List (UseData α))
    (grads : List (List (UseData β))) : Except String (List (List α) × List (List (List β)) × ℕ) := do
  let (ins, k) ← processSources strategy numUses [inputs]
  let (gs, k') ← processSources strategy k grads
  match k' with
  | none => throw "ValueError: You must supply a value for the num_uses argument"
  | some u => return (ins.headD [], gs, u)

/-- `FullyConnectedMultiKF._partial_batch_size` (fisher_factors.py 2533-2539). -/
def multiPartialBatchSize {α : Type} (numUses : ℕ) (tensor : List α) : ℕ := tensor.length / numUses

end Kfac.Factor
