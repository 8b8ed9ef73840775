import Mathlib.Data.Finset.Union
import Mathlib.Data.Finset.Card
import Mathlib.Logic.Function.Iterate

/-! # The subgraph below the losses (kfac/python/ops/utils.py 358-437)

A graph is given by the relations TensorFlow exposes: the op producing a tensor, the inputs and outputs of an op and
the consumers of a tensor. Control inputs are not followed by the code and left out. -/

namespace Kfac.SubGraph

/-- The objects handled by `SubGraph`; `tuple` stands for a tuple of tensors, which is neither `tf.Tensor` nor
`tf.Operation`. -/
inductive Node (T O : Type) where
  | tensor (t : T)
  | op (o : O)
  | tuple (ts : List T)
deriving DecidableEq

structure Graph (T O : Type) where
  opOf : T → O
  inputs : O → List T
  outputs : O → List T
  consumers : T → List O
  /-- the type is one of "Identity", "ReadVariableOp", "Enter", "ResourceGather" (utils.py 408-409) -/
  relay : O → Bool

variable {T O : Type} [DecidableEq T] [DecidableEq O]

/-- `self._members` and `stack` (the top first; Python pushes and pops at the end). -/
structure State (T O : Type) where
  members : Finset (Node T O)
  stack : List (List (Node T O))

/-- What is pushed for a new node (utils.py 379-382). -/
def push (G : Graph T O) : Node T O → List (List (Node T O))
  | .tensor t => [[.op (G.opOf t)]]
  | .op o => [(G.inputs o).map .tensor]
  | .tuple _ => []

/-- Body of the inner loop (utils.py 374-382). -/
def visit (G : Graph T O) (s : State T O) (n : Node T O) : State T O :=
  if n ∈ s.members then s else ⟨insert n s.members, push G n ++ s.stack⟩

/-- Body of `while stack` (utils.py 372-382); nothing happens once the stack is empty. -/
def step (G : Graph T O) (s : State T O) : State T O :=
  match s.stack with
  | [] => s
  | nodes :: rest => nodes.foldl (visit G) ⟨s.members, rest⟩

/-- The state before the loop (utils.py 371). -/
def start (roots : List (Node T O)) : State T O := ⟨∅, [roots]⟩

/-- The loop ends in state `s`. -/
def Ends (G : Graph T O) (roots : List (Node T O)) (s : State T O) : Prop :=
  (∃ n, (step G)^[n] (start roots) = s) ∧ s.stack = []

/-- `SubGraph.__init__` on the loss inputs (utils.py 362-368). The graph attribute is read off the first one, and only
tensors and operations have it. -/
def constructible : List (Node T O) → Bool
  | [] => false
  | .tuple _ :: _ => false
  | _ :: _ => true

/-- The inputs of a loss: one tensor, or a tuple of tensors for losses with several parameters
(loss_functions.py 189-191, `params` of the losses). -/
inductive LossInputs (T : Type) where
  | one (t : T)
  | many (ts : List T)

def LossInputs.tensors : LossInputs T → List T
  | .one t => [t]
  | .many ts => ts

/-- The roots used by `LayerCollection._create_subgraph` (layer_collection.py 686-690): `nest.flatten`. -/
def collectionRoots (losses : List (LossInputs T)) : List (Node T O) :=
  (losses.flatMap LossInputs.tensors).map .tensor

/-- The roots used by automatic registration for one tower (graph_search.py 294-314): `loss.inputs` of each loss,
not flattened. -/
def searchRoots (losses : List (LossInputs T)) : List (Node T O) :=
  losses.map fun
    | .one t => .tensor t
    | .many ts => .tuple ts

/-- `_add_tensor_consumers_to_set` (utils.py 400-412). The recursion depth is bounded by `fuel`; with less fuel than
the longest chain of relay ops the result is cut off. -/
def consumersOf (G : Graph T O) : Nat → T → Finset O
  | 0, _ => ∅
  | fuel + 1, t => (G.consumers t).toFinset.biUnion fun o =>
      if G.relay o then (G.outputs o).toFinset.biUnion (consumersOf G fuel) else {o}

/-- `variable_uses` (utils.py 388-428). `handles` are the tensors from which the variable is read: its handle, its
value, or its captured handles. -/
def variableUses (G : Graph T O) (fuel : Nat) (members : Finset (Node T O)) (handles : List T) : Nat :=
  ((handles.toFinset.biUnion (consumersOf G fuel)).filter fun o => Node.op o ∈ members).card

/-- `filter_list` (utils.py 430-437). -/
def filterList (members : Finset (Node T O)) (l : List (Node T O)) : List (Node T O) :=
  l.filter fun n => n ∈ members

end Kfac.SubGraph
