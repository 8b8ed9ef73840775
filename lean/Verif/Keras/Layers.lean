import Mathlib.Data.Real.Basic
import Mathlib.Algebra.BigOperators.Group.List.Basic

/-! # Registering a Keras model (kfac/python/keras/utils.py 85-116 and 276-397)

Layers are a tree: plain layers and nested models. Tensors, weights and the registration functions are opaque; the
result is the sequence of registrations. -/

namespace Kfac.Keras.Layers

/-- A Keras layer: `leaf` has no attribute `layers`; `trainable` says that `count_params() and trainable`. A nested model
has output names and layers. -/
inductive Layer where
  | leaf (name cls : String) (trainable : Bool)
  | model (name : String) (outputs : List String) (layers : List Layer)

/-- `layer.name`. -/
def Layer.name : Layer → String
  | .leaf n _ _ => n
  | .model n _ _ => n

mutual
/-- The number of layers and models in a layer; only for termination. -/
def Layer.size : Layer → ℕ
  | .leaf _ _ _ => 1
  | .model _ _ ls => 1 + sizes ls
/-- The sum of the sizes. -/
def sizes : List Layer → ℕ
  | [] => 0
  | l :: ls => l.size + sizes ls
end

theorem sizes_append (a b : List Layer) : sizes (a ++ b) = sizes a + sizes b := by
  induction a with
  | nil => simp [sizes]
  | cons x a ih => simp [sizes, ih, Nat.add_assoc]

/-- A plain layer as it appears in `flattened_layers`. -/
structure Leaf where
  name : String
  cls : String
  trainable : Bool
deriving DecidableEq

/-- A Python dictionary with string keys. -/
abbrev Map (β : Type) := String → Option β

/-- `loss[out] = loss.pop(name)` for a key that is present. -/
def moveKey {β : Type} (loss : Map β) (out name : String) : Map β := fun k =>
  if k = out then loss name else if k = name then none else loss k

/-- `layer_stack += xs`; the end of the Python list is the head here. -/
def pushAll (stack xs : List Layer) : List Layer := xs.foldl (fun s x => x :: s) stack

theorem pushAll_eq (stack xs : List Layer) : pushAll stack xs = xs.reverse ++ stack := by
  unfold pushAll
  induction xs generalizing stack with
  | nil => rfl
  | cons x xs ih => simp [ih]

/-- What happens to the losses when a nested model is met (utils.py 361-366). -/
def enter {β : Type} (loss : Map β) (name : String) (outputs : List String) : Except String (Map β) :=
  if (loss name).isSome then
    if 1 < outputs.length then .error "ValueError: Nested models with multiple outputs are unsupported."
    else match outputs with
      | [] => .error "IndexError"
      | out :: _ => .ok (moveKey loss out name)
  else .ok loss

/-- The traversal (utils.py 354-369): the flattened layers, in order, and the losses at the end. -/
def traverse {β : Type} (loss : Map β) (stack : List Layer) : Except String (List Leaf × Map β) :=
  match stack with
  | [] => .ok ([], loss)
  | .leaf n c t :: rest => (traverse loss rest).map fun r => (⟨n, c, t⟩ :: r.1, r.2)
  | .model n outs ls :: rest =>
    match enter loss n outs with
    | .error e => .error e
    | .ok loss => traverse loss (pushAll rest ls.reverse)
termination_by sizes stack
decreasing_by
  · simp [sizes, Layer.size]
  · simp [pushAll_eq, sizes_append, sizes, Layer.size]

/-- A key of a dictionary of approximations: a layer name or a layer class. -/
inductive Key where
  | str (s : String)
  | cls (c : String)
deriving DecidableEq

/-- An optional list or dictionary given by the user. -/
inductive Container (κ α : Type) where
  | none
  | dict (items : List (κ × α))
  | list (items : List α)
  | other

/-- `_CLASS_NAME_PREFIX` (utils.py 34). -/
def classPrefix : String := "kfac_class_"

/-- `k.startswith(_CLASS_NAME_PREFIX)`. -/
def hasPrefix (k : String) : Bool := classPrefix.toList.isPrefixOf k.toList

/-- The string keys that must be layer names (utils.py 102-105). -/
def Key.mustMatch : Key → Option String
  | .str s => if hasPrefix s then Option.none else some s
  | .cls _ => Option.none

/-- `serialize(key)` in `serialize_fisher_approx` (utils.py 87-89). -/
def Key.serialize : Key → String
  | .str s => s
  | .cls c => classPrefix ++ c

/-- The key itself, for a lookup by name without serialisation. -/
def Key.asStr : Key → Option String
  | .str s => some s
  | .cls _ => Option.none

/-- A dictionary with these items, later ones overwriting earlier ones. -/
def dictOf {α : Type} (items : List (String × α)) : Map α := fun k => items.reverse.lookup k

/-- `_get_verified_dict` (utils.py 96-116), as the list of items. -/
def verified {α : Type} (c : Container Key α) (names : List String) : Except String (List (Key × α)) :=
  match c with
  | .none => .ok []
  | .dict items =>
    if (items.filterMap fun e => e.1.mustMatch).all fun s => names.contains s then .ok items
    else .error "ValueError: without a matching layer"
  | .list items =>
    if names.length ≠ items.length then .error "ValueError: Number of items and layers don't match."
    else .ok ((names.zip items).map fun e => (.str e.1, e.2))
  | .other => .error "ValueError: must be a list or dict"

/-- The losses given by the user: nothing, a dictionary, a list, or a single one. -/
inductive Losses (β : Type) where
  | none
  | dict (items : List (String × β))
  | list (items : List β)
  | single (loss : β)

/-- The losses as a dictionary (utils.py 331-352). -/
def lossMap {β : Type} (outputs : List String) (layers : List Layer) : Losses β → Except String (Map β)
  | .none => .ok fun _ => Option.none
  | .dict items =>
    if items.isEmpty then .ok fun _ => Option.none
    else if (outputs.all fun o => (items.map Prod.fst).contains o) && (items.all fun e => outputs.contains e.1)
      then .ok (dictOf items)
    else .error "ValueError: Output layer names and loss dict keys don't match"
  | .list items =>
    if items.isEmpty then .ok fun _ => Option.none
    else if outputs.length ≠ items.length then .error "ValueError: Number of loss dict items"
    else .ok (dictOf (outputs.zip items))
  | .single l =>
    if 1 < outputs.length then .error "ValueError: More output layers than losses."
    else match layers.getLast? with
      | Option.none => .error "IndexError"
      | some x => .ok fun k => if k = x.name then some l else Option.none

/-- Calls made on the layer collection. -/
inductive Event (α β : Type) where
  | layer (name : String) (approx : Option α)
  | loss (name : String) (loss : β) (coeff : ℝ)

/-- The approximation for a layer (utils.py 382-386); `none` as a dictionary value is Python's `None`. -/
def approxFor {α : Type} (approx : Map (Option α)) (l : Leaf) : Option α :=
  match approx l.name with
  | some a => a
  | none => (approx (classPrefix ++ l.cls)).getD none

/-- One round of the registration loop (utils.py 381-395). `register_layer` registers trainable layers only (utils.py
152); unsupported kinds of layers are left out. -/
noncomputable def registerLeaf {α β : Type} (approx : Map (Option α)) (loss : Map β) (weights : Map ℝ) (l : Leaf) :
    List (Event α β) :=
  (if l.trainable then [.layer l.name (approxFor approx l)] else []) ++
    match loss l.name with
    | some x => [.loss l.name x ((weights l.name).getD 1)]
    | none => []

/-- `get_layer_collection` (utils.py 276-397) for a model with these output names and layers: the calls made on the
layer collection, and the dictionary of losses when done, which is the user's if they passed a nonempty one. -/
noncomputable def getLayerCollection {α β : Type} (outputs : List String) (layers : List Layer) (loss : Losses β)
    (weights : Container Key ℝ) (approx : Container Key (Option α)) : Except String (List (Event α β) × Map β) :=
  match lossMap outputs layers loss with
  | .error e => .error e
  | .ok lossDict =>
    match traverse lossDict (pushAll [] layers.reverse) with
    | .error e => .error e
    | .ok (leaves, lossDict) =>
      match verified approx ((leaves.filter (·.trainable)).map (·.name)) with
      | .error e => .error e
      | .ok approx =>
        match verified weights outputs with
        | .error e => .error e
        | .ok weights =>
          let approx := dictOf (approx.map fun e => (e.1.serialize, e.2))
          let weights := dictOf (weights.filterMap fun e => e.1.asStr.map fun s => (s, e.2))
          .ok (leaves.flatMap (registerLeaf approx lossDict weights), lossDict)

end Kfac.Keras.Layers
