import Mathlib.Data.Set.Basic
import Mathlib.Logic.Function.Basic

/-! # The graph pattern matcher (kfac/python/ops/tensormatch/graph_matcher.py)

Nodes are compared with `==` and hashed as under TensorFlow 1 semantics (identity). Matching starts at a node; the only
lists that occur are then the input and output lists of nodes. Patterns are syntax trees: the recognition of the
tuple syntax (`is_*_pattern`, `expand_thunks`) is not modelled. -/

namespace Kfac.Match

/-- `util.expand_inputs`, `util.expand_outputs` on a single node (tensorflow_graph_util.py 106-128); `none` is Python's
`None` (for instance the inputs of a variable). -/
structure Graph (N : Type) where
  inputs : N → Option (List N)
  outputs : N → Option (List N)

/-- The pattern language (graph_matcher.py 34-54, 98-174). A falsy element name is `none`. -/
inductive Pat (N Name : Type) where
  | elem (name : Option Name) (restrictions : List (N → Bool))
  | choice (ps : List (Pat N Name))
  | list (ps : List (Pat N Name))
  | not (p : Pat N Name)
  | any
  | anyNoconsume
  | internalIn (p : Pat N Name) (ins : List (Pat N Name))
  | internalOut (p : Pat N Name) (outs : List (Pat N Name))
  | internalInOut (p : Pat N Name) (ins outs : List (Pat N Name))
  | eqv (n : N)

/-- The `bindings` dict. -/
abbrev Bind (N Name : Type) := Name → Option N

/-- Result of a Python call with a possibly falsy (`none`) result and side effects on a state `σ`. -/
abbrev Ans (σ R : Type) := σ → Option R × σ

/-- A falsy result without effects. -/
def fail {σ R : Type} : Ans σ R := fun s => (none, s)

/-- `_any` over two lazily evaluated results (graph_matcher.py 65-70). -/
def orElse {σ R : Type} (a b : Ans σ R) : Ans σ R := fun s =>
  match a s with
  | (some r, s') => (some r, s')
  | (none, s') => b s'

variable {N Name : Type} [DecidableEq N] [DecidableEq Name]

mutual
/-- The combinators made by `make_combinators` (graph_matcher.py 180-314), applied to a node. -/
def matchPat (g : Graph N) : Pat N Name → {σ R : Type} → N → Bind N Name → Set N →
    (Bind N Name → Set N → Ans σ R) → Ans σ R
  -- match_element (201-212)
  | .elem name restrictions, _, _, data, bindings, consumed, succeed =>
    let consumed := consumed ∪ {data}
    if restrictions.all (fun r => r data) then
      match name with
      | none => succeed bindings consumed
      | some v =>
        match bindings v with
        | some x => if x = data then succeed bindings consumed else fail
        | none => succeed (Function.update bindings v (some data)) consumed
    else fail
  -- match_choice (215-219)
  | .choice ps, _, _, data, bindings, consumed, succeed => matchChoice g ps data bindings consumed succeed
  -- match_list (222-250) on something that is not a sequence
  | .list _, _, _, _, _, _, _ => fail
  -- match_not (253-258)
  | .not p, _, _, data, bindings, consumed, succeed =>
    match (matchPat g p (σ := Unit) (R := Unit) data bindings ∅ (fun _ _ s => (some (), s)) ()).1 with
    | some _ => fail
    | none => succeed bindings consumed
  -- match_any (186-191)
  | .any, _, _, data, bindings, consumed, succeed => succeed bindings (consumed ∪ {data})
  -- match_any_noconsume (194-198)
  | .anyNoconsume, _, _, _, bindings, consumed, succeed => succeed bindings consumed
  -- match_internal (261-269): the list [data, inputs, outputs] against [p, In, Out]
  | .internalIn p ins, _, _, data, bindings, consumed, succeed =>
    matchPat g p data bindings consumed fun b c =>
      match g.inputs data with
      | none => fail
      | some l => matchList g ins l b c succeed
  | .internalOut p outs, _, _, data, bindings, consumed, succeed =>
    matchPat g p data bindings consumed fun b c =>
      match g.outputs data with
      | none => fail
      | some l => matchList g outs l b c succeed
  | .internalInOut p ins outs, _, _, data, bindings, consumed, succeed =>
    matchPat g p data bindings consumed fun b c =>
      match g.inputs data with
      | none => fail
      | some l => matchList g ins l b c fun b' c' =>
        match g.outputs data with
        | none => fail
        | some l' => matchList g outs l' b' c' succeed
  -- match_eqv (180-183)
  | .eqv n, _, _, data, bindings, consumed, succeed =>
    if data = n then succeed bindings (consumed ∪ {data}) else fail

/-- The generator inside `match_choice`. -/
def matchChoice (g : Graph N) : List (Pat N Name) → {σ R : Type} → N → Bind N Name → Set N →
    (Bind N Name → Set N → Ans σ R) → Ans σ R
  | [], _, _, _, _, _, _ => fail
  | p :: ps, _, _, data, bindings, consumed, succeed =>
    orElse (matchPat g p data bindings consumed succeed) (matchChoice g ps data bindings consumed succeed)

/-- `_list_match` (graph_matcher.py 227-249). -/
def matchList (g : Graph N) : List (Pat N Name) → {σ R : Type} → List N → Bind N Name → Set N →
    (Bind N Name → Set N → Ans σ R) → Ans σ R
  | [], _, _, [], bindings, consumed, succeed => succeed bindings consumed
  | p :: ps, _, _, x :: xs, bindings, consumed, succeed =>
    matchPat g p x bindings consumed fun b c => matchList g ps xs b c succeed
  | [], _, _, _ :: _, _, _, _ => fail
  | _ :: _, _, _, [], _, _, _ => fail
end

/-- `matcher_with_consumed` (graph_matcher.py 364-369). -/
def matcherWithConsumed (g : Graph N) (p : Pat N Name) (node : N) : Option (Bind N Name × Set N) :=
  (matchPat g p (σ := Unit) node (fun _ => none) ∅ (fun b c s => (some (b, c), s)) ()).1

/-- `matcher` (graph_matcher.py 345-349). The value `True` returned for empty bindings is represented by the empty
bindings. -/
def matcher (g : Graph N) (p : Pat N Name) (node : N) : Option (Bind N Name) :=
  (matchPat g p (σ := Unit) node (fun _ => none) ∅ (fun b _ s => (some b, s)) ()).1

/-- One call of the function returned by `all_matcher` (graph_matcher.py 352-361): the list `results` belongs to the
closure; the continuation returns `None`. -/
def allMatches (g : Graph N) (p : Pat N Name) (results : List (Bind N Name)) (node : N) : List (Bind N Name) :=
  (matchPat g p (σ := List (Bind N Name)) (R := Unit) node (fun _ => none) ∅
    (fun b _ s => (none, s ++ [b])) results).2

/-- Successive calls on several nodes: what each call returned (as it was at that time). -/
def allMatchesCalls (g : Graph N) (p : Pat N Name) : List (Bind N Name) → List N → List (List (Bind N Name))
  | _, [] => []
  | results, n :: ns => allMatches g p results n :: allMatchesCalls g p (allMatches g p results n) ns

end Kfac.Match
