import Verif.Exec.Model

/-!
# Block-wise transformations of vectors (`kfac/python/ops/estimator.py` 248-318)
-/

namespace Kfac.Est
open Kfac.Exec

/-- `SequenceDict((var, vec) for vec, var in vecs_and_vars)` (estimator.py 262): for repeated variables the last vector wins. -/
def vecsDict {K V : Type} [DecidableEq K] (vecsAndVars : List (V × K)) : Dict K V := fun k =>
  (vecsAndVars.reverse.find? fun p => p.2 = k).map fun p => .leaf p.1

/-- The dictionary after the assignments of estimator.py 276-277, unless one of them raised. -/
def assigned {K V : Type} (r : Dict K V × Option String) : Except String (Dict K V) :=
  match r.2 with
  | none => .ok r.1
  | some e => .error e

/-- `_compute_transformation` (estimator.py 248-279) with round-robin placement of the thunks. `blocks` are the items of
`fisher_blocks` (parameters and the block's transformation) in order. -/
def computeTransformation {D K V : Type} [DecidableEq K] (transDevices : Devices D)
    (blocks : List (Key K × (Val V → Except String (Val V)))) (vecsAndVars : List (V × K)) :
    Except String (List (Val V × K)) := do
  let results ← ((placeTransformations transDevices blocks).1.map (·.thunk)).mapM fun t => do
    let v ← getItem (vecsDict vecsAndVars) t.1
    t.2 v
  let transVecs ← assigned (setItems (fun _ => none) (blocks.map (·.1)) results)
  vecsAndVars.mapM fun p => do
    let v ← getItem transVecs (.atom p.2)
    return (v, p.2)

/-- `ReplicaRoundRobinPlacementMixin._place_and_compute_transformation_thunks` (placement.py 205-223): the flag
`distribute_transformations` is stored (placement.py 201) but not used. -/
def replicaTransformations {α : Type} [AddCommMonoid α] (_distributeTransformations : Bool) (c : Ctx)
    (thunks : List (Nat → α)) : Gathered α := mapGather c thunks

end Kfac.Est
