import Mathlib.Data.Real.Basic
import Mathlib.Algebra.BigOperators.Group.List.Basic

/-! # The loss function generated for adaptive damping (kfac/python/keras/utils.py 400-505)

Predictions, labels and loss tensors are opaque; `deser` is `losses.deserialize`. -/

namespace Kfac.Keras.LossFn

variable {P Y T : Type}

/-- A loss in a list or dictionary: a name, a callable, or the serialised form of a loss class (a dictionary). -/
inductive Item (P Y T : Type) where
  | str (s : String)
  | fn (f : P → Y → T)
  | ser

/-- The argument `loss`. -/
inductive Arg (P Y T : Type) where
  | one (i : Item P Y T)
  | dict (items : List (String × Item P Y T))
  | list (items : List (Item P Y T))

/-- The argument `loss_weights`. -/
inductive Weights where
  | none
  | dict (items : List (String × ℝ))
  | list (items : List ℝ)

/-- One tensor or several: the predictions and the labels. -/
inductive Many (A : Type) where
  | one (a : A)
  | many (as : List A)

/-- `losses.deserialize(l) if isinstance(l, str) else l` (utils.py 458-459). -/
def deserialize (deser : String → P → Y → T) : Item P Y T → Item P Y T
  | .str s => .fn (deser s)
  | i => i

/-- `loss[n]`; `KeyError` if there is none. -/
def item (items : List (String × Item P Y T)) (n : String) : Except String (Item P Y T) :=
  match items.lookup n with
  | some i => .ok i
  | none => .error "KeyError"

/-- The losses as the closure sees them (utils.py 452-459); a dictionary that is the serialised form of a class has no
output names as keys. -/
def prepare (deser : String → P → Y → T) (outputs : List String) : Arg P Y T → Except String (Item P Y T ⊕ List (Item P Y T))
  | .one (.str s) => .ok (.inl (.fn (deser s)))
  | .one (.fn f) => .ok (.inl (.fn f))
  | .one .ser => if outputs.isEmpty then .ok (.inr []) else .error "KeyError"
  | .dict items => (outputs.mapM (item items)).map fun l => .inr (l.map (deserialize deser))
  | .list items => .ok (.inr (items.map (deserialize deser)))

/-- The weights as the closure sees them (utils.py 461-462). -/
def prepareWeights (outputs : List String) : Weights → List ℝ
  | .none => []
  | .dict items => outputs.map fun n => (items.lookup n).getD 1
  | .list items => items

/-- `reduce_fn(fn(y_pred=pred, y_true=y))`. -/
def call (reduce : T → ℝ) (i : Item P Y T) (p : P) (y : Y) : Except String ℝ :=
  match i with
  | .fn f => .ok (reduce (f p y))
  | _ => .error "TypeError: not callable"

/-- The loss of the predictions (utils.py 490-497). -/
noncomputable def dataLoss (reduce : T → ℝ) (loss : Item P Y T ⊕ List (Item P Y T)) (weights : List ℝ) (pred : Many P) (y : Many Y) :
    Except String ℝ :=
  match pred, loss, y with
  | .many ps, .inr fs, .many ys =>
    match (fs.zip (ps.zip ys)).mapM fun e => call reduce e.1 e.2.1 e.2.2 with
    | .error e => .error e
    | .ok reduced =>
      let reduced := if weights.isEmpty then reduced else (reduced.zip weights).map fun e => e.1 * e.2
      if reduced.isEmpty then .error "ValueError: add_n of nothing" else .ok reduced.sum
  | .many _, _, _ => .error "TypeError: not iterable"
  | .one p, .inl i, .one y => call reduce i p y
  | .one _, .inl _, .many _ => .error "TypeError: several labels"
  | .one _, .inr _, _ => .error "TypeError: list is not callable"

/-- `get_loss_fn(model, loss, loss_weights, reduce_fn)(inputs)` (utils.py 400-505) with prediction `pred` of a model with
these output names and `model.losses`. -/
noncomputable def lossFn (deser : String → P → Y → T) (reduce : T → ℝ) (outputs : List String) (modelLosses : List ℝ)
    (loss : Arg P Y T) (weights : Weights) (pred : Many P) (y : Many Y) : Except String ℝ :=
  match prepare deser outputs loss with
  | .error e => .error e
  | .ok loss =>
    match dataLoss reduce loss (prepareWeights outputs weights) pred y with
    | .error e => .error e
    | .ok total => .ok (if modelLosses.isEmpty then total else total + modelLosses.sum)

end Kfac.Keras.LossFn
