import Verif.Keras.RegLayer

/-! # Registering the loss of a Keras output (kfac/python/keras/utils.py 35-45 and 227-273) -/

namespace Kfac.Keras.RegLayer

open Kfac.Match (TFGraph)

/-- A Keras loss: a name, a function of that name, or an object of a class (or its serialised form) with its argument
`from_logits`. -/
inductive LossArg where
  | str (s : String)
  | fn (name : String)
  | obj (className : String) (fromLogits : Bool)

/-- The name of the loss (utils.py 258-261): `losses.serialize` of a function is its name, that of an object a dictionary
with the class name. -/
def LossArg.name : LossArg → String
  | .str s => s
  | .fn s => s
  | .obj c _ => c

/-- `loss.replace('_', '').lower()` (utils.py 262). -/
def normName (s : String) : String := String.ofList ((s.toList.filter (· ≠ '_')).map Char.toLower)

/-- The calls of the registration functions for losses. -/
inductive LossCall (C : Type) where
  | squaredError (prediction : ℕ) (coeff : C)
  | softmaxCrossEntropy (logits : ℕ) (coeff : C)
  | sigmoidCrossEntropy (logits : ℕ) (coeff : C)
deriving DecidableEq, Repr

/-- `layer.output`: the output of the first call of the layer. -/
def KLayer.output (l : KLayer) : Tensors :=
  match l.earlier with
  | [] => l.last.outputs
  | n :: _ => n.outputs

/-- A single tensor is expected. -/
def single {C : Type} (f : ℕ → LossCall C) : Tensors → Except String (LossCall C)
  | .one t => .ok (f t)
  | .many _ => .error "TypeError"

/-- `register_loss` (utils.py 227-273). -/
def registerLoss {C : Type} (g : TFGraph) (l : KLayer) (loss : LossArg) (coeff : C) : Except String (LossCall C) :=
  match preActivation g l with
  | .error e => .error e
  | .ok pre =>
    let name := normName loss.name
    if name = "meansquarederror" ∨ name = "mse" then single (.squaredError · coeff) l.output
    else if name = "sparsecategoricalcrossentropy" ∨ name = "categoricalcrossentropy" then
      single (.softmaxCrossEntropy · coeff) pre
    else if name = "binarycrossentropy" then single (.sigmoidCrossEntropy · coeff) pre
    else .error "ValueError: Unsupported loss function"

end Kfac.Keras.RegLayer
