import Verif.Reg.Model

/-!
# Registering layers by hand (kfac/examples/autoencoder_mnist.py 284-369, 506-551, kfac/examples/convnet.py 69-205, 643-657)

A tensor is given by the operations that produced it, each of which has one input besides the variables; every operation
has a number of its own. Multiplying by the weights, or convolving with them, and adding the bias is one operation here.
-/

namespace Kfac.Examples.Manual

open Kfac.Reg

inductive Tensor where
  /-- the data -/
  | input (id : Nat)
  /-- a layer with variables, before the activation function -/
  | layer (id : Nat) (params : List Var) (x : Tensor)
  /-- an operation without variables: activation function, pooling, reshaping -/
  | other (id : Nat) (x : Tensor)
deriving DecidableEq

def Tensor.id : Tensor → Nat
  | .input id => id
  | .layer id _ _ => id
  | .other id _ => id

/-- A registration function that is called in an example, which stops at an exception. -/
def call (lc : LC) (op : LayerOp) : Except String LC :=
  match runLayer lc (op.call lc) with
  | (lc', .ok _) => .ok lc'
  | (_, .error e) => .error e

/-- `if layer_collection is not None: layer_collection.register_fully_connected(params, layer_inputs, layer_outputs,
reuse=False)` (autoencoder_mnist.py 318-322). -/
def register (lc : Option LC) (w b : Var) (inputs outputs : Tensor) : Except String (Option LC) :=
  match lc with
  | none => .ok none
  | some lc =>
    match call lc (.fullyConnected (.seq [w, b]) (.tensor inputs.id) (.tensor outputs.id) none true (.explicit .no)) with
    | .ok lc' => .ok (some lc')
    | .error e => .error e

/-- `MLPManualReg._build` (autoencoder_mnist.py 310-327) on a module with the given weights and biases, which are the same in every
call of the module: the collection, the next free number and the result. -/
def mlp (activateFinal : Bool) : List (Var × Var) → Option LC → Nat → Tensor → Except String (Option LC × Nat × Tensor)
  | [], lc, next, net => .ok (lc, next, net)
  | (w, b) :: rest, lc, next, net =>
    let outputs := Tensor.layer next [w, b] net
    match register lc w b net outputs with
    | .error e => .error e
    | .ok lc' =>
      if rest ≠ [] ∨ activateFinal then mlp activateFinal rest lc' (next + 2) (.other (next + 1) outputs)
      else mlp activateFinal rest lc' (next + 1) outputs

/-- `AutoEncoderManualReg._build` (autoencoder_mnist.py 365-369). -/
def autoencoder (encoder decoder : List (Var × Var)) (lc : Option LC) (next : Nat) (inputs : Tensor) :
    Except String (Option LC × Nat × Tensor) :=
  match mlp false encoder lc next inputs with
  | .error e => .error e
  | .ok (lc1, next1, code) => mlp false decoder lc1 next1 code

/-- `construct_train_quants` with `--auto_register_layers=false` (autoencoder_mnist.py 523-551): the network is built with the
collection, then the loss is registered. `graphName` is the name that the loss gets. -/
def construct (encoder decoder : List (Var × Var)) (graphName : String) (next : Nat) (features : Tensor) :
    Except String (LC × Nat × Tensor) :=
  match autoencoder encoder decoder (some LC.init) next features with
  | .error e => .error e
  | .ok (none, _, _) => .error "unreachable"
  | .ok (some lc, next1, logits) =>
    match registerLoss lc none graphName 1 (.variableScope .no) with
    | (_, .error e) => .error e
    | (lc', .ok _) => .ok (lc', next1, logits)

/-- The variables of the convolutional network. -/
structure ConvNet where
  kernel0 : Var
  bias0 : Var
  kernel2 : Var
  bias2 : Var
  kernel4 : Var
  bias4 : Var

/-- `build_model(…, register_layers_manually=True)` (convnet.py 69-205) in a variable scope with the given reuse flag. The unused
activations of the last layer, the loss and the accuracy are left out. -/
def buildModel (net : ConvNet) (reuse : Reuse) (lc : LC) (next : Nat) (examples : Tensor) : Except String (LC × Nat × Tensor) :=
  let pre0 := Tensor.layer next [net.kernel0, net.bias0] examples
  let act0 := Tensor.other (next + 1) pre0
  let act1 := Tensor.other (next + 2) act0
  let pre2 := Tensor.layer (next + 3) [net.kernel2, net.bias2] act1
  let act2 := Tensor.other (next + 4) pre2
  let act3 := Tensor.other (next + 5) act2
  let flat := Tensor.other (next + 6) act3
  let logits := Tensor.layer (next + 7) [net.kernel4, net.bias4] flat
  match registerLoss lc (some "logits") "" 1 (.variableScope reuse) with
  | (_, .error e) => .error e
  | (lc1, .ok _) => do
    let lc2 ← call lc1 (.conv2d (.seq [net.kernel0, net.bias0]) [1, 1, 1, 1] none (.tensor examples.id) (.tensor pre0.id) none
      (.variableScope reuse))
    let lc3 ← call lc2 (.conv2d (.seq [net.kernel2, net.bias2]) [1, 1, 1, 1] none (.tensor act1.id) (.tensor pre2.id) none
      (.variableScope reuse))
    let lc4 ← call lc3 (.fullyConnected (.seq [net.kernel4, net.bias4]) (.tensor flat.id) (.tensor logits.id) none true
      (.variableScope reuse))
    return (lc4, next + 8, logits)

/-- The loop over the towers of `train_mnist_multitower` (convnet.py 644-657): the variables are shared from the second tower on.
The examples of the towers are given. -/
def buildTowers (net : ConvNet) : List Tensor → (first : Bool) → LC → Nat → Except String (LC × List Tensor)
  | [], _, lc, _ => .ok (lc, [])
  | x :: xs, first, lc, next => do
    let (lc1, next1, logits) ← buildModel net (if first then .no else .yes) lc next x
    let (lc2, rest) ← buildTowers net xs false lc1 next1
    return (lc2, logits :: rest)

end Kfac.Examples.Manual
