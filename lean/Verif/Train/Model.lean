import Verif.Stats.Model
import Verif.Grad.Model
import Verif.Block.Model
import Mathlib.Analysis.Calculus.FDeriv.Basic
import Mathlib.Analysis.Normed.Group.Constructions
import Mathlib.LinearAlgebra.Matrix.Trace

/-! # Training a feed-forward network with K-FAC

The user's network is a chain of fully connected layers (`register_fully_connected`, layer_collection.py 743-794), each
followed by any function. The parameters, velocities and statistics of a layer are kept together; the weights and the bias
are kept as the stacked matrix of `layer_params_to_mat2d` (utils.py 247-270). One tower, one source of gradients, one
replica (for more see C10-C14, C81). -/

namespace Kfac.Train

open Kfac.Stats Kfac.Block Kfac.Grad Kfac.Params

/-- The variables of one layer: parameters, the slot "velocity" (optimizer.py 1305), and the statistics of the two factors of
`FullyConnectedKFACBasicFB` (fisher_blocks.py 918-976). -/
structure Layer (P q : ℕ) where
  weights : Fin P → Fin q → ℝ
  velocity : Fin P → Fin q → ℝ
  input : DenseStat P
  output : DenseStat q

/-- A network with `n` inputs and `o` outputs. -/
inductive Net : ℕ → ℕ → Type where
  | nil {n : ℕ} : Net n n
  | cons {n q k o : ℕ} (bias : Bool) (layer : Layer (n + bias.toNat) q) (φ : (Fin q → ℝ) → Fin k → ℝ) (rest : Net k o) :
      Net n o

/-- The outputs of a fully connected layer (before the activation). -/
def affine {n q : ℕ} (bias : Bool) (w : Fin (n + bias.toNat) → Fin q → ℝ) (x : Fin n → ℝ) (j : Fin q) : ℝ :=
  ∑ r, w r j * appendHomog bias x r

/-- The function the network computes. -/
def Net.eval {n o : ℕ} : Net n o → (Fin n → ℝ) → Fin o → ℝ
  | .nil, x => x
  | .cons bias l φ rest, x => rest.eval (φ (affine bias l.weights x))

/-- `tf.gradients` of a function by a vector. -/
noncomputable def gradient {q : ℕ} (f : (Fin q → ℝ) → ℝ) (s : Fin q → ℝ) (j : Fin q) : ℝ :=
  fderiv ℝ f s (Pi.single j 1)

/-- `tf.gradients` of a function by a matrix. -/
noncomputable def matGradient {P q : ℕ} (f : (Fin P → Fin q → ℝ) → ℝ) (w : Fin P → Fin q → ℝ) (r : Fin P) (j : Fin q) : ℝ :=
  fderiv ℝ f w (Pi.single r (Pi.single j 1))

/-- The covariance updates of all factors on one batch (estimator.py 613-629, fisher_factors.py 536-583; 1712-1733): the input
factor sees the inputs, the output factor the derivatives of the losses with sampled targets by the layer's outputs
(`sampled i` is the loss of example `i` as a function of the network's outputs). -/
noncomputable def Net.covUpdate {N n o : ℕ} (decay : ℝ) (net : Net n o) (x : Fin N → Fin n → ℝ)
    (sampled : Fin N → (Fin o → ℝ) → ℝ) : Net n o :=
  match net with
  | .nil => .nil
  | .cons bias l φ rest =>
    let s := fun i => affine bias l.weights (x i)
    let ds := fun i => gradient (fun s => sampled i (rest.eval (φ s))) (s i)
    .cons bias
      { l with
        input := l.input.step (.cov [[[List.ofFn fun i => appendHomog bias (x i)]]] decay)
        output := l.output.step (.cov [[[List.ofFn ds]]] decay) }
      φ (rest.covUpdate decay (fun i => φ (s i)) sampled)

/-- The inverse updates of the factors of a layer, with the damping as `_setup_damping` splits it (fisher_blocks.py 782-797).
Without statistics (0/0) the result is an error. -/
noncomputable def Layer.invUpdate {P q : ℕ} (rule : PiRule) (power damping : ℝ) (l : Layer P q) :
    Except String (Layer P q) :=
  match l.input.avg.value true, l.output.avg.value true with
  | some a, some g => (setupDamping rule power a.trace P g.trace q damping none).map fun d =>
      { l with input := l.input.step (.inv d.1), output := l.output.step (.inv d.2) }
  | _, _ => .error "NaN"

/-- The inverse updates of all factors. -/
noncomputable def Net.invUpdate {n o : ℕ} (rule : PiRule) (power damping : ℝ) : Net n o → Except String (Net n o)
  | .nil => .ok .nil
  | .cons bias l φ rest => do
    let l ← l.invUpdate rule power damping
    let rest ← rest.invUpdate rule power damping
    return .cons bias l φ rest

/-- The pair of tensors of a layer's parameters for a stacked matrix. -/
noncomputable def toParams {n q : ℕ} : (bias : Bool) → (Fin (n + bias.toNat) → Fin q → ℝ) → LayerParams ℝ
  | false, w => .weight (ofMat (m := n) (n := q) w)
  | true, w => .weightBias (ofMat (m := n) (n := q) fun i j => w (Fin.castAdd true.toNat i) j)
      (Tensor.ofFn [q] fun idx => if h : idx.getD 0 0 < q then w (Fin.natAdd n ⟨0, by decide⟩) ⟨idx.getD 0 0, h⟩ else 0)

/-- A dense factor; only the stored inverse is read by `multiply_inverse`. -/
noncomputable def factorOf {n : ℕ} (s : DenseStat n) : Factor :=
  { isDiag := false, cov := ofMat s.avg.var, inverse := ofMat s.inverse, cholesky := ⟨[], []⟩, choleskyInverse := ⟨[], []⟩ }

/-- `multiply_inverse` of the block of a layer (fisher_blocks.py 862-883) with the stored inverses, as a stacked matrix. -/
noncomputable def Layer.precondition {n q : ℕ} (bias : Bool) (l : Layer (n + bias.toNat) q)
    (g : Fin (n + bias.toNat) → Fin q → ℝ) : Except String (Fin (n + bias.toNat) → Fin q → ℝ) := do
  let u ← KBlock.multiplyInverse ⟨factorOf l.input, factorOf l.output, 0, 0, KronKind.fullyConnected.renorm⟩ (toParams bias g)
  let m ← layerParamsToMat2d u
  return toMat (n + bias.toNat) q m

/-- The mean training loss as a function of the weights of the first layer. -/
noncomputable def lossOf {N n q k o : ℕ} (bias : Bool) (φ : (Fin q → ℝ) → Fin k → ℝ) (rest : Net k o) (x : Fin N → Fin n → ℝ)
    (train : Fin N → (Fin o → ℝ) → ℝ) (w : Fin (n + bias.toNat) → Fin q → ℝ) : ℝ :=
  (∑ i, train i (rest.eval (φ (affine bias w (x i))))) / N

/-- `_squared_fisher_norm` (optimizer.py 783-803): the inner product of the gradient with the preconditioned gradient. -/
noncomputable def Net.sqNorm {N n o : ℕ} (net : Net n o) (x : Fin N → Fin n → ℝ) (train : Fin N → (Fin o → ℝ) → ℝ) :
    Except String ℝ :=
  match net with
  | .nil => .ok 0
  | .cons bias l φ rest => do
    let g := matGradient (lossOf bias φ rest x train) l.weights
    let u ← l.precondition bias g
    let s ← rest.sqNorm (fun i => φ (affine bias l.weights (x i))) train
    return (∑ r, ∑ j, g r j * u r j) + s

/-- `_update_clip_coeff` (optimizer.py 805-836) with the quotient by zero read as infinity; 1 without a constraint. -/
noncomputable def clipFactor (constraint : Option ℝ) (lr sqNorm : ℝ) : ℝ :=
  match constraint with
  | none => 1
  | some c => if sqNorm * lr ^ 2 = 0 then 1 else min 1 (Real.sqrt (c / (sqNorm * lr ^ 2)))

/-- Momentum of type "regular" (optimizer.py 1175-1197, 1303-1310) with the clipping coefficient `coeff`, and the step of
gradient descent with the velocity. -/
noncomputable def Net.update {N n o : ℕ} (lr momentum coeff : ℝ) (net : Net n o) (x : Fin N → Fin n → ℝ)
    (train : Fin N → (Fin o → ℝ) → ℝ) : Except String (Net n o) :=
  match net with
  | .nil => .ok .nil
  | .cons bias l φ rest => do
    let u ← l.precondition bias (matGradient (lossOf bias φ rest x train) l.weights)
    let v := momentum • l.velocity + coeff • u
    let rest' ← rest.update lr momentum coeff (fun i => φ (affine bias l.weights (x i))) train
    return .cons bias { l with weights := l.weights - lr • v, velocity := v } φ rest'

/-- The settings of `KfacOptimizer`. -/
structure Config where
  learningRate : ℝ
  momentum : ℝ
  normConstraint : Option ℝ
  rule : PiRule
  power : ℝ

/-- What can happen: an update of the covariances or the inverses, or a training step. The batches and their losses may be
different each time. -/
inductive Op (n o : ℕ) where
  | cov {N : ℕ} (x : Fin N → Fin n → ℝ) (sampled : Fin N → (Fin o → ℝ) → ℝ) (decay : ℝ)
  | inv (damping : ℝ)
  | train {N : ℕ} (x : Fin N → Fin n → ℝ) (loss : Fin N → (Fin o → ℝ) → ℝ)

/-- `apply_gradients(compute_gradients(loss))` (optimizer.py 598-769, 1175-1202). -/
noncomputable def Net.trainStep {N n o : ℕ} (cfg : Config) (net : Net n o) (x : Fin N → Fin n → ℝ)
    (loss : Fin N → (Fin o → ℝ) → ℝ) : Except String (Net n o) := do
  let sq ← net.sqNorm x loss
  net.update cfg.learningRate cfg.momentum (clipFactor cfg.normConstraint cfg.learningRate sq) x loss

/-- One operation. -/
noncomputable def Net.step {n o : ℕ} (cfg : Config) (net : Net n o) : Op n o → Except String (Net n o)
  | .cov x sampled decay => .ok (net.covUpdate decay x sampled)
  | .inv damping => net.invUpdate cfg.rule cfg.power damping
  | .train x loss => net.trainStep cfg x loss

/-- Operations in any order. -/
noncomputable def Net.run {n o : ℕ} (cfg : Config) (net : Net n o) : List (Op n o) → Except String (Net n o)
  | [] => .ok net
  | op :: ops => (net.step cfg op).bind fun net => net.run cfg ops

end Kfac.Train
