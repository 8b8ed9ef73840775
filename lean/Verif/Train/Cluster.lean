import Verif.Train.Model

/-! # Training on several replicas and towers -/

namespace Kfac.Train

open Kfac.Stats Kfac.Block Kfac.Grad

/-- The network on `R` replicas: every replica has its own copy of all variables (mirrored variables, or one process per
replica). -/
inductive Cluster (R : ℕ) : ℕ → ℕ → Type where
  | nil {n : ℕ} : Cluster R n n
  | cons {n q k o : ℕ} (bias : Bool) (layer : Fin R → Layer (n + bias.toNat) q) (φ : (Fin q → ℝ) → Fin k → ℝ)
      (rest : Cluster R k o) : Cluster R n o

variable {R : ℕ}

/-- The network as replica `r` has it. -/
def Cluster.replica (r : Fin R) {n o : ℕ} : Cluster R n o → Net n o
  | .nil => .nil
  | .cons bias l φ rest => .cons bias (l r) φ (rest.replica r)

/-- The operations of all replicas must succeed. -/
def gather {α : Type} : {R : ℕ} → (Fin R → Except String α) → Except String (Fin R → α)
  | 0, _ => .ok Fin.elim0
  | _ + 1, f => (f 0).bind fun a => (gather fun i => f i.succ).map fun as => Fin.cons a as

/-- The covariance updates (fisher_factors.py 536-583; estimator.py 613-629): every replica sees its own towers of its own
batch with its own parameters; the estimate of a replica is the mean over its towers (560-567, `TOWER_STRATEGY`
fisher_blocks.py 460-512), which is averaged over the replicas (581) before it enters every replica's moving average. -/
noncomputable def Cluster.covUpdate {T B n o : ℕ} (strategy : TowerStrategy) (decay : ℝ) (c : Cluster R n o)
    (x : Fin R → Fin T → Fin B → Fin n → ℝ) (sampled : Fin R → Fin T → Fin B → (Fin o → ℝ) → ℝ) : Cluster R n o :=
  match c with
  | .nil => .nil
  | .cons bias l φ rest =>
    let s := fun r t i => affine bias (l r).weights (x r t i)
    let ds := fun r t i => gradient (fun s => sampled r t i ((rest.replica r).eval (φ s))) (s r t i)
    let a := List.ofFn fun r => [processTowers strategy (List.ofFn fun t => List.ofFn fun i => appendHomog bias (x r t i))]
    let g := List.ofFn fun r => [processTowers strategy (List.ofFn fun t => List.ofFn fun i => ds r t i)]
    .cons bias
      (fun r => { l r with input := (l r).input.step (.cov a decay), output := (l r).output.step (.cov g decay) })
      φ (rest.covUpdate strategy decay (fun r t i => φ (s r t i)) sampled)

/-- The inverse updates: every replica inverts its own statistics. -/
noncomputable def Cluster.invUpdate {n o : ℕ} (rule : PiRule) (power damping : ℝ) : Cluster R n o → Except String (Cluster R n o)
  | .nil => .ok .nil
  | .cons bias l φ rest => do
    let l ← gather fun r => (l r).invUpdate rule power damping
    let rest ← rest.invUpdate rule power damping
    return .cons bias l φ rest

/-- The loss of replica `r` as a function of the weights of the first layer: the user's mean over the towers of the mean over
the examples. -/
noncomputable def localLoss {T B n q k o : ℕ} (bias : Bool) (φ : (Fin q → ℝ) → Fin k → ℝ) (rest : Net k o)
    (x : Fin T → Fin B → Fin n → ℝ) (train : Fin T → Fin B → (Fin o → ℝ) → ℝ) (w : Fin (n + bias.toNat) → Fin q → ℝ) : ℝ :=
  (∑ t, lossOf bias φ rest (x t) (train t) w) / T

/-- `compute_gradients` (optimizer.py 598-637): the gradients of the replicas are averaged (`all_average`, 635). -/
noncomputable def averagedGradient {T B n q k o : ℕ} (bias : Bool) (l : Fin R → Layer (n + bias.toNat) q)
    (φ : (Fin q → ℝ) → Fin k → ℝ) (rest : Cluster R k o) (x : Fin R → Fin T → Fin B → Fin n → ℝ)
    (train : Fin R → Fin T → Fin B → (Fin o → ℝ) → ℝ) (i : Fin (n + bias.toNat)) (j : Fin q) : ℝ :=
  (∑ r, matGradient (localLoss bias φ (rest.replica r) (x r) (train r)) (l r).weights i j) / R

/-- `_squared_fisher_norm` on every replica (optimizer.py 783-803). -/
noncomputable def Cluster.sqNorm {T B n o : ℕ} (c : Cluster R n o) (x : Fin R → Fin T → Fin B → Fin n → ℝ)
    (train : Fin R → Fin T → Fin B → (Fin o → ℝ) → ℝ) : Except String (Fin R → ℝ) :=
  match c with
  | .nil => .ok fun _ => 0
  | .cons bias l φ rest => do
    let g := averagedGradient bias l φ rest x train
    let u ← gather fun r => (l r).precondition bias g
    let s ← rest.sqNorm (fun r t i => φ (affine bias (l r).weights (x r t i))) train
    return fun r => (∑ i, ∑ j, g i j * u r i j) + s r

/-- Velocities and parameters of every replica (optimizer.py 1175-1197, 1303-1310). -/
noncomputable def Cluster.update {T B n o : ℕ} (lr momentum : ℝ) (coeff : Fin R → ℝ) (c : Cluster R n o)
    (x : Fin R → Fin T → Fin B → Fin n → ℝ) (train : Fin R → Fin T → Fin B → (Fin o → ℝ) → ℝ) :
    Except String (Cluster R n o) :=
  match c with
  | .nil => .ok .nil
  | .cons bias l φ rest => do
    let u ← gather fun r => (l r).precondition bias (averagedGradient bias l φ rest x train)
    let v := fun r => momentum • (l r).velocity + coeff r • u r
    let rest' ← rest.update lr momentum coeff (fun r t i => φ (affine bias (l r).weights (x r t i))) train
    return .cons bias (fun r => { l r with weights := (l r).weights - lr • v r, velocity := v r }) φ rest'

/-- What can happen on a cluster. The numbers of towers and examples may differ from time to time. -/
inductive ClusterOp (R n o : ℕ) where
  | cov {T B : ℕ} (x : Fin R → Fin T → Fin B → Fin n → ℝ) (sampled : Fin R → Fin T → Fin B → (Fin o → ℝ) → ℝ) (decay : ℝ)
  | inv (damping : ℝ)
  | train {T B : ℕ} (x : Fin R → Fin T → Fin B → Fin n → ℝ) (loss : Fin R → Fin T → Fin B → (Fin o → ℝ) → ℝ)

/-- `apply_gradients(compute_gradients(loss))` on every replica. -/
noncomputable def Cluster.trainStep {T B n o : ℕ} (cfg : Config) (c : Cluster R n o) (x : Fin R → Fin T → Fin B → Fin n → ℝ)
    (loss : Fin R → Fin T → Fin B → (Fin o → ℝ) → ℝ) : Except String (Cluster R n o) := do
  let sq ← c.sqNorm x loss
  c.update cfg.learningRate cfg.momentum (fun r => clipFactor cfg.normConstraint cfg.learningRate (sq r)) x loss

/-- One operation. -/
noncomputable def Cluster.step {n o : ℕ} (strategy : TowerStrategy) (cfg : Config) (c : Cluster R n o) :
    ClusterOp R n o → Except String (Cluster R n o)
  | .cov x sampled decay => .ok (c.covUpdate strategy decay x sampled)
  | .inv damping => c.invUpdate cfg.rule cfg.power damping
  | .train x loss => c.trainStep cfg x loss

/-- Operations in any order. -/
noncomputable def Cluster.run {n o : ℕ} (strategy : TowerStrategy) (cfg : Config) (c : Cluster R n o) :
    List (ClusterOp R n o) → Except String (Cluster R n o)
  | [] => .ok c
  | op :: ops => (c.step strategy cfg op).bind fun c => c.run strategy cfg ops

end Kfac.Train
