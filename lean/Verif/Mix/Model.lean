import Verif.Train.Model
import Verif.Block.Full

/-! # Training with any mixture of blocks

Every approximation a layer can have: Kronecker-factored with dense or diagonal factors ("kron", "kron_in_diag",
"kron_out_diag", "kron_both_diag" and the versions for several uses), full, and diagonal. The parameters of a block are kept as
one vector (row by row in the stacked matrix of `layer_params_to_mat2d`, utils.py 247-270). The covariance of every factor is
updated with any estimate: what the estimates are for each kind of layer is the subject of C09, C70, C72, C76. One replica. -/

namespace Kfac.Mix

open Kfac.Stats Kfac.Block Kfac.Train Kfac.Params

/-- The blocks (layer_collection.py 55-140, fisher_blocks.py): the Kronecker blocks of a layer with `n` inputs (the flattened
filter for convolutions) and `q` outputs, whose two factors are dense or diagonal; full blocks; diagonal blocks. -/
inductive Shape where
  | kron (kind : KronKind) (n q : ℕ) (bias diagIn diagOut : Bool)
  | full (n : ℕ)
  | diagonal (kind : DiagKind) (n : ℕ)

/-- The number of parameters. -/
def Shape.dim : Shape → ℕ
  | .kron _ n q bias _ _ => (n + bias.toNat) * q
  | .full n => n
  | .diagonal _ n => n

/-- The variables of a dense (fisher_factors.py 657-700) or diagonal (999-1050) factor. -/
def Fac : Bool → ℕ → Type
  | false, n => DenseStat n
  | true, n => DiagStat n

/-- The variables of the factors of a block. -/
def Shape.State : Shape → Type
  | .kron _ n q bias diagIn diagOut => Fac diagIn (n + bias.toNat) × Fac diagOut q
  | .full n => DenseStat n
  | .diagonal _ n => DiagStat n

/-- New estimates for the factors of a block; diagonal Kronecker factors only estimate the diagonal. -/
def Shape.New : Shape → Type
  | .kron _ n q bias _ _ => Matrix (Fin (n + bias.toNat)) (Fin (n + bias.toNat)) ℝ × Matrix (Fin q) (Fin q) ℝ
  | .full n => Matrix (Fin n) (Fin n) ℝ
  | .diagonal _ n => Fin n → ℝ

/-- `make_covariance_update_op` (fisher_factors.py 585-601) of a factor. -/
noncomputable def Fac.addCov {n : ℕ} : (isDiag : Bool) → Fac isDiag n → Matrix (Fin n) (Fin n) ℝ → ℝ → Fac isDiag n
  | false, s, c, decay => (⟨DenseStat.avg s |>.add c decay 1, DenseStat.inverse s⟩ : DenseStat n)
  | true, s, c, decay => (⟨DiagStat.avg s |>.add (fun i => c i i) decay 1⟩ : DiagStat n)

/-- `make_inverse_update_ops` (fisher_factors.py 810-880) with the value of the damping; diagonal factors have none (1020-1021). -/
noncomputable def Fac.updateInverse {n : ℕ} : (isDiag : Bool) → Fac isDiag n → ℝ → Fac isDiag n
  | false, s, damping => DenseStat.step s (.inv damping)
  | true, s, _ => s

/-- The trace of the estimated covariance, as `compute_pi_tracenorm` reads it (fisher_blocks.py 82-113); `none` is 0/0. -/
noncomputable def Fac.trace {n : ℕ} : (isDiag : Bool) → Fac isDiag n → Option ℝ
  | false, s => ((DenseStat.avg s).value true).map Matrix.trace
  | true, s => ((DiagStat.avg s).value true).map fun c => ∑ i, c i

/-- The factor as the block sees it: of a dense factor only the stored inverse is read by `multiply_inverse`
(fisher_factors.py 886-905), of a diagonal factor the estimate at this moment (1034-1041). -/
noncomputable def Fac.factor {n : ℕ} : (isDiag : Bool) → Fac isDiag n → Option Factor
  | false, s => some (factorOf s)
  | true, s => FStat.factor (.diag s)

/-- `_setup_damping` (fisher_blocks.py 782-813): the dampings of the two factors with the estimates at this moment. -/
noncomputable def kronDamping {P q : ℕ} (rule : PiRule) (power damping : ℝ) (kind : KronKind) (diagIn diagOut : Bool)
    (s : Fac diagIn P × Fac diagOut q) : Except String (ℝ × ℝ) :=
  match Fac.trace diagIn s.1, Fac.trace diagOut s.2 with
  | some a, some g => setupDamping rule power a P g q damping kind.normalization
  | _, _ => .error "NaN"

/-- The covariance updates of a block. -/
noncomputable def Shape.covUpdate : (sh : Shape) → sh.State → sh.New → ℝ → sh.State
  | .kron _ _ _ _ diagIn diagOut, s, c, decay => (Fac.addCov diagIn (Prod.fst s) (Prod.fst c) decay,
      Fac.addCov diagOut (Prod.snd s) (Prod.snd c) decay)
  | .full n, s, c, decay => (⟨DenseStat.avg s |>.add c decay 1, DenseStat.inverse s⟩ : DenseStat n)
  | .diagonal _ n, s, c, decay => (⟨DiagStat.avg s |>.add c decay 1⟩ : DiagStat n)

/-- The inverse updates of a Kronecker block: none if both factors are diagonal. -/
noncomputable def kronInvUpdate (rule : PiRule) (power damping : ℝ) (kind : KronKind) {P q : ℕ} (diagIn diagOut : Bool)
    (s : Fac diagIn P × Fac diagOut q) : Except String (Fac diagIn P × Fac diagOut q) :=
  if diagIn && diagOut then .ok s
  else (kronDamping rule power damping kind diagIn diagOut s).map fun d =>
    (Fac.updateInverse diagIn s.1 d.1, Fac.updateInverse diagOut s.2 d.2)

/-- The inverse update of a full block, with the damping as it is (fisher_blocks.py 312-326). -/
noncomputable def fullInvUpdate {n : ℕ} (damping : ℝ) (s : DenseStat n) : Except String (DenseStat n) :=
  match s.avg.value true with
  | some _ => .ok (s.step (.inv damping))
  | none => .error "NaN"

/-- The inverse updates of a block. -/
noncomputable def Shape.invUpdate (rule : PiRule) (power damping : ℝ) : (sh : Shape) → sh.State → Except String sh.State
  | .kron kind _ _ _ diagIn diagOut, s => kronInvUpdate rule power damping kind diagIn diagOut s
  | .full _, s => fullInvUpdate damping s
  | .diagonal _ _, s => .ok s

/-- One tensor of rank one with the entries of a vector. -/
def vector {n : ℕ} (g : Fin n → ℝ) : Tensor ℝ := ⟨[n], List.ofFn g⟩

/-- `multiply_inverse` of a Kronecker block (fisher_blocks.py 862-883) on a gradient in the form of a stacked matrix. The damping
functions are only evaluated for diagonal factors. -/
noncomputable def kronPrecondition (rule : PiRule) (power damping : ℝ) (kind : KronKind) {n q : ℕ} (bias diagIn diagOut : Bool)
    (s : Fac diagIn (n + bias.toNat) × Fac diagOut q) (g : Fin (n + bias.toNat) → Fin q → ℝ) :
    Except String (Fin (n + bias.toNat) → Fin q → ℝ) :=
  match (if diagIn || diagOut then kronDamping rule power damping kind diagIn diagOut s else .ok (0, 0)) with
  | .error e => .error e
  | .ok d =>
    match Fac.factor diagIn s.1, Fac.factor diagOut s.2 with
    | some a, some b => do
      let u ← KBlock.multiplyInverse ⟨a, b, d.1, d.2, kind.renorm⟩ (toParams (n := n) (q := q) bias g)
      let m ← layerParamsToMat2d u
      return toMat (n + bias.toNat) q m
    | _, _ => .error "NaN"

/-- `multiply_inverse` of a full block (fisher_blocks.py 295-302). -/
noncomputable def fullPrecondition {n : ℕ} (s : DenseStat n) (g : Fin n → ℝ) : Except String (Fin n → ℝ) := do
  let u ← multiplyMatrix (.full (ofMat s.inverse)) (.single (vector g)) false
  let col ← u.toColumn
  return fun i => col.getD i 0

/-- `multiply_inverse` of a diagonal block (fisher_blocks.py 383-390). -/
noncomputable def diagPrecondition (power damping : ℝ) (kind : DiagKind) {n : ℕ} (s : DiagStat n) (g : Fin n → ℝ) :
    Except String (Fin n → ℝ) :=
  match s.avg.value true with
  | some c => do
    let u ← diagMatpower (vector c) (kind.damping power damping) (.single (vector g)) (-1)
    let col ← u.toColumn
    return fun i => col.getD i 0
  | none => .error "NaN"

/-- `multiply_inverse` of a block. -/
noncomputable def Shape.precondition (rule : PiRule) (power damping : ℝ) : (sh : Shape) → sh.State → (Fin sh.dim → ℝ) →
    Except String (Fin sh.dim → ℝ)
  | .kron kind _ _ bias diagIn diagOut, s, g =>
    (kronPrecondition rule power damping kind bias diagIn diagOut s fun i j => g (finProdFinEquiv (i, j))).map fun u k =>
      u (finProdFinEquiv.symm k).1 (finProdFinEquiv.symm k).2
  | .full _, s, g => fullPrecondition s g
  | .diagonal kind _, s, g => diagPrecondition power damping kind s g

/-- All results, or the first error. -/
def collect : {B : ℕ} → {α : Fin B → Type} → ((k : Fin B) → Except String (α k)) → Except String ((k : Fin B) → α k)
  | 0, _, _ => .ok fun k => k.elim0
  | _ + 1, _, x => do
    let a ← x 0
    let rest ← collect fun k => x k.succ
    return Fin.cons a rest

variable {B : ℕ} {shapes : Fin B → Shape}

/-- One vector per block. -/
abbrev Params (shapes : Fin B → Shape) := (k : Fin B) → Fin (shapes k).dim → ℝ

/-- The variables of a training run: parameters, the slot "velocity" (optimizer.py 1305), the statistics. -/
structure Net (shapes : Fin B → Shape) where
  params : Params shapes
  velocity : Params shapes
  stats : (k : Fin B) → (shapes k).State

/-- `tf.gradients` of the loss by all parameters. -/
noncomputable def grad (f : Params shapes → ℝ) (θ : Params shapes) : Params shapes := fun k i =>
  fderiv ℝ f θ (Pi.single k (Pi.single i 1))

/-- The inner product (`utils.inner_product_list`, as used in optimizer.py 783-803). -/
def inner (g u : Params shapes) : ℝ := ∑ k, ∑ i, g k i * u k i

/-- What can happen: an update of the covariances or of the inverses, or a training step, with the value the damping has. -/
inductive Op (shapes : Fin B → Shape) where
  | cov (new : (k : Fin B) → (shapes k).New) (decay : ℝ)
  | inv (damping : ℝ)
  | train (loss : Params shapes → ℝ) (damping : ℝ)

/-- `_multiply_preconditioner` (optimizer.py 1155-1156): the blocks one by one (estimator.py 248-292). -/
noncomputable def Net.precondition (cfg : Config) (damping : ℝ) (net : Net shapes) (g : Params shapes) :
    Except String (Params shapes) :=
  collect fun k => (shapes k).precondition cfg.rule cfg.power damping (net.stats k) (g k)

/-- `apply_gradients(compute_gradients(loss))` with momentum of type "regular" (optimizer.py 598-769, 1175-1202). -/
noncomputable def Net.trainStep (cfg : Config) (f : Params shapes → ℝ) (damping : ℝ) (net : Net shapes) :
    Except String (Net shapes) := do
  let g := grad f net.params
  let u ← net.precondition cfg damping g
  let v := cfg.momentum • net.velocity + clipFactor cfg.normConstraint cfg.learningRate (inner g u) • u
  return { net with params := net.params - cfg.learningRate • v, velocity := v }

/-- One operation. -/
noncomputable def Net.step (cfg : Config) (net : Net shapes) : Op shapes → Except String (Net shapes)
  | .cov new decay => .ok { net with stats := fun k => (shapes k).covUpdate (net.stats k) (new k) decay }
  | .inv damping => (collect fun k => (shapes k).invUpdate cfg.rule cfg.power damping (net.stats k)).map fun s =>
      { net with stats := s }
  | .train f damping => net.trainStep cfg f damping

end Kfac.Mix
