import Verif.Factor.Dense
import Verif.Block.Model

/-! # The stored matrix functions of an estimator whose blocks share factors

kfac/python/ops/fisher_blocks.py 127-154 (`PackagedFunc`), 283-345 (full blocks), 775-904 (Kronecker blocks),
kfac/python/ops/estimator.py 414-422, 463-512, 548-578, 604-645, and the variables created by
kfac/python/ops/fisher_factors.py 528-541, 770-815. Factors are dense (see `Verif.Factor.Dense`); diagonal factors
store nothing but their covariance. -/

namespace Kfac.Factor

open Matrix Kfac.Block

/-- A Python float or a 0-D tensor. -/
inductive Scalar (T : Type) where
  | num (x : ℝ)
  | tensor (t : T)

/-- An entry of a `func_id` (fisher_blocks.py 132-150). -/
inductive Atom (T : Type) where
  | str (s : String)
  | scalar (x : Scalar T)

/-- A `func_id`, a tuple. -/
abbrev FuncId (T : Type) := List (Atom T)

/-- The values of the graph's tensors in one run: the covariance of every factor and the 0-D tensors. -/
structure Values (F T : Type) (dim : F → ℕ) where
  cov : (f : F) → Mat (dim f)
  tensor : T → ℝ

/-- The value of a scalar in a run. -/
def Scalar.value {F T : Type} {dim : F → ℕ} (v : Values F T dim) : Scalar T → ℝ
  | .num x => x
  | .tensor t => v.tensor t

/-- The blocks: Kronecker blocks with their input and output factor (FC, convolution and multi-use layers,
fisher_blocks.py 918-1091, 1487-1630) and full blocks (283-345, 695-735). -/
inductive BlockOf (F : Type) where
  | kron (input output : F) (kind : KronKind)
  | full (factor : F)

/-- The estimator after `_instantiate_factors` (estimator.py 361-412): factors are objects of type `F` with their
dimension and their name, which is also their variable scope (fisher_factors.py 443-445). -/
structure Net (F T : Type) where
  dim : F → ℕ
  name : F → String
  factors : List F
  blocks : List (BlockOf F)
  piRule : PiRule
  power : ℝ
  damping : Scalar T
  /-- `scalar_or_tensor_to_string` (fisher_factors.py 325-326). -/
  render : Scalar T → String

variable {F T : Type} [DecidableEq F]

/-- The tuple `damping_id` of `_setup_damping` (fisher_blocks.py 795-804). -/
noncomputable def Net.dampingId (n : Net F T) (i o : F) (kind : KronKind) : FuncId T :=
  match kind.normalization with
  | some m => [.str "compute_pi_adjusted_damping", .str "cov", .str (n.name i), .str "cov", .str (n.name o),
      .str "normalize_damping", .scalar n.damping, .scalar (.num m), .str "power", .scalar (.num (1 / 2))]
  | none => [.str "compute_pi_adjusted_damping", .str "cov", .str (n.name i), .str "cov", .str (n.name o),
      .scalar n.damping, .str "power", .scalar (.num (1 / 2))]

/-- `compute_damping` of `_setup_damping` (fisher_blocks.py 782-793) in a run. When the assertion on the trace
fails the run is aborted; the properties show that it holds for positive semidefinite covariances, the value used
here is then irrelevant. -/
noncomputable def Net.computeDamping (n : Net F T) (i o : F) (kind : KronKind) (v : Values F T n.dim) : ℝ × ℝ :=
  match setupDamping n.piRule n.power (v.cov i).trace (n.dim i) (v.cov o).trace (n.dim o) (n.damping.value v)
      kind.normalization with
  | .ok d => d
  | .error _ => (0, 0)

/-- `_input_damping_func` (fisher_blocks.py 806-807). -/
noncomputable def Net.inputFunc (n : Net F T) (i o : F) (kind : KronKind) :
    DampingFunc (FuncId T) (Values F T n.dim) :=
  ⟨n.dampingId i o kind ++ [.str "ref", .scalar (.num 0)], fun v => (n.computeDamping i o kind v).1⟩

/-- `_output_damping_func` (fisher_blocks.py 808-809). -/
noncomputable def Net.outputFunc (n : Net F T) (i o : F) (kind : KronKind) :
    DampingFunc (FuncId T) (Values F T n.dim) :=
  ⟨n.dampingId i o kind ++ [.str "ref", .scalar (.num 1)], fun v => (n.computeDamping i o kind v).2⟩

/-- `_damping_func` of full blocks (fisher_blocks.py 340, 732). -/
noncomputable def Net.fullFunc (n : Net F T) : DampingFunc (FuncId T) (Values F T n.dim) :=
  ⟨[.scalar n.damping], fun v => n.damping.value v⟩

/-- The factor objects. -/
abbrev Net.State (n : Net F T) := (f : F) → Dense (n.dim f) (FuncId T) (Values F T n.dim)

section
open Classical

/-- A call of a registration method of one factor. -/
noncomputable def Net.call (n : Net F T) (s : n.State) (f : F) (r : Reg (FuncId T) (Values F T n.dim)) : n.State :=
  Function.update s f (Reg.apply (s f) r)

/-- `register_matpower` of the blocks (fisher_blocks.py 286-287, 818-820). -/
noncomputable def Net.registerMatpower (n : Net F T) (s : n.State) (b : BlockOf F) (exp : ℝ) : n.State :=
  match b with
  | .kron i o k =>
    let s := n.call s i (.matpower exp (n.inputFunc i o k))
    n.call s o (.matpower exp (n.outputFunc i o k))
  | .full f => n.call s f (.matpower exp n.fullFunc)

/-- `register_cholesky` of the blocks (fisher_blocks.py 289-290, 822-824). -/
noncomputable def Net.registerCholesky (n : Net F T) (s : n.State) (b : BlockOf F) : n.State :=
  match b with
  | .kron i o k =>
    let s := n.call s i (.cholesky (n.inputFunc i o k))
    n.call s o (.cholesky (n.outputFunc i o k))
  | .full f => n.call s f (.cholesky n.fullFunc)

/-- `register_cholesky_inverse` of the blocks (fisher_blocks.py 292-293, 826-828). -/
noncomputable def Net.registerCholeskyInverse (n : Net F T) (s : n.State) (b : BlockOf F) : n.State :=
  match b with
  | .kron i o k =>
    let s := n.call s i (.choleskyInverse (n.inputFunc i o k))
    n.call s o (.choleskyInverse (n.outputFunc i o k))
  | .full f => n.call s f (.choleskyInverse n.fullFunc)

/-- What the estimator was asked to maintain (estimator.py 70-84, 150-156). -/
structure Wanted where
  exps : List ℝ
  chol : Bool
  cholInv : Bool

/-- The body of the loop of `_register_matrix_functions` (estimator.py 416-422). -/
noncomputable def Net.registerBlock (n : Net F T) (w : Wanted) (s : n.State) (b : BlockOf F) : n.State :=
  let s := w.exps.foldl (fun s exp => n.registerMatpower s b exp) s
  let s := if w.chol then n.registerCholesky s b else s
  if w.cholInv then n.registerCholeskyInverse s b else s

/-- `_register_matrix_functions` (estimator.py 414-422). -/
noncomputable def Net.register (n : Net F T) (w : Wanted) : n.State :=
  n.blocks.foldl (n.registerBlock w) fun _ => {}

/-- `list_to_string` (fisher_factors.py 329-331). -/
def Net.listToString (n : Net F T) (id : FuncId T) : String :=
  "_".intercalate (id.map fun
    | .str s => s
    | .scalar x => n.render x)

/-- The full names of the variables created for one factor: the covariance (fisher_factors.py 534-541) and the
stored functions (773-780, 788-795, 803-810). -/
noncomputable def Net.invNames (n : Net F T) (s : n.State) (f : F) : List String :=
  ((s f).matRegs.map fun r =>
    n.name f ++ "/" ++ ("matpower_exp" ++ n.render (.num r.1) ++ "_damp" ++ n.listToString r.2)) ++
  ((s f).cholRegs.map fun r => n.name f ++ "/" ++ ("cholesky_damp" ++ n.listToString r)) ++
  ((s f).cholInvRegs.map fun r => n.name f ++ "/" ++ ("cholesky_inverse_damp" ++ n.listToString r))

/-- `instantiate_inv_variables` of all factors in order. -/
noncomputable def Net.instantiateAll (n : Net F T) : n.State → List F → Except String n.State
  | s, [] => .ok s
  | s, f :: fs =>
    match (s f).instantiate with
    | .error e => .error e
    | .ok x => Net.instantiateAll n (Function.update s f x) fs

/-- `make_vars_and_create_op_thunks` (estimator.py 548-578) after the registrations: all covariance variables, then
all variables for stored functions. `tf.get_variable` refuses to create a variable of a name in use. -/
noncomputable def Net.makeVars (n : Net F T) (w : Wanted) : Except String n.State :=
  let s := n.register w
  if ((n.factors.map fun f => n.name f ++ "/" ++ "cov") ++ n.factors.flatMap (n.invNames s)).Nodup then
    n.instantiateAll s n.factors
  else .error "ValueError: Variable already exists"

/-- Runs of the inverse update ops of single factors, in any order and frequency, each with the values of the
graph's tensors in that run. The ops were created in state `g` (estimator.py 640-645). -/
noncomputable def Net.runInverses (n : Net F T) (la : (k : ℕ) → Linalg k) (c : Constants) (g : n.State) :
    n.State → List (F × Values F T n.dim) → Except String n.State
  | s, [] => .ok s
  | s, r :: rs =>
    match (g r.1).runInverseOps (la (n.dim r.1)) c (s r.1) r.2 (r.2.cov r.1) with
    | .error e => .error e
    | .ok x => Net.runInverses n la c g (Function.update s r.1 x) rs

/-- `multiply_matpower` of a Kronecker block (fisher_blocks.py 862-883) on the 2-D form of the vector, in a run with
values `v`. -/
noncomputable def Net.multiplyMatpower (n : Net F T) (s : n.State) (v : Values F T n.dim) (i o : F)
    (kind : KronKind) (exp : ℝ) (x : Matrix (Fin (n.dim i)) (Fin (n.dim o)) ℝ) :
    Except String (Matrix (Fin (n.dim i)) (Fin (n.dim o)) ℝ) := do
  let left ← (s i).getMatpower v (v.cov i) exp (n.inputFunc i o kind)
  let right ← (s o).getMatpower v (v.cov o) exp (n.outputFunc i o kind)
  return kind.renorm ^ exp • (left * (x * right))

/-- `multiply_cholesky` of a Kronecker block (fisher_blocks.py 862-874, 884-891), on the 2-D form. -/
noncomputable def Net.multiplyCholesky (n : Net F T) (s : n.State) (i o : F) (kind : KronKind) (transpose : Bool)
    (x : Matrix (Fin (n.dim i)) (Fin (n.dim o)) ℝ) :
    Except String (Matrix (Fin (n.dim i)) (Fin (n.dim o)) ℝ) := do
  let left ← (s i).getCholesky (n.inputFunc i o kind)
  let right ← (s o).getCholesky (n.outputFunc i o kind)
  let out := x * (if !transpose then rightᵀ else right)
  return kind.renorm ^ (1 / 2 : ℝ) • ((if transpose then leftᵀ else left) * out)

/-- `multiply_cholesky_inverse` of a Kronecker block (fisher_blocks.py 862-874, 893-902), on the 2-D form. -/
noncomputable def Net.multiplyCholeskyInverse (n : Net F T) (s : n.State) (i o : F) (kind : KronKind)
    (transpose : Bool) (x : Matrix (Fin (n.dim i)) (Fin (n.dim o)) ℝ) :
    Except String (Matrix (Fin (n.dim i)) (Fin (n.dim o)) ℝ) := do
  let left ← (s i).getCholeskyInverse (n.inputFunc i o kind)
  let right ← (s o).getCholeskyInverse (n.outputFunc i o kind)
  let out := x * (if !transpose then rightᵀ else right)
  return kind.renorm ^ (-(1 / 2) : ℝ) • ((if transpose then leftᵀ else left) * out)

/-- `multiply_matpower` of a full block (fisher_blocks.py 295-302). -/
noncomputable def Net.multiplyFull (n : Net F T) (s : n.State) (v : Values F T n.dim) (f : F) (exp : ℝ)
    (x : Fin (n.dim f) → ℝ) : Except String (Fin (n.dim f) → ℝ) := do
  let m ← (s f).getMatpower v (v.cov f) exp n.fullFunc
  return m *ᵥ x

end

end Kfac.Factor
