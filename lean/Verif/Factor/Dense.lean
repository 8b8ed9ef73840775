import Mathlib.LinearAlgebra.Matrix.NonsingularInverse
import Mathlib.Analysis.SpecialFunctions.Pow.Real

/-! # Dense square factors (kfac/python/ops/fisher_factors.py 657-941, utils.py 294-357) -/

namespace Kfac.Factor

open Matrix

abbrev Mat (k : ℕ) := Matrix (Fin k) (Fin k) ℝ

/-- The TensorFlow ops used: `tf.self_adjoint_eig` (eigenvalues, eigenvectors as columns) and
`tf.linalg.cholesky`. -/
structure Linalg (k : ℕ) where
  eig : Mat k → (Fin k → ℝ) × Mat k
  chol : Mat k → Mat k

/-- What they are documented to return for a symmetric, respectively a symmetric positive definite matrix. -/
structure Linalg.Good {k : ℕ} (la : Linalg k) : Prop where
  orthonormal : ∀ A : Mat k, A.IsSymm → (la.eig A).2ᵀ * (la.eig A).2 = 1
  eigen : ∀ A : Mat k, A.IsSymm → A = (la.eig A).2 * diagonal (la.eig A).1 * (la.eig A).2ᵀ
  lower : ∀ A : Mat k, A.IsSymm → (∀ v, v ≠ 0 → 0 < v ⬝ᵥ A *ᵥ v) → ∀ i j, i < j → la.chol A i j = 0
  cholesky : ∀ A : Mat k, A.IsSymm → (∀ v, v ≠ 0 → 0 < v ⬝ᵥ A *ᵥ v) → la.chol A * (la.chol A)ᵀ = A

/-- `utils.POSDEF_INV_METHOD` (utils.py 32, 318-322). -/
inductive InvMethod where
  | matrixInverse
  | cholesky
  | eig
deriving DecidableEq

variable {k : ℕ}

/-- `posdef_inv` (utils.py 294-322). `tf.linalg.cholesky_solve(L, I)` solves `L Lᵀ X = I`. -/
noncomputable def posdefInv (la : Linalg k) (m : InvMethod) (tensor : Mat k) (damping : ℝ) : Mat k :=
  match m with
  | .matrixInverse => (tensor + damping • 1)⁻¹
  | .cholesky => ((la.chol (tensor + damping • 1))ᵀ)⁻¹ * (la.chol (tensor + damping • 1))⁻¹
  | .eig =>
    let e := la.eig (tensor + damping • 1)
    (Matrix.of fun i j => e.2 i j / e.1 j) * e.2ᵀ

/-- `utils.cholesky` (utils.py 351-355). -/
noncomputable def cholesky (la : Linalg k) (tensor : Mat k) (damping : ℝ) : Mat k :=
  la.chol (tensor + damping • 1)

/-- The module constants (fisher_factors.py 48-57, utils.py 32). -/
structure Constants where
  eigThreshold : ℕ
  clipThreshold : ℝ
  invMethod : InvMethod

/-- Their default values. -/
noncomputable def Constants.default : Constants := ⟨4, 0, .cholesky⟩

/-- A damping function: its id and what it computes from the current values of the graph's variables. -/
structure DampingFunc (D Env : Type) where
  id : D
  value : Env → ℝ

/-- A `DenseSquareMatrixFactor` (fisher_factors.py 676-691). Python sets are lists without repetition;
`eigendecomp` says whether `self._eigendecomp` holds the tensors of a decomposition (whose values are computed
afresh from `cov` in every run). -/
structure Dense (k : ℕ) (D Env : Type) where
  funcs : List (DampingFunc D Env) := []
  matRegs : List (ℝ × D) := []
  cholRegs : List D := []
  cholInvRegs : List D := []
  matVars : List ((ℝ × D) × Mat k) := []
  cholVars : List (D × Mat k) := []
  cholInvVars : List (D × Mat k) := []
  eigendecomp : Bool := false

variable {D Env : Type} [DecidableEq D]

/-- Python `dict` lookup. -/
def get? {K V : Type} [DecidableEq K] (l : List (K × V)) (key : K) : Option V :=
  (l.find? fun e => e.1 = key).map (·.2)

/-- `set.add`. -/
def addTo {K : Type} [DecidableEq K] (l : List K) (key : K) : List K := if key ∈ l then l else l ++ [key]

/-- `_register_damping` (fisher_factors.py 695-699). -/
def Dense.registerDamping (f : Dense k D Env) (d : DampingFunc D Env) : Dense k D Env :=
  if d.id ∈ f.funcs.map (·.id) then f else { f with funcs := f.funcs ++ [d] }

open Classical in
/-- `register_matpower` (fisher_factors.py 705-723). -/
noncomputable def Dense.registerMatpower (f : Dense k D Env) (exp : ℝ) (d : DampingFunc D Env) : Dense k D Env :=
  if exp = 1 then f
  else
    let f := f.registerDamping d
    { f with matRegs := addTo f.matRegs (exp, d.id) }

/-- `register_cholesky` (fisher_factors.py 725-739). -/
def Dense.registerCholesky (f : Dense k D Env) (d : DampingFunc D Env) : Dense k D Env :=
  let f := f.registerDamping d
  { f with cholRegs := addTo f.cholRegs d.id }

/-- `register_cholesky_inverse` (fisher_factors.py 741-755). -/
def Dense.registerCholeskyInverse (f : Dense k D Env) (d : DampingFunc D Env) : Dense k D Env :=
  let f := f.registerDamping d
  { f with cholInvRegs := addTo f.cholInvRegs d.id }

/-- `get_eigendecomp` (fisher_factors.py 927-941): the values of the returned tensors in a run with covariance
`cov`. -/
noncomputable def eigTensors (la : Linalg k) (c : Constants) (cov : Mat k) : (Fin k → ℝ) × Mat k :=
  (fun i => max ((la.eig cov).1 i) c.clipThreshold, (la.eig cov).2)

/-- The effect of `get_eigendecomp` on the object. -/
def Dense.touchEigendecomp (f : Dense k D Env) : Dense k D Env := { f with eigendecomp := true }

/-- `instantiate_inv_variables` (fisher_factors.py 764-808): one variable per registration, all zeros. The
assertions fail if it is called a second time. -/
noncomputable def Dense.instantiate (f : Dense k D Env) : Except String (Dense k D Env) :=
  if (∃ r ∈ f.matRegs, r ∈ f.matVars.map (·.1)) ∨ (∃ r ∈ f.cholRegs, r ∈ f.cholVars.map (·.1)) ∨
      (∃ r ∈ f.cholInvRegs, r ∈ f.cholInvVars.map (·.1)) then
    .error "AssertionError"
  else
    .ok { f with
      matVars := f.matVars ++ f.matRegs.map fun r => (r, 0)
      cholVars := f.cholVars ++ f.cholRegs.map fun r => (r, 0)
      cholInvVars := f.cholInvVars ++ f.cholInvRegs.map fun r => (r, 0) }

open Classical in
/-- The choice of the computation in `make_inverse_update_ops` (fisher_factors.py 821-830). -/
noncomputable def Dense.useEig (f : Dense k D Env) (c : Constants) : Bool :=
  let numInverses := (f.matVars.filter fun e => e.1.1 = -1).length
  let numOther := f.matVars.length - numInverses
  f.eigendecomp || decide (numOther ≥ 1) || decide (numInverses ≥ c.eigThreshold)

/-- `damping_value_by_id` (fisher_factors.py 834-836); every id that is looked up was registered. -/
def Dense.dampingValue (f : Dense k D Env) (env : Env) (id : D) : ℝ :=
  match f.funcs.find? fun d => d.id = id with
  | some d => d.value env
  | none => 0

open Classical in
/-- Running the ops of `make_inverse_update_ops` (fisher_factors.py 817-881), created when the object was in
state `g`, in a run where the object's variables are those of `f` and the covariance is `cov`. The assertion
`exp == -1` (848) is an error result. -/
noncomputable def Dense.runInverseOps (la : Linalg k) (c : Constants) (g f : Dense k D Env) (env : Env)
    (cov : Mat k) : Except String (Dense k D Env) :=
  if g.useEig c = false ∧ ∃ e ∈ f.matVars, e.1.1 ≠ -1 then .error "AssertionError"
  else
    let e := eigTensors la c cov
    let power := fun (key : ℝ × D) =>
      let damping := f.dampingValue env key.2
      if g.useEig c then (Matrix.of fun i j => e.2 i j * (e.1 j + damping) ^ key.1) * e.2ᵀ
      else posdefInv la c.invMethod cov damping
    let chol := fun id => cholesky la cov (f.dampingValue env id)
    .ok { f with
      matVars := f.matVars.map fun v => (v.1, power v.1)
      cholVars := f.cholVars.map fun v => (v.1, chol v.1)
      cholInvVars := f.cholInvVars.map fun v => (v.1, (chol v.1)⁻¹) }

/-- Several runs of the same ops, each with its own values of variables and covariance. -/
noncomputable def Dense.runs (la : Linalg k) (c : Constants) (g : Dense k D Env) :
    Dense k D Env → List (Env × Mat k) → Except String (Dense k D Env)
  | f, [] => .ok f
  | f, r :: rs =>
    match g.runInverseOps la c f r.1 r.2 with
    | .error e => .error e
    | .ok f' => Dense.runs la c g f' rs

/-- The effect of creating the ops on the object (fisher_factors.py 832-833, 880). -/
def Dense.makeInverseOps (f : Dense k D Env) : Dense k D Env := { f with eigendecomp := false }

open Classical in
/-- `get_matpower` (fisher_factors.py 886-903), the value in a run. -/
noncomputable def Dense.getMatpower (f : Dense k D Env) (env : Env) (cov : Mat k) (exp : ℝ)
    (d : DampingFunc D Env) : Except String (Mat k) :=
  if exp ≠ 1 then
    match get? f.matVars (exp, d.id) with
    | some m => .ok m
    | none => .error "KeyError"
  else .ok (cov + d.value env • 1)

/-- `get_cholesky` (fisher_factors.py 907-914). -/
def Dense.getCholesky (f : Dense k D Env) (d : DampingFunc D Env) : Except String (Mat k) :=
  match get? f.cholVars d.id with
  | some m => .ok m
  | none => .error "KeyError"

/-- `get_cholesky_inverse` (fisher_factors.py 916-922). -/
def Dense.getCholeskyInverse (f : Dense k D Env) (d : DampingFunc D Env) : Except String (Mat k) :=
  match get? f.cholInvVars d.id with
  | some m => .ok m
  | none => .error "KeyError"

/-- What a client may do before the variables are created. -/
inductive Reg (D Env : Type) where
  | matpower (exp : ℝ) (d : DampingFunc D Env)
  | cholesky (d : DampingFunc D Env)
  | choleskyInverse (d : DampingFunc D Env)
  | eigendecomp

/-- The damping function of a registration. -/
def Reg.func : Reg D Env → Option (DampingFunc D Env)
  | .matpower _ d => some d
  | .cholesky d => some d
  | .choleskyInverse d => some d
  | .eigendecomp => none

noncomputable def Reg.apply (f : Dense k D Env) : Reg D Env → Dense k D Env
  | .matpower e d => f.registerMatpower e d
  | .cholesky d => f.registerCholesky d
  | .choleskyInverse d => f.registerCholeskyInverse d
  | .eigendecomp => f.touchEigendecomp

/-- A factor after a sequence of registrations. -/
noncomputable def Dense.after (regs : List (Reg D Env)) : Dense k D Env := regs.foldl Reg.apply {}

end Kfac.Factor
