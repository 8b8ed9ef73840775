import Mathlib.Data.Set.Basic
import Mathlib.Data.Real.Basic

/-! # Which products with which blocks can be asked for

The registrations of matrix functions and the look-ups at the time of a multiplication, for all kinds of blocks and
factors. Values are left out here (see `Verif.Factor.Dense`, `Verif.Factor.Shared`, `Verif.Factor.Sua` and
`Verif.Factor.Rnn`): the model says which calls succeed and which exception the others raise. A call with arguments that
do not fit the signature of a method raises TypeError before its body is run. -/

namespace Kfac.Block.Support

open Classical

/-- The matrix functions of the estimator: `multiply_matpower`, `multiply_cholesky` and `multiply_cholesky_inverse`
(estimator.py 304-359). -/
inductive Request where
  | matpower (exp : ℝ)
  | cholesky
  | choleskyInverse

/-- The classes of factors: `DenseSquareMatrixFactor`, its subclass `FullyConnectedMultiKF`, `DiagonalFactor` and
`ConvInputSUAKroneckerFactor` (fisher_factors.py 657, 2497, 999, 1979). -/
inductive Cls where
  | dense
  | multi
  | diagonal
  | sua
deriving DecidableEq

/-- The keys of the registrations and variables of a factor (fisher_factors.py 674-685, 2521-2524); `D` are the
identifiers of damping functions. -/
inductive Key (D : Type) where
  | matpower (exp : ℝ) (id : D)
  | cholesky (id : D)
  | choleskyInverse (id : D)
  | option1 (id : D)
  | option2 (id : D)

/-- A factor: what was registered and what there are variables for. -/
structure Factor (D : Type) where
  cls : Cls
  registered : Set (Key D) := ∅
  stored : Set (Key D) := ∅

variable {D F : Type}

/-- `self._..._registrations.add(...)`. -/
def Factor.add (f : Factor D) (k : Key D) : Factor D := { f with registered := insert k f.registered }

/-- `register_matpower`, `register_cholesky` and `register_cholesky_inverse` of dense factors (fisher_factors.py 705-755),
diagonal factors (1026-1033) and SUA factors (2135-2158, 2396-2402). The last two methods of SUA factors do not take the
damping function they are called with. -/
noncomputable def Factor.register (f : Factor D) (id : D) : Request → Except String (Factor D)
  | .matpower exp =>
    match f.cls with
    | .dense | .multi => if exp = 1 then .ok f else .ok (f.add (.matpower exp id))
    | .diagonal => .ok f
    | .sua =>
      if exp = 1 then .ok f
      else if exp ≠ -1 then .error "ValueError"
      else .ok (f.add (.matpower exp id))
  | .cholesky =>
    match f.cls with
    | .dense | .multi => .ok (f.add (.cholesky id))
    | .diagonal => .ok f
    | .sua => .error "TypeError"
  | .choleskyInverse =>
    match f.cls with
    | .dense | .multi => .ok (f.add (.choleskyInverse id))
    | .diagonal => .ok f
    | .sua => .error "TypeError"

/-- A look-up in one of the dictionaries of variables. -/
noncomputable def Factor.lookup (f : Factor D) (k : Key D) : Except String Unit :=
  if k ∈ f.stored then .ok () else .error "KeyError"

/-- `get_matpower`, `get_cholesky` and `get_cholesky_inverse` of dense factors (fisher_factors.py 886-925), diagonal
factors (1035-1048) and SUA factors (2173-2254, 2388-2394). -/
noncomputable def Factor.get (f : Factor D) (id : D) : Request → Except String Unit
  | .matpower exp =>
    match f.cls with
    | .dense | .multi => if exp ≠ 1 then f.lookup (.matpower exp id) else .ok ()
    | .diagonal => .ok ()
    | .sua =>
      if exp = 1 then .ok ()
      else if exp = -1 then f.lookup (.matpower exp id)
      else .error "ValueError"
  | .cholesky =>
    match f.cls with
    | .dense | .multi => f.lookup (.cholesky id)
    | .diagonal => .ok ()
    | .sua => .error "NotImplementedError"
  | .choleskyInverse =>
    match f.cls with
    | .dense | .multi => f.lookup (.choleskyInverse id)
    | .diagonal => .ok ()
    | .sua => .error "NotImplementedError"

/-- `instantiate_inv_variables` (fisher_factors.py 763-810, 1023-1024, 2292-2339, 2674-2732): a variable for every
registration. -/
def Factor.instantiate (f : Factor D) : Factor D := { f with stored := f.registered }

/-- `SeriesFBApproximation` (fisher_blocks.py 1631-1636). -/
inductive SeriesOption where
  | option1
  | option2

/-- `register_option1quants` and `register_option2quants` (fisher_factors.py 2664-2672); only factors of class
`FullyConnectedMultiKF` have these methods. -/
def Factor.registerQuants (f : Factor D) (id : D) (o : SeriesOption) : Except String (Factor D) :=
  match f.cls, o with
  | .multi, .option1 => .ok (f.add (.option1 id))
  | .multi, .option2 => .ok (f.add (.option2 id))
  | _, _ => .error "AttributeError"

/-- `get_option1quants` and `get_option2quants` (fisher_factors.py 2630-2636). -/
noncomputable def Factor.getQuants (f : Factor D) (id : D) (o : SeriesOption) : Except String Unit :=
  match f.cls, o with
  | .multi, .option1 => f.lookup (.option1 id)
  | .multi, .option2 => f.lookup (.option2 id)
  | _, _ => .error "AttributeError"

/-- The blocks: `FullFB` and `DiagonalFB` with one factor (fisher_blocks.py 283, 366), `KroneckerProductFB` with an input
and an output factor (775), `FullyConnectedSeriesFB` (1639). Each factor comes with the identifier of the block's damping
function for it. -/
inductive Fb (D F : Type) where
  | single (f : F) (id : D)
  | kron (i : F) (idIn : D) (o : F) (idOut : D)
  | series (opt : SeriesOption) (i : F) (idIn : D) (o : F) (idOut : D)

/-- All factors. -/
abbrev State (D F : Type) := F → Factor D

/-- A call of a method of one factor that changes it. -/
noncomputable def State.call (s : State D F) (f : F) (g : Factor D → Except String (Factor D)) :
    Except String (State D F) :=
  (g (s f)).map (Function.update s f)

/-- `register_matpower`, `register_cholesky` and `register_cholesky_inverse` of the blocks (fisher_blocks.py 286-293,
819-829, 1707-1723; those of `DiagonalFB`, 369-379, do nothing and neither do the methods of its factor). Series blocks
inherit the last two from `KroneckerProductFB`. -/
noncomputable def Fb.register (s : State D F) : Fb D F → Request → Except String (State D F)
  | .single f id, r => s.call f (·.register id r)
  | .kron i idIn o idOut, r => do
    let s ← s.call i (·.register idIn r)
    s.call o (·.register idOut r)
  | .series opt i idIn o idOut, .matpower exp =>
    if exp ≠ -1 then .error "NotImplementedError"
    else do
      let s ← s.call i (·.registerQuants idIn opt)
      s.call o (·.registerQuants idOut opt)
  | .series _ i idIn o idOut, r => do
    let s ← s.call i (·.register idIn r)
    s.call o (·.register idOut r)

/-- `multiply_matpower`, `multiply_cholesky` and `multiply_cholesky_inverse` of the blocks (fisher_blocks.py 300-310,
381-398, 876-902, 1725-1843) as the estimator calls them (estimator.py 317, 333, 358), with the keyword `transpose` in the
latter two cases. Series blocks do not have this parameter. -/
noncomputable def Fb.multiply (s : State D F) : Fb D F → Request → Except String Unit
  | .single f id, r => (s f).get id r
  | .kron i idIn o idOut, r => do
    (s i).get idIn r
    (s o).get idOut r
  | .series opt i idIn o idOut, .matpower exp =>
    if exp ≠ -1 then .error "NotImplementedError"
    else do
      (s i).getQuants idIn opt
      (s o).getQuants idOut opt
  | .series .., _ => .error "TypeError"

/-- What the estimator is asked to maintain (estimator.py 84-89, 180-182). -/
structure Wanted where
  exps : List ℝ
  chol : Bool
  cholInv : Bool

/-- A registration that is made if it is asked for (estimator.py 419-422). -/
noncomputable def Fb.registerIf (asked : Bool) (s : State D F) (b : Fb D F) (r : Request) : Except String (State D F) :=
  if asked then b.register s r else .ok s

/-- The body of the loop of `_register_matrix_functions` (estimator.py 416-422). -/
noncomputable def registerBlock (w : Wanted) (s : State D F) (b : Fb D F) : Except String (State D F) := do
  let s ← w.exps.foldlM (fun s exp => b.register s (.matpower exp)) s
  let s ← b.registerIf w.chol s .cholesky
  b.registerIf w.cholInv s .choleskyInverse

/-- `_register_matrix_functions` (estimator.py 415-422) and the creation of the variables (548-578). Collisions of
variable names are left out. -/
noncomputable def create (w : Wanted) (cls : F → Cls) (blocks : List (Fb D F)) : Except String (State D F) :=
  (blocks.foldlM (registerBlock w) fun f => { cls := cls f }).map fun s f => (s f).instantiate

/-- The estimator of the optimizer (optimizer.py 407-418). -/
def optimizerWants : Wanted := ⟨[-1], false, false⟩

end Kfac.Block.Support
