import Mathlib.Data.List.Basic
import Mathlib.Data.List.Dedup

/-! # The variables that a layer collection creates, and their names

Strings are lists of characters. A factor is given by the string of its `_var_scope` (for the scopes themselves see
`Reg/Names.lean`). An element of a damping identifier is given by its string, so tensors with the same sanitised name
are not told apart. All names are relative to the scope of the estimator, which is the same for all thunks
(estimator.py 494, 604-649). -/

namespace Kfac.Reg.Vars

abbrev Str := List Char

/-- The kinds of factors as far as their variables are concerned. -/
inductive FKind where
  /-- subclasses of `DiagonalFactor`, which keep nothing but the covariance (fisher_factors.py 1020-1033) -/
  | diagonal
  /-- subclasses of `DenseSquareMatrixFactor` -/
  | dense
  /-- `FullyConnectedMultiKF`; `dt1` after `register_cov_dt1` -/
  | multi (dt1 : Bool)
  /-- `ConvInputSUAKroneckerFactor`; `zeroMean` is `ASSUME_ZERO_MEAN_ACTIVATIONS` -/
  | sua (zeroMean : Bool)
deriving DecidableEq

/-- A factor: scope, kind, and shape of its covariance. -/
structure FDecl where
  scope : Str
  kind : FKind
  covShape : List ℕ
deriving DecidableEq

/-- What the powers asked of a block are registered as: matrix powers of both factors (fisher_blocks.py 818-828), or
the quantities of one of the two options of recurrent layers (fisher_blocks.py 1707-1720). -/
inductive Served where
  | powers
  | option1
  | option2
deriving DecidableEq

/-- A block made of an input and an output factor; `norm` is the normalisation passed to `_setup_damping`
(fisher_blocks.py 976, 1087, 1543, 1625-1626, 1705). -/
structure BDecl where
  inp : FDecl
  out : FDecl
  norm : Option ℕ
  served : Served
deriving DecidableEq

/-- A collection with what the estimator asks of its blocks (estimator.py 415-422): the strings of the powers other
than one, and whether Cholesky factors and their inverses are wanted. `damping` is the string of the damping, `singles`
are the factors of blocks with one factor only (fisher_blocks.py 317-363, 405-443, 537-772, 1094-1160). -/
structure Coll where
  factors : List FDecl
  blocks : List BDecl
  singles : List FDecl
  damping : Str
  exps : List Str
  chol : Bool
  cholInv : Bool

abbrev DId := List Str

/-- `damping_id + ("ref", ref)` in `_setup_damping` (fisher_blocks.py 796-809). -/
def pairId (inName outName damping : Str) (norm : Option ℕ) (ref : ℕ) : DId :=
  match norm with
  | some n => ["compute_pi_adjusted_damping".toList, "cov".toList, inName, "cov".toList, outName,
      "normalize_damping".toList, damping, (toString n).toList, "power".toList, "0.5".toList, "ref".toList,
      (toString ref).toList]
  | none => ["compute_pi_adjusted_damping".toList, "cov".toList, inName, "cov".toList, outName,
      damping, "power".toList, "0.5".toList, "ref".toList, (toString ref).toList]

/-- `list_to_string` (fisher_factors.py 329-331), which is `graph_func_to_string` (340-342) on an identifier. -/
def idString (i : DId) : Str := ['_'].intercalate i

/-- The identifiers under which the block registers something with the factor `f` (fisher_blocks.py 806-809,
818-828, 1712-1717). A factor can be both the input and the output factor of blocks. -/
def BDecl.ids (damping : Str) (b : BDecl) (f : FDecl) : List DId :=
  (if b.inp = f then [pairId b.inp.scope b.out.scope damping b.norm 0] else []) ++
  (if b.out = f then [pairId b.inp.scope b.out.scope damping b.norm 1] else [])

/-- The set of identifiers registered with `f` by the blocks that are served in one way; registering twice has no
effect (fisher_factors.py 695-699, 720-723, 736-739, 752-755, 2664-2672). The order of a Python set is arbitrary; here
it is that of the blocks. Blocks with one factor register the damping itself (fisher_blocks.py 286-293, 340, 732); for
diagonal factors, some of which have a normalised damping (692), registering does nothing. -/
def Coll.ids (c : Coll) (s : Served) (f : FDecl) : List DId :=
  ((c.blocks.flatMap fun b => if b.served = s then b.ids c.damping f else []) ++
    if s = .powers ∧ f ∈ c.singles then [[c.damping]] else []).dedup

/-- The variables of factors. -/
inductive VarKind where
  | covVar
  | covWeight
  | muVar
  | muWeight
  | dt1Var
  | dt1Weight
  | matpower (exp : Str)
  | chol
  | cholInv
  | lmat
  | psi
  | pmat
  | kmat
  | mu
  | dampingVar (exp : Str)
  | covInvMu (exp : Str)
  | rankOne (exp : Str)
deriving DecidableEq

/-- A request for a variable. -/
structure VarReq where
  scope : Str
  kind : VarKind
  id : DId
  shape : List ℕ
deriving DecidableEq

/-- Part of the name inside the scope: fisher_factors.py 538, 2081, 2658 with utils.py 1273-1288 for the moving averages,
773, 787, 801, 2305, 2316, 2325, 2333, 2685, 2692, 2710, 2717, 2724 for the others. -/
def VarKind.localName (k : VarKind) (i : DId) : Str :=
  match k with
  | .covVar => "cov/var".toList
  | .covWeight => "cov/total_weight".toList
  | .muVar => "mu/var".toList
  | .muWeight => "mu/total_weight".toList
  | .dt1Var => "cov_dt1/var".toList
  | .dt1Weight => "cov_dt1/total_weight".toList
  | .matpower e => "matpower_exp".toList ++ e ++ "_damp".toList ++ idString i
  | .chol => "cholesky_damp".toList ++ idString i
  | .cholInv => "cholesky_inverse_damp".toList ++ idString i
  | .lmat => "Lmat_damp".toList ++ idString i
  | .psi => "psi_damp".toList ++ idString i
  | .pmat => "Lmat_damp".toList ++ idString i
  | .kmat => "Kmat_damp".toList ++ idString i
  | .mu => "mu_damp".toList ++ idString i
  | .dampingVar e => "damping_var_".toList ++ e ++ "_".toList ++ idString i
  | .covInvMu e => "cov_inv_mu_".toList ++ e ++ "_".toList ++ idString i
  | .rankOne e => "rank_one_update_scale_".toList ++ e ++ "_".toList ++ idString i

/-- Whether the variable is created inside `tf.variable_scope(self._var_scope)`; three variables of the SUA factor are
not (fisher_factors.py 2303-2338). -/
def VarKind.scoped : VarKind → Bool
  | .dampingVar _ => false
  | .covInvMu _ => false
  | .rankOne _ => false
  | _ => true

/-- The name of the variable. -/
def VarReq.name (v : VarReq) : Str :=
  if v.kind.scoped then v.scope ++ '/' :: v.kind.localName v.id else v.kind.localName v.id

/-- `reuse=tf.AUTO_REUSE` of moving averages (utils.py 1273); all other variables are made without. -/
def VarKind.reuses : VarKind → Bool
  | .covVar | .covWeight | .muVar | .muWeight | .dt1Var | .dt1Weight => true
  | _ => false

/-- The variables of the graph: name and shape. -/
abbrev Store := List (Str × List ℕ)

/-- `tf.get_variable`: an existing name is an error unless reuse is allowed and the shapes are the same. -/
def getVariable (s : Store) (v : VarReq) : Except String Store :=
  match s.lookup v.name with
  | none => .ok (s ++ [(v.name, v.shape)])
  | some shape =>
    if v.kind.reuses then
      if shape = v.shape then .ok s else .error "ValueError: Trying to share variable, but specified shape"
    else .error "ValueError: Variable already exists"

/-- `instantiate_cov_variables` (fisher_factors.py 533-542, 2069-2085, 2652-2662). The covariance and the mean of the SUA
factor have the shapes `[n, n]` and `[n, 1]`. -/
def covRequests (f : FDecl) : List VarReq :=
  [⟨f.scope, .covVar, [], f.covShape⟩, ⟨f.scope, .covWeight, [], []⟩] ++
  match f.kind with
  | .sua false => [⟨f.scope, .muVar, [], f.covShape.take 1 ++ [1]⟩, ⟨f.scope, .muWeight, [], []⟩]
  | .multi true => [⟨f.scope, .dt1Var, [], f.covShape⟩, ⟨f.scope, .dt1Weight, [], []⟩]
  | _ => []

/-- `DenseSquareMatrixFactor.instantiate_inv_variables` (fisher_factors.py 764-808). -/
def denseRequests (c : Coll) (f : FDecl) : List VarReq :=
  (c.exps.flatMap fun e => (c.ids .powers f).map fun i => ⟨f.scope, .matpower e, i, f.covShape⟩) ++
  (if c.chol then (c.ids .powers f).map fun i => ⟨f.scope, .chol, i, f.covShape⟩ else []) ++
  (if c.cholInv then (c.ids .powers f).map fun i => ⟨f.scope, .cholInv, i, f.covShape⟩ else [])

/-- `FullyConnectedMultiKF.instantiate_inv_variables` (fisher_factors.py 2674-2732). Square covariances: `_vec_shape` is
taken to be the first dimension (2625-2628). -/
def multiRequests (c : Coll) (f : FDecl) : List VarReq :=
  denseRequests c f ++
  ((c.ids .option1 f).flatMap fun i =>
    [⟨f.scope, .lmat, i, f.covShape⟩, ⟨f.scope, .psi, i, f.covShape.take 1⟩]) ++
  ((c.ids .option2 f).flatMap fun i =>
    [⟨f.scope, .pmat, i, f.covShape⟩, ⟨f.scope, .kmat, i, f.covShape⟩, ⟨f.scope, .mu, i, f.covShape.take 1⟩])

/-- `ConvInputSUAKroneckerFactor.instantiate_inv_variables` (fisher_factors.py 2292-2338). That powers other than the
inverse are refused (2296-2298) is in `Block/Support.lean`. -/
def suaRequests (c : Coll) (zeroMean : Bool) (f : FDecl) : List VarReq :=
  c.exps.flatMap fun e => (c.ids .powers f).flatMap fun i =>
    [⟨f.scope, .matpower e, i, f.covShape⟩, ⟨f.scope, .dampingVar e, i, []⟩] ++
    (if zeroMean then [] else [⟨f.scope, .covInvMu e, i, f.covShape.take 1 ++ [1]⟩, ⟨f.scope, .rankOne e, i, []⟩])

/-- `instantiate_inv_variables` of a factor. -/
def invRequests (c : Coll) (f : FDecl) : List VarReq :=
  match f.kind with
  | .diagonal => []
  | .dense => denseRequests c f
  | .multi _ => multiRequests c f
  | .sua z => suaRequests c z f

/-- `make_vars_and_create_op_thunks` (estimator.py 569-576): the covariance variables of all factors, then the inverse
variables of all factors. -/
def Coll.requests (c : Coll) : List VarReq := c.factors.flatMap covRequests ++ c.factors.flatMap (invRequests c)

/-- The variables made one after the other, in a graph that has those of `s`. -/
def makeVars (s : Store) : List VarReq → Except String Store
  | [] => .ok s
  | v :: vs => do makeVars (← getVariable s v) vs

end Kfac.Reg.Vars
