import Verif.Reg.Vars

/-! # What `get_cov_vars` and `get_inv_vars` list

The factor objects are filled by the two `instantiate_*_variables` methods, whose requests are in `Reg/Vars.lean`. -/

namespace Kfac.Reg.Vars

/-- Filling a dictionary: `assert key not in d` and `d[key] = value` (fisher_factors.py 779-780, 793-794, 807-808,
2312-2313, 2699-2700, 2731-2732). -/
def insertAll {κ β : Type} [DecidableEq κ] (d : List (κ × β)) : List (κ × β) → Except String (List (κ × β))
  | [] => .ok d
  | (k, v) :: rest => if k ∈ d.map Prod.fst then .error "AssertionError" else insertAll (d ++ [(k, v)]) rest

/-- The attributes of a factor that hold variables (fisher_factors.py 431, 675, 683-684, 2009, 2518-2522). The moving
averages are given by the names of their two variables. -/
structure FObj where
  decl : FDecl
  cov : Option (Str × Str) := none
  covDt1 : Option (Str × Str) := none
  matpowers : List ((Str × DId) × VarReq) := []
  chols : List (DId × VarReq) := []
  cholInvs : List (DId × VarReq) := []
  option1 : List (DId × (VarReq × VarReq)) := []
  option2 : List (DId × (VarReq × VarReq × VarReq)) := []

/-- `instantiate_cov_variables` (fisher_factors.py 533-542, 2652-2662), with the two assertions
(the second one is in recurrent factors only, but no other factor has the attribute). -/
def FObj.instantiateCov (o : FObj) : Except String FObj :=
  if o.cov.isSome ∨ o.covDt1.isSome then .error "AssertionError"
  else .ok { o with
    cov := some (o.decl.scope ++ '/' :: VarKind.covVar.localName [], o.decl.scope ++ '/' :: VarKind.covWeight.localName [])
    covDt1 := match o.decl.kind with
      | .multi true => some (o.decl.scope ++ '/' :: VarKind.dt1Var.localName [],
          o.decl.scope ++ '/' :: VarKind.dt1Weight.localName [])
      | _ => o.covDt1 }

/-- The entries of `_matpower_by_exp_and_damping` (fisher_factors.py 767-780, 2295-2313). -/
def matpowerEntries (c : Coll) (f : FDecl) : List ((Str × DId) × VarReq) :=
  c.exps.flatMap fun e => (c.ids .powers f).map fun i => ((e, i), ⟨f.scope, .matpower e, i, f.covShape⟩)

/-- `DenseSquareMatrixFactor.instantiate_inv_variables` (fisher_factors.py 764-808). -/
def FObj.instantiateDense (c : Coll) (o : FObj) : Except String FObj := do
  let f := o.decl
  let m ← insertAll o.matpowers (matpowerEntries c f)
  let ch ← insertAll o.chols (if c.chol then (c.ids .powers f).map fun i => (i, ⟨f.scope, .chol, i, f.covShape⟩) else [])
  let ci ← insertAll o.cholInvs
    (if c.cholInv then (c.ids .powers f).map fun i => (i, ⟨f.scope, .cholInv, i, f.covShape⟩) else [])
  return { o with matpowers := m, chols := ch, cholInvs := ci }

/-- `instantiate_inv_variables` (fisher_factors.py 1023-1024, 764-808, 2292-2338, 2674-2732). -/
def FObj.instantiateInv (c : Coll) (o : FObj) : Except String FObj :=
  match o.decl.kind with
  | .diagonal => .ok o
  | .dense => o.instantiateDense c
  | .multi _ => do
    let o ← o.instantiateDense c
    let f := o.decl
    let o1 ← insertAll o.option1 ((c.ids .option1 f).map fun i =>
      (i, (⟨f.scope, .lmat, i, f.covShape⟩, ⟨f.scope, .psi, i, f.covShape.take 1⟩)))
    let o2 ← insertAll o.option2 ((c.ids .option2 f).map fun i =>
      (i, (⟨f.scope, .pmat, i, f.covShape⟩, ⟨f.scope, .kmat, i, f.covShape⟩, ⟨f.scope, .mu, i, f.covShape.take 1⟩)))
    return { o with option1 := o1, option2 := o2 }
  | .sua _ => do
    -- the other variables go into dictionaries of their own, which nothing below reads
    let m ← insertAll o.matpowers (matpowerEntries c o.decl)
    return { o with matpowers := m }

/-- An element of one of the inner lists: a variable, a tuple of variables, or the tensor computed from the two variables
of a moving average (`value`, utils.py 1295-1299). -/
inductive Listed where
  | var (name : Str)
  | tuple (names : List Str)
  | value (var weight : Str)
deriving DecidableEq

/-- The variables among the listed things, taken out of tuples. -/
def Listed.names : Listed → List Str
  | .var n => [n]
  | .tuple ns => ns
  | .value _ _ => []

/-- `get_cov_vars` of a factor (fisher_factors.py 617-622, 2638-2647). -/
def FObj.getCovVars (o : FObj) : Except String (List Listed) := do
  let cov ← match o.cov with
    | some (v, w) => .ok [.value v w]
    | none => .error "AttributeError: 'NoneType' object has no attribute 'value'"
  match o.decl.kind with
  | .multi true => match o.covDt1 with
    | some (v, w) => return cov ++ [.value v w]
    | none => .error "AssertionError"
  | _ => return cov

/-- `get_inv_vars` of a factor (fisher_factors.py 624-625, 757-762, 2064-2067, 2547-2551). -/
def FObj.getInvVars (o : FObj) : List Listed :=
  match o.decl.kind with
  | .diagonal => []
  | .sua _ => o.matpowers.map fun p => .var p.2.name
  | .dense => (o.matpowers.map fun p => .var p.2.name) ++ (o.chols.map fun p => .var p.2.name) ++
      o.cholInvs.map fun p => .var p.2.name
  | .multi _ => (o.matpowers.map fun p => .var p.2.name) ++ (o.chols.map fun p => .var p.2.name) ++
      (o.cholInvs.map fun p => .var p.2.name) ++ (o.option1.map fun p => .tuple [p.2.1.name, p.2.2.name]) ++
      o.option2.map fun p => .tuple [p.2.1.name, p.2.2.1.name, p.2.2.2.name]

/-- Apart from making the variables themselves (`makeVars`), `make_vars_and_create_op_thunks` fills all factors
(estimator.py 569-576). -/
def Coll.objects (c : Coll) : Except String (List FObj) := do
  let os ← c.factors.mapM fun f => FObj.instantiateCov { decl := f }
  os.mapM fun o => o.instantiateInv c

/-- `FisherEstimator.get_cov_vars` (estimator.py 580-590). -/
def estCovVars (os : List FObj) : Except String (List (List Listed)) := os.mapM FObj.getCovVars

/-- `FisherEstimator.get_inv_vars` (estimator.py 592-602). -/
def estInvVars (os : List FObj) : List (List Listed) := os.map FObj.getInvVars

end Kfac.Reg.Vars
