import Verif.Train.Model

/-! # Global constants of the modules and what reads them -/

namespace Kfac.Global

open Kfac.Stats Kfac.Train

/-- Initializers of `tf.get_variable` (fisher_factors.py 192-208). -/
inductive Initializer where
  | zeros
  | identity
  | ones
  deriving DecidableEq

/-- The value an initializer gives to a square matrix. -/
def Initializer.matrix (n : ℕ) : Initializer → Matrix (Fin n) (Fin n) ℝ
  | .zeros => 0
  | .identity => 1
  | .ones => fun _ _ => 1

/-- The value an initializer gives to a vector (`tf.initializers.identity` fails for vectors and is never used for them). -/
def Initializer.vector (n : ℕ) : Initializer → Fin n → ℝ
  | .zeros => 0
  | _ => fun _ => 1

/-- The constants of fisher_factors.py (38-124). -/
structure FactorGlobals where
  initCovariancesAtZero : Bool := true
  zeroDebias : Bool := true
  initInversesAtZero : Bool := true
  eigenvalueDecompositionThreshold : ℕ := 4
  eigenvalueClippingThreshold : ℝ := 0
  assumeZeroMeanActivations : Bool := false
  subtractMeanContribFromCov : Bool := true
  subSampleInputs : Bool := false
  inputsToExtractPatchesFactor : ℝ := 1 / 5
  subSamplePatches : Bool := false
  maxNumPatches : ℕ := 10000000
  maxNumPatchesPerDimension : ℝ := 3
  towerStrategy : String := "separate"
  getSanitizedNameFn : String → String := fun x => x
  usePatchesSecondMomentOp : Bool := false

/-- The arguments of `set_global_constants` of fisher_factors.py (127-141); `none` is None. -/
structure FactorArgs where
  initCovariancesAtZero : Option Bool := none
  zeroDebias : Option Bool := none
  initInversesAtZero : Option Bool := none
  eigenvalueDecompositionThreshold : Option ℕ := none
  eigenvalueClippingThreshold : Option ℝ := none
  assumeZeroMeanActivations : Option Bool := none
  subtractMeanContribFromCov : Option Bool := none
  subSampleInputs : Option Bool := none
  inputsToExtractPatchesFactor : Option ℝ := none
  subSamplePatches : Option Bool := none
  maxNumPatches : Option ℕ := none
  maxNumPatchesPerDimension : Option ℝ := none
  towerStrategy : Option String := none
  getSanitizedNameFn : Option (String → String) := none
  usePatchesSecondMomentOp : Option Bool := none

/-- `if x is not None: X = x`. -/
def assign {α : Type} (x : Option α) (old : α) : α :=
  match x with
  | none => old
  | some v => v

/-- `set_global_constants` (fisher_factors.py 127-189). -/
def FactorGlobals.set (g : FactorGlobals) (a : FactorArgs) : FactorGlobals :=
  { initCovariancesAtZero := assign a.initCovariancesAtZero g.initCovariancesAtZero
    zeroDebias := assign a.zeroDebias g.zeroDebias
    initInversesAtZero := assign a.initInversesAtZero g.initInversesAtZero
    eigenvalueDecompositionThreshold := assign a.eigenvalueDecompositionThreshold g.eigenvalueDecompositionThreshold
    eigenvalueClippingThreshold := assign a.eigenvalueClippingThreshold g.eigenvalueClippingThreshold
    assumeZeroMeanActivations := assign a.assumeZeroMeanActivations g.assumeZeroMeanActivations
    subtractMeanContribFromCov := assign a.subtractMeanContribFromCov g.subtractMeanContribFromCov
    subSampleInputs := assign a.subSampleInputs g.subSampleInputs
    inputsToExtractPatchesFactor := assign a.inputsToExtractPatchesFactor g.inputsToExtractPatchesFactor
    subSamplePatches := assign a.subSamplePatches g.subSamplePatches
    maxNumPatches := assign a.maxNumPatches g.maxNumPatches
    maxNumPatchesPerDimension := assign a.maxNumPatchesPerDimension g.maxNumPatchesPerDimension
    towerStrategy := assign a.towerStrategy g.towerStrategy
    getSanitizedNameFn := assign a.getSanitizedNameFn g.getSanitizedNameFn
    usePatchesSecondMomentOp := assign a.usePatchesSecondMomentOp g.usePatchesSecondMomentOp }

/-- The state of the four modules: the constants of fisher_blocks.py (48-60), optimizer.py (38), utils.py (32-35) and
fisher_factors.py, and the three initializers of the latter (192-208). `R` is the type of replicators. -/
structure Modules (R : Type) where
  factors : FactorGlobals
  inverseInitializer : Initializer
  covarianceInitializer : Initializer
  diagonalCovarianceInitializer : Initializer
  normalizeDampingPower : ℝ
  piType : String
  includeDampingInQmodelChange : Bool
  posdefInvMethod : String
  tfReplicator : Option R

/-- Importing the package (fisher_factors.py 38-124, 192-208; fisher_blocks.py 53-60; optimizer.py 38; utils.py 32-35). -/
noncomputable def imported {R : Type} : Modules R :=
  let g : FactorGlobals := {}
  { factors := g
    inverseInitializer := if g.initInversesAtZero then .zeros else .identity
    covarianceInitializer := if g.initCovariancesAtZero then .zeros else .identity
    diagonalCovarianceInitializer := if g.initCovariancesAtZero then .zeros else .ones
    normalizeDampingPower := 1
    piType := "tracenorm"
    includeDampingInQmodelChange := false
    posdefInvMethod := "cholesky"
    tfReplicator := none }

/-- What a program does: it calls `set_global_constants` of one of the modules, or constructs a `KfacOptimizer`, inside a
`tf.distribute` strategy or not. -/
inductive Call (R : Type) where
  | factors (args : FactorArgs)
  | blocks (normalizeDampingPower : Option ℝ) (piType : Option String)
  | optimizer (includeDampingInQmodelChange : Option Bool)
  | utils (posdefInvMethod : Option String) (tfReplicator : Option R)
  | construct (tfReplicator : Option R) (hasStrategy : Bool)

/-- One call (fisher_factors.py 127-189, fisher_blocks.py 63-72, optimizer.py 41-46 and 395-405, utils.py 158-166).
`sanitize` removes `replica_\d+_` from a name (optimizer.py 396-397). -/
def Modules.call {R : Type} (sanitize : String → String) (m : Modules R) : Call R → Modules R
  | .factors a => { m with factors := m.factors.set a }
  | .blocks p t => { m with normalizeDampingPower := assign p m.normalizeDampingPower, piType := assign t m.piType }
  | .optimizer i => { m with includeDampingInQmodelChange := assign i m.includeDampingInQmodelChange }
  | .utils p r => { m with posdefInvMethod := assign p m.posdefInvMethod, tfReplicator := assign (r.map some) m.tfReplicator }
  | .construct r s =>
    if r.isSome || s then
      { m with
        tfReplicator := assign (r.map some) m.tfReplicator
        factors := m.factors.set { getSanitizedNameFn := some sanitize } }
    else m

/-- A program, started with the import. -/
noncomputable def program {R : Type} (sanitize : String → String) (calls : List (Call R)) : Modules R :=
  calls.foldl (Modules.call sanitize) imported

/-- A dense factor with its variables: `normalize_value` is fixed when the average is created (fisher_factors.py 534-542,
764-810; utils.py 1257-1290). -/
structure DenseVars (n : ℕ) where
  avg : MovAvg (Matrix (Fin n) (Fin n) ℝ)
  normalize : Bool
  inverse : Matrix (Fin n) (Fin n) ℝ

/-- `instantiate_cov_variables` and `instantiate_inv_variables` of a dense factor (fisher_factors.py 529-542, 764-810). -/
def Modules.newDense {R : Type} (m : Modules R) (n : ℕ) : DenseVars n :=
  ⟨⟨m.covarianceInitializer.matrix n, 0⟩, m.factors.zeroDebias, m.inverseInitializer.matrix n⟩

/-- `instantiate_cov_variables` of a diagonal factor (fisher_factors.py 529-542, 1012-1014). -/
def Modules.newDiag {R : Type} (m : Modules R) (n : ℕ) : MovAvg (Fin n → ℝ) × Bool :=
  (⟨m.diagonalCovarianceInitializer.vector n, 0⟩, m.factors.zeroDebias)

/-- What happens after the variables exist: further calls, and covariance updates. -/
inductive Event (R : Type) (n : ℕ) where
  | call (c : Call R)
  | cov (value : Matrix (Fin n) (Fin n) ℝ) (decay : ℝ)

/-- One event. -/
noncomputable def Event.run {R : Type} {n : ℕ} (sanitize : String → String) (s : Modules R × DenseVars n) :
    Event R n → Modules R × DenseVars n
  | .call c => (s.1.call sanitize c, s.2)
  | .cov v d => (s.1, { s.2 with avg := s.2.avg.add v d 1 })

/-- A layer with its parameters and the slot "velocity" (created with zeros, optimizer.py 1305) and the variables of its two
factors as the modules create them. -/
def Modules.newLayer {R : Type} {P q : ℕ} (m : Modules R) (w : Fin P → Fin q → ℝ) : Layer P q :=
  ⟨w, 0, ⟨(m.newDense P).avg, (m.newDense P).inverse⟩, ⟨(m.newDense q).avg, (m.newDense q).inverse⟩⟩

/-- The user's network before the factors' variables exist. -/
inductive Arch : ℕ → ℕ → Type where
  | nil {n : ℕ} : Arch n n
  | cons {n q k o : ℕ} (bias : Bool) (weights : Fin (n + bias.toNat) → Fin q → ℝ) (φ : (Fin q → ℝ) → Fin k → ℝ)
      (rest : Arch k o) : Arch n o

/-- The network with all variables of K-FAC. -/
def Modules.newNet {R : Type} (m : Modules R) {n o : ℕ} : Arch n o → Net n o
  | .nil => .nil
  | .cons bias w φ rest => .cons bias (m.newLayer w) φ (m.newNet rest)

end Kfac.Global
