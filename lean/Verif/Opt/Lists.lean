import Verif.Opt.Model
import Verif.Est.Transform

/-!
# The optimizer on lists of (tensor, variable) pairs (`optimizer.py` 548-640, 716-1313; `utils.py` 1133-1206)

`Opt/Model.lean` treats all variables as one vector. Here the lists and dictionaries of the code are kept. A tensor is a function
on `E` (all variables have the same number of entries; smaller ones are padded with zeros, on which every operation acts
entry-wise). The state is that of `Opt/Model.lean` for all variables `K` of the program, registered or not.
-/

namespace Kfac.Opt
open Kfac.Exec Kfac.Est

variable {K E κ : Type} [DecidableEq K] [Fintype E] [Fintype κ]

abbrev Tens (E : Type) := E → ℝ
abbrev Pairs (K E : Type) := List (Tens E × K)

/-! ### Arithmetic on lists (utils.py 1133-1206) -/

/-- `_check_match_lists_of_pairs` (utils.py 1133-1137). -/
def checkMatch (list1 list2 : Pairs K E) : Except String Unit :=
  if (list1.zip list2).any fun p => p.1.2 ≠ p.2.2 then
    .error "ValueError: The variables referenced by the two arguments must match."
  else .ok ()

/-- `sprod_p` (utils.py 1145-1147). -/
noncomputable def sprodP (scalar : ℝ) (list : Pairs K E) : Pairs K E := list.map fun p => (scalar • p.1, p.2)

/-- `sum_p` (utils.py 1155-1159). -/
noncomputable def sumP (list1 list2 : Pairs K E) : Except String (Pairs K E) := do
  checkMatch list1 list2
  return (list1.zip list2).map fun p => (p.1.1 + p.2.1, p.1.2)

/-- `tf.reduce_sum(tensor1 * tensor2)`. -/
noncomputable def innerProduct (a b : Tens E) : ℝ := ∑ e, a e * b e

/-- `ip` (utils.py 1162-1165); `tf.add_n` needs a summand. -/
noncomputable def ip (list1 list2 : List (Tens E)) : Except String ℝ :=
  if (list1.zip list2).isEmpty then .error "ValueError: inputs must be a list of at least one Tensor"
  else .ok ((list1.zip list2).map fun p => innerProduct p.1 p.2).sum

/-- `ip_p` (utils.py 1168-1173). -/
noncomputable def ipP (list1 list2 : Pairs K E) : Except String ℝ := do
  checkMatch list1 list2
  ip (list1.map (·.1)) (list2.map (·.1))

/-- `assert_variables_match_pairs_list` (utils.py 1176-1206); `_, variables = zip(*pairs)` fails for an empty list. -/
def assertVariablesMatch (a b : Pairs K E) : Except String Unit :=
  if a.isEmpty ∨ b.isEmpty then .error "ValueError: not enough values to unpack (expected 2, got 0)"
  else if ((a.map (·.2)).zip (b.map (·.2))).any fun p => p.1 ≠ p.2 then .error "ValueError: Mismatch on variable lists"
  else .ok ()

/-! ### Variables -/

/-- The value of variable `k`. -/
def readVar (θ : Vec (K × E)) (k : K) : Tens E := fun e => θ (k, e)

/-- Assignment to variable `k`. -/
def setVar (θ : Vec (K × E)) (k : K) (v : Tens E) : Vec (K × E) := fun i => if i.1 = k then v i.2 else θ i

/-- What one run depends on, for all variables of the program: the losses and the gradient as in `StepIn`; `connected k` tells
whether the loss depends on variable `k` (otherwise `tf.gradients` returns `None`); the Fisher blocks with their
`multiply_inverse` and `multiply`, and the transposed factor of the exact curvature matrix. `trainable` is
`tf.trainable_variables()`. -/
structure ListIn (K E κ : Type) where
  passedLoss : Vec (K × E) → ℝ
  fnLoss : Vec (K × E) → ℝ
  prevFnLoss : Vec (K × E) → ℝ
  grad : Vec (K × E) → Vec (K × E)
  connected : K → Bool
  blocks : List (Key K × (Val (Tens E) → Except String (Val (Tens E))) × (Val (Tens E) → Except String (Val (Tens E))))
  factor : Matrix (K × E) κ ℝ
  batchSize : ℝ
  trainable : List K

/-- `ensure_sequence(key)` (utils.py 711-716) for the key of a block, which is a variable or a tuple of variables. -/
def keyVars : Key K → List K
  | .atom k => [k]
  | .seq ks => ks.filterMap fun
    | .atom k => some k
    | .seq _ => none

/-- `registered_variables` (layer_collection.py 285-291). -/
def ListIn.registered (inp : ListIn K E κ) : List K := (inp.blocks.map (·.1)).flatMap keyVars

/-- `check_var_list` (optimizer.py 548-551): comparison of sets. -/
def ListIn.checkVarList (inp : ListIn K E κ) (varList : List K) : Except String Unit :=
  if varList ⊆ inp.registered ∧ inp.registered ⊆ varList then .ok ()
  else .error "ValueError: var_list doesn't match with set of Fisher-estimating variables"

/-- `check_var_list` if a list was given (optimizer.py 582-585, 612-613). -/
def ListIn.checkGiven (inp : ListIn K E κ) : Option (List K) → Except String Unit
  | some l => inp.checkVarList l
  | none => .ok ()

/-- A tensor for arithmetic. -/
def asTensor : Val (Tens E) × K → Except String (Tens E × K)
  | (.leaf v, k) => .ok (v, k)
  | (.seq _, _) => .error "TypeError"

/-- `_multiply_preconditioner` (optimizer.py 1155-1156) with `multiply_inverse` of the estimator (estimator.py 248-292). -/
def ListIn.multiplyInverse (inp : ListIn K E κ) (l : Pairs K E) : Except String (Pairs K E) := do
  let r ← computeTransformation (D := Unit) .none (inp.blocks.map fun b => (b.1, b.2.1)) l
  r.mapM asTensor

/-- `multiply` of the estimator (estimator.py 294-304). -/
def ListIn.multiply (inp : ListIn K E κ) (l : Pairs K E) : Except String (Pairs K E) := do
  let r ← computeTransformation (D := Unit) .none (inp.blocks.map fun b => (b.1, b.2.2)) l
  r.mapM asTensor

/-! ### Gradients (optimizer.py 548-640) -/

/-- `tf.gradients(loss, var)`. -/
def ListIn.gradient (inp : ListIn K E κ) (θ : Vec (K × E)) (k : K) : Option (Tens E) :=
  if inp.connected k then some (readVar (inp.grad θ) k) else none

/-- The loop of optimizer.py 629-631: `grad.shape` of a missing gradient. -/
def checkShape (p : Option (Tens E) × K) : Except String (Tens E × K) :=
  match p.1 with
  | some g => .ok (g, p.2)
  | none => .error "AttributeError: 'NoneType' object has no attribute 'shape'"

/-- `compute_gradients` (optimizer.py 598-636) with the superclass's default of all trainable variables. One replica; shapes are
known. -/
def ListIn.computeGradients (inp : ListIn K E κ) (θ : Vec (K × E)) (varList : Option (List K)) : Except String (Pairs K E) := do
  inp.checkGiven varList
  let l := varList.getD inp.trainable
  if l.isEmpty then .error "ValueError: No variables to optimize."
  else (l.map fun k => (inp.gradient θ k, k)).mapM checkShape

/-! ### Updates (optimizer.py 771-1313) -/

/-- `_update_clip_coeff` (optimizer.py 805-836) with the quotient by zero read as infinity. -/
noncomputable def clipCoeffL (constraint lr : ℝ) (grads precon : Pairs K E) : Except String ℝ := do
  let sqNormGrad ← ipP grads precon
  let sqNormUp := sqNormGrad * lr ^ 2
  return if sqNormUp = 0 then 1 else min 1 (Real.sqrt (constraint / sqNormUp))

/-- `_clip_updates` (optimizer.py 838-857). -/
noncomputable def clipUpdatesL (cfg : Config) (grads precon : Pairs K E) : Except String (Pairs K E) :=
  match cfg.normConstraint with
  | none => .ok precon
  | some c => do
    let coeff ← clipCoeffL c cfg.learningRate grads precon
    return sprodP coeff precon

/-- `_update_velocities` (optimizer.py 1290-1313): the new velocities in the order of the list, and the slots. -/
noncomputable def updateVelocities (velocity : Vec (K × E)) (l : Pairs K E) (decay coeff : ℝ) : Pairs K E × Vec (K × E) :=
  match l with
  | [] => ([], velocity)
  | p :: rest =>
    let new := decay • readVar velocity p.2 + coeff • p.1
    let r := updateVelocities (setVar velocity p.2 new) rest decay coeff
    ((new, p.2) :: r.1, r.2)

/-- `_compute_prev_updates` (optimizer.py 859-885). -/
noncomputable def computePrevUpdates (velocity : Vec (K × E)) (vars : List K) : Pairs K E :=
  vars.map fun k => ((-1 : ℝ) • readVar velocity k, k)

/-- `multiply_fisher_factor_transpose` or `multiply_ggn_factor_transpose` of the updates of `vars`
(curvature_matrix_vector_products.py 176-220), as one vector. -/
noncomputable def factorTranspose (factor : Matrix (K × E) κ ℝ) (vars : List K) (updates : List (Tens E)) : κ → ℝ := fun c =>
  ((vars.zip updates).map fun p => ∑ e, factor (p.1, e) c * p.2 e).sum

/-- `_compute_qmodel` (optimizer.py 887-973). There is at least one loss. -/
noncomputable def computeQmodelL (damping : ℝ) (inp : ListIn K E κ) (rawUpdates prevUpdates grads : Pairs K E) :
    Except String QModel := do
  assertVariablesMatch rawUpdates prevUpdates
  assertVariablesMatch prevUpdates grads
  let vars := grads.map (·.2)
  let raw := rawUpdates.map (·.1)
  let prev := prevUpdates.map (·.1)
  let g := grads.map (·.1)
  let mft := factorTranspose inp.factor vars raw
  let mftPrev := factorTranspose inp.factor vars prev
  let rr ← ip raw raw
  let pr ← ip prev raw
  let pp ← ip prev prev
  let c1 ← ip g raw
  let c2 ← ip g prev
  return {
    m11 := (∑ c, mft c * mft c) / inp.batchSize + damping * rr
    m21 := (∑ c, mftPrev c * mft c) / inp.batchSize + damping * pr
    m22 := (∑ c, mftPrev c * mftPrev c) / inp.batchSize + damping * pp
    b11 := damping * rr
    b21 := damping * pr
    b22 := damping * pp
    c1, c2 }

/-- `_compute_approx_qmodel_change` (optimizer.py 1106-1130). -/
noncomputable def approxQmodelChangeL (cfg : Config) (damping : ℝ) (inp : ListIn K E κ) (updates grads : Pairs K E) :
    Except String ℝ := do
  let products ← inp.multiply updates
  let quad ← ipP updates products
  let sq ← ipP updates updates
  let linear ← ipP updates grads
  let quad := 1 / 2 * quad
  let quad := if cfg.includeDamping then quad else quad - subDampingCoeff cfg damping * (1 / 2) * damping * sq
  return quad + linear

/-- The two quadratic-model branches of `_compute_raw_update_steps` (optimizer.py 1258-1285, 1158-1173). -/
noncomputable def qmodelStepL (cfg : Config) (inp : ListIn K E κ) (s : State (K × E)) (grads : Pairs K E)
    (fixedMu : Option ℝ) : Except String (Pairs K E × State (K × E)) := do
  let precon ← inp.multiplyInverse grads
  let prev := computePrevUpdates s.velocity (grads.map (·.2))
  let q ← computeQmodelL s.damping inp precon prev grads
  let hyper := qmodelHyperparams cfg s.damping q fixedMu
  let r := updateVelocities s.velocity precon hyper.2.1 (-hyper.1)
  return (r.1, { s with
    velocity := r.2, qChange := some hyper.2.2, qLearningRate := some (-hyper.1), qMomentum := some hyper.2.1 })

/-- `_maybe_update_qmodel_change` (optimizer.py 1132-1153): the value is always built, and stored when it is time. -/
def storeQmodelChange (cfg : Config) (s : State (K × E)) (change : ℝ) : State (K × E) :=
  if adaptationTime cfg s then { s with qChange := some change } else s

/-- `_compute_raw_update_steps` (optimizer.py 1175-1285). -/
noncomputable def rawUpdateStepsL (cfg : Config) (inp : ListIn K E κ) (s : State (K × E)) (grads : Pairs K E) :
    Except String (Pairs K E × State (K × E)) :=
  match cfg.momentumType with
  | .regular => do
    let precon ← inp.multiplyInverse grads
    let clipped ← clipUpdatesL cfg grads precon
    let r := updateVelocities s.velocity clipped cfg.momentum 1
    let s1 := { s with velocity := r.2 }
    if cfg.adaptDamping ∧ cfg.isChief then
      let change ← approxQmodelChangeL cfg s.damping inp (sprodP (-1 * cfg.learningRate) r.1) grads
      return (r.1, storeQmodelChange cfg s1 change)
    else return (r.1, s1)
  | .adam => do
    let r := updateVelocities s.velocity grads cfg.momentum 1
    let precon ← inp.multiplyInverse r.1
    let raw ← clipUpdatesL cfg r.1 precon
    let s1 := { s with velocity := r.2 }
    if cfg.adaptDamping ∧ cfg.isChief then
      let a ← ipP raw r.1
      let b ← ipP raw grads
      return (raw, storeQmodelChange cfg s1 (1 / 2 * cfg.learningRate ^ 2 * a - cfg.learningRate * b))
    else return (raw, s1)
  | .qmodel => qmodelStepL cfg inp s grads none
  | .qmodelFixedMu => qmodelStepL cfg inp s grads (some cfg.momentum)

/-- `_add_weight_decay` (optimizer.py 771-781). -/
noncomputable def addWeightDecayL (cfg : Config) (l : Pairs K E) (θ : Vec (K × E)) : Pairs K E :=
  match cfg.weightDecay with
  | none => l
  | some coeff => l.map fun p => (p.1 + coeff • readVar θ p.2, p.2)

/-- `GradientDescentOptimizer.apply_gradients`: one assignment per pair. -/
noncomputable def descend (lr : ℝ) (l : Pairs K E) (θ : Vec (K × E)) : Vec (K × E) :=
  l.foldl (fun θ p => setVar θ p.2 (readVar θ p.2 - lr • p.1)) θ

/-- The losses, for the functions of `Opt/Model.lean` that only use these. -/
def ListIn.losses (inp : ListIn K E κ) : StepIn (K × E) κ :=
  ⟨inp.passedLoss, inp.fnLoss, inp.prevFnLoss, inp.grad, 0, 0, inp.factor, inp.batchSize⟩

/-- `apply_gradients` (optimizer.py 716-769) without a distribution strategy. -/
noncomputable def applyGradientsL [Fintype K] (cfg : Config) (inp : ListIn K E κ) (grads : Pairs K E) (s : State (K × E)) :
    Except String (State (K × E)) := do
  let s1 := updatePrevLoss cfg inp.losses s
  let r ← rawUpdateStepsL cfg inp s1 grads
  if r.1.isEmpty then .error "ValueError: No variables provided."
  else
    let s2 := { r.2 with params := descend cfg.learningRate (addWeightDecayL cfg r.1 r.2.params) r.2.params }
    let s3 := postUpdate cfg inp.losses s2
    return { s3 with counter := s3.counter + 1 }

/-- `minimize` (optimizer.py 563-596): the registered variables by default. -/
noncomputable def minimizeL [Fintype K] (cfg : Config) (inp : ListIn K E κ) (varList : Option (List K)) (s : State (K × E)) :
    Except String (State (K × E)) := do
  inp.checkGiven varList
  let l := varList.getD inp.registered
  let grads ← inp.computeGradients s.params (some l)
  applyGradientsL cfg inp grads s

/-- One session run: `maybe_pre_update_adapt_damping` and the op of `minimize`. -/
noncomputable def runL [Fintype K] (cfg : Config) (inp : ListIn K E κ) (varList : Option (List K)) (s : State (K × E)) :
    Except String (State (K × E)) :=
  minimizeL cfg inp varList (preUpdate cfg inp.losses s)

/-- The state before run number `t` of a program that runs the op of `minimize` repeatedly. -/
noncomputable def traceL [Fintype K] (cfg : Config) (inputs : ℕ → ListIn K E κ) (varList : Option (List K)) (s0 : State (K × E)) :
    ℕ → Except String (State (K × E))
  | 0 => .ok s0
  | t + 1 => do
    let s ← traceL cfg inputs varList s0 t
    runL cfg (inputs t) varList s

end Kfac.Opt
