import Verif.Est.Spec
import Verif.Exec.Model

/-!
# Evaluated losses and first-order statistics
(`layer_collection.py` 692-722; `estimator.py` 186-191, 361-413)
-/

namespace Kfac.Est
open Kfac.Loss Kfac.Exec

variable {N n T K : ℕ} {q : Fin T → ℕ}

/-! ### `eval_losses` -/

/-- `LossFunction._evaluate` of each class (loss_functions.py 363-364). -/
noncomputable def evaluate : (l : AnyLoss N n) → Targets l → ℝ
  | .normalMean l, y => l.evaluate y
  | .normalMeanVar l, y => l.evaluate y
  | .categorical l, y => l.evaluate y
  | .multiBernoulli l, y => l.evaluate y

/-- The multiplier of a loss (layer_collection.py 705-714). -/
noncomputable def multiplier (coeffMode : String) (coeff : ℝ) : Except String ℝ :=
  if coeffMode = "regular" then .ok coeff
  else if coeffMode = "sqrt" then .ok (Real.sqrt coeff)
  else if coeffMode = "off" then .ok 1
  else .error "coeff_mode must be in ['regular', 'sqrt', 'off']"

/-- The targets used (layer_collection.py 697-703). -/
def chosenTargets {α : Type} (targetMode : String) (data sample : α) : Except String α :=
  if targetMode = "data" then .ok data
  else if targetMode = "sample" then .ok sample
  else .error "target_mode must be in ['data', 'sample']"

/-- `eval_losses` (layer_collection.py 692-714): the losses in the order of registration. Devices are left out. -/
noncomputable def evalLosses (targetMode coeffMode : String) (ls : Losses N q K)
    (data sample : (k : Fin K) → Targets (ls k).loss) : Except String (List ℝ) :=
  (List.finRange K).mapM fun k => do
    let y ← chosenTargets targetMode (data k) (sample k)
    let value := evaluate (ls k).loss y
    let m ← multiplier coeffMode (ls k).coeff
    return m * value

/-- `tf.add_n`, which rejects an empty list. -/
def addN (xs : List ℝ) : Except String ℝ :=
  if xs.isEmpty then .error "inputs must be an iterable of at least one Tensor" else .ok xs.sum

/-- `total_loss` (layer_collection.py 716-718). -/
noncomputable def totalLoss (coeffMode : String) (ls : Losses N q K) (data sample : (k : Fin K) → Targets (ls k).loss) :
    Except String ℝ := do
  addN (← evalLosses "data" coeffMode ls data sample)

/-- `total_sampled_loss` (layer_collection.py 720-722). -/
noncomputable def totalSampledLoss (coeffMode : String) (ls : Losses N q K)
    (data sample : (k : Fin K) → Targets (ls k).loss) : Except String ℝ := do
  addN (← evalLosses "sample" coeffMode ls data sample)

/-! ### `params_stats` -/

/-- A Python sequence of variables, as passed for `var_list`. -/
inductive VarSeq (V : Type) where
  | list (vs : List V)
  | tuple (vs : List V)

/-- `tensors_to_compute_grads + self.variables` (estimator.py 372-373), a list on the left. -/
def withVariables {V : Type} (tensors : List V) : VarSeq V → Except String (List V)
  | .list vs => .ok (tensors ++ vs)
  | .tuple _ => .error "TypeError: can only concatenate list (not \"tuple\") to list"

/-- The tensors whose gradients are taken, one entry per block and then one per variable (estimator.py 368-373). -/
def gradTensors {V : Type} (computeParamsStats : Bool) (blockTensors : List V) (vars : VarSeq V) :
    Except String (List V) :=
  if computeParamsStats then withVariables blockTensors vars else .ok blockTensors

/-- How the gradients are divided: those of the parameters, and those handed to the blocks
(estimator.py 396-413). -/
def splitGrads {G : Type} (computeParamsStats : Bool) (numBlocks : ℕ) (grads : List G) : List G × List G :=
  if computeParamsStats then (grads.drop numBlocks, grads.take numBlocks) else ([], grads)

/-- The check in the constructor (estimator.py 189-191). -/
def checkStatsArgs (computeParamsStats : Bool) (batchSize : Option ℕ) : Except String Unit :=
  if computeParamsStats ∧ batchSize = none then .error "Batch size needs to be passed in when compute_params_stats is True."
  else .ok ()

/-- `params_stats` of one variable on one replica (estimator.py 396-403): the sources added and divided by the batch size. The
variable is used in a copy of its own (row `b`) by every example, so that its gradient is the sum of the rows. -/
noncomputable def paramsStats {P : ℕ} (batchSize : ℕ) (sources : List (Batch N P)) (p : Fin P) : ℝ :=
  1 / (batchSize : ℝ) * (sources.map fun (g : Batch N P) => ∑ b, g b p).sum

/-- The average over the replicas (estimator.py 407-408). -/
noncomputable def averagedStats {P : ℕ} (c : Ctx) (batchSize : ℕ) (sources : ℕ → List (Batch N P)) (p : Fin P) : ℕ → ℝ :=
  allAverage c fun r => paramsStats batchSize (sources r) p

end Kfac.Est
