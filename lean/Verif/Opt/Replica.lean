import Verif.Opt.Model
import Mathlib.Algebra.BigOperators.Fin

/-! # The optimizer in several replicas

`n` copies of the optimizer graph run in step. A variable has a copy per replica; `State` describes the copies
of one replica. Fields of `rho` are only logged; their cross-replica mean is not modelled. -/

namespace Kfac.Opt

open Matrix

variable {ι κ : Type} [Fintype ι] [Fintype κ] {n : ℕ}

/-- In which kind of replicated context the graph was built: `tf.distribute.MirroredStrategy`, another
`tf.distribute` strategy, or no strategy (TPUEstimator, Replicator). -/
inductive Context where
  | mirrored
  | strategy
  | noStrategy
deriving DecidableEq

/-- `all_average` (utils.py 624-649): the value every replica gets. -/
noncomputable def allAverage {V : Type} [AddCommMonoid V] [Module ℝ V] (x : Fin n → V) : V :=
  (n : ℝ)⁻¹ • ∑ j, x j

/-- The mean of numbers of which some may be NaN. -/
noncomputable def meanOption (x : Fin n → Option ℝ) : Option ℝ :=
  if ∀ j, (x j).isSome then some (allAverage fun j => (x j).getD 0) else none

/-- `smart_assign` (utils.py 38-88): under a `MirroredStrategy` the assigned value is the mean of the replicas'
values, otherwise every replica assigns its own value. Applied to all variables that the optimizer assigns this
way. Simplified: the mean is taken at the end of a phase. -/
noncomputable def sync (ctx : Context) (s : Fin n → State ι) : Fin n → State ι := fun i =>
  match ctx with
  | .mirrored => { s i with
      velocity := allAverage fun j => (s j).velocity
      damping := allAverage fun j => (s j).damping
      prevLoss := meanOption fun j => (s j).prevLoss
      qChange := meanOption fun j => (s j).qChange
      qLearningRate := meanOption fun j => (s j).qLearningRate
      qMomentum := meanOption fun j => (s j).qMomentum }
  | _ => s i

/-- What replica `i` sees of one run: losses and gradients averaged over the replicas (optimizer.py 634, 660,
1317-1321), each computed from its replica's copy of the parameters. -/
noncomputable def averaged (inps : Fin n → StepIn ι κ) (s : Fin n → State ι) (i : Fin n) : StepIn ι κ :=
  { inps i with
    passedLoss := fun _ => allAverage fun j => (inps j).passedLoss (s j).params
    fnLoss := fun _ => allAverage fun j => (inps j).fnLoss (s j).params
    prevFnLoss := fun _ => allAverage fun j => (inps j).prevFnLoss (s j).params
    grad := fun _ => allAverage fun j => (inps j).grad (s j).params }

/-- `_compute_qmodel` in replica `i` (optimizer.py 887-973): `m` is averaged over the replicas, `b` and `c` are
not. The arguments are the vectors of all replicas. -/
noncomputable def computeQmodelReplicas (inps : Fin n → StepIn ι κ) (s : Fin n → State ι) (i : Fin n)
    (raw prev grads : Fin n → Vec ι) : QModel :=
  let own := fun j =>
    computeQmodel (s j).damping (inps j).factor (inps j).batchSize (raw j) (prev j) (grads j)
  { own i with
    m11 := allAverage fun j => (own j).m11
    m21 := allAverage fun j => (own j).m21
    m22 := allAverage fun j => (own j).m22 }

/-- `_compute_raw_update_steps` in every replica (optimizer.py 1175-1285). -/
noncomputable def rawReplicas (cfg : Config) (inps : Fin n → StepIn ι κ) (s : Fin n → State ι) (i : Fin n) :
    Vec ι × State ι :=
  let grads := fun j => (averaged inps s j).grad (s j).params
  let precon := fun j => (inps j).precon *ᵥ grads j
  rawUpdateWith cfg (grads i) (inps i).precon (inps i).curv
    (fun _ _ _ => computeQmodelReplicas inps s i precon (fun j => -(s j).velocity) grads) (s i)

/-- The change of the parameters in replica `i` (optimizer.py 743-758): with a strategy every replica's update is
divided by the number of replicas and `super().apply_gradients` sums the updates of all replicas; without a
strategy every replica applies its own update. -/
noncomputable def combineUpdates (ctx : Context) (raw : Fin n → Vec ι) (i : Fin n) : Vec ι :=
  match ctx with
  | .noStrategy => raw i
  | _ => ∑ j, (n : ℝ)⁻¹ • raw j

/-- One run of all replicas: `maybe_pre_update_adapt_damping` and `apply_gradients` (optimizer.py 673-769). -/
noncomputable def replicaStep (cfg : Config) (ctx : Context) (inps : Fin n → StepIn ι κ)
    (s0 : Fin n → State ι) : Fin n → State ι :=
  let s1 := sync ctx fun i => preUpdate cfg (averaged inps s0 i) (s0 i)
  let s2 := sync ctx fun i => updatePrevLoss cfg (averaged inps s1 i) (s1 i)
  let raws := rawReplicas cfg inps s2
  let s3 := sync ctx fun i => (raws i).2
  let update := combineUpdates ctx fun i => addWeightDecay cfg (raws i).1 (s3 i).params
  let s4 := fun i => { s3 i with params := (s3 i).params - cfg.learningRate • update i }
  let s5 := sync ctx fun i => postUpdate cfg (averaged inps s4 i) (s4 i)
  fun i => { s5 i with counter := (s5 i).counter + 1 }

/-- The states of all replicas before run number `t`. -/
noncomputable def replicaTrace (cfg : Config) (ctx : Context) (inputs : ℕ → Fin n → StepIn ι κ)
    (s0 : Fin n → State ι) : ℕ → Fin n → State ι
  | 0 => s0
  | t + 1 => replicaStep cfg ctx (inputs t) (replicaTrace cfg ctx inputs s0 t)

end Kfac.Opt
