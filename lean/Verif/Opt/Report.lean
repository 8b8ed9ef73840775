import Verif.Opt.Model

/-! # What the optimizer reports, and a momentum of None (kfac/python/ops/optimizer.py 447-507, 1175-1285) -/

namespace Kfac.Opt

open Matrix

variable {ι κ : Type} [Fintype ι] [Fintype κ]

/-- The test `self._momentum_type.startswith("qmodel")` for the legal types. -/
def usesQmodel (cfg : Config) : Bool :=
  match cfg.momentumType with
  | .regular => false
  | .adam => false
  | .qmodel => true
  | .qmodelFixedMu => true

/-- Property `learning_rate` (optimizer.py 457-462); `none` is NaN. -/
noncomputable def learningRateOf (cfg : Config) (s : State ι) : Option ℝ :=
  if usesQmodel cfg then s.qLearningRate.map fun r => cfg.learningRate * r else some cfg.learningRate

/-- Property `momentum` (optimizer.py 464-469); `none` is NaN. -/
def momentumOf (cfg : Config) (s : State ι) : Option ℝ :=
  if usesQmodel cfg then s.qMomentum else some cfg.momentum

/-- The numbers that `_maybe_print_logging_info` prints (optimizer.py 499-505). -/
structure Log where
  iteration : ℕ
  loss : ℝ
  learningRate : Option ℝ
  momentum : Option ℝ
  damping : ℝ
  rho : Option EReal
  qChange : Option ℝ

/-- `_maybe_print_logging_info` (optimizer.py 493-507) with logs on; `loss` is the value of the loss tensor. The
properties `damping` (446-451), `rho` (471-473), `qmodel_change` (475-477) and `counter` (479-481) read variables. -/
noncomputable def logOf (cfg : Config) (loss : ℝ) (s : State ι) : Log :=
  { iteration := s.counter, loss, learningRate := learningRateOf cfg s, momentum := momentumOf cfg s,
    damping := s.damping, rho := s.rho, qChange := s.qChange }

/-- `apply_gradients` (optimizer.py 716-769) with what it prints: after the post-update adaptation of the damping and
before the counter is incremented. The loss tensor is the one that the gradients were computed from. -/
noncomputable def applyLogged (cfg : Config) (inp : StepIn ι κ) (s : State ι) : State ι × Log :=
  let s1 := updatePrevLoss cfg inp s
  let raws := rawUpdateSteps cfg inp s1
  let s2 := raws.2
  let raw := addWeightDecay cfg raws.1 s2.params
  let s3 := { s2 with params := s2.params - cfg.learningRate • raw }
  let s4 := postUpdate cfg inp s3
  ({ s4 with counter := s4.counter + 1 }, logOf cfg (inp.passedLoss s.params) s4)

/-- What run number `t` prints. -/
noncomputable def printed (cfg : Config) (inputs : ℕ → StepIn ι κ) (s0 : State ι) (t : ℕ) : Log :=
  (applyLogged cfg (inputs t) (preUpdate cfg (inputs t) (trace cfg inputs s0 t))).2

/-! ### The argument `momentum` -/

/-- The last branch of `_compute_raw_update_steps` (optimizer.py 1259-1285) for a given `fixed_mu`. -/
noncomputable def qmodelUpdate (cfg : Config) (fixedMu : Option ℝ) (inp : StepIn ι κ) (s : State ι) :
    Vec ι × State ι :=
  let grads := inp.grad s.params
  let precon := inp.precon *ᵥ grads
  let hyper := qmodelHyperparams cfg s.damping
    (computeQmodel s.damping inp.factor inp.batchSize precon (-s.velocity) grads) fixedMu
  let velocity := hyper.2.1 • s.velocity + (-hyper.1) • precon
  (velocity, { s with
    velocity := velocity, qChange := some hyper.2.2, qLearningRate := some (-hyper.1),
    qMomentum := some hyper.2.1 })

/-- `_compute_raw_update_steps` (optimizer.py 1175-1285) with the stored argument `momentum`, which may be None.
`None * velocity` (line 1309) raises a TypeError for the types regular and adam. -/
noncomputable def rawUpdateArg (cfg : Config) (momentum : Option ℝ) (inp : StepIn ι κ) (s : State ι) :
    Except String (Vec ι × State ι) :=
  match cfg.momentumType with
  | .qmodel => .ok (qmodelUpdate cfg none inp s)
  | .qmodelFixedMu => .ok (qmodelUpdate cfg momentum inp s)
  | .regular | .adam =>
    match momentum with
    | none => .error "TypeError: unsupported operand"
    | some m => .ok (rawUpdateSteps { cfg with momentum := m } inp s)

/-- `apply_gradients` (optimizer.py 716-769) with the stored argument `momentum`. -/
noncomputable def applyArg (cfg : Config) (momentum : Option ℝ) (inp : StepIn ι κ) (s : State ι) :
    Except String (State ι) :=
  match rawUpdateArg cfg momentum inp (updatePrevLoss cfg inp s) with
  | .error e => .error e
  | .ok raws =>
    let s2 := raws.2
    let raw := addWeightDecay cfg raws.1 s2.params
    let s3 := { s2 with params := s2.params - cfg.learningRate • raw }
    let s4 := postUpdate cfg inp s3
    .ok { s4 with counter := s4.counter + 1 }

/-- The state before run number `t`. -/
noncomputable def traceArg (cfg : Config) (momentum : Option ℝ) (inputs : ℕ → StepIn ι κ) (s0 : State ι) :
    ℕ → Except String (State ι)
  | 0 => .ok s0
  | t + 1 =>
    match traceArg cfg momentum inputs s0 t with
    | .error e => .error e
    | .ok s => applyArg cfg momentum (inputs t) (preUpdate cfg (inputs t) s)

end Kfac.Opt
