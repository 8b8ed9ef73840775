import Mathlib.Data.Matrix.Mul
import Mathlib.Analysis.Real.Sqrt
import Mathlib.Data.EReal.Basic

/-! # The optimizer (kfac/python/ops/optimizer.py, kfac_utils/periodic_inv_cov_update_kfac_opt.py)

All variables are concatenated to one vector: a list of (tensor, variable) pairs is a function on the index type
`ι` of all scalar parameters, `ip_p` is the dot product, and the estimator's block-diagonal `multiply_inverse`
and `multiply` are matrices. Numbers are reals; `none` stands for NaN where the code starts from NaN. -/

namespace Kfac.Opt

open Matrix

abbrev Vec (ι : Type) := ι → ℝ

/-! ### Construction (optimizer.py 290-367) -/

/-- The arguments of `KfacOptimizer.__init__` that are validated. `trainBatch` says whether it was given. -/
structure Args where
  momentumType : String
  momentum : Option ℝ
  normConstraint : Option ℝ
  learningRate : Option ℝ
  rescale : Option ℝ
  usePassedLoss : Bool
  trainBatch : Bool

/-- `momentum_type.lower()` (optimizer.py 294); only ASCII letters change. -/
def lower (s : String) : String := String.ofList (s.toList.map Char.toLower)

/-- `self._momentum_type.startswith("qmodel")` (optimizer.py 351). -/
def isQmodel (t : String) : Bool := "qmodel".toList.isPrefixOf t.toList

/-- The validation in `KfacOptimizer.__init__` (optimizer.py 294-367): the stored momentum type and the base
learning rate given to `GradientDescentOptimizer`. Creating the estimator is assumed to succeed. -/
def construct (a : Args) : Except String (String × ℝ) :=
  let t := lower a.momentumType
  if t ∉ ["regular", "adam", "qmodel", "qmodel_fixedmu"] then
    .error "ValueError: Unsupported momentum type"
  else if t ∉ ["regular", "adam"] ∧ a.normConstraint.isSome then
    .error "ValueError: Update clipping is only supported with momentum type 'regular' and 'adam'."
  else if t = "qmodel" ∧ a.momentum.isSome then
    .error "ValueError: Momentum must be None if using a momentum_type 'qmodel'."
  else if a.usePassedLoss = false ∧ a.trainBatch = false then
    .error "ValueError: Must pass in train_batch if used_passed_loss is false."
  else if isQmodel t then
    match a.learningRate with
    | some _ => .error "ValueError: 'learning_rate' must be set to None"
    | none => .ok (t, a.rescale.getD 1)
  else
    match a.learningRate with
    | none => .error "ValueError: 'learning_rate' must *not* be set to None"
    | some lr =>
      match a.rescale with
      | some _ => .error "ValueError: 'qmodel_update_rescale' must be None"
      | none => .ok (t, lr)

inductive MomentumType where
  | regular
  | adam
  | qmodel
  | qmodelFixedMu
deriving DecidableEq

/-- The attributes used at run time (optimizer.py 305-367). `learningRate` is the base learning rate;
`momentum` is unused for `qmodel`; `weightDecay` is the coefficient if `use_weight_decay`; `includeDamping` is
the global `_INCLUDE_DAMPING_IN_QMODEL_CHANGE` (38). -/
structure Config where
  momentumType : MomentumType
  learningRate : ℝ
  momentum : ℝ
  normConstraint : Option ℝ
  weightDecay : Option ℝ
  adaptDamping : Bool
  immediate : Bool
  isChief : Bool
  adaptationDecay : ℝ
  interval : ℕ
  minDamping : ℝ
  l2Reg : ℝ
  decreaseThreshold : ℝ
  increaseThreshold : ℝ
  usePassedLoss : Bool
  rescale : Option ℝ
  includeDamping : Bool

/-- `self._omega` (optimizer.py 334-335) -/
def Config.omega (cfg : Config) : ℝ := cfg.adaptationDecay ^ cfg.interval

variable {ι κ : Type} [Fintype ι] [Fintype κ]

/-- The variables of the optimizer, the parameters and the velocity slots. -/
structure State (ι : Type) where
  counter : ℕ
  params : Vec ι
  velocity : Vec ι
  damping : ℝ
  prevLoss : Option ℝ
  qChange : Option ℝ
  rho : Option EReal
  qLearningRate : Option ℝ
  qMomentum : Option ℝ

/-- Freshly initialised variables (optimizer.py 318-323, 369-391); velocity slots start at zero. -/
def State.init (params : Vec ι) (damping : ℝ) : State ι :=
  ⟨0, params, 0, damping, none, none, none, none, none⟩

/-- What one session run depends on besides the variables: the loss passed by the user, `loss_fn(train_batch)`,
`loss_fn(prev_train_batch)` and the gradient as functions of the parameters (averaged over replicas), the
matrices of the estimator's `multiply_inverse` and `multiply`, and the transposed-factor and batch size of the
exact curvature matrix `factor * factorᵀ / batchSize`. -/
structure StepIn (ι κ : Type) where
  passedLoss : Vec ι → ℝ
  fnLoss : Vec ι → ℝ
  prevFnLoss : Vec ι → ℝ
  grad : Vec ι → Vec ι
  precon : Matrix ι ι ℝ
  curv : Matrix ι ι ℝ
  factor : Matrix ι κ ℝ
  batchSize : ℝ

/-! ### Norm constraint (optimizer.py 783-857) -/

/-- `_update_clip_coeff` (optimizer.py 805-836) with the quotient by zero read as infinity. -/
noncomputable def clipCoeff (constraint lr : ℝ) (grads precon : Vec ι) : ℝ :=
  let sqNormUp := grads ⬝ᵥ precon * lr ^ 2
  if sqNormUp = 0 then 1 else min 1 (Real.sqrt (constraint / sqNormUp))

/-- `_clip_updates` (optimizer.py 838-857); without a constraint the vector is returned unchanged. -/
noncomputable def clipUpdates (cfg : Config) (grads precon : Vec ι) : Vec ι :=
  match cfg.normConstraint with
  | none => precon
  | some c => clipCoeff c cfg.learningRate grads precon • precon

/-! ### The quadratic model (optimizer.py 887-1130) -/

/-- The numbers returned by `_compute_qmodel`: `m` (symmetric), `b` (symmetric) and `c`. -/
structure QModel where
  m11 : ℝ
  m21 : ℝ
  m22 : ℝ
  b11 : ℝ
  b21 : ℝ
  b22 : ℝ
  c1 : ℝ
  c2 : ℝ

/-- `_compute_qmodel` (optimizer.py 887-973). -/
noncomputable def computeQmodel (damping : ℝ) (factor : Matrix ι κ ℝ) (batchSize : ℝ)
    (rawUpdates prevUpdates grads : Vec ι) : QModel :=
  let mft := factorᵀ *ᵥ rawUpdates
  let mftPrev := factorᵀ *ᵥ prevUpdates
  let b11 := damping * (rawUpdates ⬝ᵥ rawUpdates)
  let b21 := damping * (prevUpdates ⬝ᵥ rawUpdates)
  let b22 := damping * (prevUpdates ⬝ᵥ prevUpdates)
  { m11 := mft ⬝ᵥ mft / batchSize + b11
    m21 := mftPrev ⬝ᵥ mft / batchSize + b21
    m22 := mftPrev ⬝ᵥ mftPrev / batchSize + b22
    b11, b21, b22
    c1 := grads ⬝ᵥ rawUpdates
    c2 := grads ⬝ᵥ prevUpdates }

/-- `_two_by_two_solve` (optimizer.py 1367-1386) for `[[a, b], [c, d]]` and `[e, f]`. -/
noncomputable def twoByTwoSolve (a b c d e f : ℝ) : ℝ × ℝ :=
  let invDet := 1 / (a * d - b * c)
  (d * invDet * e + -b * invDet * f, -c * invDet * e + a * invDet * f)

/-- `_eval_quadratic_no_c` (optimizer.py 1389-1390) for a symmetric matrix. -/
noncomputable def evalQuadraticNoC (m11 m21 m22 x y : ℝ) : ℝ :=
  1 / 2 * ((x * m11 + y * m21) * x + (x * m21 + y * m22) * y)

/-- `_eval_quadratic` (optimizer.py 1393-1394). -/
noncomputable def evalQuadratic (m11 m21 m22 c1 c2 x y : ℝ) : ℝ :=
  evalQuadraticNoC m11 m21 m22 x y + (c1 * x + c2 * y)

/-- `_sub_damping_out_qmodel_change_coeff` (optimizer.py 975-977). -/
noncomputable def subDampingCoeff (cfg : Config) (damping : ℝ) : ℝ := 1 - cfg.l2Reg / damping

/-- `_compute_qmodel_hyperparams` (optimizer.py 979-1104): `(alpha, mu, qmodel_change)`. -/
noncomputable def qmodelHyperparams (cfg : Config) (damping : ℝ) (q : QModel) (fixedMu : Option ℝ) :
    ℝ × ℝ × ℝ :=
  if q.c2 = 0 then
    -- zero_prevupd_case (1062-1099)
    let alpha := -q.c1 / q.m11
    let mu := fixedMu.getD 0
    match cfg.rescale with
    | none =>
      let change := 1 / 2 * alpha * q.c1
      (alpha, mu, if cfg.includeDamping then change
        else change - subDampingCoeff cfg damping * (1 / 2) * alpha ^ 2 * q.b11)
    | some r =>
      let sol := r * alpha
      let change := 1 / 2 * q.m11 * sol ^ 2 + q.c1 * sol
      (alpha, mu, if cfg.includeDamping then change
        else change - subDampingCoeff cfg damping * (1 / 2) * sol ^ 2 * q.b11)
  else
    -- non_zero_prevupd_case (1014-1060)
    match fixedMu with
    | none =>
      let sol := twoByTwoSolve q.m11 q.m21 q.m21 q.m22 q.c1 q.c2
      let alpha := -sol.1
      let mu := -sol.2
      match cfg.rescale with
      | none =>
        let change := 1 / 2 * (alpha * q.c1 + mu * q.c2)
        (alpha, mu, if cfg.includeDamping then change
          else change - subDampingCoeff cfg damping * evalQuadraticNoC q.b11 q.b21 q.b22 alpha mu)
      | some r =>
        let change := evalQuadratic q.m11 q.m21 q.m22 q.c1 q.c2 (r * alpha) (r * mu)
        (alpha, mu, if cfg.includeDamping then change
          else change - subDampingCoeff cfg damping *
            evalQuadraticNoC q.b11 q.b21 q.b22 (r * alpha) (r * mu))
    | some fixed =>
      let alpha := -(fixed * q.m21 + q.c1) / q.m11
      let r := cfg.rescale.getD 1
      let change := evalQuadratic q.m11 q.m21 q.m22 q.c1 q.c2 (r * alpha) (r * fixed)
      (alpha, fixed, if cfg.includeDamping then change
        else change - subDampingCoeff cfg damping *
          evalQuadraticNoC q.b11 q.b21 q.b22 (r * alpha) (r * fixed))

/-- `_compute_approx_qmodel_change` (optimizer.py 1106-1130). -/
noncomputable def approxQmodelChange (cfg : Config) (damping : ℝ) (curv : Matrix ι ι ℝ)
    (updates grads : Vec ι) : ℝ :=
  let quad := 1 / 2 * (updates ⬝ᵥ curv *ᵥ updates)
  let quad := if cfg.includeDamping then quad
    else quad - subDampingCoeff cfg damping * (1 / 2) * damping * (updates ⬝ᵥ updates)
  quad + updates ⬝ᵥ grads

/-! ### Steps -/

/-- `_is_damping_adaptation_time` (optimizer.py 638-645). -/
def adaptationTime (cfg : Config) (s : State ι) : Bool := (s.counter + 1) % cfg.interval = 0

/-- `_is_just_after_damping_adaptation_time` (optimizer.py 647-651). -/
def justAfterAdaptationTime (cfg : Config) (s : State ι) : Bool :=
  s.counter % cfg.interval = 0 ∧ s.counter ≠ 0

/-- Floating-point division of reals: infinite or NaN (`none`) for a zero divisor. -/
noncomputable def divide (a b : ℝ) : Option EReal :=
  if b ≠ 0 then some ((a / b : ℝ) : EReal)
  else if 0 < a then some ⊤ else if a < 0 then some ⊥ else none

open Classical in
/-- `_update_damping` (optimizer.py 1326-1364): the new damping and `rho`. Comparisons with NaN are false. -/
noncomputable def updateDamping (cfg : Config) (damping : ℝ) (prevLoss currentLoss qChange : Option ℝ) :
    ℝ × Option EReal :=
  let lossChange := do return (← currentLoss) - (← prevLoss)
  let rho := do divide (← lossChange) (← qChange)
  let shouldDecrease := ((∃ x, lossChange = some x ∧ x < 0) ∧ ∃ q, qChange = some q ∧ 0 < q) ∨
    ∃ r, rho = some r ∧ (cfg.decreaseThreshold : EReal) < r
  let shouldIncrease := ∃ r, rho = some r ∧ r < (cfg.increaseThreshold : EReal)
  let new := if shouldDecrease then damping * cfg.omega
    else if shouldIncrease then damping / cfg.omega
    else damping
  (max new (cfg.minDamping + cfg.l2Reg), rho)

/-- `maybe_pre_update_adapt_damping` (optimizer.py 673-702). -/
noncomputable def preUpdate (cfg : Config) (inp : StepIn ι κ) (s : State ι) : State ι :=
  if cfg.adaptDamping = false ∨ cfg.isChief = false ∨ cfg.immediate then s
  else if justAfterAdaptationTime cfg s then
    let new := updateDamping cfg s.damping s.prevLoss (some (inp.prevFnLoss s.params)) s.qChange
    { s with damping := new.1, rho := new.2 }
  else s

/-- `_maybe_update_prev_loss` (optimizer.py 653-671). -/
noncomputable def updatePrevLoss (cfg : Config) (inp : StepIn ι κ) (s : State ι) : State ι :=
  if cfg.adaptDamping ∧ adaptationTime cfg s then
    { s with prevLoss := some (if cfg.usePassedLoss then inp.passedLoss s.params else inp.fnLoss s.params) }
  else s

/-- `_compute_raw_update_steps` with `_update_velocities` (optimizer.py 1175-1313): the raw update and the
state with velocities and quadratic-model variables updated. `qmodel precon prev grads` is the call of
`_compute_qmodel`. -/
noncomputable def rawUpdateWith (cfg : Config) (grads : Vec ι) (preconditioner curv : Matrix ι ι ℝ)
    (qmodel : Vec ι → Vec ι → Vec ι → QModel) (s : State ι) : Vec ι × State ι :=
  match cfg.momentumType with
  | .regular =>
    let precon := clipUpdates cfg grads (preconditioner *ᵥ grads)
    let velocity := cfg.momentum • s.velocity + precon
    let s1 := { s with velocity := velocity }
    if cfg.adaptDamping ∧ cfg.isChief ∧ adaptationTime cfg s then
      (velocity, { s1 with
        qChange := some (approxQmodelChange cfg s.damping curv ((-1 * cfg.learningRate) • velocity) grads) })
    else (velocity, s1)
  | .adam =>
    let velocity := cfg.momentum • s.velocity + grads
    let raw := clipUpdates cfg velocity (preconditioner *ᵥ velocity)
    let s1 := { s with velocity := velocity }
    if cfg.adaptDamping ∧ cfg.isChief ∧ adaptationTime cfg s then
      (raw, { s1 with
        qChange := some (1 / 2 * cfg.learningRate ^ 2 * (raw ⬝ᵥ velocity) - cfg.learningRate * (raw ⬝ᵥ grads)) })
    else (raw, s1)
  | .qmodel =>
    let precon := preconditioner *ᵥ grads
    let hyper := qmodelHyperparams cfg s.damping (qmodel precon (-s.velocity) grads) none
    let velocity := hyper.2.1 • s.velocity + (-hyper.1) • precon
    (velocity, { s with
      velocity := velocity, qChange := some hyper.2.2, qLearningRate := some (-hyper.1),
      qMomentum := some hyper.2.1 })
  | .qmodelFixedMu =>
    let precon := preconditioner *ᵥ grads
    let hyper := qmodelHyperparams cfg s.damping (qmodel precon (-s.velocity) grads) (some cfg.momentum)
    let velocity := hyper.2.1 • s.velocity + (-hyper.1) • precon
    (velocity, { s with
      velocity := velocity, qChange := some hyper.2.2, qLearningRate := some (-hyper.1),
      qMomentum := some hyper.2.1 })

/-- `_compute_raw_update_steps` on one machine (optimizer.py 1175-1285). -/
noncomputable def rawUpdateSteps (cfg : Config) (inp : StepIn ι κ) (s : State ι) : Vec ι × State ι :=
  rawUpdateWith cfg (inp.grad s.params) inp.precon inp.curv
    (computeQmodel s.damping inp.factor inp.batchSize) s

/-- `_add_weight_decay` (optimizer.py 771-781). -/
noncomputable def addWeightDecay (cfg : Config) (raw params : Vec ι) : Vec ι :=
  match cfg.weightDecay with
  | none => raw
  | some coeff => raw + coeff • params

/-- `_maybe_post_update_adapt_damping` (optimizer.py 706-714). -/
noncomputable def postUpdate (cfg : Config) (inp : StepIn ι κ) (s : State ι) : State ι :=
  if cfg.immediate = false ∨ cfg.adaptDamping = false then s
  else if adaptationTime cfg s then
    let new := updateDamping cfg s.damping s.prevLoss (some (inp.fnLoss s.params)) s.qChange
    { s with damping := new.1, rho := new.2 }
  else s

/-- `apply_gradients` (optimizer.py 716-769) without a distribution strategy. The variables move by minus the
base learning rate times the raw update (`GradientDescentOptimizer`). -/
noncomputable def applyGradients (cfg : Config) (inp : StepIn ι κ) (s : State ι) : State ι :=
  let s1 := updatePrevLoss cfg inp s
  let raws := rawUpdateSteps cfg inp s1
  let s2 := raws.2
  let raw := addWeightDecay cfg raws.1 s2.params
  let s3 := { s2 with params := s2.params - cfg.learningRate • raw }
  let s4 := postUpdate cfg inp s3
  { s4 with counter := s4.counter + 1 }

/-- One session run: the op of `maybe_pre_update_adapt_damping`, which the user has to run first, and
`apply_gradients`. -/
noncomputable def optStep (cfg : Config) (inp : StepIn ι κ) (s : State ι) : State ι :=
  applyGradients cfg inp (preUpdate cfg inp s)

/-- The state before run number `t`. -/
noncomputable def trace (cfg : Config) (inputs : ℕ → StepIn ι κ) (s0 : State ι) : ℕ → State ι
  | 0 => s0
  | t + 1 => optStep cfg (inputs t) (trace cfg inputs s0 t)

/-! ### The periodic optimizer (periodic_inv_cov_update_kfac_opt.py 52-216) -/

/-- Its own attributes; `dampingMult` is `precon_damping_mult` of the base class (optimizer.py 406). -/
structure PConfig where
  invertEvery : ℕ
  covUpdateEvery : ℕ
  numBurninSteps : ℕ
  dampingMult : ℝ

/-- The base optimizer's variables, the covariance statistics (of some type), the stored inverses together with
what they were computed from (`none`: not yet computed), and the burn-in counter. -/
structure PState (ι γ : Type) where
  opt : State ι
  cov : γ
  inv : Option (γ × ℝ)
  burnin : ℕ

/-- What one run depends on: as `StepIn`, without the matrices; `covUpdate params shouldDecay` is the effect of
the covariance update thunks; `readEarly` tells in which order TF runs two unordered ops: the tensor
`self._damping * self._precon_damping_mult` that the estimator was given is created in the constructor
(optimizer.py 411) and so its read of the variable is not ordered after the assignment of
`maybe_pre_update_adapt_damping` in the same run. -/
structure PIn (ι κ γ : Type) where
  base : StepIn ι κ
  covUpdate : Vec ι → Bool → γ → γ
  readEarly : Bool

/-- The matrix of the stored inverses as a function of statistics and damping. -/
abbrev Precon (ι γ : Type) := γ × ℝ → Matrix ι ι ℝ

/-- The training op: `minimize` (123-168), `apply_gradients` (170-175) and `kfac_update_ops` (177-216). -/
noncomputable def trainStep (cfg : Config) (p : PConfig) (precon : Precon ι γ) (inp : PIn ι κ γ)
    (s : PState ι γ) : PState ι γ :=
  if s.burnin < p.numBurninSteps then
    { s with cov := inp.covUpdate s.opt.params false s.cov, burnin := s.burnin + 1 }
  else
    let cov := if s.opt.counter % p.covUpdateEvery = 0 then inp.covUpdate s.opt.params true s.cov else s.cov
    let opt := preUpdate cfg inp.base s.opt
    let damping := if inp.readEarly then s.opt.damping else opt.damping
    let inv := if s.opt.counter % p.invertEvery = 0 then some (cov, damping * p.dampingMult) else s.inv
    let matrix := match inv with
      | some x => precon x
      | none => 0
    { opt := applyGradients cfg { inp.base with precon := matrix } opt, cov, inv, burnin := s.burnin }

/-- The state before run number `t`. -/
noncomputable def ptrace (cfg : Config) (p : PConfig) (precon : Precon ι γ) (inputs : ℕ → PIn ι κ γ)
    (s0 : PState ι γ) : ℕ → PState ι γ
  | 0 => s0
  | t + 1 => trainStep cfg p precon (inputs t) (ptrace cfg p precon inputs s0 t)

/-- The decay handed to the base class: an explicit `cov_ema_decay` is raised to the update period
(periodic 98-99), otherwise the base class default 0.95 (optimizer.py 57) is used as it is. -/
noncomputable def effectiveDecay (given : Option ℝ) (covUpdateEvery : ℕ) : ℝ :=
  match given with
  | some d => d ^ covUpdateEvery
  | none => 0.95

end Kfac.Opt
