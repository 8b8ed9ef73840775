import Verif.Opt.Report
import Verif.Opt.PropsQmodel
import Verif.Opt.PropsUpdate
import Verif.Opt.PropsDamping
import Verif.Opt.PropsConstruct
import Mathlib.Tactic.Abel
import Mathlib.Tactic.Module

/-! # C126: the reported learning rate, momentum and damping; C127: a fixed momentum -/

set_option linter.unusedSectionVars false

namespace Kfac.Opt

open Matrix

variable {ι κ : Type} [Fintype ι] [Fintype κ]

theorem applyLogged_fst (cfg : Config) (inp : StepIn ι κ) (s : State ι) :
    (applyLogged cfg inp s).1 = applyGradients cfg inp s := rfl

/-- The printed numbers are the values after the run, but for the counter. -/
theorem applyLogged_snd (cfg : Config) (inp : StepIn ι κ) (s : State ι) :
    let s' := applyGradients cfg inp s
    (applyLogged cfg inp s).2 =
      { iteration := s.counter, loss := inp.passedLoss s.params, learningRate := learningRateOf cfg s',
        momentum := momentumOf cfg s', damping := s'.damping, rho := s'.rho, qChange := s'.qChange } := by
  intro s'
  have h := apply_counter cfg inp s
  simp only [applyGradients] at h
  have h' := Nat.succ.inj h
  simp only [applyLogged, logOf, s', applyGradients, learningRateOf, momentumOf, h']

theorem printed_eq (cfg : Config) (inputs : ℕ → StepIn ι κ) (s0 : State ι) (t : ℕ) :
    let s := trace cfg inputs s0
    printed cfg inputs s0 t =
      { iteration := s0.counter + t, loss := (inputs t).passedLoss (s t).params,
        learningRate := learningRateOf cfg (s (t + 1)), momentum := momentumOf cfg (s (t + 1)),
        damping := (s (t + 1)).damping, rho := (s (t + 1)).rho, qChange := (s (t + 1)).qChange } := by
  intro s
  rw [printed, applyLogged_snd, (preUpdate_keeps _ _ _).1, (preUpdate_keeps _ _ _).2.1, trace_counter]
  rfl

/-! ## The quadratic model's hyperparameters in a run -/

theorem postUpdate_qhyper (cfg : Config) (inp : StepIn ι κ) (s : State ι) :
    (postUpdate cfg inp s).qLearningRate = s.qLearningRate ∧ (postUpdate cfg inp s).qMomentum = s.qMomentum := by
  unfold postUpdate
  split_ifs <;> simp

theorem hyper_fixed (cfg : Config) (damping : ℝ) (q : QModel) (m : ℝ) :
    (qmodelHyperparams cfg damping q (some m)).2.1 = m := by
  unfold qmodelHyperparams
  by_cases h : q.c2 = 0
  · rw [if_pos h]
    cases cfg.rescale <;> rfl
  · rw [if_neg h]

/-- A run with one of the types that use the quadratic model; `mu` is `fixed_mu`. -/
theorem optStep_hyper (cfg : Config) (inp : StepIn ι κ) (s : State ι) (mu : Option ℝ)
    (hm : (cfg.momentumType = .qmodel ∧ mu = none) ∨ (cfg.momentumType = .qmodelFixedMu ∧ mu = some cfg.momentum)) :
    let d := (updatePrevLoss cfg inp (preUpdate cfg inp s)).damping
    let h := qmodelHyperparams cfg d (computeQmodel d inp.factor inp.batchSize
      (inp.precon *ᵥ inp.grad s.params) (-s.velocity) (inp.grad s.params)) mu
    (optStep cfg inp s).qLearningRate = some (-h.1) ∧ (optStep cfg inp s).qMomentum = some h.2.1 ∧
    (optStep cfg inp s).velocity = h.2.1 • s.velocity + (-h.1) • (inp.precon *ᵥ inp.grad s.params) ∧
    (optStep cfg inp s).params =
      s.params - cfg.learningRate • addWeightDecay cfg (optStep cfg inp s).velocity s.params := by
  obtain ⟨_, k2, k3, _⟩ := preUpdate_keeps cfg inp s
  obtain ⟨_, u2, u3, u4, _⟩ := updatePrevLoss_keeps cfg inp (preUpdate cfg inp s)
  rcases hm with ⟨hm, rfl⟩ | ⟨hm, rfl⟩ <;>
  · simp only [optStep, applyGradients, (postUpdate_qhyper _ _ _).1, (postUpdate_qhyper _ _ _).2,
      (postUpdate_keeps _ _ _).2.1, (postUpdate_keeps _ _ _).2.2.1, rawUpdateSteps, rawUpdateWith, hm, u2, u4, k2, k3]
    exact ⟨trivial, trivial, trivial, trivial⟩

/-- A run with one of the types that use the quadratic model. -/
theorem optStep_qmodel (cfg : Config) (inp : StepIn ι κ) (s : State ι) (hq : usesQmodel cfg = true) :
    ∃ r mu : ℝ, (optStep cfg inp s).qLearningRate = some r ∧ (optStep cfg inp s).qMomentum = some mu ∧
      (optStep cfg inp s).velocity = mu • s.velocity + r • (inp.precon *ᵥ inp.grad s.params) ∧
      (optStep cfg inp s).params =
        s.params - cfg.learningRate • addWeightDecay cfg (optStep cfg inp s).velocity s.params ∧
      (cfg.momentumType = .qmodelFixedMu → mu = cfg.momentum) := by
  rcases hm : cfg.momentumType with _ | _ | _ | _
  · simp [usesQmodel, hm] at hq
  · simp [usesQmodel, hm] at hq
  · obtain ⟨a, b, c, d⟩ := optStep_hyper cfg inp s none (.inl ⟨hm, rfl⟩)
    exact ⟨_, _, a, b, c, d, by simp⟩
  · obtain ⟨a, b, c, d⟩ := optStep_hyper cfg inp s _ (.inr ⟨hm, rfl⟩)
    exact ⟨_, _, a, b, c, d, fun _ => hyper_fixed _ _ _ _⟩

/-! ## C126 -/

/-- The change of the parameters in run `t`. -/
noncomputable def move (cfg : Config) (inputs : ℕ → StepIn ι κ) (s0 : State ι) (t : ℕ) : Vec ι :=
  (trace cfg inputs s0 (t + 1)).params - (trace cfg inputs s0 t).params

/-- The change of the parameters in the run before run `t`. -/
noncomputable def lastMove (cfg : Config) (inputs : ℕ → StepIn ι κ) (s0 : State ι) : ℕ → Vec ι
  | 0 => 0
  | t + 1 => move cfg inputs s0 t

/-- Specification: the numbers printed by run `t` explain its step, the printed momentum times the last step minus the
printed learning rate times the preconditioned gradient. -/
def Explained (cfg : Config) (inputs : ℕ → StepIn ι κ) (s0 : State ι) (t : ℕ) : Prop :=
  ∃ lr mu : ℝ, (printed cfg inputs s0 t).learningRate = some lr ∧ (printed cfg inputs s0 t).momentum = some mu ∧
    move cfg inputs s0 t = mu • lastMove cfg inputs s0 t -
      lr • ((inputs t).precon *ᵥ (inputs t).grad (trace cfg inputs s0 t).params)

/-- Without weight decay and norm constraint, from zero velocity: the printed learning rate and momentum explain every
step, for the type adam as long as the preconditioner does not change. What is missing (see the counterexamples):
weight decay, a norm constraint, adam with a changing preconditioner. -/
theorem C126_explained_partial (cfg : Config) (inputs : ℕ → StepIn ι κ) (s0 : State ι) (hw : cfg.weightDecay = none)
    (hn : cfg.normConstraint = none) (hv : s0.velocity = 0) (t : ℕ)
    (ha : cfg.momentumType = .adam → ∀ u, u + 1 = t → (inputs t).precon = (inputs u).precon) :
    Explained cfg inputs s0 t := by
  have hr := printed_eq cfg inputs s0 t
  simp only at hr
  unfold Explained
  rw [hr]
  by_cases hq : usesQmodel cfg = true
  · have last : lastMove cfg inputs s0 t = -(cfg.learningRate • (trace cfg inputs s0 t).velocity) := by
      cases t with
      | zero => simp [lastMove, trace, hv]
      | succ t =>
        obtain ⟨_, _, _, _, _, d, _⟩ := optStep_qmodel cfg (inputs t) (trace cfg inputs s0 t) hq
        rw [lastMove, move]
        change (optStep cfg (inputs t) (trace cfg inputs s0 t)).params - _ = -(_ • (optStep _ _ _).velocity)
        rw [d]
        simp only [addWeightDecay, hw]
        abel
    obtain ⟨r, mu, a, b, c, d, _⟩ := optStep_qmodel cfg (inputs t) (trace cfg inputs s0 t) hq
    refine ⟨cfg.learningRate * r, mu, ?_, ?_, ?_⟩
    · simp only [learningRateOf, hq, if_true]
      change (optStep _ _ _).qLearningRate.map _ = _
      rw [a]; rfl
    · simp only [momentumOf, hq, if_true]
      exact b
    · rw [last, move]
      change (optStep _ _ _).params - _ = _
      rw [d]
      simp only [addWeightDecay, hw]
      rw [c]
      module
  · obtain ⟨e1, e2⟩ := optStep_eq cfg (inputs t) (trace cfg inputs s0 t)
    refine ⟨cfg.learningRate, cfg.momentum, by simp [learningRateOf, hq], by simp [momentumOf, hq], ?_⟩
    rcases hm : cfg.momentumType with _ | _ | _ | _
    · have last : lastMove cfg inputs s0 t = -(cfg.learningRate • (trace cfg inputs s0 t).velocity) := by
        cases t with
        | zero => simp [lastMove, trace, hv]
        | succ t =>
          obtain ⟨_, d⟩ := (optStep_eq cfg (inputs t) (trace cfg inputs s0 t)).1 hm
          rw [lastMove, move]
          change (optStep cfg (inputs t) (trace cfg inputs s0 t)).params - _ = -(_ • (optStep _ _ _).velocity)
          rw [d]
          simp only [addWeightDecay, hw]
          abel
      obtain ⟨c, d⟩ := e1 hm
      rw [last, move]
      change (optStep _ _ _).params - _ = _
      rw [d]
      simp only [addWeightDecay, hw]
      rw [c]
      simp only [clipUpdates, hn]
      module
    · have last : lastMove cfg inputs s0 t =
          -(cfg.learningRate • ((inputs t).precon *ᵥ (trace cfg inputs s0 t).velocity)) := by
        cases t with
        | zero => simp [lastMove, trace, hv]
        | succ t =>
          obtain ⟨_, d⟩ := (optStep_eq cfg (inputs t) (trace cfg inputs s0 t)).2 hm
          rw [lastMove, move, ha hm t rfl]
          change (optStep cfg (inputs t) (trace cfg inputs s0 t)).params - _ =
            -(_ • (_ *ᵥ (optStep _ _ _).velocity))
          rw [d]
          simp only [addWeightDecay, hw, clipUpdates, hn]
          abel
      obtain ⟨c, d⟩ := e2 hm
      rw [last, move]
      change (optStep _ _ _).params - _ = _
      rw [d]
      simp only [addWeightDecay, hw, clipUpdates, hn]
      rw [c, mulVec_add, mulVec_smul]
      module
    · simp [usesQmodel, hm] at hq
    · simp [usesQmodel, hm] at hq

/-- Momentum type adam, without weight decay and norm constraint: the step of the second run differs from the explained
one by minus learning rate times momentum times the change of the preconditioner applied to the first gradient, so that
it is not explained unless this vanishes. -/
theorem C126_adam_counterexample (cfg : Config) (inputs : ℕ → StepIn ι κ) (s0 : State ι) (hm : cfg.momentumType = .adam)
    (hw : cfg.weightDecay = none) (hn : cfg.normConstraint = none) (hv : s0.velocity = 0)
    (h : (cfg.learningRate * cfg.momentum) •
      (((inputs 1).precon - (inputs 0).precon) *ᵥ (inputs 0).grad s0.params) ≠ 0) :
    ¬ Explained cfg inputs s0 1 := by
  rintro ⟨lr, mu, h1, h2, h3⟩
  have hq : usesQmodel cfg = false := by simp [usesQmodel, hm]
  have hr := printed_eq cfg inputs s0 1
  simp only at hr
  rw [hr] at h1 h2
  simp only [learningRateOf, momentumOf, hq, Bool.false_eq_true, if_false, Option.some.injEq] at h1 h2
  subst h1 h2
  apply h
  obtain ⟨c, d⟩ := (optStep_eq cfg (inputs 1) (trace cfg inputs s0 1)).2 hm
  obtain ⟨c0, d0⟩ := (optStep_eq cfg (inputs 0) s0).2 hm
  rw [lastMove, move, move] at h3
  change (optStep _ _ _).params - _ = _ • ((optStep cfg (inputs 0) s0).params - s0.params) - _ at h3
  have hv1 : (trace cfg inputs s0 1).velocity = (optStep cfg (inputs 0) s0).velocity := rfl
  rw [d, d0] at h3
  simp only [addWeightDecay, hw, clipUpdates, hn] at h3
  rw [c, hv1, c0, hv, mulVec_add, mulVec_smul, smul_zero, zero_add] at h3
  have := sub_eq_zero.2 h3
  rw [sub_mulVec, ← neg_eq_zero, ← this]
  module

/-- With weight decay no printed number shows it: with zero gradients the parameters move though the printed numbers
say that they stay. -/
theorem C126_decay_counterexample (cfg : Config) (c : ℝ) (hw : cfg.weightDecay = some c)
    (inputs : ℕ → StepIn ι κ) (s0 : State ι) (hv : s0.velocity = 0) (hg : ∀ θ, (inputs 0).grad θ = 0)
    (hne : (cfg.learningRate * c) • s0.params ≠ 0) : ¬ Explained cfg inputs s0 0 := by
  rintro ⟨lr, mu, -, -, h3⟩
  have hp : (optStep cfg (inputs 0) s0).params = s0.params - cfg.learningRate •
      (c • s0.params) := by
    by_cases hq : usesQmodel cfg = true
    · obtain ⟨r, m, _, _, cc, d, _⟩ := optStep_qmodel cfg (inputs 0) s0 hq
      rw [d, cc, hv, hg]
      simp [addWeightDecay, hw]
    · obtain ⟨e1, e2⟩ := optStep_eq cfg (inputs 0) s0
      have z : ∀ x : Vec ι, clipUpdates cfg x (0 : Vec ι) = 0 := by
        intro x
        simp only [clipUpdates]
        cases cfg.normConstraint <;> simp
      rcases hm : cfg.momentumType with _ | _ | _ | _
      · obtain ⟨cc, d⟩ := e1 hm
        rw [d, cc, hv, hg, mulVec_zero, z]
        simp [addWeightDecay, hw]
      · obtain ⟨cc, d⟩ := e2 hm
        rw [d, cc, hv, hg, smul_zero, zero_add, mulVec_zero, z]
        simp [addWeightDecay, hw]
      · simp [usesQmodel, hm] at hq
      · simp [usesQmodel, hm] at hq
  rw [lastMove, move, hg, mulVec_zero] at h3
  change (optStep cfg (inputs 0) s0).params - s0.params = _ at h3
  rw [hp] at h3
  apply hne
  rw [smul_zero, smul_zero, sub_zero] at h3
  rw [← neg_eq_zero, ← h3]
  module

/-- With a norm constraint the printed learning rate is not the one in effect: a first step that is clipped is shorter
than the printed numbers say. -/
theorem C126_clip_counterexample (cfg : Config) (c : ℝ) (hc : 0 < c) (hcfg : cfg.normConstraint = some c)
    (hm : cfg.momentumType = .regular ∨ cfg.momentumType = .adam) (hw : cfg.weightDecay = none)
    (inputs : ℕ → StepIn ι κ) (s0 : State ι) (hv : s0.velocity = 0)
    (hbig : c < (inputs 0).grad s0.params ⬝ᵥ ((inputs 0).precon *ᵥ (inputs 0).grad s0.params) *
      cfg.learningRate ^ 2) : ¬ Explained cfg inputs s0 0 := by
  rintro ⟨lr, mu, h1, -, h3⟩
  have hr := printed_eq cfg inputs s0 0
  simp only at hr
  have hq : usesQmodel cfg = false := by rcases hm with hm | hm <;> simp [usesQmodel, hm]
  rw [hr] at h1
  simp only [learningRateOf, hq, Bool.false_eq_true, if_false, Option.some.injEq] at h1
  subst h1
  set g := (inputs 0).grad s0.params with hgdef
  set p := (inputs 0).precon *ᵥ g with hpdef
  have hp : (optStep cfg (inputs 0) s0).params = s0.params - cfg.learningRate •
      (clipCoeff c cfg.learningRate g p • p) := by
    obtain ⟨e1, e2⟩ := optStep_eq cfg (inputs 0) s0
    rcases hm with hm | hm
    · obtain ⟨cc, d⟩ := e1 hm
      rw [d, cc, hv]
      simp [addWeightDecay, hw, clipUpdates, hcfg, hgdef, hpdef]
    · obtain ⟨cc, d⟩ := e2 hm
      rw [d, cc, hv]
      simp [addWeightDecay, hw, clipUpdates, hcfg, hgdef, hpdef]
  have hcoef : clipCoeff c cfg.learningRate g p < 1 := by
    have hpos : 0 < g ⬝ᵥ p * cfg.learningRate ^ 2 := hc.trans hbig
    simp only [clipCoeff, hpos.ne', if_false]
    refine min_lt_of_right_lt ?_
    rw [Real.sqrt_lt' one_pos, one_pow, div_lt_one hpos]
    exact hbig
  rw [lastMove, move] at h3
  change (optStep cfg (inputs 0) s0).params - s0.params = _ - _ • p at h3
  rw [hp] at h3
  have h4 : (cfg.learningRate * (1 - clipCoeff c cfg.learningRate g p)) • p = 0 := by
    have := sub_eq_zero.2 h3
    rw [← this]
    module
  rcases smul_eq_zero.1 h4 with h5 | h5
  · rcases mul_eq_zero.1 h5 with h6 | h6
    · rw [h6] at hbig
      norm_num at hbig
      exact lt_asymm hc hbig
    · linarith
  · rw [h5, dotProduct_zero, zero_mul] at hbig
    exact lt_asymm hc hbig

/-- What is printed: the number of the run, the loss before the step, the values of the variables after it; NaN is
never printed for learning rate and momentum, and before the first run the properties of the types with a quadratic
model are NaN. -/
theorem C126_printed (cfg : Config) (inputs : ℕ → StepIn ι κ) (params : Vec ι) (damping : ℝ) (t : ℕ) :
    let s0 := State.init params damping
    let s := trace cfg inputs s0
    (printed cfg inputs s0 t).iteration = t ∧
    (printed cfg inputs s0 t).loss = (inputs t).passedLoss (s t).params ∧
    (printed cfg inputs s0 t).damping = (s (t + 1)).damping ∧ (printed cfg inputs s0 t).rho = (s (t + 1)).rho ∧
    (printed cfg inputs s0 t).qChange = (s (t + 1)).qChange ∧
    (printed cfg inputs s0 t).learningRate ≠ none ∧ (printed cfg inputs s0 t).momentum ≠ none ∧
    (usesQmodel cfg = true → learningRateOf cfg (s 0) = none ∧ momentumOf cfg (s 0) = none) := by
  intro s0 s
  have hr := printed_eq cfg inputs s0 t
  simp only at hr
  rw [hr]
  refine ⟨by simp [s0, State.init], rfl, rfl, rfl, rfl, ?_, ?_, ?_⟩
  · by_cases hq : usesQmodel cfg = true
    · obtain ⟨r, m, a, _⟩ := optStep_qmodel cfg (inputs t) (trace cfg inputs s0 t) hq
      simp only [learningRateOf, hq, if_true]
      change (optStep _ _ _).qLearningRate.map _ ≠ _
      rw [a]; simp
    · simp [learningRateOf, hq]
  · by_cases hq : usesQmodel cfg = true
    · obtain ⟨r, m, _, b, _⟩ := optStep_qmodel cfg (inputs t) (trace cfg inputs s0 t) hq
      simp only [momentumOf, hq, if_true]
      change (optStep _ _ _).qMomentum ≠ _
      rw [b]; simp
    · simp [momentumOf, hq]
  · intro hq
    simp [learningRateOf, momentumOf, hq, s, s0, trace, State.init]

/-- The damping that the quadratic model of a run uses. -/
noncomputable def dampingIn (cfg : Config) (inputs : ℕ → StepIn ι κ) (s0 : State ι) (t : ℕ) : ℝ :=
  (preUpdate cfg (inputs t) (trace cfg inputs s0 t)).damping

/-- The printed damping is the one used in the run, unless the damping is adapted immediately and this is a run that
adapts it; then it is the one used in the next run. -/
theorem C126_damping_partial (cfg : Config) (inputs : ℕ → StepIn ι κ) (s0 : State ι) (t : ℕ) :
    (cfg.adaptDamping = false ∨ cfg.immediate = false ∨ (s0.counter + t + 1) % cfg.interval ≠ 0 →
      (printed cfg inputs s0 t).damping = dampingIn cfg inputs s0 t) ∧
    (cfg.adaptDamping = false ∨ cfg.immediate = true →
      (printed cfg inputs s0 t).damping = dampingIn cfg inputs s0 (t + 1)) := by
  have hr := printed_eq cfg inputs s0 t
  simp only at hr
  rw [hr]
  constructor
  · intro h
    change (applyGradients _ _ _).damping = _
    rw [apply_damping, (preUpdate_keeps _ _ _).1, trace_counter]
    by_cases h1 : cfg.immediate = false ∨ cfg.adaptDamping = false
    · rw [if_pos h1]; rfl
    · rw [if_neg h1]
      push Not at h1
      rcases h with h | h | h
      · exact absurd h h1.2
      · exact absurd h h1.1
      · rw [if_neg h]; rfl
  · intro h
    have hp : preUpdate cfg (inputs (t + 1)) (trace cfg inputs s0 (t + 1)) = trace cfg inputs s0 (t + 1) := by
      unfold preUpdate
      rw [if_pos]
      rcases h with h | h
      · exact .inl h
      · exact .inr (.inr h)
    rw [dampingIn, hp]

/-! ### Concrete runs -/

/-- The types regular and adam with learning rate 1, momentum 1/2 and immediate adaptation in every run. -/
noncomputable def reportConfig (m : MomentumType) : Config :=
  { momentumType := m, learningRate := 1, momentum := 1 / 2, normConstraint := none, weightDecay := none,
    adaptDamping := true, immediate := true, isChief := true, adaptationDecay := 1 / 2, interval := 1,
    minDamping := 0, l2Reg := 0, decreaseThreshold := 3 / 4, increaseThreshold := 1 / 4,
    usePassedLoss := true, rescale := none, includeDamping := true }

/-- One parameter, gradient 1, loss 0 before and 1 after the step; the preconditioner of run `t` is `t + 1`. -/
noncomputable def plainInputs (t : ℕ) : StepIn (Fin 1) (Fin 1) :=
  { passedLoss := fun _ => 0, fnLoss := fun _ => 1, prevFnLoss := fun _ => 0, grad := fun _ => ![1],
    precon := !![(t : ℝ) + 1], curv := 0, factor := 1, batchSize := 1 }

/-- Immediate adaptation: the first run uses damping 1 and prints damping 2. -/
theorem C126_damping_counterexample :
    let s0 := State.init (fun _ => 0 : Vec (Fin 1)) 1
    dampingIn (reportConfig .regular) plainInputs s0 0 = 1 ∧
    (printed (reportConfig .regular) plainInputs s0 0).damping = 2 := by
  intro s0
  have hp : preUpdate (reportConfig .regular) (plainInputs 0) s0 = s0 := by
    simp [preUpdate, reportConfig]
  refine ⟨?_, ?_⟩
  · rw [dampingIn, trace, hp]; rfl
  · have hr := printed_eq (reportConfig .regular) plainInputs s0 0
    simp only at hr
    rw [hr]
    change (applyGradients _ _ (preUpdate _ _ s0)).damping = 2
    rw [hp, apply_damping, if_neg (by simp [reportConfig]), if_pos (by simp [reportConfig, s0, State.init])]
    have h1 : (applyGradients (reportConfig .regular) (plainInputs 0) s0).prevLoss = some 0 := by
      rw [apply_prevLoss]
      simp [updatePrevLoss, reportConfig, adaptationTime, s0, State.init, plainInputs]
    have h2 : (applyGradients (reportConfig .regular) (plainInputs 0) s0).qChange = some (-1) := by
      rw [apply_qChange]
      simp [updatePrevLoss, reportConfig, adaptationTime, s0, State.init, plainInputs, rawUpdateSteps, rawUpdateWith,
        approxQmodelChange, clipUpdates, vecHead]
    rw [h1, h2]
    change (updateDamping (reportConfig .regular) 1 (some 0) (some 1) (some (-1))).1 = 2
    rw [C35_rule _ _ _ _ _ (by norm_num)]
    simp only [reportConfig]
    norm_num

/-- The counterexample for adam applies: the preconditioner changes from 1 to 2. -/
example : ¬ Explained (reportConfig .adam) plainInputs (State.init (fun _ => 0) 1) 1 := by
  refine C126_adam_counterexample _ _ _ rfl rfl rfl rfl fun h => ?_
  have := congrFun h 0
  simp [reportConfig, plainInputs] at this

/-- The one for a norm constraint: the first step has squared norm 1, allowed is 1/4. -/
example : ¬ Explained { reportConfig .regular with normConstraint := some (1 / 4) } plainInputs
    (State.init (fun _ => 0) 1) 0 := by
  refine C126_clip_counterexample _ (1 / 4) (by norm_num) rfl (.inl rfl) rfl _ _ rfl ?_
  simp [reportConfig, plainInputs, mulVec, dotProduct]
  norm_num

/-- The one for weight decay. -/
example : ¬ Explained { reportConfig .regular with weightDecay := some (1 / 2) }
    (fun t => { plainInputs t with grad := fun _ => 0 }) (State.init (fun _ => 1) 1) 0 := by
  refine C126_decay_counterexample _ (1 / 2) rfl _ _ rfl (fun _ => rfl) fun h => ?_
  have := congrFun h 0
  simp [reportConfig, State.init] at this

/-- A run of type regular in which the preconditioner changes is explained. -/
example (t : ℕ) : Explained (reportConfig .regular) plainInputs (State.init (fun _ => 0) 1) t :=
  C126_explained_partial _ _ _ rfl rfl rfl t (by simp [reportConfig])

/-! ## C127 -/

theorem raw_qmodel (cfg : Config) (inp : StepIn ι κ) (s : State ι) (h : cfg.momentumType = .qmodel) :
    rawUpdateSteps cfg inp s = qmodelUpdate cfg none inp s := by
  simp only [rawUpdateSteps, rawUpdateWith, h, qmodelUpdate]

theorem raw_fixed (cfg : Config) (inp : StepIn ι κ) (s : State ι) (h : cfg.momentumType = .qmodelFixedMu) :
    rawUpdateSteps cfg inp s = qmodelUpdate cfg (some cfg.momentum) inp s := by
  simp only [rawUpdateSteps, rawUpdateWith, h, qmodelUpdate]

/-- With a momentum given, runs are those of the main model. -/
theorem traceArg_some (cfg : Config) (m : ℝ) (inputs : ℕ → StepIn ι κ) (s0 : State ι) (t : ℕ) :
    traceArg cfg (some m) inputs s0 t = .ok (trace { cfg with momentum := m } inputs s0 t) := by
  induction t with
  | zero => rfl
  | succ t ih =>
    simp only [traceArg, ih]
    have hraw : ∀ s : State ι, rawUpdateArg cfg (some m) (inputs t) s =
        .ok (rawUpdateSteps { cfg with momentum := m } (inputs t) s) := by
      intro s
      unfold rawUpdateArg
      rcases hm : cfg.momentumType with _ | _ | _ | _ <;> simp only
      · rw [raw_qmodel _ _ _ rfl]; rfl
      · rw [raw_fixed _ _ _ rfl]; rfl
    simp only [applyArg, hraw]
    rfl

/-- Momentum type qmodel_fixedmu with a number as momentum: every run uses it and prints it. What is missing: the
momentum None, see the counterexample. -/
theorem C127_fixed_partial (cfg : Config) (hm : cfg.momentumType = .qmodelFixedMu) (m : ℝ) (inputs : ℕ → StepIn ι κ)
    (s0 : State ι) (t : ℕ) :
    ∃ s s', traceArg cfg (some m) inputs s0 t = .ok s ∧ traceArg cfg (some m) inputs s0 (t + 1) = .ok s' ∧
      (printed { cfg with momentum := m } inputs s0 t).momentum = some m ∧
      ∃ r : ℝ, s'.velocity = m • s.velocity + r • ((inputs t).precon *ᵥ (inputs t).grad s.params) := by
  have hq : usesQmodel { cfg with momentum := m } = true := by simp [usesQmodel, hm]
  obtain ⟨r, mu, a, b, c, _, e⟩ := optStep_qmodel { cfg with momentum := m } (inputs t)
    (trace { cfg with momentum := m } inputs s0 t) hq
  rw [e hm] at b c
  refine ⟨_, _, traceArg_some cfg m inputs s0 t, traceArg_some cfg m inputs s0 (t + 1), ?_, r, c⟩
  have hr := printed_eq { cfg with momentum := m } inputs s0 t
  simp only at hr
  rw [hr]
  simp only [momentumOf, hq, if_true]
  exact b

/-- The types regular and adam fail in the first run if the momentum is None, though the constructor accepts it. -/
theorem C127_none_plain_counterexample (cfg : Config) (hm : cfg.momentumType = .regular ∨ cfg.momentumType = .adam)
    (inputs : ℕ → StepIn ι κ) (s0 : State ι) (t : ℕ) :
    (∃ e, traceArg cfg none inputs s0 (t + 1) = .error e) ∧
    ∃ a : Args, a.momentum = none ∧ construct a = .ok ("regular", 1) := by
  constructor
  · induction t with
    | zero =>
      rcases hm with hm | hm <;> exact ⟨_, by simp only [traceArg, applyArg, rawUpdateArg, hm]; rfl⟩
    | succ t ih =>
      obtain ⟨e, he⟩ := ih
      refine ⟨e, ?_⟩
      rw [traceArg, he]
  · refine ⟨⟨"regular", none, none, some 1, none, true, false⟩, rfl, ?_⟩
    rw [C46_accepts]
    have h : "regular".toList = "regular".toList.map Char.toLower := by decide
    refine ⟨h, .inr (.inl rfl), by simp, by simp, by simp, ?_, by simp⟩
    rintro (h | h) <;> exact absurd h (by decide)

/-- Changing the name of the type changes nothing else. -/
theorem traceArg_none (cfg : Config) (hm : cfg.momentumType = .qmodelFixedMu) (inputs : ℕ → StepIn ι κ)
    (s0 : State ι) (t : ℕ) :
    traceArg cfg none inputs s0 t = .ok (trace { cfg with momentumType := .qmodel } inputs s0 t) := by
  induction t with
  | zero => rfl
  | succ t ih =>
    simp only [traceArg, ih]
    have hraw : ∀ s : State ι, rawUpdateArg cfg none (inputs t) s =
        .ok (rawUpdateSteps { cfg with momentumType := .qmodel } (inputs t) s) := by
      intro s
      unfold rawUpdateArg
      rw [hm]
      simp only
      rw [raw_qmodel _ _ _ rfl]
      rfl
    simp only [applyArg, hraw]
    rfl

/-- `orthoConfig` without adaptation of the damping. -/
noncomputable def driftConfig (m : MomentumType) : Config := { orthoConfig m with adaptDamping := false }

/-- Two parameters; gradient (1, 1) with the identity as preconditioner in the first run, then as in `orthoInput`. -/
noncomputable def driftInputs : ℕ → StepIn (Fin 2) (Fin 2)
  | 0 => { orthoInput with grad := fun _ => ![1, 1], precon := 1 }
  | _ + 1 => orthoInput

theorem drift_damping (inp : StepIn (Fin 2) (Fin 2)) (s : State (Fin 2)) :
    (optStep (driftConfig .qmodel) inp s).damping = s.damping ∧
    (updatePrevLoss (driftConfig .qmodel) inp (preUpdate (driftConfig .qmodel) inp s)).damping = s.damping := by
  have h1 : preUpdate (driftConfig .qmodel) inp s = s := by simp [preUpdate, driftConfig]
  refine ⟨?_, ?_⟩
  · rw [optStep, apply_damping, if_pos (by simp [driftConfig]), h1]
  · rw [h1, (updatePrevLoss_keeps _ _ _).2.2.1]

theorem drift_first :
    let s1 := trace (driftConfig .qmodel) driftInputs (State.init (fun _ => 0) 1) 1
    s1.qMomentum = some 0 ∧ s1.velocity = ![1 / 2, 1 / 2] ∧ s1.damping = 1 := by
  intro s1
  obtain ⟨_, b, c, _⟩ := optStep_hyper (driftConfig .qmodel) (driftInputs 0) (State.init (fun _ => 0) 1) none
    (.inl ⟨rfl, rfl⟩)
  have hq : computeQmodel 1 (driftInputs 0).factor (driftInputs 0).batchSize
      ((driftInputs 0).precon *ᵥ (driftInputs 0).grad fun _ => 0) (-(0 : Vec (Fin 2)))
      ((driftInputs 0).grad fun _ => 0) =
      { m11 := 4, m21 := 0, m22 := 0, b11 := 2, b21 := 0, b22 := 0, c1 := 2, c2 := 0 } := by
    simp [computeQmodel, driftInputs, orthoInput, dotProduct, Fin.sum_univ_two]
    norm_num
  rw [(drift_damping _ _).2] at b c
  have hh : ∃ x, qmodelHyperparams (driftConfig .qmodel) 1
      { m11 := 4, m21 := 0, m22 := 0, b11 := 2, b21 := 0, b22 := 0, c1 := 2, c2 := 0 } none = (-(1 / 2), 0, x) := by
    refine ⟨-(1 / 2), ?_⟩
    simp only [qmodelHyperparams, if_true, driftConfig, orthoConfig, subDampingCoeff]
    norm_num
  obtain ⟨x, hx⟩ := hh
  change _ = some (qmodelHyperparams _ 1 (computeQmodel 1 (driftInputs 0).factor (driftInputs 0).batchSize
      ((driftInputs 0).precon *ᵥ (driftInputs 0).grad fun _ => 0) (-(0 : Vec (Fin 2)))
      ((driftInputs 0).grad fun _ => 0)) none).2.1 at b
  change _ = (qmodelHyperparams _ 1 (computeQmodel 1 (driftInputs 0).factor (driftInputs 0).batchSize
      ((driftInputs 0).precon *ᵥ (driftInputs 0).grad fun _ => 0) (-(0 : Vec (Fin 2)))
      ((driftInputs 0).grad fun _ => 0)) none).2.1 • (0 : Vec (Fin 2)) + (-(qmodelHyperparams _ 1
      (computeQmodel 1 (driftInputs 0).factor (driftInputs 0).batchSize
      ((driftInputs 0).precon *ᵥ (driftInputs 0).grad fun _ => 0) (-(0 : Vec (Fin 2)))
      ((driftInputs 0).grad fun _ => 0)) none).1) • _ at c
  rw [hq, hx] at b c
  refine ⟨b, ?_, (drift_damping _ _).1⟩
  refine c.trans ?_
  funext i
  fin_cases i <;> simp [driftInputs]

theorem drift_second :
    (trace (driftConfig .qmodel) driftInputs (State.init (fun _ => 0) 1) 2).qMomentum = some (-1) := by
  obtain ⟨_, h2, h3⟩ := drift_first
  set s1 := trace (driftConfig .qmodel) driftInputs (State.init (fun _ => 0) 1) 1 with hs1
  obtain ⟨_, b, _⟩ := optStep_hyper (driftConfig .qmodel) (driftInputs 1) s1 none (.inl ⟨rfl, rfl⟩)
  rw [(drift_damping _ _).2, h3, h2] at b
  have hq : computeQmodel 1 (driftInputs 1).factor (driftInputs 1).batchSize
      ((driftInputs 1).precon *ᵥ (driftInputs 1).grad s1.params) (-![1 / 2, 1 / 2])
      ((driftInputs 1).grad s1.params) =
      { m11 := 10, m21 := -3, m22 := 1, b11 := 5, b21 := -3 / 2, b22 := 1 / 2, c1 := 2, c2 := -1 / 2 } := by
    simp [computeQmodel, driftInputs, orthoInput, dotProduct, Fin.sum_univ_two]
    norm_num
  rw [hq] at b
  refine b.trans ?_
  simp only [qmodelHyperparams, driftConfig, orthoConfig, twoByTwoSolve]
  norm_num

/-- Momentum type qmodel_fixedmu with momentum None: accepted, and every run is that of momentum type qmodel, so that
the momentum is not fixed; in a concrete case it is 0 in the first run and -1 in the second. -/
theorem C127_none_counterexample :
    (∃ a : Args, a.momentum = none ∧ construct a = .ok ("qmodel_fixedmu", 1)) ∧
    (∀ (cfg : Config), cfg.momentumType = .qmodelFixedMu → ∀ (inputs : ℕ → StepIn ι κ) (s0 : State ι) (t : ℕ),
      traceArg cfg none inputs s0 t = .ok (trace { cfg with momentumType := .qmodel } inputs s0 t)) ∧
    ∃ s1 s2, traceArg (driftConfig .qmodelFixedMu) none driftInputs (State.init (fun _ => 0) 1) 1 = .ok s1 ∧
      traceArg (driftConfig .qmodelFixedMu) none driftInputs (State.init (fun _ => 0) 1) 2 = .ok s2 ∧
      momentumOf (driftConfig .qmodelFixedMu) s1 = some 0 ∧ momentumOf (driftConfig .qmodelFixedMu) s2 = some (-1) := by
  refine ⟨?_, fun cfg hm inputs s0 t => traceArg_none cfg hm inputs s0 t, ?_⟩
  · refine ⟨⟨"qmodel_fixedmu", none, none, none, none, true, false⟩, rfl, ?_⟩
    rw [C46_accepts]
    have h : "qmodel_fixedmu".toList = "qmodel_fixedmu".toList.map Char.toLower := by decide
    refine ⟨h, .inl (.inr rfl), by simp, by simp, by simp, by simp, ?_⟩
    rintro (h | h) <;> exact absurd h (by decide)
  · refine ⟨_, _, traceArg_none _ rfl _ _ 1, traceArg_none _ rfl _ _ 2, ?_, ?_⟩
    · exact drift_first.1
    · exact drift_second

end Kfac.Opt
