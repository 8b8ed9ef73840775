import Verif.Opt.Model
import Mathlib.Tactic.Linarith
import Mathlib.Tactic.SplitIfs

/-! # Facts about one run of the optimizer -/

namespace Kfac.Opt

open Matrix

set_option linter.unusedSectionVars false

variable {ι κ : Type} [Fintype ι] [Fintype κ]

theorem raw_keeps (cfg : Config) (inp : StepIn ι κ) (s : State ι) :
    (rawUpdateSteps cfg inp s).2.counter = s.counter ∧ (rawUpdateSteps cfg inp s).2.params = s.params ∧
    (rawUpdateSteps cfg inp s).2.damping = s.damping ∧ (rawUpdateSteps cfg inp s).2.prevLoss = s.prevLoss ∧
    (rawUpdateSteps cfg inp s).2.rho = s.rho := by
  unfold rawUpdateSteps rawUpdateWith
  rcases cfg.momentumType <;> dsimp only <;> (try split_ifs) <;> simp

/-- The raw update and the new velocity depend on the parameters, the velocity and the damping only. -/
theorem raw_congr (cfg : Config) (inp : StepIn ι κ) (s s' : State ι) (hp : s.params = s'.params)
    (hv : s.velocity = s'.velocity) (hd : s.damping = s'.damping) :
    (rawUpdateSteps cfg inp s).1 = (rawUpdateSteps cfg inp s').1 ∧
    (rawUpdateSteps cfg inp s).2.velocity = (rawUpdateSteps cfg inp s').2.velocity := by
  unfold rawUpdateSteps rawUpdateWith
  rw [hp, hd]
  rcases cfg.momentumType <;> dsimp only <;> (try split_ifs) <;> simp [hv]

theorem updatePrevLoss_keeps (cfg : Config) (inp : StepIn ι κ) (s : State ι) :
    (updatePrevLoss cfg inp s).counter = s.counter ∧ (updatePrevLoss cfg inp s).params = s.params ∧
    (updatePrevLoss cfg inp s).damping = s.damping ∧ (updatePrevLoss cfg inp s).velocity = s.velocity ∧
    (updatePrevLoss cfg inp s).qChange = s.qChange := by
  unfold updatePrevLoss
  split_ifs <;> simp

theorem preUpdate_keeps (cfg : Config) (inp : StepIn ι κ) (s : State ι) :
    (preUpdate cfg inp s).counter = s.counter ∧ (preUpdate cfg inp s).params = s.params ∧
    (preUpdate cfg inp s).velocity = s.velocity ∧ (preUpdate cfg inp s).prevLoss = s.prevLoss ∧
    (preUpdate cfg inp s).qChange = s.qChange := by
  unfold preUpdate
  split_ifs <;> simp

theorem postUpdate_keeps (cfg : Config) (inp : StepIn ι κ) (s : State ι) :
    (postUpdate cfg inp s).counter = s.counter ∧ (postUpdate cfg inp s).params = s.params ∧
    (postUpdate cfg inp s).velocity = s.velocity ∧ (postUpdate cfg inp s).prevLoss = s.prevLoss ∧
    (postUpdate cfg inp s).qChange = s.qChange := by
  unfold postUpdate
  split_ifs <;> simp

theorem apply_counter (cfg : Config) (inp : StepIn ι κ) (s : State ι) :
    (applyGradients cfg inp s).counter = s.counter + 1 := by
  simp only [applyGradients]
  rw [(postUpdate_keeps _ _ _).1]
  simp only [(raw_keeps _ _ _).1, (updatePrevLoss_keeps _ _ _).1]

/-- The parameters move by minus the learning rate times the raw update with weight decay. -/
theorem apply_params (cfg : Config) (inp : StepIn ι κ) (s : State ι) :
    (applyGradients cfg inp s).params =
      s.params - cfg.learningRate • addWeightDecay cfg (rawUpdateSteps cfg inp s).1 s.params := by
  have hc := raw_congr cfg inp (updatePrevLoss cfg inp s) s (updatePrevLoss_keeps _ _ _).2.1
    (updatePrevLoss_keeps _ _ _).2.2.2.1 (updatePrevLoss_keeps _ _ _).2.2.1
  simp only [applyGradients]
  rw [(postUpdate_keeps _ _ _).2.1]
  simp only [(raw_keeps _ _ _).2.1, (updatePrevLoss_keeps _ _ _).2.1, hc.1]

theorem apply_velocity (cfg : Config) (inp : StepIn ι κ) (s : State ι) :
    (applyGradients cfg inp s).velocity = (rawUpdateSteps cfg inp s).2.velocity := by
  have hc := raw_congr cfg inp (updatePrevLoss cfg inp s) s (updatePrevLoss_keeps _ _ _).2.1
    (updatePrevLoss_keeps _ _ _).2.2.2.1 (updatePrevLoss_keeps _ _ _).2.2.1
  simp only [applyGradients]
  rw [(postUpdate_keeps _ _ _).2.2.1]
  exact hc.2

theorem apply_prevLoss (cfg : Config) (inp : StepIn ι κ) (s : State ι) :
    (applyGradients cfg inp s).prevLoss = (updatePrevLoss cfg inp s).prevLoss := by
  simp only [applyGradients]
  rw [(postUpdate_keeps _ _ _).2.2.2.1]
  exact (raw_keeps _ _ _).2.2.2.1

theorem apply_qChange (cfg : Config) (inp : StepIn ι κ) (s : State ι) :
    (applyGradients cfg inp s).qChange = (rawUpdateSteps cfg inp (updatePrevLoss cfg inp s)).2.qChange := by
  simp only [applyGradients]
  exact (postUpdate_keeps _ _ _).2.2.2.2

/-- The damping after `apply_gradients`. -/
theorem apply_damping (cfg : Config) (inp : StepIn ι κ) (s : State ι) :
    (applyGradients cfg inp s).damping =
      if cfg.immediate = false ∨ cfg.adaptDamping = false then s.damping
      else if (s.counter + 1) % cfg.interval = 0 then
        (updateDamping cfg s.damping (applyGradients cfg inp s).prevLoss
          (some (inp.fnLoss (applyGradients cfg inp s).params)) (applyGradients cfg inp s).qChange).1
      else s.damping := by
  rw [apply_prevLoss, apply_qChange]
  have hp : (applyGradients cfg inp s).params = (rawUpdateSteps cfg inp (updatePrevLoss cfg inp s)).2.params -
      cfg.learningRate • addWeightDecay cfg (rawUpdateSteps cfg inp (updatePrevLoss cfg inp s)).1
        (rawUpdateSteps cfg inp (updatePrevLoss cfg inp s)).2.params := by
    simp only [applyGradients]
    rw [(postUpdate_keeps _ _ _).2.1]
  rw [hp]
  simp only [applyGradients, postUpdate, adaptationTime]
  rw [(raw_keeps cfg inp (updatePrevLoss cfg inp s)).1, (raw_keeps cfg inp (updatePrevLoss cfg inp s)).2.2.1,
    (raw_keeps cfg inp (updatePrevLoss cfg inp s)).2.2.2.1, (updatePrevLoss_keeps cfg inp s).1,
    (updatePrevLoss_keeps cfg inp s).2.2.1]
  by_cases h1 : cfg.immediate = false ∨ cfg.adaptDamping = false
  · rw [if_pos h1, if_pos h1]
  · rw [if_neg h1, if_neg h1]
    by_cases h2 : (s.counter + 1) % cfg.interval = 0
    · simp only [h2, decide_true, if_true]
    · simp only [h2, decide_false, if_false, Bool.false_eq_true]

theorem optStep_counter (cfg : Config) (inp : StepIn ι κ) (s : State ι) :
    (optStep cfg inp s).counter = s.counter + 1 := by
  rw [optStep, apply_counter, (preUpdate_keeps _ _ _).1]

theorem trace_counter (cfg : Config) (inputs : ℕ → StepIn ι κ) (s0 : State ι) (t : ℕ) :
    (trace cfg inputs s0 t).counter = s0.counter + t := by
  induction t with
  | zero => rfl
  | succ t ih => rw [trace, optStep_counter, ih]; omega

theorem preUpdate_immediate (cfg : Config) (inp : StepIn ι κ) (s : State ι)
    (h : cfg.adaptDamping = false ∨ cfg.isChief = false ∨ cfg.immediate = true) :
    preUpdate cfg inp s = s := by
  rw [preUpdate, if_pos h]

theorem preUpdate_damping (cfg : Config) (inp : StepIn ι κ) (s : State ι)
    (h : ¬ (cfg.adaptDamping = false ∨ cfg.isChief = false ∨ cfg.immediate = true)) :
    (preUpdate cfg inp s).damping =
      if s.counter % cfg.interval = 0 ∧ s.counter ≠ 0 then
        (updateDamping cfg s.damping s.prevLoss (some (inp.prevFnLoss s.params)) s.qChange).1
      else s.damping := by
  rw [preUpdate, if_neg h]
  simp only [justAfterAdaptationTime, decide_eq_true_eq]
  split_ifs <;> rfl

/-- One run of the optimizer multiplies the damping by one application of the rule or leaves it. -/
theorem optStep_damping (cfg : Config) (inp : StepIn ι κ) (s : State ι) :
    (optStep cfg inp s).damping = s.damping ∨
    ∃ a b q, (optStep cfg inp s).damping = (updateDamping cfg s.damping a b q).1 := by
  rw [optStep, apply_damping]
  by_cases h : cfg.adaptDamping = false ∨ cfg.isChief = false ∨ cfg.immediate = true
  · rw [preUpdate_immediate cfg inp s h]
    split_ifs
    · exact .inl rfl
    · exact .inr ⟨_, _, _, rfl⟩
    · exact .inl rfl
  · have hi : cfg.immediate = false ∨ cfg.adaptDamping = false := by
      left
      rcases hh : cfg.immediate with _ | _
      · rfl
      · exact absurd (.inr (.inr hh)) h
    rw [if_pos hi, preUpdate_damping cfg inp s h]
    split_ifs
    · exact .inr ⟨_, _, _, rfl⟩
    · exact .inl rfl

end Kfac.Opt
