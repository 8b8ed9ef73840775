import Verif.Opt.Lemmas
import Mathlib.Tactic.Positivity
import Mathlib.Tactic.NormNum
import Mathlib.Tactic.FieldSimp
import Mathlib.Tactic.Ring
import Mathlib.Tactic.LinearCombination
import Mathlib.Algebra.BigOperators.Fin
import Mathlib.LinearAlgebra.Matrix.Notation

/-! # C41, C43, C44: clipping, predicted change and accumulation for momentum types regular and adam -/

set_option linter.unusedSectionVars false

namespace Kfac.Opt

open Matrix

variable {ι κ : Type} [Fintype ι] [Fintype κ]

/-! ## C44 -/

theorem raw_regular (cfg : Config) (inp : StepIn ι κ) (s : State ι) (h : cfg.momentumType = .regular) :
    (rawUpdateSteps cfg inp s).1 = (rawUpdateSteps cfg inp s).2.velocity ∧
    (rawUpdateSteps cfg inp s).2.velocity =
      cfg.momentum • s.velocity + clipUpdates cfg (inp.grad s.params) (inp.precon *ᵥ inp.grad s.params) := by
  simp only [rawUpdateSteps, rawUpdateWith, h]
  split_ifs <;> exact ⟨rfl, rfl⟩

theorem raw_adam (cfg : Config) (inp : StepIn ι κ) (s : State ι) (h : cfg.momentumType = .adam) :
    (rawUpdateSteps cfg inp s).1 = clipUpdates cfg (rawUpdateSteps cfg inp s).2.velocity
      (inp.precon *ᵥ (rawUpdateSteps cfg inp s).2.velocity) ∧
    (rawUpdateSteps cfg inp s).2.velocity = cfg.momentum • s.velocity + inp.grad s.params := by
  simp only [rawUpdateSteps, rawUpdateWith, h]
  split_ifs <;> exact ⟨rfl, rfl⟩

/-- One run in terms of the parameters and the velocity. -/
theorem optStep_eq (cfg : Config) (inp : StepIn ι κ) (s : State ι) :
    (cfg.momentumType = .regular →
      (optStep cfg inp s).velocity =
        cfg.momentum • s.velocity + clipUpdates cfg (inp.grad s.params) (inp.precon *ᵥ inp.grad s.params) ∧
      (optStep cfg inp s).params =
        s.params - cfg.learningRate • addWeightDecay cfg (optStep cfg inp s).velocity s.params) ∧
    (cfg.momentumType = .adam →
      (optStep cfg inp s).velocity = cfg.momentum • s.velocity + inp.grad s.params ∧
      (optStep cfg inp s).params = s.params - cfg.learningRate •
        addWeightDecay cfg (clipUpdates cfg (optStep cfg inp s).velocity
          (inp.precon *ᵥ (optStep cfg inp s).velocity)) s.params) := by
  obtain ⟨_, k2, k3, _⟩ := preUpdate_keeps cfg inp s
  constructor
  · intro h
    rw [optStep, apply_velocity, apply_params, (raw_regular _ _ _ h).1, (raw_regular _ _ _ h).2, k2, k3]
    exact ⟨rfl, rfl⟩
  · intro h
    rw [optStep, apply_velocity, apply_params, (raw_adam _ _ _ h).1, (raw_adam _ _ _ h).2, k2, k3]
    exact ⟨rfl, rfl⟩

/-- Geometric accumulation: a sequence with `v (t + 1) = m • v t + x t`. -/
theorem geometric (m : ℝ) (v x : ℕ → Vec ι) (h : ∀ t, v (t + 1) = m • v t + x t) (t : ℕ) :
    v t = m ^ t • v 0 + ∑ u ∈ Finset.range t, m ^ (t - 1 - u) • x u := by
  induction t with
  | zero => simp
  | succ t ih =>
    rw [h, ih, Finset.sum_range_succ, smul_add, smul_smul, ← pow_succ', Finset.smul_sum,
      Nat.add_sub_cancel, Nat.sub_self, pow_zero, one_smul, ← add_assoc]
    congr 2
    refine Finset.sum_congr rfl fun u hu => ?_
    rw [smul_smul, ← pow_succ']
    congr 2
    have := Finset.mem_range.1 hu
    omega

/-- Momentum type regular, from zero velocity: the velocity before run `t` is the sum of the (clipped)
preconditioned gradients of all earlier runs weighted by powers of the momentum, and the parameters have moved by
minus the learning rate times the sum of these velocities and the weight decay terms. -/
theorem C44_regular (cfg : Config) (inputs : ℕ → StepIn ι κ) (s0 : State ι) (hv : s0.velocity = 0)
    (h : cfg.momentumType = .regular) (t : ℕ) :
    let s := trace cfg inputs s0
    let x := fun u => clipUpdates cfg ((inputs u).grad (s u).params)
      ((inputs u).precon *ᵥ (inputs u).grad (s u).params)
    (s t).velocity = ∑ u ∈ Finset.range t, cfg.momentum ^ (t - 1 - u) • x u ∧
    (s t).params = s0.params - cfg.learningRate • ∑ u ∈ Finset.range t,
      ((∑ w ∈ Finset.range (u + 1), cfg.momentum ^ (u - w) • x w) + cfg.weightDecay.getD 0 • (s u).params) := by
  intro s x
  have hs : ∀ t, s (t + 1) = optStep cfg (inputs t) (s t) := fun _ => rfl
  have hvel : ∀ t, (s t).velocity = ∑ u ∈ Finset.range t, cfg.momentum ^ (t - 1 - u) • x u := by
    intro t
    have := geometric cfg.momentum (fun t => (s t).velocity) x (fun t => by
      rw [hs]; exact ((optStep_eq cfg (inputs t) (s t)).1 h).1) t
    rw [this, show (s 0).velocity = 0 from hv, smul_zero, zero_add]
  refine ⟨hvel t, ?_⟩
  induction t with
  | zero => simp [s, trace]
  | succ t ih =>
    rw [hs, ((optStep_eq cfg (inputs t) (s t)).1 h).2, ← hs, hvel (t + 1),
      Finset.sum_range_succ (fun u => (∑ w ∈ Finset.range (u + 1), cfg.momentum ^ (u - w) • x w) + _),
      smul_add cfg.learningRate (Finset.sum _ _), ← sub_sub, ← ih]
    congr 2
    unfold addWeightDecay
    rcases cfg.weightDecay with _ | c <;> simp

/-- Momentum type adam, from zero velocity: the velocity accumulates the raw gradients, and the raw updates are
the (clipped) preconditioned velocities. -/
theorem C44_adam (cfg : Config) (inputs : ℕ → StepIn ι κ) (s0 : State ι) (hv : s0.velocity = 0)
    (h : cfg.momentumType = .adam) (t : ℕ) :
    let s := trace cfg inputs s0
    let v := fun u => ∑ w ∈ Finset.range (u + 1), cfg.momentum ^ (u - w) • (inputs w).grad (s w).params
    (s (t + 1)).velocity = v t ∧
    (s t).params = s0.params - cfg.learningRate • ∑ u ∈ Finset.range t,
      (clipUpdates cfg (v u) ((inputs u).precon *ᵥ v u) + cfg.weightDecay.getD 0 • (s u).params) := by
  intro s v
  have hs : ∀ t, s (t + 1) = optStep cfg (inputs t) (s t) := fun _ => rfl
  have hvel : ∀ t, (s (t + 1)).velocity = v t := by
    intro t
    have := geometric cfg.momentum (fun t => (s t).velocity) (fun t => (inputs t).grad (s t).params) (fun t => by
      rw [hs]; exact ((optStep_eq cfg (inputs t) (s t)).2 h).1) (t + 1)
    rw [this, show (s 0).velocity = 0 from hv, smul_zero, zero_add, Nat.add_sub_cancel]
  refine ⟨hvel t, ?_⟩
  induction t with
  | zero => simp [s, trace]
  | succ t ih =>
    rw [hs, ((optStep_eq cfg (inputs t) (s t)).2 h).2, ← hs, hvel t, Finset.sum_range_succ, smul_add,
      ← sub_sub, ← ih]
    congr 2
    unfold addWeightDecay
    rcases cfg.weightDecay with _ | c <;> simp

/-! ## C41 -/

/-- With a positive bound and a positive definite preconditioner `P` with inverse `F`: the clipped update is at
most the bound in the norm of `F`, has the direction of the unclipped one, equals it if that is within the bound,
and otherwise attains the bound. -/
theorem C41_clip (cfg : Config) (c : ℝ) (hcfg : cfg.normConstraint = some c) (hc : 0 < c)
    [DecidableEq ι] (P F : Matrix ι ι ℝ) (hFP : F * P = 1) (hpos : ∀ v, v ≠ 0 → 0 < v ⬝ᵥ P *ᵥ v) (v : Vec ι) :
    let full := cfg.learningRate • (P *ᵥ v)
    let r := cfg.learningRate • clipUpdates cfg v (P *ᵥ v)
    r ⬝ᵥ F *ᵥ r ≤ c ∧ (∃ a : ℝ, 0 < a ∧ a ≤ 1 ∧ r = a • full) ∧
    (full ⬝ᵥ F *ᵥ full ≤ c → r = full) ∧ (c < full ⬝ᵥ F *ᵥ full → r ⬝ᵥ F *ᵥ r = c) := by
  intro full r
  have hF : F *ᵥ (P *ᵥ v) = v := by rw [Matrix.mulVec_mulVec, hFP, Matrix.one_mulVec]
  have hfull : full ⬝ᵥ F *ᵥ full = v ⬝ᵥ P *ᵥ v * cfg.learningRate ^ 2 := by
    simp only [full, Matrix.mulVec_smul, hF, dotProduct_smul, smul_dotProduct, smul_eq_mul]
    rw [dotProduct_comm (P *ᵥ v) v]
    ring
  have hr : r = clipCoeff c cfg.learningRate v (P *ᵥ v) • full := by
    simp only [r, full, clipUpdates, hcfg, smul_smul, mul_comm]
  have hrF : r ⬝ᵥ F *ᵥ r = clipCoeff c cfg.learningRate v (P *ᵥ v) ^ 2 * (full ⬝ᵥ F *ᵥ full) := by
    rw [hr, Matrix.mulVec_smul, dotProduct_smul, smul_dotProduct, smul_eq_mul, smul_eq_mul]
    ring
  have hnn : 0 ≤ v ⬝ᵥ P *ᵥ v := by
    by_cases h : v = 0
    · simp [h]
    · exact (hpos v h).le
  have hsq : 0 ≤ v ⬝ᵥ P *ᵥ v * cfg.learningRate ^ 2 := mul_nonneg hnn (sq_nonneg _)
  rw [hrF, hfull] at *
  by_cases h0 : v ⬝ᵥ P *ᵥ v * cfg.learningRate ^ 2 = 0
  · have hcoef : clipCoeff c cfg.learningRate v (P *ᵥ v) = 1 := by
      simp only [clipCoeff]; rw [if_pos h0]
    rw [hcoef, one_smul] at hr
    rw [hcoef, h0]
    refine ⟨by linarith, ⟨1, one_pos, le_rfl, by rw [hr, one_smul]⟩, fun _ => hr, fun h => by linarith⟩
  · have hp : 0 < v ⬝ᵥ P *ᵥ v * cfg.learningRate ^ 2 := lt_of_le_of_ne hsq (Ne.symm h0)
    have hcoef : clipCoeff c cfg.learningRate v (P *ᵥ v) =
        min 1 (Real.sqrt (c / (v ⬝ᵥ P *ᵥ v * cfg.learningRate ^ 2))) := by
      simp only [clipCoeff]; rw [if_neg h0]
    rw [hcoef] at hr ⊢
    generalize v ⬝ᵥ P *ᵥ v * cfg.learningRate ^ 2 = n at *
    have hq : 0 < c / n := div_pos hc hp
    have hs : 0 < Real.sqrt (c / n) := Real.sqrt_pos.2 hq
    have hsq2 : Real.sqrt (c / n) ^ 2 * n = c := by
      rw [Real.sq_sqrt hq.le]; field_simp
    rcases le_total n c with hn | hn
    · have h1 : 1 ≤ Real.sqrt (c / n) := by
        rw [Real.one_le_sqrt, le_div_iff₀ hp]; linarith
      rw [min_eq_left h1] at hr ⊢
      rw [one_smul] at hr
      exact ⟨by linarith, ⟨1, one_pos, le_rfl, by rw [hr, one_smul]⟩, fun _ => hr, fun h => by linarith⟩
    · have h1 : Real.sqrt (c / n) ≤ 1 := by
        rw [Real.sqrt_le_one, div_le_iff₀ hp]; linarith
      rw [min_eq_right h1] at hr ⊢
      refine ⟨hsq2.le, ⟨Real.sqrt (c / n), hs, h1, hr⟩, fun h => ?_, fun _ => hsq2⟩
      have : n = c := le_antisymm h hn
      rw [hr, this, div_self hc.ne', Real.sqrt_one, one_smul]

/-- Momentum type adam without weight decay: the whole change of the parameters is bounded, in every run. -/
theorem C41_adam (cfg : Config) (c : ℝ) (hcfg : cfg.normConstraint = some c) (hc : 0 < c)
    (hm : cfg.momentumType = .adam) (hw : cfg.weightDecay = none)
    [DecidableEq ι] (inp : StepIn ι κ) (s : State ι) (F : Matrix ι ι ℝ) (hFP : F * inp.precon = 1)
    (hpos : ∀ v, v ≠ 0 → 0 < v ⬝ᵥ inp.precon *ᵥ v) :
    let d := (optStep cfg inp s).params - s.params
    d ⬝ᵥ F *ᵥ d ≤ c := by
  intro d
  obtain ⟨_, h2⟩ := (optStep_eq cfg inp s).2 hm
  have hd : d = -(cfg.learningRate • clipUpdates cfg (optStep cfg inp s).velocity
      (inp.precon *ᵥ (optStep cfg inp s).velocity)) := by
    simp only [d]
    rw [h2]
    simp [addWeightDecay, hw]
  rw [hd, Matrix.mulVec_neg, neg_dotProduct_neg]
  exact (C41_clip cfg c hcfg hc inp.precon F hFP hpos _).1

/-- Momentum type regular without weight decay: the part of the change that does not come from the velocity is
bounded; the whole change is if the velocity was zero. -/
theorem C41_regular_partial (cfg : Config) (c : ℝ) (hcfg : cfg.normConstraint = some c) (hc : 0 < c)
    (hm : cfg.momentumType = .regular) (hw : cfg.weightDecay = none)
    [DecidableEq ι] (inp : StepIn ι κ) (s : State ι) (F : Matrix ι ι ℝ) (hFP : F * inp.precon = 1)
    (hpos : ∀ v, v ≠ 0 → 0 < v ⬝ᵥ inp.precon *ᵥ v) :
    let d := (optStep cfg inp s).params - s.params + (cfg.learningRate * cfg.momentum) • s.velocity
    d ⬝ᵥ F *ᵥ d ≤ c := by
  intro d
  obtain ⟨h1, h2⟩ := (optStep_eq cfg inp s).1 hm
  have hd : d = -(cfg.learningRate • clipUpdates cfg (inp.grad s.params) (inp.precon *ᵥ inp.grad s.params)) := by
    simp only [d]
    rw [h2, h1]
    simp only [addWeightDecay, hw, smul_add, mul_smul]
    abel
  rw [hd, Matrix.mulVec_neg, neg_dotProduct_neg]
  exact (C41_clip cfg c hcfg hc inp.precon F hFP hpos _).1

noncomputable def clipDemoConfig : Config :=
  { momentumType := .regular, learningRate := 1, momentum := 1, normConstraint := some 1, weightDecay := none,
    adaptDamping := false, immediate := true, isChief := true, adaptationDecay := 1, interval := 1,
    minDamping := 0, l2Reg := 0, decreaseThreshold := 3 / 4, increaseThreshold := 1 / 4,
    usePassedLoss := true, rescale := none, includeDamping := false }

/-- A linear loss. -/
noncomputable def clipDemoInput : StepIn Unit Unit :=
  { passedLoss := fun x => 2 * x (), fnLoss := fun x => 2 * x (), prevFnLoss := fun x => 2 * x (),
    grad := fun _ _ => 2, precon := 1, curv := 1, factor := 1, batchSize := 1 }

theorem clipDemo_clip (cfg : Config) (h1 : cfg.normConstraint = some 1) (h2 : cfg.learningRate = 1) :
    clipUpdates cfg (fun _ : Unit => (2 : ℝ)) (fun _ => 2) = fun _ => 1 := by
  have h4 : Real.sqrt (1 / (2 * 2)) = 1 / 2 := by
    rw [show (1 : ℝ) / (2 * 2) = (1 / 2) ^ 2 by norm_num, Real.sqrt_sq (by norm_num)]
  have hc : clipCoeff 1 1 (fun _ : Unit => (2 : ℝ)) (fun _ => 2) = 1 / 2 := by
    simp only [clipCoeff, dotProduct, Finset.univ_unique, Finset.sum_singleton, one_pow, mul_one]
    rw [if_neg (by norm_num), h4]
    norm_num
  simp only [clipUpdates, h1, h2, hc]
  funext i
  simp

/-- With momentum type regular the velocity is not clipped: the changes of a run from zero velocity grow beyond
every bound although each preconditioned gradient is clipped to the norm constraint 1. -/
theorem C41_regular_counterexample (t : ℕ) :
    let s := trace clipDemoConfig (fun _ => clipDemoInput) (State.init (fun _ => 0) 1)
    let d := (s (t + 1)).params - (s t).params
    d ⬝ᵥ (1 : Matrix Unit Unit ℝ) *ᵥ d = (t + 1) ^ 2 := by
  intro s d
  have hs : s (t + 1) = optStep clipDemoConfig clipDemoInput (s t) := rfl
  have hv := (C44_regular clipDemoConfig (fun _ => clipDemoInput) (State.init (fun _ => 0) 1) rfl rfl (t + 1)).1
  have hclip : ∀ x : Vec Unit, clipUpdates clipDemoConfig (clipDemoInput.grad x)
      (clipDemoInput.precon *ᵥ clipDemoInput.grad x) = fun _ => 1 := by
    intro x
    have := clipDemo_clip clipDemoConfig rfl rfl
    simpa [clipDemoInput] using this
  have hd : d = -(s (t + 1)).velocity := by
    simp only [d]
    rw [hs, ((optStep_eq clipDemoConfig clipDemoInput (s t)).1 rfl).2]
    simp [addWeightDecay, clipDemoConfig]
  have hv' : (s (t + 1)).velocity = fun _ => ((t : ℝ) + 1) := by
    simp only [s]
    rw [hv]
    funext i
    simp only [hclip]
    simp [clipDemoConfig, Finset.sum_apply]
  rw [hd, hv', Matrix.one_mulVec]
  simp [dotProduct]
  ring

/-! ## C43 -/

/-- Spec: the change of the quadratic model with curvature `C` and gradient `g` along `d`. -/
noncomputable def quadratic (C : Matrix ι ι ℝ) (g d : Vec ι) : ℝ := 1 / 2 * (d ⬝ᵥ C *ᵥ d) + g ⬝ᵥ d

/-- Momentum type regular without weight decay: at adaptation runs the recorded change is that of the quadratic
model along the change of the parameters, with the curvature of the estimator from which the damping except for
the l2 coefficient has been removed (or nothing if the damping is to be included). -/
theorem C43_regular_partial (cfg : Config) [DecidableEq ι] (inp : StepIn ι κ) (s : State ι)
    (hm : cfg.momentumType = .regular) (hw : cfg.weightDecay = none) (ha : cfg.adaptDamping = true)
    (hc : cfg.isChief = true) (ht : (s.counter + 1) % cfg.interval = 0) (hd : s.damping ≠ 0) :
    let s' := applyGradients cfg inp s
    s'.qChange = some (quadratic
      (if cfg.includeDamping then inp.curv else inp.curv - (s.damping - cfg.l2Reg) • (1 : Matrix ι ι ℝ))
      (inp.grad s.params) (s'.params - s.params)) := by
  intro s'
  have hp : s'.params - s.params = (-1 * cfg.learningRate) • (rawUpdateSteps cfg inp s).1 := by
    simp only [s']
    rw [apply_params]
    simp [addWeightDecay, hw]
  have hq : s'.qChange = some (approxQmodelChange cfg s.damping inp.curv
      ((-1 * cfg.learningRate) • (rawUpdateSteps cfg inp s).1) (inp.grad s.params)) := by
    simp only [s']
    rw [apply_qChange, (raw_regular _ _ _ hm).1, (raw_regular _ _ _ hm).2]
    obtain ⟨k1, k2, k3, k4, _⟩ := updatePrevLoss_keeps cfg inp s
    simp only [rawUpdateSteps, rawUpdateWith, hm, k2, k3, k4, adaptationTime, k1, ht, ha, hc]
    simp
  rw [hq, hp]
  congr 1
  simp only [approxQmodelChange, quadratic, subDampingCoeff]
  generalize (-1 * cfg.learningRate) • (rawUpdateSteps cfg inp s).1 = d
  rw [dotProduct_comm d (inp.grad s.params)]
  split_ifs
  · rfl
  · rw [Matrix.sub_mulVec, Matrix.smul_mulVec, Matrix.one_mulVec, dotProduct_sub, dotProduct_smul, smul_eq_mul]
    field_simp

/-- Momentum type adam without weight decay and norm constraint: the recorded change is that of the quadratic
model along the change of the parameters, with the curvature `F` whose inverse is the preconditioner (so
including its damping). -/
theorem C43_adam_partial (cfg : Config) [DecidableEq ι] (inp : StepIn ι κ) (s : State ι)
    (hm : cfg.momentumType = .adam) (hw : cfg.weightDecay = none) (hn : cfg.normConstraint = none)
    (ha : cfg.adaptDamping = true) (hc : cfg.isChief = true) (ht : (s.counter + 1) % cfg.interval = 0)
    (F : Matrix ι ι ℝ) (hFP : F * inp.precon = 1) :
    let s' := applyGradients cfg inp s
    s'.qChange = some (quadratic F (inp.grad s.params) (s'.params - s.params)) := by
  intro s'
  obtain ⟨r1, r2⟩ := raw_adam cfg inp s hm
  have hp : s'.params - s.params = -(cfg.learningRate • (rawUpdateSteps cfg inp s).1) := by
    simp only [s']
    rw [apply_params]
    simp [addWeightDecay, hw]
  have hq : s'.qChange = some (1 / 2 * cfg.learningRate ^ 2 *
      ((rawUpdateSteps cfg inp s).1 ⬝ᵥ (rawUpdateSteps cfg inp s).2.velocity) -
      cfg.learningRate * ((rawUpdateSteps cfg inp s).1 ⬝ᵥ inp.grad s.params)) := by
    simp only [s']
    rw [apply_qChange, r1, r2]
    obtain ⟨k1, k2, k3, k4, _⟩ := updatePrevLoss_keeps cfg inp s
    simp only [rawUpdateSteps, rawUpdateWith, hm, k2, k3, k4, adaptationTime, k1, ht, ha, hc]
    simp
  have hraw : (rawUpdateSteps cfg inp s).1 = inp.precon *ᵥ (rawUpdateSteps cfg inp s).2.velocity := by
    rw [r1]; simp only [clipUpdates, hn]
  rw [hq, hp]
  congr 1
  have hF : F *ᵥ (rawUpdateSteps cfg inp s).1 = (rawUpdateSteps cfg inp s).2.velocity := by
    rw [hraw, Matrix.mulVec_mulVec, hFP, Matrix.one_mulVec]
  simp only [quadratic, Matrix.mulVec_neg, Matrix.mulVec_smul, hF, dotProduct_smul,
    smul_dotProduct, neg_dotProduct, smul_eq_mul, dotProduct_neg, dotProduct_comm (inp.grad s.params)]
  ring

/-- With momentum type adam and a norm constraint the recorded change is not that of the model: one parameter at
0 with gradient 2 and curvature 1 is moved to -1 (clipped), the model changes by -3/2, recorded is -1. -/
theorem C43_adam_clipped_counterexample :
    let cfg := { clipDemoConfig with momentumType := .adam, adaptDamping := true }
    let s' := applyGradients cfg clipDemoInput (State.init (fun _ => 0) 1)
    s'.qChange = some (-1) ∧ s'.params = (fun _ => -1) ∧
    quadratic (1 : Matrix Unit Unit ℝ) (clipDemoInput.grad fun _ => 0) (s'.params - fun _ => 0) = -3 / 2 := by
  intro cfg s'
  have hclip := clipDemo_clip cfg rfl rfl
  obtain ⟨r1, r2⟩ := raw_adam cfg clipDemoInput (State.init (fun _ => 0) 1) rfl
  have hv : (rawUpdateSteps cfg clipDemoInput (State.init (fun _ => 0) 1)).2.velocity = fun _ => 2 := by
    rw [r2]; funext i; simp [State.init, clipDemoInput]
  have hraw : (rawUpdateSteps cfg clipDemoInput (State.init (fun _ => 0) 1)).1 = fun _ => 1 := by
    rw [r1, hv]
    simpa [clipDemoInput] using hclip
  have hp : s'.params = fun _ => -1 := by
    simp only [s']
    rw [apply_params, hraw]
    funext i
    simp [addWeightDecay, cfg, clipDemoConfig, State.init]
  refine ⟨?_, hp, ?_⟩
  · simp only [s']
    rw [apply_qChange]
    obtain ⟨k1, k2, k3, k4, _⟩ := updatePrevLoss_keeps cfg clipDemoInput (State.init (fun _ => 0) 1)
    have hclip' : clipUpdates cfg (fun _ : Unit => (2 : ℝ)) ((1 : Matrix Unit Unit ℝ) *ᵥ fun _ => 2) = fun _ => 1 := by
      rw [Matrix.one_mulVec]; exact hclip
    have hvel : cfg.momentum • (State.init (fun _ : Unit => (0 : ℝ)) 1).velocity + (fun _ => (2 : ℝ)) = fun _ => 2 := by
      funext i; simp [State.init]
    simp only [rawUpdateSteps, rawUpdateWith, k2, k4, adaptationTime, k1]
    simp only [show cfg.momentumType = .adam from rfl, clipDemoInput, hvel, hclip']
    rw [if_pos (by simp [cfg, clipDemoConfig, State.init])]
    simp [cfg, clipDemoConfig, dotProduct]
    norm_num
  · rw [hp]
    simp [quadratic, clipDemoInput, dotProduct]
    norm_num

end Kfac.Opt
