import Verif.Opt.Lemmas
import Mathlib.Tactic.Positivity
import Mathlib.Tactic.NormNum
import Mathlib.Tactic.FieldSimp
import Mathlib.Tactic.Ring
import Mathlib.Algebra.Order.BigOperators.Group.Finset
import Mathlib.LinearAlgebra.Matrix.Notation

/-! # C35-C36: damping adaptation -/

set_option linter.unusedSectionVars false

namespace Kfac.Opt

open Matrix

variable {ι κ : Type} [Fintype ι] [Fintype κ]

/-! ## C35 -/

/-- The Levenberg-Marquardt rule for a non-zero predicted change, with the reduction ratio stored. -/
theorem C35_rule (cfg : Config) (damping l0 l1 q : ℝ) (hq : q ≠ 0) :
    updateDamping cfg damping (some l0) (some l1) (some q) =
      (max (if (l1 < l0 ∧ 0 < q) ∨ cfg.decreaseThreshold < (l1 - l0) / q then
            damping * cfg.adaptationDecay ^ cfg.interval
          else if (l1 - l0) / q < cfg.increaseThreshold then damping / cfg.adaptationDecay ^ cfg.interval
          else damping) (cfg.minDamping + cfg.l2Reg),
        some (((l1 - l0) / q : ℝ) : EReal)) := by
  simp [updateDamping, divide, hq, Config.omega]

/-- If no change was predicted the ratio is infinite (or NaN if the loss did not change either): a higher loss
counts as a ratio above every threshold and lowers the damping, a lower loss raises it. -/
theorem C35_zero_prediction (cfg : Config) (damping l0 l1 : ℝ) :
    (updateDamping cfg damping (some l0) (some l1) (some 0)).1 =
      max (if l0 < l1 then damping * cfg.adaptationDecay ^ cfg.interval
          else if l1 < l0 then damping / cfg.adaptationDecay ^ cfg.interval
          else damping) (cfg.minDamping + cfg.l2Reg) ∧
    ((updateDamping cfg damping (some l0) (some l1) (some 0)).2 = none ↔ l0 = l1) := by
  rcases lt_trichotomy l0 l1 with h | h | h
  · have : ¬ l1 < l0 := not_lt.2 h.le
    simp [updateDamping, divide, Config.omega, h, this, h.ne]
  · subst h
    simp [updateDamping, divide]
  · have : ¬ l0 < l1 := not_lt.2 h.le
    simp [updateDamping, divide, Config.omega, h, this, h.ne']

/-- With a NaN loss or prediction the damping is only clamped. -/
theorem C35_nan (cfg : Config) (damping : ℝ) (a b q : Option ℝ) (h : a = none ∨ b = none ∨ q = none) :
    updateDamping cfg damping a b q = (max damping (cfg.minDamping + cfg.l2Reg), none) := by
  rcases a with _ | a <;> rcases b with _ | b <;> rcases q with _ | q <;>
    simp [updateDamping] at h ⊢

/-- The loss fell by 2, the prediction was a fall by 2.5: the ratio is 0.8, damping goes from 1 to 1/2. -/
example (cfg : Config) (h1 : cfg.decreaseThreshold = 3 / 4) (h2 : cfg.adaptationDecay = 1 / 2)
    (h3 : cfg.interval = 1) (h4 : cfg.minDamping = 1 / 10) (h5 : cfg.l2Reg = 0) :
    (updateDamping cfg 1 (some 5) (some 3) (some (-5 / 2))).1 = 1 / 2 := by
  rw [C35_rule _ _ _ _ _ (by norm_num), h1, h2, h3, h4, h5]
  norm_num

/-- One application of the rule: at least the bound, at most a factor omega up or down. -/
theorem updateDamping_bounds (cfg : Config) (damping : ℝ) (a b q : Option ℝ) (h0 : 0 < cfg.omega)
    (h1 : cfg.omega ≤ 1) (hd : 0 < damping) :
    cfg.minDamping + cfg.l2Reg ≤ (updateDamping cfg damping a b q).1 ∧
    damping * cfg.omega ≤ (updateDamping cfg damping a b q).1 ∧
    (updateDamping cfg damping a b q).1 ≤ max (damping / cfg.omega) (cfg.minDamping + cfg.l2Reg) := by
  have hle : damping * cfg.omega ≤ damping := by nlinarith
  have hge : damping ≤ damping / cfg.omega := by
    rw [le_div_iff₀ h0]; exact hle
  simp only [updateDamping]
  refine ⟨le_max_right _ _, le_trans ?_ (le_max_left _ _), max_le_max_right _ ?_⟩
  · split_ifs <;> linarith
  · split_ifs <;> linarith

/-- Spec: whether run `t` of the optimizer adapts the damping. -/
def AdaptsAt (cfg : Config) (t : ℕ) : Prop :=
  cfg.adaptDamping = true ∧
    ((cfg.immediate = true ∧ (t + 1) % cfg.interval = 0) ∨
     (cfg.immediate = false ∧ cfg.isChief = true ∧ t % cfg.interval = 0 ∧ t ≠ 0))

instance (cfg : Config) : DecidablePred (AdaptsAt cfg) := fun _ => by unfold AdaptsAt; infer_instance

/-- A run that adapts the damping applies the rule once, any other run keeps it. -/
theorem trace_damping (cfg : Config) (inputs : ℕ → StepIn ι κ) (s0 : State ι) (h0 : s0.counter = 0) (t : ℕ) :
    (AdaptsAt cfg t → ∃ a b q, (trace cfg inputs s0 (t + 1)).damping =
      (updateDamping cfg (trace cfg inputs s0 t).damping a b q).1) ∧
    (¬ AdaptsAt cfg t → (trace cfg inputs s0 (t + 1)).damping = (trace cfg inputs s0 t).damping) := by
  have hc : (trace cfg inputs s0 t).counter = t := by rw [trace_counter, h0, Nat.zero_add]
  have key : (trace cfg inputs s0 (t + 1)).damping =
      (optStep cfg (inputs t) (trace cfg inputs s0 t)).damping := rfl
  rw [key]
  generalize trace cfg inputs s0 t = s at hc
  rw [optStep, apply_damping]
  by_cases h : cfg.adaptDamping = false ∨ cfg.isChief = false ∨ cfg.immediate = true
  · rw [preUpdate_immediate cfg _ s h, hc]
    unfold AdaptsAt
    constructor
    · rintro ⟨ha, ⟨hi, ht⟩ | ⟨hi, hch, _⟩⟩
      · rw [if_neg (by simp [ha, hi]), if_pos ht]
        exact ⟨_, _, _, rfl⟩
      · simp [ha, hi, hch] at h
    · intro hn
      split_ifs with h1 h2
      · rfl
      · exact absurd ⟨by simpa using fun hh => h1 (.inr hh), .inl ⟨by simpa using fun hh => h1 (.inl hh), h2⟩⟩ hn
      · rfl
  · have hi : cfg.immediate = false := by simpa using fun hh => h (.inr (.inr hh))
    have ha : cfg.adaptDamping = true := by simpa using fun hh => h (.inl hh)
    have hch : cfg.isChief = true := by simpa using fun hh => h (.inr (.inl hh))
    rw [if_pos (.inl hi), preUpdate_damping cfg _ s h, hc]
    unfold AdaptsAt
    constructor
    · rintro ⟨_, ⟨hi', _⟩ | ⟨_, _, h1⟩⟩
      · rw [hi] at hi'; exact absurd hi' (by decide)
      · rw [if_pos h1]; exact ⟨_, _, _, rfl⟩
    · intro hn
      rw [if_neg]
      intro h1
      exact hn ⟨ha, .inr ⟨hi, hch, h1⟩⟩

/-- Over every run the damping stays positive; after the first adaptation it is at least the bound; once it is
at least the bound an adaptation changes it by at most a factor omega either way; and after `n` adaptations it
has grown by at most `1 / omega ^ n` from the larger of its initial value and the bound. -/
theorem C35_run (cfg : Config) (inputs : ℕ → StepIn ι κ) (s0 : State ι) (hs : s0.counter = 0)
    (hd : 0 < s0.damping) (h0 : 0 < cfg.adaptationDecay) (h1 : cfg.adaptationDecay ≤ 1) (t : ℕ) :
    let damping := fun t => (trace cfg inputs s0 t).damping
    let omega := cfg.adaptationDecay ^ cfg.interval
    let bound := cfg.minDamping + cfg.l2Reg
    0 < damping t ∧
    ((∃ u < t, AdaptsAt cfg u) → bound ≤ damping t) ∧
    (AdaptsAt cfg t → damping t * omega ≤ damping (t + 1) ∧ (bound ≤ damping t → damping (t + 1) ≤ damping t / omega)) ∧
    (¬ AdaptsAt cfg t → damping (t + 1) = damping t) ∧
    damping t ≤ max s0.damping bound / omega ^ ((Finset.range t).filter (AdaptsAt cfg)).card ∧
    s0.damping * omega ^ ((Finset.range t).filter (AdaptsAt cfg)).card ≤ damping t := by
  intro damping omega bound
  have ho : 0 < omega := pow_pos h0 _
  have ho1 : omega ≤ 1 := pow_le_one₀ h0.le h1
  have hom : cfg.omega = omega := rfl
  have step : ∀ t, (AdaptsAt cfg t → 0 < damping t → bound ≤ damping (t + 1) ∧ damping t * omega ≤ damping (t + 1) ∧
      damping (t + 1) ≤ max (damping t / omega) bound) ∧
      (¬ AdaptsAt cfg t → damping (t + 1) = damping t) := by
    intro t
    obtain ⟨ha, hn⟩ := trace_damping cfg inputs s0 hs t
    refine ⟨fun h hpos => ?_, hn⟩
    obtain ⟨a, b, q, e⟩ := ha h
    have := updateDamping_bounds cfg (damping t) a b q ho ho1 hpos
    rw [← e] at this
    exact this
  have hpos : ∀ t, 0 < damping t := by
    intro t
    induction t with
    | zero => exact hd
    | succ t ih =>
      by_cases h : AdaptsAt cfg t
      · exact lt_of_lt_of_le (mul_pos ih ho) ((step t).1 h ih).2.1
      · rw [(step t).2 h]; exact ih
  have hbound : ∀ t, (∃ u < t, AdaptsAt cfg u) → bound ≤ damping t := by
    intro t
    induction t with
    | zero => rintro ⟨u, hu, _⟩; omega
    | succ t ih =>
      rintro ⟨u, hu, hau⟩
      by_cases h : AdaptsAt cfg t
      · exact ((step t).1 h (hpos t)).1
      · rw [(step t).2 h]
        refine ih ⟨u, ?_, hau⟩
        rcases Nat.lt_succ_iff_lt_or_eq.1 hu with hlt | rfl
        · exact hlt
        · exact absurd hau h
  have hcard : ∀ t, ((Finset.range (t + 1)).filter (AdaptsAt cfg)).card =
      ((Finset.range t).filter (AdaptsAt cfg)).card + if AdaptsAt cfg t then 1 else 0 := by
    intro t
    rw [Finset.range_add_one, Finset.filter_insert]
    split_ifs with h
    · rw [Finset.card_insert_of_notMem (by simp)]
    · rfl
  have hup : ∀ t, damping t ≤ max s0.damping bound / omega ^ ((Finset.range t).filter (AdaptsAt cfg)).card := by
    intro t
    induction t with
    | zero => simp only [Finset.range_zero, Finset.filter_empty, Finset.card_empty, pow_zero, div_one]
              exact le_max_left _ _
    | succ t ih =>
      rw [hcard]
      by_cases h : AdaptsAt cfg t
      · rw [if_pos h, pow_succ, ← div_div]
        refine le_trans ((step t).1 h (hpos t)).2.2 (max_le (div_le_div_of_nonneg_right ih ho.le) ?_)
        rw [div_div, ← pow_succ, le_div_iff₀ (pow_pos ho _)]
        have hm : 0 < max s0.damping bound := lt_of_lt_of_le hd (le_max_left _ _)
        have hp1 := pow_le_one₀ (n := ((Finset.range t).filter (AdaptsAt cfg)).card + 1) ho.le ho1
        have hp0 := pow_pos ho (((Finset.range t).filter (AdaptsAt cfg)).card + 1)
        calc bound * omega ^ _ ≤ max s0.damping bound * omega ^ _ :=
              mul_le_mul_of_nonneg_right (le_max_right _ _) hp0.le
          _ ≤ _ := mul_le_of_le_one_right hm.le hp1
      · rw [if_neg h, Nat.add_zero, (step t).2 h]; exact ih
  have hlow : ∀ t, s0.damping * omega ^ ((Finset.range t).filter (AdaptsAt cfg)).card ≤ damping t := by
    intro t
    induction t with
    | zero => simp [damping, trace]
    | succ t ih =>
      rw [hcard]
      by_cases h : AdaptsAt cfg t
      · rw [if_pos h, pow_succ, ← mul_assoc]
        exact le_trans (mul_le_mul_of_nonneg_right ih ho.le) ((step t).1 h (hpos t)).2.1
      · rw [if_neg h, Nat.add_zero, (step t).2 h]; exact ih
  refine ⟨hpos t, hbound t, fun h => ⟨((step t).1 h (hpos t)).2.1, fun hb => ?_⟩, (step t).2, hup t, hlow t⟩
  have hge : damping t ≤ damping t / omega := by
    rw [le_div_iff₀ ho]; nlinarith [hpos t]
  have := ((step t).1 h (hpos t)).2.2
  rwa [max_eq_left (hb.trans hge)] at this

/-! ## C36 -/

/-- Spec: the predicted change of a run at parameters `params` with velocity `velocity` and damping `damping`;
nothing else of the state enters. (What it predicts is C42 and C43.) -/
noncomputable def predicted (cfg : Config) (inp : StepIn ι κ) (params velocity : Vec ι) (damping : ℝ) : ℝ :=
  let g := inp.grad params
  match cfg.momentumType with
  | .regular =>
    approxQmodelChange cfg damping inp.curv
      (-(cfg.learningRate • (cfg.momentum • velocity + clipUpdates cfg g (inp.precon *ᵥ g)))) g
  | .adam =>
    let v := cfg.momentum • velocity + g
    let raw := clipUpdates cfg v (inp.precon *ᵥ v)
    cfg.learningRate ^ 2 / 2 * (raw ⬝ᵥ v) - cfg.learningRate * (raw ⬝ᵥ g)
  | .qmodel => (qmodelHyperparams cfg damping
      (computeQmodel damping inp.factor inp.batchSize (inp.precon *ᵥ g) (-velocity) g) none).2.2
  | .qmodelFixedMu => (qmodelHyperparams cfg damping
      (computeQmodel damping inp.factor inp.batchSize (inp.precon *ᵥ g) (-velocity) g) (some cfg.momentum)).2.2

/-- Spec: the loss recorded before the update of a run. -/
def recordedLoss (cfg : Config) (inp : StepIn ι κ) (params : Vec ι) : ℝ :=
  if cfg.usePassedLoss then inp.passedLoss params else inp.fnLoss params

/-- What `apply_gradients` leaves in the variables at an adaptation step. -/
theorem apply_records (cfg : Config) (inp : StepIn ι κ) (s : State ι) (ha : cfg.adaptDamping = true)
    (hc : cfg.isChief = true) (ht : (s.counter + 1) % cfg.interval = 0) :
    (applyGradients cfg inp s).prevLoss = some (recordedLoss cfg inp s.params) ∧
    (applyGradients cfg inp s).qChange = some (predicted cfg inp s.params s.velocity s.damping) := by
  obtain ⟨k1, k2, k3, k4, _⟩ := updatePrevLoss_keeps cfg inp s
  constructor
  · rw [apply_prevLoss, updatePrevLoss, if_pos ⟨ha, by simp [adaptationTime, ht]⟩]
    rfl
  · rw [apply_qChange]
    simp only [rawUpdateSteps, rawUpdateWith, predicted, k2, k3, k4, adaptationTime, k1, ht, ha, hc]
    rcases cfg.momentumType <;> simp
    · rw [add_comm]
    · left
      ring

/-- Immediate adaptation on the chief: run `t` changes the damping exactly if `t + 1` is a multiple of the
interval, and then by the rule with the loss recorded before the update of this very run, the loss of the same
batch after it, and the change predicted for it; all three are numbers. -/
theorem C36_immediate_partial (cfg : Config) (inputs : ℕ → StepIn ι κ) (s0 : State ι) (h0 : s0.counter = 0)
    (ha : cfg.adaptDamping = true) (hi : cfg.immediate = true) (hc : cfg.isChief = true) (t : ℕ) :
    let s := trace cfg inputs s0
    (s (t + 1)).damping =
      if (t + 1) % cfg.interval = 0 then
        (updateDamping cfg (s t).damping (some (recordedLoss cfg (inputs t) (s t).params))
          (some ((inputs t).fnLoss (s (t + 1)).params))
          (some (predicted cfg (inputs t) (s t).params (s t).velocity (s t).damping))).1
      else (s t).damping := by
  intro s
  have hct : (s t).counter = t := by simp only [s]; rw [trace_counter, h0, Nat.zero_add]
  have hs : s (t + 1) = applyGradients cfg (inputs t) (s t) := by
    simp only [s, trace, optStep]
    rw [preUpdate_immediate _ _ _ (.inr (.inr hi))]
  rw [hs, apply_damping, if_neg (by simp [ha, hi]), hct]
  split_ifs with ht
  · rw [← hct] at ht
    obtain ⟨h1, h2⟩ := apply_records cfg (inputs t) (s t) ha hc ht
    rw [h1, h2]
  · rfl

/-- Delayed adaptation on the chief: run `t` changes the damping, before it does anything else, exactly if `t`
is a positive multiple of the interval, and then by the rule with the loss recorded before the update of run
`t - 1`, the loss of `prev_train_batch` after that update, and the change predicted for that update (computed
with the damping that was in force then); all three are numbers. -/
theorem C36_delayed (cfg : Config) (inputs : ℕ → StepIn ι κ) (s0 : State ι) (h0 : s0.counter = 0)
    (ha : cfg.adaptDamping = true) (hi : cfg.immediate = false) (hc : cfg.isChief = true) (t : ℕ) :
    let s := trace cfg inputs s0
    (s 1).damping = (s 0).damping ∧
    (s (t + 2)).damping = (preUpdate cfg (inputs (t + 1)) (s (t + 1))).damping ∧
    (s (t + 2)).damping =
      if (t + 1) % cfg.interval = 0 then
        (updateDamping cfg (s (t + 1)).damping (some (recordedLoss cfg (inputs t) (s t).params))
          (some ((inputs (t + 1)).prevFnLoss (s (t + 1)).params))
          (some (predicted cfg (inputs t) (s t).params (s t).velocity (s (t + 1)).damping))).1
      else (s (t + 1)).damping := by
  intro s
  have hct : ∀ t, (s t).counter = t := by
    intro t; simp only [s]; rw [trace_counter, h0, Nat.zero_add]
  have hpre : ¬ (cfg.adaptDamping = false ∨ cfg.isChief = false ∨ cfg.immediate = true) := by
    simp [ha, hi, hc]
  have hs : ∀ t, s (t + 1) = applyGradients cfg (inputs t) (preUpdate cfg (inputs t) (s t)) := fun _ => rfl
  have hd : ∀ t, (s (t + 1)).damping = (preUpdate cfg (inputs t) (s t)).damping := by
    intro t
    rw [hs, apply_damping, if_pos (.inl hi)]
  refine ⟨?_, hd (t + 1), ?_⟩
  · rw [hd 0, preUpdate_damping _ _ _ hpre, if_neg (by simp [hct 0])]
  · rw [hd (t + 1), preUpdate_damping _ _ _ hpre, hct (t + 1)]
    by_cases ht : (t + 1) % cfg.interval = 0
    · rw [if_pos ⟨ht, by omega⟩, if_pos ht]
      obtain ⟨k1, k2, k3, _⟩ := preUpdate_keeps cfg (inputs t) (s t)
      obtain ⟨r1, r2⟩ := apply_records cfg (inputs t) (preUpdate cfg (inputs t) (s t)) ha hc
        (by rw [k1, hct t]; exact ht)
      rw [← hs t, k2] at r1
      rw [← hs t, k2, k3, ← hd t] at r2
      rw [r1, r2]
    · rw [if_neg (fun h => ht h.1), if_neg ht]

/-- Without adaptation, and on workers other than the chief with delayed adaptation, the damping is constant. -/
theorem C36_constant (cfg : Config) (inputs : ℕ → StepIn ι κ) (s0 : State ι) (h0 : s0.counter = 0)
    (h : cfg.adaptDamping = false ∨ (cfg.immediate = false ∧ cfg.isChief = false)) (t : ℕ) :
    (trace cfg inputs s0 t).damping = s0.damping := by
  induction t with
  | zero => rfl
  | succ t ih =>
    rw [(trace_damping cfg inputs s0 h0 t).2, ih]
    rintro ⟨ha, ⟨hi, _⟩ | ⟨hi, hc, _⟩⟩ <;> rcases h with h | ⟨h, h'⟩ <;> simp_all

/-- The number of adaptations during the first `t` runs: every complete interval once. -/
theorem C36_count (cfg : Config) (ha : cfg.adaptDamping = true) (t : ℕ) :
    (cfg.immediate = true → ((Finset.range t).filter (AdaptsAt cfg)).card = t / cfg.interval) ∧
    (cfg.immediate = false → cfg.isChief = true →
      ((Finset.range t).filter (AdaptsAt cfg)).card = (t - 1) / cfg.interval) := by
  have hcard : ∀ t, ((Finset.range (t + 1)).filter (AdaptsAt cfg)).card =
      ((Finset.range t).filter (AdaptsAt cfg)).card + if AdaptsAt cfg t then 1 else 0 := by
    intro t
    rw [Finset.range_add_one, Finset.filter_insert]
    split_ifs with h
    · rw [Finset.card_insert_of_notMem (by simp)]
    · rfl
  constructor
  · intro hi
    induction t with
    | zero => simp
    | succ t ih =>
      rw [hcard, ih, Nat.succ_div]
      simp [AdaptsAt, ha, hi, Nat.dvd_iff_mod_eq_zero]
  · intro hi hc
    induction t with
    | zero => simp
    | succ t ih =>
      rw [hcard, ih]
      rcases t with _ | t
      · simp [AdaptsAt, hi]
      · rw [Nat.add_sub_cancel, Nat.add_sub_cancel, Nat.succ_div]
        simp [AdaptsAt, ha, hi, hc, Nat.dvd_iff_mod_eq_zero]

/-- On a worker that is not the chief, immediate adaptation (which does not check for it) with momentum type
regular or adam uses a predicted change that was never recorded: the ratio is NaN at every adaptation of every
run and the damping is only ever clamped. -/
theorem C36_not_chief_counterexample (cfg : Config) (inputs : ℕ → StepIn ι κ) (params : Vec ι) (damping : ℝ)
    (ha : cfg.adaptDamping = true) (hi : cfg.immediate = true) (hc : cfg.isChief = false)
    (hm : cfg.momentumType = .regular ∨ cfg.momentumType = .adam) (t : ℕ) :
    (trace cfg inputs (State.init params damping) t).qChange = none ∧
    (trace cfg inputs (State.init params damping) t).rho = none ∧
    ((trace cfg inputs (State.init params damping) t).damping = damping ∨
      (trace cfg inputs (State.init params damping) t).damping = max damping (cfg.minDamping + cfg.l2Reg)) := by
  induction t with
  | zero => simp [trace, State.init]
  | succ t ih =>
    have hs : trace cfg inputs (State.init params damping) (t + 1) =
        applyGradients cfg (inputs t) (trace cfg inputs (State.init params damping) t) := by
      simp only [trace, optStep]
      rw [preUpdate_immediate _ _ _ (.inr (.inr hi))]
    rw [hs]
    generalize trace cfg inputs (State.init params damping) t = s at ih
    obtain ⟨i1, i2, i3⟩ := ih
    have hraw : ∀ s' : State ι, (rawUpdateSteps cfg (inputs t) s').2.qChange = s'.qChange := by
      intro s'
      simp only [rawUpdateSteps, rawUpdateWith]
      rcases hm with hm | hm <;> simp [hm, hc]
    have hq : (applyGradients cfg (inputs t) s).qChange = none := by
      rw [apply_qChange, hraw, (updatePrevLoss_keeps _ _ _).2.2.2.2, i1]
    refine ⟨hq, ?_, ?_⟩
    · simp only [applyGradients, postUpdate]
      rw [if_neg (by simp [ha, hi])]
      split_ifs
      · simp only
        rw [C35_nan]
        rw [hraw, (updatePrevLoss_keeps _ _ _).2.2.2.2, i1]
        exact .inr (.inr rfl)
      · simp only
        rw [(raw_keeps _ _ _).2.2.2.2]
        unfold updatePrevLoss
        split_ifs <;> exact i2
    · rw [apply_damping, if_neg (by simp [ha, hi]), hq]
      split_ifs
      · rw [C35_nan _ _ _ _ _ (.inr (.inr rfl))]
        rcases i3 with h | h <;> rw [h] <;> simp
      · exact i3

/-! ### A concrete run -/

/-- Half the square of one parameter, learning rate 1/2, no momentum, damping adapted in every run. -/
noncomputable def demoConfig : Config :=
  { momentumType := .regular, learningRate := 1 / 2, momentum := 0, normConstraint := none, weightDecay := none,
    adaptDamping := true, immediate := true, isChief := true, adaptationDecay := 1 / 2, interval := 1,
    minDamping := 1 / 10, l2Reg := 0, decreaseThreshold := 3 / 4, increaseThreshold := 1 / 4,
    usePassedLoss := true, rescale := none, includeDamping := false }

noncomputable def demoInput : StepIn Unit Unit :=
  { passedLoss := fun x => x () ^ 2 / 2, fnLoss := fun x => x () ^ 2 / 2, prevFnLoss := fun x => x () ^ 2 / 2,
    grad := id, precon := 1, curv := 2, factor := 1, batchSize := 1 }

theorem demo_params (b : Bool) :
    (trace { demoConfig with immediate := b } (fun _ => demoInput) (State.init (fun _ => 2) 1) 1).params =
      fun _ => 1 := by
  simp only [trace, optStep]
  rw [apply_params, (preUpdate_keeps _ _ _).2.1]
  have h : (rawUpdateSteps { demoConfig with immediate := b } demoInput
      (preUpdate { demoConfig with immediate := b } demoInput (State.init (fun _ => 2) 1))).1 =
      (rawUpdateSteps { demoConfig with immediate := b } demoInput (State.init (fun _ => 2) 1)).1 := by
    refine (raw_congr _ _ _ _ (preUpdate_keeps _ _ _).2.1 (preUpdate_keeps _ _ _).2.2.1 ?_).1
    rcases b
    · rw [preUpdate_damping _ _ _ (by simp [demoConfig])]
      simp [State.init]
    · rw [preUpdate_immediate _ _ _ (by simp)]
  rw [h]
  funext i
  simp [State.init, demoConfig, demoInput, addWeightDecay, rawUpdateSteps, rawUpdateWith, clipUpdates,
    adaptationTime]
  norm_num

theorem demo_predicted (b : Bool) :
    predicted { demoConfig with immediate := b } demoInput (fun _ => 2) 0 1 = -3 / 2 := by
  have h2 : (2 : Matrix Unit Unit ℝ) *ᵥ (fun _ => (-1 : ℝ)) = fun _ => -2 := by
    rw [show (2 : Matrix Unit Unit ℝ) = 1 + 1 by norm_num, Matrix.add_mulVec, Matrix.one_mulVec]
    funext i; simp; norm_num
  have h1 : (-((1 / 2 : ℝ) • ((0 : ℝ) • (0 : Vec Unit) + fun _ => (2 : ℝ)))) = fun _ => (-1 : ℝ) := by
    funext i; simp
  have e : predicted { demoConfig with immediate := b } demoInput (fun _ => 2) 0 1 =
      approxQmodelChange demoConfig 1 (2 : Matrix Unit Unit ℝ) (fun _ => -1) (fun _ => 2) := by
    simp only [predicted, demoConfig, demoInput, clipUpdates, Matrix.one_mulVec, id]
    rw [h1]
    rfl
  rw [e, approxQmodelChange, h2]
  simp [demoConfig, subDampingCoeff, dotProduct]
  norm_num

/-- From parameter 2 and damping 1 the step goes to 1: the loss falls by 3/2 as predicted, the ratio is 1 and
the damping is halved. -/
theorem demo_damping :
    (trace demoConfig (fun _ => demoInput) (State.init (fun _ => 2) 1) 1).damping = 1 / 2 := by
  have h := C36_immediate_partial demoConfig (fun _ => demoInput) (State.init (fun _ => 2) 1) rfl rfl rfl rfl 0
  simp only at h
  rw [h, if_pos (show (0 + 1) % demoConfig.interval = 0 from rfl), Nat.zero_add,
    show (trace demoConfig (fun _ => demoInput) (State.init (fun _ => 2) 1) 1).params = fun _ => 1
      from demo_params true]
  change (updateDamping demoConfig 1 _ _ (some (predicted demoConfig demoInput (fun _ => 2) 0 1))).1 = _
  rw [show predicted demoConfig demoInput (fun _ => 2) 0 1 = -3 / 2 from demo_predicted true,
    C35_rule _ _ _ _ _ (by norm_num)]
  simp [recordedLoss, demoConfig, demoInput, trace, State.init]
  norm_num

/-- The same with delayed adaptation: the damping changes at the start of the second run. -/
theorem demo_damping_delayed :
    let cfg := { demoConfig with immediate := false }
    let s := trace cfg (fun _ => demoInput) (State.init (fun _ => 2) 1)
    (s 1).damping = 1 ∧ (preUpdate cfg demoInput (s 1)).damping = 1 / 2 := by
  intro cfg s
  obtain ⟨h1, h2, h3⟩ := C36_delayed cfg (fun _ => demoInput) (State.init (fun _ => 2) 1) rfl rfl rfl rfl 0
  have h1' : (s 1).damping = 1 := h1
  refine ⟨h1', ?_⟩
  rw [← h2, h3, if_pos (by simp [cfg, demoConfig])]
  change (updateDamping cfg (s 1).damping _ (some (demoInput.prevFnLoss (s 1).params))
    (some (predicted cfg demoInput (fun _ => 2) 0 (s 1).damping))).1 = _
  rw [h1', show (s 1).params = fun _ => 1 from demo_params false,
    show predicted cfg demoInput (fun _ => 2) 0 1 = -3 / 2 from demo_predicted false,
    C35_rule _ _ _ _ _ (by norm_num)]
  simp [recordedLoss, cfg, demoConfig, demoInput, trace, State.init]
  norm_num

end Kfac.Opt
