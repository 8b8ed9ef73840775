import Verif.Opt.PropsDamping
import Verif.Opt.PropsQmodel
import Mathlib.Tactic.Linarith
import Mathlib.Tactic.IntervalCases
import Mathlib.Tactic.FinCases
import Mathlib.Tactic.Abel
import Mathlib.Tactic.Ring
import Mathlib.Tactic.FieldSimp

/-!
# C97: on a quadratic loss the quadratic model is exact

Spec: the loss is one quadratic function of the parameters whose curvature is the exact curvature matrix of the
optimizer plus the l2 coefficient. Then the change recorded by the optimizer is the change of the loss, the
reduction ratio is one, damping adaptation only lowers the damping and the loss converges linearly.
-/

set_option linter.unusedSectionVars false

namespace Kfac.Opt

open Matrix

variable {ι κ : Type} [Fintype ι] [Fintype κ]

/-- Spec: every loss the optimizer looks at is `f`, and `f` is quadratic with gradient `inp.grad` and Hessian
`factor factorᵀ / batchSize + l2_reg I`. -/
structure Quadratic (cfg : Config) (f : Vec ι → ℝ) (inp : StepIn ι κ) : Prop where
  recorded : ∀ x, recordedLoss cfg inp x = f x
  after : ∀ x, inp.fnLoss x = f x
  delayed : ∀ x, inp.prevFnLoss x = f x
  size : 0 < inp.batchSize
  taylor : ∀ x d, f (x + d) = f x + inp.grad x ⬝ᵥ d +
    1 / 2 * ((inp.factorᵀ *ᵥ d) ⬝ᵥ (inp.factorᵀ *ᵥ d) / inp.batchSize + cfg.l2Reg * (d ⬝ᵥ d))

/-- Spec: the system for the two coefficients is not singular: the preconditioned gradient is not zero and,
unless the velocity is orthogonal to the gradient, independent of the velocity. -/
def Solvable (inp : StepIn ι κ) (params velocity : Vec ι) : Prop :=
  inp.precon *ᵥ inp.grad params ≠ 0 ∧
  (inp.grad params ⬝ᵥ velocity ≠ 0 →
    ∀ a m : ℝ, a • (inp.precon *ᵥ inp.grad params) + m • velocity = 0 → a = 0 ∧ m = 0)

/-- Spec: the options under which the optimizer minimises its model of the loss itself. -/
structure ExactOptions (cfg : Config) : Prop where
  type : cfg.momentumType = .qmodel
  decay : cfg.weightDecay = none
  rate : cfg.learningRate = cfg.rescale.getD 1
  damping : cfg.includeDamping = false

theorem dot_self_nonneg {α : Type} [Fintype α] (d : α → ℝ) : 0 ≤ d ⬝ᵥ d :=
  Finset.sum_nonneg fun _ _ => mul_self_nonneg _

theorem dot_self_pos {α : Type} [Fintype α] {d : α → ℝ} (hd : d ≠ 0) : 0 < d ⬝ᵥ d := by
  refine lt_of_le_of_ne (dot_self_nonneg d) (fun h => hd ?_)
  have := (Finset.sum_eq_zero_iff_of_nonneg (s := Finset.univ) (f := fun i => d i * d i)
    (fun i _ => mul_self_nonneg _)).1 h.symm
  funext i
  exact mul_self_eq_zero.1 (this i (Finset.mem_univ i))

/-- In the orthogonal case the coefficients are those without velocity. -/
theorem qmodelHyperparams_ortho (cfg : Config) (l : ℝ) (B : Matrix ι κ ℝ) (n : ℝ) (g p v : Vec ι)
    (h : g ⬝ᵥ v = 0) :
    qmodelHyperparams cfg l (computeQmodel l B n p v g) none =
      qmodelHyperparams cfg l (computeQmodel l B n p 0 g) none ∧
    (qmodelHyperparams cfg l (computeQmodel l B n p v g) none).2.1 = 0 := by
  have h1 : (computeQmodel l B n p v g).c2 = 0 := h
  have h2 : (computeQmodel l B n p 0 g).c2 = 0 := by simp [computeQmodel]
  constructor
  · rw [qmodelHyperparams, qmodelHyperparams, if_pos h1, if_pos h2]
    rfl
  · rw [qmodelHyperparams, if_pos h1]
    rcases cfg.rescale <;> rfl

/-- One update of the quadratic-model optimizer in every solvable case. -/
theorem qmodel_step (cfg : Config) (inp : StepIn ι κ) (s : State ι) (ho : ExactOptions cfg)
    (hl : 0 < s.damping) (hn : 0 < inp.batchSize) (hs : Solvable inp s.params s.velocity) :
    let g := inp.grad s.params
    let p := inp.precon *ᵥ g
    let s' := applyGradients cfg inp s
    (∀ t : ℝ, qvalue s.damping inp.factor inp.batchSize g (-s'.velocity) ≤
      qvalue s.damping inp.factor inp.batchSize g (t • (-s'.velocity))) ∧
    (∀ a : ℝ, qvalue s.damping inp.factor inp.batchSize g (-s'.velocity) ≤
      qvalue s.damping inp.factor inp.batchSize g (a • p)) ∧
    s'.params - s.params = cfg.rescale.getD 1 • (-s'.velocity) ∧
    s'.qChange = some (qvalue cfg.l2Reg inp.factor inp.batchSize g (s'.params - s.params)) := by
  intro g p s'
  have hleft : leftDamping cfg s.damping = cfg.l2Reg := by simp [leftDamping, ho.damping]
  by_cases ho2 : g ⬝ᵥ s.velocity = 0
  · obtain ⟨h1, h2, h3⟩ := apply_qmodel cfg inp s none (.inl ⟨ho.type, rfl⟩)
    obtain ⟨e1, e2⟩ := qmodelHyperparams_ortho cfg s.damping inp.factor inp.batchSize g p (-s.velocity)
      (by rw [dotProduct_neg, ho2, neg_zero])
    obtain ⟨q1, q2⟩ := qmodelHyperparams_none cfg hl inp.factor hn g p 0 (.inl ⟨rfl, hs.1⟩)
    have hd : s'.params - s.params = cfg.rescale.getD 1 • (-s'.velocity) := by
      rw [h3, ho.rate]; simp only [addWeightDecay, ho.decay]; simp; rfl
    have hv : -s'.velocity = (qmodelHyperparams cfg s.damping
        (computeQmodel s.damping inp.factor inp.batchSize p 0 g) none).1 • p := by
      have h1' : -s'.velocity = _ := h1
      rw [h1', e2, zero_smul, add_zero, e1]
    refine ⟨fun t => ?_, fun a => ?_, hd, ?_⟩
    · have := q1 (t * (qmodelHyperparams cfg s.damping
        (computeQmodel s.damping inp.factor inp.batchSize p 0 g) none).1) 0
      rw [smul_zero, smul_zero, add_zero, add_zero, mul_smul, ← hv] at this
      exact this
    · have := q1 a 0
      rw [smul_zero, smul_zero, add_zero, add_zero, ← hv] at this
      exact this
    · have h2' : s'.qChange = _ := h2
      rw [h2', e1, q2, smul_zero, add_zero, ← hv, hd, hleft]
  · obtain ⟨⟨a, m, hv⟩, hmin, hd, hq⟩ := C42_qmodel_partial cfg inp s ho.type ho.decay ho.rate hl hn
      (.inr ⟨ho2, hs.2 ho2⟩)
    rw [hleft] at hq
    refine ⟨fun t => ?_, fun b => ?_, ho.rate ▸ hd, hq⟩
    · have := hmin (t * a) (t * m)
      rw [mul_smul, mul_smul, ← smul_add, ← hv] at this
      exact this
    · have := hmin b 0
      rw [zero_smul, add_zero] at this
      exact this

/-- The value of the model along a ray whose minimum is at one. -/
theorem qvalue_ray (l : ℝ) (B : Matrix ι κ ℝ) (n : ℝ) (g d : Vec ι) (t : ℝ) :
    qvalue l B n g (t • d) =
      t ^ 2 * (1 / 2 * ((Bᵀ *ᵥ d) ⬝ᵥ (Bᵀ *ᵥ d) / n + l * (d ⬝ᵥ d))) + t * (g ⬝ᵥ d) := by
  simp only [qvalue, mulVec_smul, dotProduct_smul, smul_dotProduct, smul_eq_mul]
  ring

theorem qvalue_rescale {l : ℝ} (hl : 0 < l) (B : Matrix ι κ ℝ) {n : ℝ} (hn : 0 < n) (g d : Vec ι)
    (hmin : ∀ t : ℝ, qvalue l B n g d ≤ qvalue l B n g (t • d)) (r : ℝ) :
    qvalue l B n g (r • d) = r * (2 - r) * qvalue l B n g d := by
  by_cases hd : d = 0
  · subst hd
    simp [qvalue]
  have hA := qform_pos hl B hn hd
  have e1 := qvalue_ray l B n g d 1
  rw [one_smul] at e1
  set A := (Bᵀ *ᵥ d) ⬝ᵥ (Bᵀ *ᵥ d) / n + l * (d ⬝ᵥ d)
  set G := g ⬝ᵥ d
  have h := hmin (-G / A)
  rw [qvalue_ray, e1] at h
  have e : (-G / A) ^ 2 * (1 / 2 * A) + -G / A * G = -(G ^ 2 / (2 * A)) := by
    field_simp; ring
  have h' : 1 ^ 2 * (1 / 2 * A) + 1 * G ≤ -(G ^ 2 / (2 * A)) := by rw [← e]; exact h
  have h2 : (A + G) ^ 2 ≤ 0 := by
    have : (1 ^ 2 * (1 / 2 * A) + 1 * G) * (2 * A) ≤ -(G ^ 2 / (2 * A)) * (2 * A) :=
      mul_le_mul_of_nonneg_right h' (by linarith)
    rw [neg_mul, div_mul_cancel₀ _ (by positivity)] at this
    nlinarith
  have h3 : G = -A := by nlinarith [sq_nonneg (A + G), pow_eq_zero_iff (two_ne_zero) |>.1 (le_antisymm h2 (sq_nonneg _))]
  rw [qvalue_ray, e1]
  change r ^ 2 * (1 / 2 * A) + r * G = r * (2 - r) * (1 ^ 2 * (1 / 2 * A) + 1 * G)
  rw [h3]; ring

/-- One update on a quadratic loss: the recorded change is the change of the loss, and the loss falls at least
by what the best step along the preconditioned gradient gains in the damped model, scaled by the rescaling. -/
theorem C97_step (cfg : Config) (f : Vec ι → ℝ) (inp : StepIn ι κ) (s : State ι) (ho : ExactOptions cfg)
    (hf : Quadratic cfg f inp) (hl : 0 < s.damping) (hs : Solvable inp s.params s.velocity) :
    let g := inp.grad s.params
    let p := inp.precon *ᵥ g
    let r := cfg.rescale.getD 1
    let s' := applyGradients cfg inp s
    s'.qChange = some (f s'.params - f s.params) ∧
    (cfg.l2Reg ≤ s.damping → 0 ≤ r → r ≤ 2 →
      f s'.params ≤ f s.params - r * (2 - r) * (g ⬝ᵥ p) ^ 2 /
        (2 * ((inp.factorᵀ *ᵥ p) ⬝ᵥ (inp.factorᵀ *ᵥ p) / inp.batchSize + s.damping * (p ⬝ᵥ p)))) := by
  intro g p r s'
  obtain ⟨h1, h2, h3, h4⟩ := qmodel_step cfg inp s ho hl hf.size hs
  have hdelta : f s'.params - f s.params = qvalue cfg.l2Reg inp.factor inp.batchSize g (s'.params - s.params) := by
    have := hf.taylor s.params (s'.params - s.params)
    rw [add_sub_cancel] at this
    rw [this, qvalue]
    ring
  refine ⟨by rw [h4, hdelta], fun hl2 hr0 hr2 => ?_⟩
  have hA := qform_pos hl inp.factor hf.size hs.1
  have hle : qvalue cfg.l2Reg inp.factor inp.batchSize g (s'.params - s.params) ≤
      qvalue s.damping inp.factor inp.batchSize g (s'.params - s.params) := by
    simp only [qvalue]
    have := mul_le_mul_of_nonneg_right hl2 (dot_self_nonneg (s'.params - s.params))
    linarith
  have hres := qvalue_rescale hl inp.factor hf.size g _ h1 r
  have hray := h2 (-(g ⬝ᵥ p) / ((inp.factorᵀ *ᵥ p) ⬝ᵥ (inp.factorᵀ *ᵥ p) / inp.batchSize + s.damping * (p ⬝ᵥ p)))
  rw [qvalue_ray] at hray
  rw [h3] at hle hdelta
  rw [hres] at hle
  change 0 < (inp.factorᵀ *ᵥ p) ⬝ᵥ (inp.factorᵀ *ᵥ p) / inp.batchSize + s.damping * (p ⬝ᵥ p) at hA
  generalize (inp.factorᵀ *ᵥ p) ⬝ᵥ (inp.factorᵀ *ᵥ p) / inp.batchSize + s.damping * (p ⬝ᵥ p) = A at hA hray ⊢
  have e : (-(g ⬝ᵥ p) / A) ^ 2 * (1 / 2 * A) + -(g ⬝ᵥ p) / A * (g ⬝ᵥ p) = -((g ⬝ᵥ p) ^ 2 / (2 * A)) := by
    field_simp; ring
  have hray' : qvalue s.damping inp.factor inp.batchSize g (-s'.velocity) ≤ -((g ⬝ᵥ p) ^ 2 / (2 * A)) := by
    rw [← e]; exact hray
  have hrr : 0 ≤ r * (2 - r) := mul_nonneg hr0 (by linarith)
  have := mul_le_mul_of_nonneg_left hray' hrr
  have e2 : r * (2 - r) * (g ⬝ᵥ p) ^ 2 / (2 * A) = r * (2 - r) * ((g ⬝ᵥ p) ^ 2 / (2 * A)) := by ring
  rw [e2]
  have hl' : f s'.params - f s.params ≤ r * (2 - r) * qvalue s.damping inp.factor inp.batchSize g (-s'.velocity) := by
    rw [hdelta]; exact hle
  linarith

/-- The rule of the damping adaptation when the recorded change is the change of the loss: the ratio is one (NaN
if the loss did not change) and the damping is lowered (kept). -/
theorem updateDamping_exact (cfg : Config) (damping l0 l1 : ℝ) (hth : cfg.decreaseThreshold < 1) :
    updateDamping cfg damping (some l0) (some l1) (some (l1 - l0)) =
      if l1 = l0 then (max damping (cfg.minDamping + cfg.l2Reg), none)
      else (max (damping * cfg.adaptationDecay ^ cfg.interval) (cfg.minDamping + cfg.l2Reg), some 1) := by
  split_ifs with h
  · subst h
    have h1 := C35_zero_prediction cfg damping l1 l1
    have h2 := h1.2.2 rfl
    simp only [lt_irrefl, if_false] at h1
    rw [sub_self]
    exact Prod.ext h1.1 h2
  · have hne : l1 - l0 ≠ 0 := sub_ne_zero.2 h
    rw [C35_rule _ _ _ _ _ hne, div_self hne, if_pos (.inr hth)]
    rfl

/-! ### Runs -/

/-- Spec: the run whose update the adaptation in run `t` judges. -/
def judged (cfg : Config) (t : ℕ) : ℕ := if cfg.immediate then t else t - 1

theorem trace_succ (cfg : Config) (inputs : ℕ → StepIn ι κ) (s0 : State ι) (t : ℕ) :
    trace cfg inputs s0 (t + 1) =
      applyGradients cfg (inputs t) (preUpdate cfg (inputs t) (trace cfg inputs s0 t)) := rfl

/-- The quantities recorded by a run that is to be judged. -/
theorem exact_records (cfg : Config) (f : Vec ι → ℝ) (inp : StepIn ι κ) (s : State ι) (ho : ExactOptions cfg)
    (hf : Quadratic cfg f inp) (hl : 0 < s.damping) (hs : Solvable inp s.params s.velocity)
    (ha : cfg.adaptDamping = true) (ht : (s.counter + 1) % cfg.interval = 0) :
    (applyGradients cfg inp s).prevLoss = some (f s.params) ∧
    (applyGradients cfg inp s).qChange = some (f (applyGradients cfg inp s).params - f s.params) := by
  refine ⟨?_, (C97_step cfg f inp s ho hf hl hs).1⟩
  rw [apply_prevLoss, updatePrevLoss, if_pos ⟨ha, by simp [adaptationTime, ht]⟩, ← hf.recorded]
  rfl

theorem apply_damping_rho (cfg : Config) (inp : StepIn ι κ) (s : State ι) (hi : cfg.immediate = true)
    (ha : cfg.adaptDamping = true) (ht : (s.counter + 1) % cfg.interval = 0) :
    ((applyGradients cfg inp s).damping, (applyGradients cfg inp s).rho) =
      updateDamping cfg s.damping (applyGradients cfg inp s).prevLoss
          (some (inp.fnLoss (applyGradients cfg inp s).params)) (applyGradients cfg inp s).qChange := by
  rw [apply_prevLoss, apply_qChange]
  have hp : (applyGradients cfg inp s).params = (rawUpdateSteps cfg inp (updatePrevLoss cfg inp s)).2.params -
      cfg.learningRate • addWeightDecay cfg (rawUpdateSteps cfg inp (updatePrevLoss cfg inp s)).1
        (rawUpdateSteps cfg inp (updatePrevLoss cfg inp s)).2.params := by
    simp only [applyGradients]
    rw [(postUpdate_keeps _ _ _).2.1]
  rw [hp]
  simp only [applyGradients, postUpdate, adaptationTime]
  rw [(raw_keeps cfg inp (updatePrevLoss cfg inp s)).1, (raw_keeps cfg inp (updatePrevLoss cfg inp s)).2.2.1,
    (raw_keeps cfg inp (updatePrevLoss cfg inp s)).2.2.2.1, (updatePrevLoss_keeps cfg inp s).1,
    (updatePrevLoss_keeps cfg inp s).2.2.1]
  simp [hi, ha, ht]

/-- The damping at an adaptation of a run on a quadratic loss. -/
theorem exact_damping (cfg : Config) (f : Vec ι → ℝ) (inputs : ℕ → StepIn ι κ) (s0 : State ι)
    (ho : ExactOptions cfg) (hf : ∀ t, Quadratic cfg f (inputs t)) (h0 : s0.counter = 0)
    (hpos : ∀ t, 0 < (trace cfg inputs s0 t).damping) (t : ℕ) (ha : AdaptsAt cfg t)
    (hs : Solvable (inputs (judged cfg t)) (trace cfg inputs s0 (judged cfg t)).params
      (trace cfg inputs s0 (judged cfg t)).velocity) :
    (trace cfg inputs s0 (t + 1)).damping =
      (updateDamping cfg (trace cfg inputs s0 t).damping
        (some (f (trace cfg inputs s0 (judged cfg t)).params))
        (some (f (trace cfg inputs s0 (judged cfg t + 1)).params))
        (some (f (trace cfg inputs s0 (judged cfg t + 1)).params -
          f (trace cfg inputs s0 (judged cfg t)).params))).1 := by
  have hct : ∀ t, (trace cfg inputs s0 t).counter = t := by
    intro t; rw [trace_counter, h0, Nat.zero_add]
  obtain ⟨had, ⟨hi, ht⟩ | ⟨hi, hch, ht, h1⟩⟩ := ha
  · have hj : judged cfg t = t := by simp [judged, hi]
    rw [hj] at hs ⊢
    have hpre : preUpdate cfg (inputs t) (trace cfg inputs s0 t) = trace cfg inputs s0 t :=
      preUpdate_immediate _ _ _ (.inr (.inr hi))
    have hsucc := trace_succ cfg inputs s0 t
    rw [hpre] at hsucc
    rw [hsucc]
    have hct' : ((trace cfg inputs s0 t).counter + 1) % cfg.interval = 0 := by rw [hct]; exact ht
    obtain ⟨r1, r2⟩ := exact_records cfg f (inputs t) _ ho (hf t) (hpos t) hs had hct'
    rw [apply_damping, if_neg (by simp [hi, had]), if_pos hct', r1, r2, (hf t).after]
  · obtain ⟨u, rfl⟩ : ∃ u, t = u + 1 := ⟨t - 1, by omega⟩
    have hj : judged cfg (u + 1) = u := by simp [judged, hi]
    rw [hj] at hs ⊢
    have hn : ¬ (cfg.adaptDamping = false ∨ cfg.isChief = false ∨ cfg.immediate = true) := by
      simp [hi, had, hch]
    have hd : ∀ t, (trace cfg inputs s0 (t + 1)).damping =
        (preUpdate cfg (inputs t) (trace cfg inputs s0 t)).damping := by
      intro t
      rw [trace_succ, apply_damping, if_pos (.inl hi)]
    obtain ⟨k1, k2, k3, _⟩ := preUpdate_keeps cfg (inputs u) (trace cfg inputs s0 u)
    obtain ⟨r1, r2⟩ := exact_records cfg f (inputs u) (preUpdate cfg (inputs u) (trace cfg inputs s0 u)) ho (hf u)
      (by rw [← hd u]; exact hpos (u + 1)) (by rw [k2, k3]; exact hs) had (by rw [k1, hct]; exact ht)
    rw [k2] at r1 r2
    rw [hd (u + 1), preUpdate_damping _ _ _ hn, if_pos (by rw [hct]; exact ⟨ht, h1⟩), (hf (u + 1)).delayed]
    rw [← trace_succ] at r1 r2
    rw [r1, r2]

theorem trace_exact (cfg : Config) (f : Vec ι → ℝ) (inputs : ℕ → StepIn ι κ) (s0 : State ι)
    (ho : ExactOptions cfg) (hf : ∀ t, Quadratic cfg f (inputs t))
    (hpos : ∀ t, 0 < (trace cfg inputs s0 t).damping)
    (hl2 : ∀ t, cfg.l2Reg ≤ (trace cfg inputs s0 t).damping) (t : ℕ)
    (hs : Solvable (inputs t) (trace cfg inputs s0 t).params (trace cfg inputs s0 t).velocity)
    (hr0 : 0 ≤ cfg.rescale.getD 1) (hr2 : cfg.rescale.getD 1 ≤ 2) :
    let g := (inputs t).grad (trace cfg inputs s0 t).params
    let p := (inputs t).precon *ᵥ g
    let B := (inputs t).factor
    ∃ l, (l = (trace cfg inputs s0 t).damping ∨ l = (trace cfg inputs s0 (t + 1)).damping) ∧
    f (trace cfg inputs s0 (t + 1)).params ≤ f (trace cfg inputs s0 t).params -
      cfg.rescale.getD 1 * (2 - cfg.rescale.getD 1) * (g ⬝ᵥ p) ^ 2 /
        (2 * ((Bᵀ *ᵥ p) ⬝ᵥ (Bᵀ *ᵥ p) / (inputs t).batchSize + l * (p ⬝ᵥ p))) := by
  intro g p B
  obtain ⟨k1, k2, k3, _⟩ := preUpdate_keeps cfg (inputs t) (trace cfg inputs s0 t)
  have hd : (preUpdate cfg (inputs t) (trace cfg inputs s0 t)).damping = (trace cfg inputs s0 t).damping ∨
      (preUpdate cfg (inputs t) (trace cfg inputs s0 t)).damping = (trace cfg inputs s0 (t + 1)).damping := by
    by_cases h : cfg.adaptDamping = false ∨ cfg.isChief = false ∨ cfg.immediate = true
    · rw [preUpdate_immediate cfg _ _ h]; exact .inl rfl
    · right
      have hi : cfg.immediate = false := by simpa using fun hh => h (.inr (.inr hh))
      rw [trace_succ, apply_damping, if_pos (.inl hi)]
  refine ⟨_, hd, ?_⟩
  have hp : 0 < (preUpdate cfg (inputs t) (trace cfg inputs s0 t)).damping := by
    rcases hd with h | h <;> rw [h] <;> exact hpos _
  have h2 : cfg.l2Reg ≤ (preUpdate cfg (inputs t) (trace cfg inputs s0 t)).damping := by
    rcases hd with h | h <;> rw [h] <;> exact hl2 _
  have := (C97_step cfg f (inputs t) (preUpdate cfg (inputs t) (trace cfg inputs s0 t)) ho (hf t) hp
    (by rw [k2, k3]; exact hs)).2 h2 hr0 hr2
  rw [k2] at this
  exact this

/-- Spec: a run of the optimizer on the quadratic `f` whose first `k` systems were solvable. -/
structure GoodRun (cfg : Config) (f : Vec ι → ℝ) (inputs : ℕ → StepIn ι κ) (s0 : State ι) (k : ℕ) : Prop where
  options : ExactOptions cfg
  loss : ∀ t, Quadratic cfg f (inputs t)
  counter : s0.counter = 0
  positive : 0 < s0.damping
  bound : cfg.minDamping + cfg.l2Reg ≤ s0.damping
  minimum : 0 ≤ cfg.minDamping
  l2 : 0 ≤ cfg.l2Reg
  decay_pos : 0 < cfg.adaptationDecay
  decay_le : cfg.adaptationDecay ≤ 1
  threshold : cfg.decreaseThreshold < 1
  rescale_nonneg : 0 ≤ cfg.rescale.getD 1
  rescale_le : cfg.rescale.getD 1 ≤ 2
  solvable : ∀ t < k, Solvable (inputs t) (trace cfg inputs s0 t).params (trace cfg inputs s0 t).velocity

variable {cfg : Config} {f : Vec ι → ℝ} {inputs : ℕ → StepIn ι κ} {s0 : State ι} {k : ℕ}

theorem GoodRun.damping_pos (h : GoodRun cfg f inputs s0 k) (t : ℕ) : 0 < (trace cfg inputs s0 t).damping :=
  (C35_run cfg inputs s0 h.counter h.positive h.decay_pos h.decay_le t).1

theorem GoodRun.damping_bound (h : GoodRun cfg f inputs s0 k) (t : ℕ) :
    cfg.minDamping + cfg.l2Reg ≤ (trace cfg inputs s0 t).damping := by
  induction t with
  | zero => exact h.bound
  | succ t ih =>
    obtain ⟨h1, h2⟩ := trace_damping cfg inputs s0 h.counter t
    by_cases ha : AdaptsAt cfg t
    · obtain ⟨a, b, q, e⟩ := h1 ha
      rw [e]
      exact le_max_right _ _
    · rw [h2 ha]; exact ih

theorem judged_le (cfg : Config) (t : ℕ) : judged cfg t ≤ t := by
  unfold judged; split_ifs <;> omega

/-- On a quadratic loss every adaptation lowers the damping by the factor omega, down to the minimum; it is kept
if the judged update did not change the loss. -/
theorem C97_damping (h : GoodRun cfg f inputs s0 k) (t : ℕ) (ht : t < k) :
    let s := trace cfg inputs s0
    (s (t + 1)).damping =
      if AdaptsAt cfg t ∧ f (s (judged cfg t + 1)).params ≠ f (s (judged cfg t)).params then
        max ((s t).damping * cfg.adaptationDecay ^ cfg.interval) (cfg.minDamping + cfg.l2Reg)
      else (s t).damping := by
  intro s
  by_cases ha : AdaptsAt cfg t
  · have := exact_damping cfg f inputs s0 h.options h.loss h.counter h.damping_pos t ha
      (h.solvable _ (lt_of_le_of_lt (judged_le cfg t) ht))
    rw [this, updateDamping_exact _ _ _ _ h.threshold]
    by_cases hne : f (s (judged cfg t + 1)).params = f (s (judged cfg t)).params
    · rw [if_pos hne, if_neg (fun hh => hh.2 hne)]
      exact max_eq_left (h.damping_bound t)
    · rw [if_neg hne, if_pos ⟨ha, hne⟩]
  · rw [if_neg (fun hh => ha hh.1)]
    exact (trace_damping cfg inputs s0 h.counter t).2 ha

/-- Neither the loss nor the damping ever increases. -/
theorem C97_monotone (h : GoodRun cfg f inputs s0 k) (t : ℕ) (ht : t < k) :
    let s := trace cfg inputs s0
    f (s (t + 1)).params ≤ f (s t).params ∧ (s (t + 1)).damping ≤ (s t).damping := by
  intro s
  have hd : (s (t + 1)).damping ≤ (s t).damping := by
    rw [C97_damping h t ht]
    have := h.damping_pos t
    have ho1 : cfg.adaptationDecay ^ cfg.interval ≤ 1 := pow_le_one₀ h.decay_pos.le h.decay_le
    split_ifs
    · exact max_le (by nlinarith) (h.damping_bound t)
    · exact le_refl _
  refine ⟨?_, hd⟩
  have hl2 : ∀ t, cfg.l2Reg ≤ (trace cfg inputs s0 t).damping := fun t =>
    le_trans (by linarith [h.minimum]) (h.damping_bound t)
  obtain ⟨l, hl, hle⟩ := trace_exact cfg f inputs s0 h.options h.loss h.damping_pos hl2 t (h.solvable t ht)
    h.rescale_nonneg h.rescale_le
  have hlp : 0 < l := by rcases hl with rfl | rfl <;> exact h.damping_pos _
  have hA := qform_pos hlp (inputs t).factor (h.loss t).size (h.solvable t ht).1
  refine hle.trans (sub_le_self _ (div_nonneg (mul_nonneg (mul_nonneg h.rescale_nonneg ?_) (sq_nonneg _)) ?_))
  · linarith [h.rescale_le]
  · linarith

/-- If the preconditioned gradients are descent directions and the rescaling is strictly between zero and two,
every update lowers the loss, and after `k` runs the damping is the initial one times omega to the number of
adaptations, or the minimum. -/
theorem C97_closed_form (h : GoodRun cfg f inputs s0 k) (hr0 : 0 < cfg.rescale.getD 1)
    (hr2 : cfg.rescale.getD 1 < 2)
    (hdesc : ∀ t < k, 0 < (inputs t).grad (trace cfg inputs s0 t).params ⬝ᵥ
      (inputs t).precon *ᵥ (inputs t).grad (trace cfg inputs s0 t).params) :
    let s := trace cfg inputs s0
    (∀ t < k, f (s (t + 1)).params < f (s t).params) ∧
    (s k).damping = max (s0.damping * (cfg.adaptationDecay ^ cfg.interval) ^
      ((Finset.range k).filter (AdaptsAt cfg)).card) (cfg.minDamping + cfg.l2Reg) := by
  intro s
  have hlt : ∀ t < k, f (s (t + 1)).params < f (s t).params := by
    intro t ht
    have hl2 : ∀ t, cfg.l2Reg ≤ (trace cfg inputs s0 t).damping := fun t =>
      le_trans (by linarith [h.minimum]) (h.damping_bound t)
    obtain ⟨l, hl, hle⟩ := trace_exact cfg f inputs s0 h.options h.loss h.damping_pos hl2 t (h.solvable t ht)
      h.rescale_nonneg h.rescale_le
    have hlp : 0 < l := by rcases hl with rfl | rfl <;> exact h.damping_pos _
    have hA := qform_pos hlp (inputs t).factor (h.loss t).size (h.solvable t ht).1
    refine lt_of_le_of_lt hle (sub_lt_self _ (div_pos (mul_pos (mul_pos hr0 ?_) (pow_pos (hdesc t ht) 2)) ?_))
    · linarith
    · linarith
  refine ⟨hlt, ?_⟩
  have ho1 : cfg.adaptationDecay ^ cfg.interval ≤ 1 := pow_le_one₀ h.decay_pos.le h.decay_le
  have ho0 : 0 < cfg.adaptationDecay ^ cfg.interval := pow_pos h.decay_pos _
  have key : ∀ n ≤ k, (s n).damping = max (s0.damping * (cfg.adaptationDecay ^ cfg.interval) ^
      ((Finset.range n).filter (AdaptsAt cfg)).card) (cfg.minDamping + cfg.l2Reg) := by
    intro n
    induction n with
    | zero => intro _; simp [s, trace, h.bound]
    | succ n ih =>
      intro hn
      have hcard : ((Finset.range (n + 1)).filter (AdaptsAt cfg)).card =
          ((Finset.range n).filter (AdaptsAt cfg)).card + if AdaptsAt cfg n then 1 else 0 := by
        rw [Finset.range_add_one, Finset.filter_insert]
        split_ifs with hh
        · rw [Finset.card_insert_of_notMem (by simp)]
        · rfl
      rw [C97_damping h n (by omega), hcard]
      by_cases ha : AdaptsAt cfg n
      · have hj := judged_le cfg n
        rw [if_pos ⟨ha, (hlt _ (by omega)).ne⟩, if_pos ha]
        change max ((s n).damping * _) _ = _
        rw [ih (by omega), pow_succ, ← mul_assoc]
        generalize s0.damping * (cfg.adaptationDecay ^ cfg.interval) ^
          ((Finset.range n).filter (AdaptsAt cfg)).card = x
        generalize cfg.adaptationDecay ^ cfg.interval = w at ho0 ho1
        have hb : 0 ≤ cfg.minDamping + cfg.l2Reg := add_nonneg h.minimum h.l2
        generalize cfg.minDamping + cfg.l2Reg = b at hb
        rw [max_mul_of_nonneg _ _ ho0.le, max_assoc, max_eq_right (b := b) (by nlinarith)]
      · rw [if_neg (fun hh => ha hh.1), if_neg ha, add_zero]
        exact ih (by omega)
  exact key k le_rfl

/-- Spec: bounds of the preconditioner on a vector: at least `m` times its square along it, at most `M` times its
length. -/
def Between (m M : ℝ) (P : Matrix ι ι ℝ) : Prop :=
  ∀ g : Vec ι, m * (g ⬝ᵥ g) ≤ g ⬝ᵥ P *ᵥ g ∧ (P *ᵥ g) ⬝ᵥ (P *ᵥ g) ≤ M ^ 2 * (g ⬝ᵥ g)

/-- Spec: the curvature of the loss lies between `mu` and `L`. -/
def CurvatureIn (mu L l2 : ℝ) (inp : StepIn ι κ) : Prop :=
  ∀ d : Vec ι, mu * (d ⬝ᵥ d) ≤ (inp.factorᵀ *ᵥ d) ⬝ᵥ (inp.factorᵀ *ᵥ d) / inp.batchSize + l2 * (d ⬝ᵥ d) ∧
    (inp.factorᵀ *ᵥ d) ⬝ᵥ (inp.factorᵀ *ᵥ d) / inp.batchSize ≤ L * (d ⬝ᵥ d)

/-- Strong convexity: the square of the gradient bounds the distance from the minimum. -/
theorem gradient_dominates (inp : StepIn ι κ) (hf : Quadratic cfg f inp) {mu L : ℝ} (hmu : 0 < mu)
    (hc : CurvatureIn mu L cfg.l2Reg inp) (x y : Vec ι) :
    2 * mu * (f x - f y) ≤ inp.grad x ⬝ᵥ inp.grad x := by
  have ht := hf.taylor x (y - x)
  rw [add_sub_cancel] at ht
  have h1 := (hc (y - x)).1
  have h2 := dot_self_nonneg (inp.grad x + mu • (y - x))
  simp only [dotProduct_add, add_dotProduct, dotProduct_smul, smul_dotProduct, smul_eq_mul] at h2
  rw [dotProduct_comm (y - x) (inp.grad x)] at h2
  rw [ht]
  nlinarith

/-- With preconditioners between `m` and `M` and curvature between `mu` and `L` the distance from the minimal
loss shrinks at least by the same factor at every run. -/
theorem C97_converges (h : GoodRun cfg f inputs s0 k) {m M mu L : ℝ} (hm : 0 < m) (hM : 0 < M) (hmu : 0 < mu)
    (hL : 0 ≤ L) (hP : ∀ t < k, Between m M (inputs t).precon)
    (hc : ∀ t < k, CurvatureIn mu L cfg.l2Reg (inputs t)) (best : Vec ι) (hbest : ∀ x, f best ≤ f x) :
    let r := cfg.rescale.getD 1
    f (trace cfg inputs s0 k).params - f best ≤
      (1 - r * (2 - r) * (m ^ 2 * mu) / (M ^ 2 * (L + s0.damping))) ^ k * (f s0.params - f best) := by
  intro r
  set c := r * (2 - r) * (m ^ 2 * mu) / (M ^ 2 * (L + s0.damping)) with hcdef
  have hrr : 0 ≤ r * (2 - r) := mul_nonneg h.rescale_nonneg (by linarith [h.rescale_le])
  have hl2 : ∀ t, cfg.l2Reg ≤ (trace cfg inputs s0 t).damping := fun t =>
    le_trans (by linarith [h.minimum]) (h.damping_bound t)
  have hanti : ∀ t ≤ k, (trace cfg inputs s0 t).damping ≤ s0.damping := by
    intro t
    induction t with
    | zero => intro _; exact le_refl _
    | succ t ih => intro ht; exact (C97_monotone h t (by omega)).2.trans (ih (by omega))
  have step : ∀ t < k, f (trace cfg inputs s0 (t + 1)).params - f best ≤
      (1 - c) * (f (trace cfg inputs s0 t).params - f best) := by
    intro t ht
    obtain ⟨l, hl, hle⟩ := trace_exact cfg f inputs s0 h.options h.loss h.damping_pos hl2 t (h.solvable t ht)
      h.rescale_nonneg h.rescale_le
    have hlp : 0 < l := by rcases hl with rfl | rfl <;> exact h.damping_pos _
    have hl0 : l ≤ s0.damping := by
      rcases hl with rfl | rfl
      · exact hanti t ht.le
      · exact hanti (t + 1) ht
    have hp0 := (h.solvable t ht).1
    have hA := qform_pos hlp (inputs t).factor (h.loss t).size hp0
    have hdom := gradient_dominates (inputs t) (h.loss t) hmu (hc t ht) (trace cfg inputs s0 t).params best
    obtain ⟨b1, b2⟩ := hP t ht ((inputs t).grad (trace cfg inputs s0 t).params)
    have hup := (hc t ht ((inputs t).precon *ᵥ (inputs t).grad (trace cfg inputs s0 t).params)).2
    have hpp := dot_self_nonneg ((inputs t).precon *ᵥ (inputs t).grad (trace cfg inputs s0 t).params)
    have hgg := dot_self_nonneg ((inputs t).grad (trace cfg inputs s0 t).params)
    generalize (inputs t).precon *ᵥ (inputs t).grad (trace cfg inputs s0 t).params = p at *
    generalize (inputs t).grad (trace cfg inputs s0 t).params = g at *
    generalize ((inputs t).factorᵀ *ᵥ p) ⬝ᵥ ((inputs t).factorᵀ *ᵥ p) / (inputs t).batchSize = Q at *
    generalize f (trace cfg inputs s0 (t + 1)).params = f1 at *
    generalize f (trace cfg inputs s0 t).params = f0 at *
    have hden : Q + l * (p ⬝ᵥ p) ≤ M ^ 2 * (L + s0.damping) * (g ⬝ᵥ g) := by
      have i1 : Q + l * (p ⬝ᵥ p) ≤ (L + s0.damping) * (p ⬝ᵥ p) := by nlinarith
      have i2 : (L + s0.damping) * (p ⬝ᵥ p) ≤ (L + s0.damping) * (M ^ 2 * (g ⬝ᵥ g)) :=
        mul_le_mul_of_nonneg_left b2 (by linarith [h.positive])
      linarith
    have hgpos : 0 < g ⬝ᵥ g := by
      rcases hgg.lt_or_eq with h' | h'
      · exact h'
      · rw [← h', mul_zero] at hden; linarith
    have hD : 0 < M ^ 2 * (L + s0.damping) := mul_pos (pow_pos hM 2) (by linarith [h.positive])
    -- the gain
    have hgain : c * (f0 - f best) ≤ r * (2 - r) * (g ⬝ᵥ p) ^ 2 / (2 * (Q + l * (p ⬝ᵥ p))) := by
      have g1 : (m * (g ⬝ᵥ g)) ^ 2 ≤ (g ⬝ᵥ p) ^ 2 := pow_le_pow_left₀ (mul_nonneg hm.le hgg) b1 2
      have g2 : r * (2 - r) * (m * (g ⬝ᵥ g)) ^ 2 / (2 * (M ^ 2 * (L + s0.damping) * (g ⬝ᵥ g))) ≤
          r * (2 - r) * (g ⬝ᵥ p) ^ 2 / (2 * (Q + l * (p ⬝ᵥ p))) :=
        div_le_div₀ (mul_nonneg hrr (sq_nonneg _)) (mul_le_mul_of_nonneg_left g1 hrr) (by linarith) (by linarith)
      refine le_trans ?_ g2
      have e : r * (2 - r) * (m * (g ⬝ᵥ g)) ^ 2 / (2 * (M ^ 2 * (L + s0.damping) * (g ⬝ᵥ g))) =
          r * (2 - r) * m ^ 2 / (M ^ 2 * (L + s0.damping)) * ((g ⬝ᵥ g) / 2) := by
        field_simp
      have e2 : c * (f0 - f best) = r * (2 - r) * m ^ 2 / (M ^ 2 * (L + s0.damping)) * (mu * (f0 - f best)) := by
        rw [hcdef]; ring
      rw [e, e2]
      exact mul_le_mul_of_nonneg_left (by linarith) (div_nonneg (mul_nonneg hrr (sq_nonneg _)) hD.le)
    have hle' : f1 ≤ f0 - r * (2 - r) * (g ⬝ᵥ p) ^ 2 / (2 * (Q + l * (p ⬝ᵥ p))) := hle
    linarith
  have key : ∀ n ≤ k, f (trace cfg inputs s0 n).params - f best ≤ (1 - c) ^ n * (f s0.params - f best) := by
    intro n
    induction n with
    | zero => intro _; simp [trace]
    | succ n ih =>
      intro hn
      have h1 := step n (by omega)
      have h2 := ih (by omega)
      by_cases hc1 : 0 ≤ 1 - c
      · have := mul_le_mul_of_nonneg_left h2 hc1
        rw [pow_succ]
        calc _ ≤ _ := h1
          _ ≤ _ := this
          _ = _ := by ring
      · have b0 := hbest (trace cfg inputs s0 1).params
        have b1 := hbest s0.params
        have b2 := hbest (trace cfg inputs s0 n).params
        have h0 : f (trace cfg inputs s0 1).params - f best ≤ (1 - c) * (f s0.params - f best) := step 0 (by omega)
        have z : f s0.params - f best = 0 := by nlinarith
        rw [z, mul_zero] at h2 ⊢
        have z2 : f (trace cfg inputs s0 n).params - f best = 0 := by linarith
        rw [z2, mul_zero] at h1
        exact h1
  exact key k le_rfl

/-! ### The reduction ratio -/

theorem apply_rho_keeps (cfg : Config) (inp : StepIn ι κ) (s : State ι) (hi : cfg.immediate = false) :
    (applyGradients cfg inp s).rho = s.rho := by
  have h1 : (updatePrevLoss cfg inp s).rho = s.rho := by
    unfold updatePrevLoss; split_ifs <;> rfl
  have h2 : ∀ s : State ι, (rawUpdateSteps cfg inp s).2.rho = s.rho := by
    intro s
    unfold rawUpdateSteps rawUpdateWith
    rcases cfg.momentumType <;> dsimp only <;> (try split_ifs) <;> rfl
  simp only [applyGradients, postUpdate, hi, true_or, if_true]
  rw [h2, h1]

/-- At every adaptation the stored ratio of actual to predicted change is one, unless the judged update did not
change the loss at all. -/
theorem C97_ratio (h : GoodRun cfg f inputs s0 k) (t : ℕ) (ht : t < k) (ha : AdaptsAt cfg t) :
    let s := trace cfg inputs s0
    f (s (judged cfg t + 1)).params ≠ f (s (judged cfg t)).params → (s (t + 1)).rho = some 1 := by
  intro s hne
  have hsolv := h.solvable _ (lt_of_le_of_lt (judged_le cfg t) ht)
  have hct : ∀ t, (trace cfg inputs s0 t).counter = t := by
    intro t; rw [trace_counter, h.counter, Nat.zero_add]
  obtain ⟨had, ⟨hi, hta⟩ | ⟨hi, hch, hta, h1⟩⟩ := ha
  · have hj : judged cfg t = t := by simp [judged, hi]
    rw [hj] at hsolv hne
    have hpre : preUpdate cfg (inputs t) (trace cfg inputs s0 t) = trace cfg inputs s0 t :=
      preUpdate_immediate _ _ _ (.inr (.inr hi))
    have hsucc := trace_succ cfg inputs s0 t
    rw [hpre] at hsucc
    have hct' : ((trace cfg inputs s0 t).counter + 1) % cfg.interval = 0 := by rw [hct]; exact hta
    obtain ⟨r1, r2⟩ := exact_records cfg f (inputs t) _ h.options (h.loss t) (h.damping_pos t) hsolv had hct'
    have := congrArg Prod.snd (apply_damping_rho cfg (inputs t) (trace cfg inputs s0 t) hi had hct')
    rw [r1, r2, (h.loss t).after, updateDamping_exact _ _ _ _ h.threshold, if_neg (by rw [← hsucc]; exact hne)] at this
    rw [show s (t + 1) = _ from hsucc]
    exact this
  · obtain ⟨u, rfl⟩ : ∃ u, t = u + 1 := ⟨t - 1, by omega⟩
    have hj : judged cfg (u + 1) = u := by simp [judged, hi]
    rw [hj] at hsolv hne
    have hn : ¬ (cfg.adaptDamping = false ∨ cfg.isChief = false ∨ cfg.immediate = true) := by
      simp [hi, had, hch]
    have hd : (trace cfg inputs s0 (u + 1)).damping =
        (preUpdate cfg (inputs u) (trace cfg inputs s0 u)).damping := by
      rw [trace_succ, apply_damping, if_pos (.inl hi)]
    obtain ⟨k1, k2, k3, _⟩ := preUpdate_keeps cfg (inputs u) (trace cfg inputs s0 u)
    obtain ⟨r1, r2⟩ := exact_records cfg f (inputs u) (preUpdate cfg (inputs u) (trace cfg inputs s0 u))
      h.options (h.loss u) (by rw [← hd]; exact h.damping_pos (u + 1)) (by rw [k2, k3]; exact hsolv) had
      (by rw [k1, hct]; exact hta)
    rw [k2] at r1 r2
    rw [← trace_succ] at r1 r2
    have hrho : (s (u + 2)).rho = (preUpdate cfg (inputs (u + 1)) (trace cfg inputs s0 (u + 1))).rho := by
      rw [show s (u + 2) = _ from trace_succ cfg inputs s0 (u + 1), apply_rho_keeps _ _ _ hi]
    rw [hrho, preUpdate, if_neg hn, if_pos (by simp only [justAfterAdaptationTime, hct]; simpa using hta)]
    dsimp only
    rw [r1, r2, (h.loss (u + 1)).delayed, updateDamping_exact _ _ _ _ h.threshold, if_neg hne]

/-! ### Least squares -/

variable {ν : Type} [Fintype ν]

/-- Spec: the mean of the squared errors of a linear model, plus the l2 penalty. -/
noncomputable def leastSquares (X : Matrix ν ι ℝ) (y : ν → ℝ) (n l2 : ℝ) (x : Vec ι) : ℝ :=
  (X *ᵥ x - y) ⬝ᵥ (X *ᵥ x - y) / n + l2 / 2 * (x ⬝ᵥ x)

/-- Least squares with the factor of the squared-error loss (`√2` times the Jacobian, C06) is such a problem. -/
theorem C97_least_squares (cfg : Config) (X : Matrix ν ι ℝ) (y : ν → ℝ) (n : ℝ) (hn : 0 < n)
    (P C : Matrix ι ι ℝ) :
    Quadratic cfg (leastSquares X y n cfg.l2Reg)
      { passedLoss := leastSquares X y n cfg.l2Reg, fnLoss := leastSquares X y n cfg.l2Reg,
        prevFnLoss := leastSquares X y n cfg.l2Reg,
        grad := fun x => (2 / n) • (Xᵀ *ᵥ (X *ᵥ x - y)) + cfg.l2Reg • x,
        precon := P, curv := C, factor := Real.sqrt 2 • Xᵀ, batchSize := n } where
  recorded x := by simp [recordedLoss]
  after x := rfl
  delayed x := rfl
  size := hn
  taylor x d := by
    have e : X *ᵥ (x + d) - y = (X *ᵥ x - y) + X *ᵥ d := by rw [mulVec_add]; abel
    have ht : (Xᵀ *ᵥ (X *ᵥ x - y)) ⬝ᵥ d = (X *ᵥ x - y) ⬝ᵥ (X *ᵥ d) := by
      rw [mulVec_transpose, ← dotProduct_mulVec]
    have h2 : Real.sqrt 2 * Real.sqrt 2 = 2 := Real.mul_self_sqrt (by norm_num)
    have hq : ((Real.sqrt 2 • Xᵀ)ᵀ *ᵥ d) ⬝ᵥ ((Real.sqrt 2 • Xᵀ)ᵀ *ᵥ d) = 2 * ((X *ᵥ d) ⬝ᵥ (X *ᵥ d)) := by
      rw [transpose_smul, transpose_transpose, smul_mulVec, dotProduct_smul, smul_dotProduct, smul_eq_mul,
        smul_eq_mul, ← mul_assoc, h2]
    simp only [leastSquares]
    rw [hq, e]
    simp only [add_dotProduct, dotProduct_add, smul_dotProduct, smul_eq_mul]
    rw [ht, dotProduct_comm (X *ᵥ d) (X *ᵥ x - y), dotProduct_comm d x]
    ring

/-! ### Violation: one parameter -/

/-- With a single scalar parameter the system is singular from the second update on: the determinant the code
divides by is zero whenever gradient, preconditioned gradient and velocity are not. -/
theorem C97_one_parameter_counterexample (l : ℝ) (B : Matrix (Fin 1) κ ℝ) (n : ℝ) (g p v : Vec (Fin 1))
    (hg : g ≠ 0) (hv : v ≠ 0) :
    let q := computeQmodel l B n p v g
    q.c2 ≠ 0 ∧ q.m11 * q.m22 - q.m21 * q.m21 = 0 := by
  intro q
  have hB : ∀ w : Vec (Fin 1), Bᵀ *ᵥ w = w 0 • (fun j => B 0 j) := by
    intro w; funext j; simp [mulVec, dotProduct, mul_comm]
  constructor
  · have hg0 : g 0 ≠ 0 := fun h => hg (funext fun i => by rw [Subsingleton.elim i 0, h]; rfl)
    have hv0 : v 0 ≠ 0 := fun h => hv (funext fun i => by rw [Subsingleton.elim i 0, h]; rfl)
    simp [q, computeQmodel, dotProduct, hg0, hv0]
  · simp only [q, computeQmodel, hB, dotProduct_smul, smul_dotProduct, smul_eq_mul]
    simp only [dotProduct, Fin.sum_univ_one]
    ring

/-- At a stationary point, such as the minimum itself, the coefficient of the preconditioned gradient is the
quotient of zero by zero, whatever the velocity. -/
theorem C97_stationary_counterexample (l : ℝ) (B : Matrix ι κ ℝ) (n : ℝ) (P : Matrix ι ι ℝ) (g v : Vec ι)
    (hg : g = 0) :
    let q := computeQmodel l B n (P *ᵥ g) v g
    q.c2 = 0 ∧ q.c1 = 0 ∧ q.m11 = 0 := by
  subst hg
  simp [computeQmodel]

/-! ### A run -/

noncomputable def bowlConfig : Config :=
  { momentumType := .qmodel, learningRate := 1, momentum := 0, normConstraint := none, weightDecay := none,
    adaptDamping := true, immediate := true, isChief := true, adaptationDecay := 1 / 2, interval := 1,
    minDamping := 1 / 10, l2Reg := 0, decreaseThreshold := 3 / 4, increaseThreshold := 1 / 4,
    usePassedLoss := true, rescale := none, includeDamping := false }

/-- `1/2 (x² + 4 y²)`. -/
noncomputable def bowl (x : Vec (Fin 2)) : ℝ := 1 / 2 * (x 0 ^ 2 + 4 * x 1 ^ 2)

noncomputable def bowlInput : StepIn (Fin 2) (Fin 2) :=
  { passedLoss := bowl, fnLoss := bowl, prevFnLoss := bowl, grad := fun x => ![x 0, 4 * x 1],
    precon := 1, curv := 1, factor := !![1, 0; 0, 2], batchSize := 1 }

theorem bowl_quadratic : Quadratic bowlConfig bowl bowlInput where
  recorded x := by simp [recordedLoss, bowlInput]
  after x := rfl
  delayed x := rfl
  size := by norm_num [bowlInput]
  taylor x d := by
    simp [bowl, bowlInput, bowlConfig, dotProduct, mulVec, Fin.sum_univ_two]
    ring

theorem bowl_first : (trace bowlConfig (fun _ => bowlInput) (State.init ![1, 1] 1) 1).velocity = ![17 / 82, 34 / 41] ∧
    (trace bowlConfig (fun _ => bowlInput) (State.init ![1, 1] 1) 1).params = ![65 / 82, 7 / 41] := by
  have hpre : preUpdate bowlConfig bowlInput (State.init ![1, 1] 1) = State.init ![1, 1] 1 :=
    preUpdate_immediate _ _ _ (.inr (.inr rfl))
  have hs := trace_succ bowlConfig (fun _ => bowlInput) (State.init ![1, 1] 1) 0
  rw [trace, hpre] at hs
  obtain ⟨h1, _, h3⟩ := apply_qmodel bowlConfig bowlInput (State.init ![1, 1] 1) none (.inl ⟨rfl, rfl⟩)
  have hv : (applyGradients bowlConfig bowlInput (State.init ![1, 1] 1)).velocity = ![17 / 82, 34 / 41] := by
    rw [← neg_neg (applyGradients bowlConfig bowlInput (State.init ![1, 1] 1)).velocity, h1]
    funext i
    fin_cases i <;>
      norm_num [qmodelHyperparams, computeQmodel, State.init, bowlInput, bowlConfig, dotProduct, mulVec,
        Fin.sum_univ_two, one_mulVec]
  rw [hs]
  refine ⟨hv, ?_⟩
  rw [h3, hv]
  funext i
  fin_cases i <;> norm_num [addWeightDecay, bowlConfig, State.init]

/-- Two runs from (1, 1): both systems are solvable, so all of the above applies; the damping is halved twice. -/
example : GoodRun bowlConfig bowl (fun _ => bowlInput) (State.init ![1, 1] 1) 2 ∧
    (trace bowlConfig (fun _ => bowlInput) (State.init ![1, 1] 1) 2).damping = 1 / 4 := by
  have hg : GoodRun bowlConfig bowl (fun _ => bowlInput) (State.init ![1, 1] 1) 2 := by
    refine ⟨⟨rfl, rfl, rfl, rfl⟩, fun _ => bowl_quadratic, rfl, by norm_num [State.init], by norm_num [State.init, bowlConfig],
      by norm_num [bowlConfig], by norm_num [bowlConfig], by norm_num [bowlConfig], by norm_num [bowlConfig],
      by norm_num [bowlConfig], by norm_num [bowlConfig], by norm_num [bowlConfig], fun t ht => ?_⟩
    interval_cases t
    · refine ⟨fun h => ?_, fun h => absurd ?_ h⟩
      · have := congrFun h 0
        simp [bowlInput, trace, State.init] at this
      · simp [trace, State.init]
    · rw [bowl_first.1, bowl_first.2]
      refine ⟨fun h => ?_, fun _ a m h => ?_⟩
      · have := congrFun h 0
        simp [bowlInput] at this
      · have h0 := congrFun h 0
        have h1 := congrFun h 1
        simp [bowlInput] at h0 h1
        constructor <;> linarith
  refine ⟨hg, ?_⟩
  have hd := (C97_closed_form hg (by norm_num [bowlConfig]) (by norm_num [bowlConfig]) (fun t ht => ?_)).2
  · rw [hd]
    have : ((Finset.range 2).filter (AdaptsAt bowlConfig)).card = 2 := by
      rw [(C36_count bowlConfig rfl 2).1 rfl]; rfl
    rw [this]
    norm_num [State.init, bowlConfig]
  · have := (hg.solvable t ht).1
    simp only [bowlInput, one_mulVec] at this ⊢
    exact dot_self_pos this

end Kfac.Opt
