import Verif.Opt.PropsQuadratic

/-!
# C108: on any smooth loss the adaptive damping stays bounded

Spec: the gradient of the loss is Lipschitz with constant `L` (only the resulting upper bound is used); the
curvature matrix need have no relation to the loss. The step minimises the damped model along its ray, so with a
damping large compared with `L` the reduction ratio is above the thresholds.
-/

set_option linter.unusedSectionVars false

namespace Kfac.Opt

open Matrix

variable {ι κ : Type} [Fintype ι] [Fintype κ]

/-- Spec: every loss the optimizer looks at is `f`, and `f` lies below the parabola of curvature `L` through each
of its points. Nothing is assumed about the curvature matrix. -/
structure SmoothLoss (cfg : Config) (f : Vec ι → ℝ) (L : ℝ) (inp : StepIn ι κ) : Prop where
  recorded : ∀ x, recordedLoss cfg inp x = f x
  after : ∀ x, inp.fnLoss x = f x
  delayed : ∀ x, inp.prevFnLoss x = f x
  size : 0 < inp.batchSize
  upper : ∀ x d, f (x + d) ≤ f x + inp.grad x ⬝ᵥ d + L / 2 * (d ⬝ᵥ d)

/-- At the minimum along its ray the slope of the model is minus its curvature. -/
theorem qvalue_slope {l : ℝ} (hl : 0 < l) (B : Matrix ι κ ℝ) {n : ℝ} (hn : 0 < n) (g d : Vec ι)
    (hmin : ∀ t : ℝ, qvalue l B n g d ≤ qvalue l B n g (t • d)) :
    g ⬝ᵥ d = -((Bᵀ *ᵥ d) ⬝ᵥ (Bᵀ *ᵥ d) / n + l * (d ⬝ᵥ d)) := by
  have h0 := qvalue_rescale hl B hn g d hmin 2
  rw [qvalue_ray] at h0
  linarith

/-- One update: the predicted change is a decrease, and with damping at least `r L / (2 (1 - θ))` the loss falls
by at least the fraction `θ` of the prediction. -/
theorem C108_step (cfg : Config) (f : Vec ι → ℝ) (L : ℝ) (inp : StepIn ι κ) (s : State ι) (ho : ExactOptions cfg)
    (hf : SmoothLoss cfg f L inp) (hl : 0 < s.damping) (hb : 0 ≤ cfg.l2Reg)
    (hl2 : cfg.l2Reg ≤ s.damping)
    (hs : Solvable inp s.params s.velocity) (hr0 : 0 < cfg.rescale.getD 1) (hr2 : cfg.rescale.getD 1 < 2) :
    let r := cfg.rescale.getD 1
    let s' := applyGradients cfg inp s
    ∃ q, s'.qChange = some q ∧ q ≤ 0 ∧ (q = 0 ↔ s'.params = s.params) ∧
      ∀ θ, 0 ≤ θ → θ < 1 →
        (r * L ≤ 2 * (1 - θ) * s.damping → f s'.params - f s.params ≤ θ * q) ∧
        (r * L < 2 * (1 - θ) * s.damping → q ≠ 0 → f s'.params - f s.params < θ * q) := by
  intro r s'
  obtain ⟨h1, h2, h3, h4⟩ := qmodel_step cfg inp s ho hl hf.size hs
  have hslope := qvalue_slope hl inp.factor hf.size _ _ h1
  refine ⟨_, h4, ?_⟩
  have hup := hf.upper s.params (s'.params - s.params)
  rw [add_sub_cancel] at hup
  have hz : s'.params = s.params ↔ -s'.velocity = 0 := by
    rw [← sub_eq_zero, h3, smul_eq_zero, or_iff_right hr0.ne']
  rw [hz]
  rw [h3] at hup ⊢
  rw [qvalue_ray]
  simp only [dotProduct_smul, smul_dotProduct, smul_eq_mul] at hup
  have hD := dot_self_nonneg (-s'.velocity)
  have hQ : 0 ≤ (inp.factorᵀ *ᵥ (-s'.velocity)) ⬝ᵥ (inp.factorᵀ *ᵥ (-s'.velocity)) / inp.batchSize :=
    div_nonneg (dot_self_nonneg _) hf.size.le
  have hDz : -s'.velocity = 0 ↔ (-s'.velocity) ⬝ᵥ (-s'.velocity) = 0 :=
    ⟨fun h => by rw [h]; simp, fun h => by_contra fun hn => (dot_self_pos hn).ne' h⟩
  have hQz : -s'.velocity = 0 →
      (inp.factorᵀ *ᵥ (-s'.velocity)) ⬝ᵥ (inp.factorᵀ *ᵥ (-s'.velocity)) / inp.batchSize = 0 := by
    intro h; rw [h]; simp
  rw [hDz] at hQz ⊢
  rw [show (applyGradients cfg inp s).velocity = s'.velocity from rfl] at hup hslope ⊢
  rw [hslope] at hup ⊢
  generalize (inp.factorᵀ *ᵥ (-s'.velocity)) ⬝ᵥ (inp.factorᵀ *ᵥ (-s'.velocity)) / inp.batchSize = Q at *
  generalize (-s'.velocity) ⬝ᵥ (-s'.velocity) = D at *
  have hchg : f s'.params - f s.params ≤ r * -(Q + s.damping * D) + L / 2 * (r * (r * D)) := by linarith
  generalize f s'.params - f s.params = c at *
  change 0 < r at hr0
  change r < 2 at hr2
  change r ^ 2 * (1 / 2 * (Q + cfg.l2Reg * D)) + r * -(Q + s.damping * D) ≤ 0 ∧
    (r ^ 2 * (1 / 2 * (Q + cfg.l2Reg * D)) + r * -(Q + s.damping * D) = 0 ↔ D = 0) ∧ ∀ θ, 0 ≤ θ → θ < 1 →
      (r * L ≤ 2 * (1 - θ) * s.damping → c ≤ θ * (r ^ 2 * (1 / 2 * (Q + cfg.l2Reg * D)) + r * -(Q + s.damping * D))) ∧
      (r * L < 2 * (1 - θ) * s.damping →
        r ^ 2 * (1 / 2 * (Q + cfg.l2Reg * D)) + r * -(Q + s.damping * D) ≠ 0 →
        c < θ * (r ^ 2 * (1 / 2 * (Q + cfg.l2Reg * D)) + r * -(Q + s.damping * D)))
  generalize r = r at *
  generalize s.damping = l at *
  generalize cfg.l2Reg = b at *
  have hqle : r ^ 2 * (1 / 2 * (Q + b * D)) + r * -(Q + l * D) ≤ -(r * (1 - r / 2) * (Q + l * D)) := by
    have : 0 ≤ r ^ 2 / 2 * ((l - b) * D) :=
      mul_nonneg (by positivity) (mul_nonneg (by linarith) hD)
    nlinarith
  have hr3 : 0 < r * (1 - r / 2) := mul_pos hr0 (by linarith)
  have hqz : r ^ 2 * (1 / 2 * (Q + b * D)) + r * -(Q + l * D) = 0 ↔ D = 0 := by
    constructor
    · intro h
      rw [h] at hqle
      have h5 : Q + l * D ≤ 0 := by
        by_contra hn
        have := mul_pos hr3 (not_le.1 hn)
        linarith
      have h6 : l * D ≤ 0 := by linarith
      by_contra hn
      have := mul_pos hl (lt_of_le_of_ne hD (Ne.symm hn))
      linarith
    · intro h
      rw [hQz h, h]; ring
  refine ⟨?_, hqz, fun θ ht0 ht1 => ?_⟩
  · have := mul_nonneg hr3.le (add_nonneg hQ (mul_nonneg hl.le hD))
    linarith
  -- the difference of the two sides
  have hdiff : θ * (r ^ 2 * (1 / 2 * (Q + b * D)) + r * -(Q + l * D)) -
      (r * -(Q + l * D) + L / 2 * (r * (r * D))) =
      r * ((1 - θ) * Q + θ * r / 2 * (Q + b * D)) + r * D * ((1 - θ) * l - r * L / 2) := by ring
  have hbD : 0 ≤ r * ((1 - θ) * Q + θ * r / 2 * (Q + b * D)) :=
    mul_nonneg hr0.le (add_nonneg (mul_nonneg (by linarith) hQ)
      (mul_nonneg (by positivity) (add_nonneg hQ (mul_nonneg hb hD))))
  refine ⟨fun h => ?_, fun h hq => ?_⟩
  · have : 0 ≤ r * D * ((1 - θ) * l - r * L / 2) := mul_nonneg (mul_nonneg hr0.le hD) (by linarith)
    linarith
  · have hDp : 0 < D := lt_of_le_of_ne hD (fun h' => hq (hqz.2 h'.symm))
    have : 0 < r * D * ((1 - θ) * l - r * L / 2) := mul_pos (mul_pos hr0 hDp) (by linarith)
    linarith

/-! ### Runs -/

/-- What an adaptation does: its inputs are the loss before and after the judged update, which used the damping
being adapted, and the change predicted for it. -/
theorem smooth_damping (cfg : Config) (f : Vec ι → ℝ) (L : ℝ) (inputs : ℕ → StepIn ι κ) (s0 : State ι)
    (ho : ExactOptions cfg) (hf : ∀ t, SmoothLoss cfg f L (inputs t)) (h0 : s0.counter = 0) (hb : 0 ≤ cfg.l2Reg)
    (hpos : ∀ t, 0 < (trace cfg inputs s0 t).damping)
    (hl2 : ∀ t, cfg.l2Reg ≤ (trace cfg inputs s0 t).damping)
    (hr0 : 0 < cfg.rescale.getD 1) (hr2 : cfg.rescale.getD 1 < 2) (t : ℕ) (ha : AdaptsAt cfg t)
    (hs : Solvable (inputs (judged cfg t)) (trace cfg inputs s0 (judged cfg t)).params
      (trace cfg inputs s0 (judged cfg t)).velocity) :
    let s := trace cfg inputs s0
    let x := (s (judged cfg t)).params
    let x' := (s (judged cfg t + 1)).params
    ∃ q, (s (t + 1)).damping = (updateDamping cfg (s t).damping (some (f x)) (some (f x')) (some q)).1 ∧
      q ≤ 0 ∧ (q = 0 ↔ x' = x) ∧
      ∀ θ, 0 ≤ θ → θ < 1 →
        (cfg.rescale.getD 1 * L ≤ 2 * (1 - θ) * (s t).damping → f x' - f x ≤ θ * q) ∧
        (cfg.rescale.getD 1 * L < 2 * (1 - θ) * (s t).damping → q ≠ 0 → f x' - f x < θ * q) := by
  have hct : ∀ t, (trace cfg inputs s0 t).counter = t := by
    intro t; rw [trace_counter, h0, Nat.zero_add]
  obtain ⟨had, ⟨hi, ht⟩ | ⟨hi, hch, ht, h1⟩⟩ := ha
  · have hj : judged cfg t = t := by simp [judged, hi]
    rw [hj] at hs ⊢
    have hpre : preUpdate cfg (inputs t) (trace cfg inputs s0 t) = trace cfg inputs s0 t :=
      preUpdate_immediate _ _ _ (.inr (.inr hi))
    have hsucc := trace_succ cfg inputs s0 t
    rw [hpre] at hsucc
    have hct' : ((trace cfg inputs s0 t).counter + 1) % cfg.interval = 0 := by rw [hct]; exact ht
    obtain ⟨q, hq, hq0, hqz, hθ⟩ := C108_step cfg f L (inputs t) _ ho (hf t) (hpos t) hb (hl2 t) hs hr0 hr2
    intro s x x'
    have hx' : x' = (applyGradients cfg (inputs t) (trace cfg inputs s0 t)).params := by
      simp only [x', s, hsucc]
    refine ⟨q, ?_, hq0, ?_, ?_⟩
    · rw [hx']
      simp only [x, s]
      rw [hsucc, apply_damping, if_neg (by simp [hi, had]), if_pos hct', hq, (hf t).after, apply_prevLoss,
        updatePrevLoss, if_pos ⟨had, by simp [adaptationTime, hct']⟩, ← (hf t).recorded (trace cfg inputs s0 t).params]
      rfl
    · rw [hx']; exact hqz
    · rw [hx']; exact hθ
  · obtain ⟨u, rfl⟩ : ∃ u, t = u + 1 := ⟨t - 1, by omega⟩
    have hj : judged cfg (u + 1) = u := by simp [judged, hi]
    rw [hj] at hs ⊢
    have hn : ¬ (cfg.adaptDamping = false ∨ cfg.isChief = false ∨ cfg.immediate = true) := by
      simp [hi, had, hch]
    have hd : ∀ t, (trace cfg inputs s0 (t + 1)).damping =
        (preUpdate cfg (inputs t) (trace cfg inputs s0 t)).damping := by
      intro t
      rw [trace_succ, apply_damping, if_pos (.inl hi)]
    obtain ⟨k1, k2, k3, _⟩ := preUpdate_keeps cfg (inputs u) (trace cfg inputs s0 u)
    obtain ⟨q, hq, hq0, hqz, hθ⟩ := C108_step cfg f L (inputs u)
      (preUpdate cfg (inputs u) (trace cfg inputs s0 u)) ho (hf u)
      (by rw [← hd u]; exact hpos (u + 1)) hb (by rw [← hd u]; exact hl2 (u + 1)) (by rw [k2, k3]; exact hs) hr0 hr2
    have hr : (applyGradients cfg (inputs u) (preUpdate cfg (inputs u) (trace cfg inputs s0 u))).prevLoss =
        some (f (trace cfg inputs s0 u).params) := by
      have hct' : ((preUpdate cfg (inputs u) (trace cfg inputs s0 u)).counter + 1) % cfg.interval = 0 := by
        rw [k1, hct]; exact ht
      rw [apply_prevLoss, updatePrevLoss, if_pos ⟨had, by simp [adaptationTime, hct']⟩, ← (hf u).recorded, ← k2]
      rfl
    rw [k2, ← hd u, ← trace_succ] at hθ
    rw [← trace_succ] at hq hqz hr
    rw [k2] at hqz
    refine ⟨q, ?_, hq0, hqz, hθ⟩
    rw [hd (u + 1), preUpdate_damping _ _ _ hn, if_pos (by rw [hct]; exact ⟨ht, h1⟩), (hf (u + 1)).delayed, hr, hq]

/-- Spec: a run of the optimizer on the smooth loss `f` whose first `k` systems were solvable. -/
structure SmoothRun (cfg : Config) (f : Vec ι → ℝ) (L : ℝ) (inputs : ℕ → StepIn ι κ) (s0 : State ι) (k : ℕ) :
    Prop where
  options : ExactOptions cfg
  loss : ∀ t, SmoothLoss cfg f L (inputs t)
  counter : s0.counter = 0
  positive : 0 < s0.damping
  bound : cfg.minDamping + cfg.l2Reg ≤ s0.damping
  minimum : 0 ≤ cfg.minDamping
  l2 : 0 ≤ cfg.l2Reg
  decay_pos : 0 < cfg.adaptationDecay
  decay_le : cfg.adaptationDecay ≤ 1
  increase_nonneg : 0 ≤ cfg.increaseThreshold
  thresholds : cfg.increaseThreshold ≤ cfg.decreaseThreshold
  decrease_lt : cfg.decreaseThreshold < 1
  rescale_pos : 0 < cfg.rescale.getD 1
  rescale_lt : cfg.rescale.getD 1 < 2
  solvable : ∀ t < k, Solvable (inputs t) (trace cfg inputs s0 t).params (trace cfg inputs s0 t).velocity

variable {cfg : Config} {f : Vec ι → ℝ} {L : ℝ} {inputs : ℕ → StepIn ι κ} {s0 : State ι} {k : ℕ}

theorem SmoothRun.damping_pos (h : SmoothRun cfg f L inputs s0 k) (t : ℕ) : 0 < (trace cfg inputs s0 t).damping :=
  (C35_run cfg inputs s0 h.counter h.positive h.decay_pos h.decay_le t).1

theorem SmoothRun.damping_bound (h : SmoothRun cfg f L inputs s0 k) (t : ℕ) :
    cfg.minDamping + cfg.l2Reg ≤ (trace cfg inputs s0 t).damping := by
  induction t with
  | zero => exact h.bound
  | succ t ih =>
    obtain ⟨h1, h2⟩ := trace_damping cfg inputs s0 h.counter t
    by_cases ha : AdaptsAt cfg t
    · obtain ⟨a, b, q, e⟩ := h1 ha
      rw [e]
      exact le_max_right _ _
    · rw [h2 ha]; exact ih

/-- Whatever the loss does, an adaptation divides the damping at most by omega. -/
theorem updateDamping_le (cfg : Config) (l l0 l1 q : ℝ) (hl : 0 < l) (h0 : 0 < cfg.adaptationDecay)
    (h1 : cfg.adaptationDecay ≤ 1) :
    (updateDamping cfg l (some l0) (some l1) (some q)).1 ≤
      max (l / cfg.adaptationDecay ^ cfg.interval) (cfg.minDamping + cfg.l2Reg) := by
  have ho0 : 0 < cfg.adaptationDecay ^ cfg.interval := pow_pos h0 _
  have ho1 : cfg.adaptationDecay ^ cfg.interval ≤ 1 := pow_le_one₀ h0.le h1
  have e1 : l ≤ l / cfg.adaptationDecay ^ cfg.interval := by
    rw [le_div_iff₀ ho0]; nlinarith
  have e2 : l * cfg.adaptationDecay ^ cfg.interval ≤ l / cfg.adaptationDecay ^ cfg.interval :=
    le_trans (by nlinarith) e1
  by_cases hq : q = 0
  · subst hq
    rw [(C35_zero_prediction cfg l l0 l1).1]
    refine max_le_max ?_ le_rfl
    split_ifs <;> first | exact e2 | exact le_rfl | exact e1
  · rw [C35_rule _ _ _ _ _ hq]
    refine max_le_max ?_ le_rfl
    split_ifs <;> first | exact e2 | exact le_rfl | exact e1

/-- The damping is never raised while it is at least `r L / (2 (1 - increase threshold))`. -/
theorem C108_not_raised (h : SmoothRun cfg f L inputs s0 k) (t : ℕ) (ht : t < k)
    (hd : cfg.rescale.getD 1 * L ≤ 2 * (1 - cfg.increaseThreshold) * (trace cfg inputs s0 t).damping) :
    (trace cfg inputs s0 (t + 1)).damping ≤ (trace cfg inputs s0 t).damping := by
  by_cases ha : AdaptsAt cfg t
  · have hl2 : ∀ t, cfg.l2Reg ≤ (trace cfg inputs s0 t).damping := fun t =>
      le_trans (by linarith [h.minimum]) (h.damping_bound t)
    obtain ⟨q, e, hq0, hqz, hθ⟩ := smooth_damping cfg f L inputs s0 h.options h.loss h.counter h.l2 h.damping_pos hl2
      h.rescale_pos h.rescale_lt t ha (h.solvable _ (lt_of_le_of_lt (judged_le cfg t) ht))
    have hge := (hθ _ h.increase_nonneg (lt_of_le_of_lt h.thresholds h.decrease_lt)).1 hd
    have ho1 : cfg.adaptationDecay ^ cfg.interval ≤ 1 := pow_le_one₀ h.decay_pos.le h.decay_le
    have hlow : (trace cfg inputs s0 t).damping * cfg.adaptationDecay ^ cfg.interval ≤
        (trace cfg inputs s0 t).damping := by nlinarith [h.damping_pos t]
    rw [e]
    by_cases hq : q = 0
    · rw [hq, (C35_zero_prediction cfg _ _ _).1, hqz.1 hq]
      simp only [lt_irrefl, if_false]
      exact max_le le_rfl (h.damping_bound t)
    · rw [C35_rule _ _ _ _ _ hq]
      refine max_le ?_ (h.damping_bound t)
      split_ifs with c1 c2
      · exact hlow
      · exfalso
        have hqn : q < 0 := lt_of_le_of_ne hq0 hq
        rw [div_lt_iff_of_neg hqn] at c2
        linarith
      · exact le_rfl
  · exact le_of_eq ((trace_damping cfg inputs s0 h.counter t).2 ha)

/-- Every adaptation at a damping above `r L / (2 (1 - decrease threshold))` lowers it by the factor omega, down to
the minimum; it is kept if the judged update did not move the parameters. -/
theorem C108_lowered (h : SmoothRun cfg f L inputs s0 k) (t : ℕ) (ht : t < k) (ha : AdaptsAt cfg t)
    (hd : cfg.rescale.getD 1 * L < 2 * (1 - cfg.decreaseThreshold) * (trace cfg inputs s0 t).damping) :
    let s := trace cfg inputs s0
    (s (t + 1)).damping =
      if (s (judged cfg t + 1)).params = (s (judged cfg t)).params then (s t).damping
      else max ((s t).damping * cfg.adaptationDecay ^ cfg.interval) (cfg.minDamping + cfg.l2Reg) := by
  intro s
  have hl2 : ∀ t, cfg.l2Reg ≤ (trace cfg inputs s0 t).damping := fun t =>
    le_trans (by linarith [h.minimum]) (h.damping_bound t)
  obtain ⟨q, e, hq0, hqz, hθ⟩ := smooth_damping cfg f L inputs s0 h.options h.loss h.counter h.l2 h.damping_pos hl2
    h.rescale_pos h.rescale_lt t ha (h.solvable _ (lt_of_le_of_lt (judged_le cfg t) ht))
  have hgt := (hθ _ (h.increase_nonneg.trans h.thresholds) h.decrease_lt).2 hd
  split_ifs with hx
  · rw [e, hqz.2 hx, (C35_zero_prediction cfg _ _ _).1]
    simp only [s] at hx
    rw [hx]
    simp only [lt_irrefl, if_false]
    exact max_eq_left (h.damping_bound t)
  · have hq : q ≠ 0 := fun hh => hx (hqz.1 hh)
    rw [e, C35_rule _ _ _ _ _ hq, if_pos]
    right
    rw [lt_div_iff_of_neg (lt_of_le_of_ne hq0 hq)]
    exact hgt hq

/-- The damping never exceeds the larger of the initial one and `r L / (2 (1 - increase threshold)) / omega`. -/
theorem C108_bounded (h : SmoothRun cfg f L inputs s0 k) (t : ℕ) (ht : t ≤ k) :
    (trace cfg inputs s0 t).damping ≤
      max s0.damping (cfg.rescale.getD 1 * L / (2 * (1 - cfg.increaseThreshold)) /
        cfg.adaptationDecay ^ cfg.interval) := by
  have h1 : 0 < 2 * (1 - cfg.increaseThreshold) := by linarith [h.thresholds, h.decrease_lt]
  have ho0 : 0 < cfg.adaptationDecay ^ cfg.interval := pow_pos h.decay_pos _
  induction t with
  | zero => exact le_max_left _ _
  | succ t ih =>
    by_cases hd : cfg.rescale.getD 1 * L ≤ 2 * (1 - cfg.increaseThreshold) * (trace cfg inputs s0 t).damping
    · exact (C108_not_raised h t (by omega) hd).trans (ih (by omega))
    · by_cases ha : AdaptsAt cfg t
      · have hl2 : ∀ t, cfg.l2Reg ≤ (trace cfg inputs s0 t).damping := fun t =>
          le_trans (by linarith [h.minimum]) (h.damping_bound t)
        obtain ⟨q, e, -⟩ := smooth_damping cfg f L inputs s0 h.options h.loss h.counter h.l2 h.damping_pos hl2
          h.rescale_pos h.rescale_lt t ha (h.solvable _ (lt_of_le_of_lt (judged_le cfg t) (by omega)))
        rw [e]
        refine (updateDamping_le cfg _ _ _ q (h.damping_pos t) h.decay_pos h.decay_le).trans (max_le ?_ ?_)
        · refine le_trans ?_ (le_max_right _ _)
          refine div_le_div_of_nonneg_right ?_ ho0.le
          rw [le_div_iff₀ h1]
          linarith
        · exact h.bound.trans (le_max_left _ _)
      · rw [(trace_damping cfg inputs s0 h.counter t).2 ha]
        exact ih (by omega)

/-- While the judged updates move the parameters, an excessive initial damping is forgotten geometrically in the
number of adaptations. -/
theorem C108_settles (h : SmoothRun cfg f L inputs s0 k) (hL : 0 ≤ L)
    (hmove : ∀ t < k, AdaptsAt cfg t →
      (trace cfg inputs s0 (judged cfg t + 1)).params ≠ (trace cfg inputs s0 (judged cfg t)).params)
    (t : ℕ) (ht : t ≤ k) :
    (trace cfg inputs s0 t).damping ≤
      max (s0.damping * (cfg.adaptationDecay ^ cfg.interval) ^ ((Finset.range t).filter (AdaptsAt cfg)).card)
        (max (cfg.rescale.getD 1 * L / (2 * (1 - cfg.decreaseThreshold)) / cfg.adaptationDecay ^ cfg.interval)
          (cfg.minDamping + cfg.l2Reg)) := by
  have h1 : 0 < 2 * (1 - cfg.decreaseThreshold) := by linarith [h.decrease_lt]
  have ho0 : 0 < cfg.adaptationDecay ^ cfg.interval := pow_pos h.decay_pos _
  have ho1 : cfg.adaptationDecay ^ cfg.interval ≤ 1 := pow_le_one₀ h.decay_pos.le h.decay_le
  have hb0 : 0 ≤ cfg.rescale.getD 1 * L / (2 * (1 - cfg.decreaseThreshold)) / cfg.adaptationDecay ^ cfg.interval :=
    div_nonneg (div_nonneg (mul_nonneg h.rescale_pos.le hL) h1.le) ho0.le
  induction t with
  | zero => simp [trace]
  | succ t ih =>
    by_cases ha : AdaptsAt cfg t
    · have hcard : ((Finset.range (t + 1)).filter (AdaptsAt cfg)).card =
          ((Finset.range t).filter (AdaptsAt cfg)).card + 1 := by
        rw [Finset.range_add_one, Finset.filter_insert, if_pos ha, Finset.card_insert_of_notMem (by simp)]
      have ih' := ih (by omega)
      by_cases hd : cfg.rescale.getD 1 * L < 2 * (1 - cfg.decreaseThreshold) * (trace cfg inputs s0 t).damping
      · rw [C108_lowered h t (by omega) ha hd, if_neg (hmove t (by omega) ha), hcard, pow_succ, ← mul_assoc]
        refine max_le ?_ ((le_max_right _ _).trans (le_max_right _ _))
        rcases le_max_iff.1 ih' with h2 | h2
        · exact (mul_le_mul_of_nonneg_right h2 ho0.le).trans (le_max_left _ _)
        · refine le_trans ?_ (le_max_right _ _)
          refine le_trans ?_ h2
          nlinarith [h.damping_pos t]
      · have hl2 : ∀ t, cfg.l2Reg ≤ (trace cfg inputs s0 t).damping := fun t =>
          le_trans (by linarith [h.minimum]) (h.damping_bound t)
        obtain ⟨q, e, -⟩ := smooth_damping cfg f L inputs s0 h.options h.loss h.counter h.l2 h.damping_pos hl2
          h.rescale_pos h.rescale_lt t ha (h.solvable _ (lt_of_le_of_lt (judged_le cfg t) (by omega)))
        rw [e]
        refine (updateDamping_le cfg _ _ _ q (h.damping_pos t) h.decay_pos h.decay_le).trans ?_
        refine le_trans (max_le_max ?_ le_rfl) (le_max_right _ _)
        refine div_le_div_of_nonneg_right ?_ ho0.le
        rw [le_div_iff₀ h1]
        linarith
    · have hcard : ((Finset.range (t + 1)).filter (AdaptsAt cfg)).card =
          ((Finset.range t).filter (AdaptsAt cfg)).card := by
        rw [Finset.range_add_one, Finset.filter_insert, if_neg ha]
      rw [(trace_damping cfg inputs s0 h.counter t).2 ha, hcard]
      exact ih (by omega)

/-- If even the minimal damping is at least `r L / 2`, no update increases the loss. -/
theorem C108_monotone (h : SmoothRun cfg f L inputs s0 k)
    (hd : cfg.rescale.getD 1 * L ≤ 2 * (cfg.minDamping + cfg.l2Reg)) (t : ℕ) (ht : t < k) :
    f (trace cfg inputs s0 (t + 1)).params ≤ f (trace cfg inputs s0 t).params := by
  obtain ⟨k1, k2, k3, _⟩ := preUpdate_keeps cfg (inputs t) (trace cfg inputs s0 t)
  have hdm : (preUpdate cfg (inputs t) (trace cfg inputs s0 t)).damping = (trace cfg inputs s0 t).damping ∨
      (preUpdate cfg (inputs t) (trace cfg inputs s0 t)).damping = (trace cfg inputs s0 (t + 1)).damping := by
    by_cases h : cfg.adaptDamping = false ∨ cfg.isChief = false ∨ cfg.immediate = true
    · rw [preUpdate_immediate cfg _ _ h]; exact .inl rfl
    · right
      have hi : cfg.immediate = false := by simpa using fun hh => h (.inr (.inr hh))
      rw [trace_succ, apply_damping, if_pos (.inl hi)]
  have hp : 0 < (preUpdate cfg (inputs t) (trace cfg inputs s0 t)).damping := by
    rcases hdm with e | e <;> rw [e] <;> exact h.damping_pos _
  have hb : cfg.minDamping + cfg.l2Reg ≤ (preUpdate cfg (inputs t) (trace cfg inputs s0 t)).damping := by
    rcases hdm with e | e <;> rw [e] <;> exact h.damping_bound _
  obtain ⟨q, -, -, -, hθ⟩ := C108_step cfg f L (inputs t) (preUpdate cfg (inputs t) (trace cfg inputs s0 t)) h.options
    (h.loss t) hp h.l2 (by linarith [h.minimum]) (by rw [k2, k3]; exact h.solvable t ht) h.rescale_pos h.rescale_lt
  have := (hθ 0 le_rfl one_pos).1 (by linarith)
  rw [k2, ← trace_succ, zero_mul] at this
  linarith

/-! ### A run -/

/-- The bowl again, but with a curvature matrix that is still zero. -/
noncomputable def blindInput : StepIn (Fin 2) (Fin 2) := { bowlInput with factor := 0 }

theorem bowl_smooth : SmoothLoss bowlConfig bowl 4 blindInput where
  recorded x := by simp [recordedLoss, blindInput, bowlInput]
  after x := rfl
  delayed x := rfl
  size := by norm_num [blindInput, bowlInput]
  upper x d := by
    simp [bowl, blindInput, bowlInput, dotProduct, Fin.sum_univ_two]
    nlinarith [sq_nonneg (d 0)]

/-- From (1, 1) with damping 1/10 the first update overshoots and the damping is doubled; it can never be raised
beyond 16/3. -/
example : SmoothRun bowlConfig bowl 4 (fun _ => blindInput) (State.init ![1, 1] (1 / 10)) 1 ∧
    (trace bowlConfig (fun _ => blindInput) (State.init ![1, 1] (1 / 10)) 1).damping = 1 / 5 := by
  constructor
  · refine ⟨⟨rfl, rfl, rfl, rfl⟩, fun _ => bowl_smooth, rfl, by norm_num [State.init],
      by norm_num [State.init, bowlConfig], by norm_num [bowlConfig], by norm_num [bowlConfig],
      by norm_num [bowlConfig], by norm_num [bowlConfig], by norm_num [bowlConfig], by norm_num [bowlConfig],
      by norm_num [bowlConfig], by norm_num [bowlConfig], by norm_num [bowlConfig], fun t ht => ?_⟩
    obtain rfl : t = 0 := by omega
    refine ⟨fun h => ?_, fun h => absurd ?_ h⟩
    · have := congrFun h 0
      simp [blindInput, bowlInput, trace, State.init] at this
    · simp [trace, State.init]
  · have hpre : preUpdate bowlConfig blindInput (State.init ![1, 1] (1 / 10)) = State.init ![1, 1] (1 / 10) :=
      preUpdate_immediate _ _ _ (.inr (.inr rfl))
    have hs := trace_succ bowlConfig (fun _ => blindInput) (State.init ![1, 1] (1 / 10)) 0
    rw [trace, hpre] at hs
    obtain ⟨h1, h2, h3⟩ := apply_qmodel bowlConfig blindInput (State.init ![1, 1] (1 / 10)) none (.inl ⟨rfl, rfl⟩)
    have hv : (applyGradients bowlConfig blindInput (State.init ![1, 1] (1 / 10))).velocity = ![10, 40] := by
      rw [← neg_neg (applyGradients bowlConfig blindInput (State.init ![1, 1] (1 / 10))).velocity, h1]
      funext i
      fin_cases i <;>
        norm_num [qmodelHyperparams, computeQmodel, State.init, blindInput, bowlInput, bowlConfig, dotProduct, mulVec,
          Fin.sum_univ_two, one_mulVec]
    have hp : (applyGradients bowlConfig blindInput (State.init ![1, 1] (1 / 10))).params = ![-9, -39] := by
      rw [← sub_add_cancel (applyGradients bowlConfig blindInput (State.init ![1, 1] (1 / 10))).params
        (State.init ![1, 1] (1 / 10)).params, h3, hv]
      funext i
      fin_cases i <;> norm_num [addWeightDecay, bowlConfig, State.init]
    have hq : (applyGradients bowlConfig blindInput (State.init ![1, 1] (1 / 10))).qChange = some (-170) := by
      rw [h2]
      norm_num [qmodelHyperparams, computeQmodel, State.init, blindInput, bowlInput, bowlConfig, dotProduct, mulVec,
          Fin.sum_univ_two, one_mulVec, leftDamping, subDampingCoeff]
    rw [hs, apply_damping, if_neg (by simp [bowlConfig]), if_pos (by simp [bowlConfig, State.init]), hq, hp,
      apply_prevLoss, updatePrevLoss, if_pos ⟨rfl, by simp [adaptationTime, bowlConfig, State.init]⟩,
      bowl_smooth.after]
    change (updateDamping bowlConfig (1 / 10) (some (bowl ![1, 1])) (some (bowl ![-9, -39])) (some (-170))).1 = _
    rw [C35_rule _ _ _ _ _ (by norm_num)]
    norm_num [bowl, bowlConfig]

end Kfac.Opt
