import Verif.Mix.PropsStochastic
import Mathlib.Algebra.Field.GeomSum

/-! # C131: mini-batches that can all be fitted by the same parameters -/

namespace Kfac.Mix

open Kfac.Stats Kfac.Block Kfac.Train Kfac.Params Matrix Filter Topology

variable {B : ℕ} {shapes : Fin B → Shape}

/-! ### Specification -/

/-- The mean of the lower bounds of the losses of the batches. -/
noncomputable def meanLow {n : ℕ} (low : Fin n → ℝ) : ℝ := (∑ i, low i) / n

/-- The loss of every batch has a gradient with Lipschitz constant `M` and the lower bound `low`. The loss of all batches
satisfies the Polyak-Łojasiewicz condition for the mean of the lower bounds, so that it can come arbitrarily close to all
lower bounds at once. The learning rate is small enough. -/
structure Fitting {n : ℕ} (cfg : Config) (ℓ : Fin n → Params shapes → ℝ) (low : Fin n → ℝ) (lam L c M μ : ℝ) : Prop where
  below : ∀ i θ, low i ≤ ℓ i θ
  each : ∀ i θ d, ℓ i (θ + d) ≤ ℓ i θ + fderiv ℝ (ℓ i) θ d + M / 2 * inner d d
  curved : 0 < M
  steep : ∀ θ, 2 * μ * (meanLoss ℓ θ - meanLow low) ≤ ∑ j, ∑ k, grad (meanLoss ℓ) θ j k ^ 2
  steep_pos : 0 < μ
  slower : 2 * c * L * cfg.learningRate * M ≤ lam ^ 2 * μ

/-- The share of the histories of `T` batches for which something holds. -/
noncomputable def share (n T : ℕ) (p : List (Fin n) → Prop) : ℝ :=
  Nat.card {s : Fin T → Fin n // p (List.ofFn s)} / n ^ T

/-! ### Lemmas -/

/-- A smooth function that is bounded below has a small gradient where it is small. -/
theorem grad_small {f : Params shapes → ℝ} {M low : ℝ} (hM : 0 < M) (hlow : ∀ θ, low ≤ f θ)
    (hf : ∀ θ d, f (θ + d) ≤ f θ + fderiv ℝ f θ d + M / 2 * inner d d) (θ : Params shapes) :
    inner (grad f θ) (grad f θ) ≤ 2 * M * (f θ - low) := by
  have h1 := hf θ ((-M⁻¹) • grad f θ)
  have h2 := hlow (θ + (-M⁻¹) • grad f θ)
  rw [fderiv_inner, inner_smul, inner_smul, inner_smul_left] at h1
  set G := inner (grad f θ) (grad f θ)
  have h3 : -M⁻¹ * G + M / 2 * (-M⁻¹ * (-M⁻¹ * G)) = -(G / (2 * M)) := by
    field_simp
    ring
  have h4 : G / (2 * M) ≤ f θ - low := by linarith
  rw [div_le_iff₀ (by positivity)] at h4
  linarith

section mean

variable {n : ℕ} {ℓ : Fin n → Params shapes → ℝ} {low : Fin n → ℝ} {cfg : Config} {lam L c M μ : ℝ}

theorem meanLow_le (h : Fitting cfg ℓ low lam L c M μ) (θ : Params shapes) : meanLow low ≤ meanLoss ℓ θ :=
  div_le_div_of_nonneg_right (Finset.sum_le_sum fun i _ => h.below i θ) (Nat.cast_nonneg n)

/-- The variance of the gradients is at most a multiple of the squared gradient. -/
theorem variance_small (hn : 0 < n) (hf : ∀ i, Differentiable ℝ (ℓ i)) (h : Fitting cfg ℓ low lam L c M μ) (θ : Params shapes) :
    (∑ i, ∑ j, ∑ k, (grad (ℓ i) θ j k - grad (meanLoss ℓ) θ j k) ^ 2) / n ≤
      M / μ * ∑ j, ∑ k, grad (meanLoss ℓ) θ j k ^ 2 := by
  have hn' : (0 : ℝ) < n := by exact_mod_cast hn
  have hsum := mean_grad hn hf θ
  set g := grad (meanLoss ℓ) θ with hg
  have h1 : ∀ i, ∑ j, ∑ k, (grad (ℓ i) θ j k - g j k) ^ 2 =
      inner (grad (ℓ i) θ) (grad (ℓ i) θ) - 2 * inner g (grad (ℓ i) θ) + inner g g := by
    intro i
    simp only [inner, Finset.mul_sum, ← Finset.sum_sub_distrib, ← Finset.sum_add_distrib]
    exact Finset.sum_congr rfl fun j _ => Finset.sum_congr rfl fun k _ => by ring
  have h2 : ∑ i, inner g (grad (ℓ i) θ) = n * inner g g := by
    rw [← inner_sum_right, hsum, inner_smul]
  have h3 : ∑ i, inner (grad (ℓ i) θ) (grad (ℓ i) θ) ≤ 2 * M * (n * (meanLoss ℓ θ - meanLow low)) := by
    refine (Finset.sum_le_sum fun i _ => grad_small h.curved (h.below i) (h.each i) θ).trans (le_of_eq ?_)
    rw [← Finset.mul_sum, Finset.sum_sub_distrib, meanLoss, meanLow]
    field_simp
  have h4 := h.steep θ
  have hμ := h.steep_pos
  have hM := h.curved
  rw [div_le_iff₀ hn']
  simp only [h1, Finset.sum_add_distrib, Finset.sum_sub_distrib, ← Finset.mul_sum, h2]
  simp only [Finset.sum_const, Finset.card_univ, Fintype.card_fin, nsmul_eq_mul]
  have h5 : 2 * (meanLoss ℓ θ - meanLow low) ≤ (∑ j, ∑ k, g j k ^ 2) / μ := by
    rw [le_div_iff₀ hμ]
    linarith
  have h6 := mul_le_mul_of_nonneg_left h5 (by positivity : 0 ≤ M * n)
  have h7 := mul_nonneg hn'.le (inner_self_nonneg g)
  have e : M * n * ((∑ j, ∑ k, g j k ^ 2) / μ) = M / μ * (∑ j, ∑ k, g j k ^ 2) * n := by ring
  rw [e] at h6
  linarith

end mean

section shares

variable {n : ℕ}

theorem share_expect (T : ℕ) (p : List (Fin n) → Prop) [DecidablePred p] :
    share n T p = expect n T fun l => if p l then 1 else 0 := by
  classical
  unfold share expect
  rw [Finset.sum_boole, Nat.card_eq_fintype_card, Fintype.card_subtype]

theorem expect_drop (hn : 0 < n) (t k : ℕ) (φ : List (Fin n) → ℝ) :
    expect n (t + k) (fun l => φ (l.drop k)) = expect n t φ := by
  have hn' : (n : ℝ) ≠ 0 := by exact_mod_cast hn.ne'
  induction k with
  | zero => simp
  | succ k ih =>
    rw [← add_assoc, expect_succ]
    simp only [List.drop_succ_cons, Finset.sum_const, Finset.card_univ, Fintype.card_fin, nsmul_eq_mul,
      mul_div_cancel_left₀ _ hn']
    exact ih

theorem expect_sum {ι : Type} (s : Finset ι) (T : ℕ) (φ : ι → List (Fin n) → ℝ) :
    expect n T (fun l => ∑ x ∈ s, φ x l) = ∑ x ∈ s, expect n T (φ x) := by
  simp only [expect, ← Finset.sum_div]
  rw [Finset.sum_comm]

end shares

/-! ### Theorems -/

section theorems

variable {n : ℕ} {cfg : Config} {start : Net shapes} {ℓ : Fin n → Params shapes → ℝ} {low : Fin n → ℝ}
  {updates : List (Fin n) → List (Op shapes)} {damping : List (Fin n) → ℝ} {states : List (Fin n) → Net shapes}
  {lam L b Λ c M μ : ℝ}

theorem fitting_step (h : Drawing cfg start ℓ updates damping lam L b Λ c) (hs : Sampling cfg start ℓ updates damping states)
    (hf : Fitting cfg ℓ low lam L c M μ) (l : List (Fin n)) :
    (∑ i, meanLoss ℓ (states (i :: l)).params) / n ≤ meanLoss ℓ (states l).params -
      cfg.learningRate / (4 * c) * ∑ j, ∑ k, grad (meanLoss ℓ) (states l).params j k ^ 2 := by
  refine (drawing_step h hs l (variance_small h.batches h.differentiable hf _)).trans ?_
  set G := ∑ j, ∑ k, grad (meanLoss ℓ) (states l).params j k ^ 2 with hG
  have hG0 : 0 ≤ G := Finset.sum_nonneg fun j _ => Finset.sum_nonneg fun k _ => sq_nonneg _
  have hc := h.positive
  have hlr := h.rate
  have hlam := h.damped
  have hμ := hf.steep_pos
  have h1 : L * cfg.learningRate ^ 2 * (M / μ * G) / (2 * lam ^ 2) ≤ cfg.learningRate / (4 * c) * G := by
    have h2 : L * cfg.learningRate ^ 2 * (M / μ * G) / (2 * lam ^ 2) =
        (2 * c * L * cfg.learningRate * M) * (cfg.learningRate * G / (4 * c * μ * lam ^ 2)) := by
      field_simp
      ring
    have h3 : cfg.learningRate / (4 * c) * G = (lam ^ 2 * μ) * (cfg.learningRate * G / (4 * c * μ * lam ^ 2)) := by
      field_simp
    rw [h2, h3]
    exact mul_le_mul_of_nonneg_right hf.slower (by positivity)
  have h2 : cfg.learningRate / (2 * c) * G = 2 * (cfg.learningRate / (4 * c) * G) := by
    field_simp
    ring
  linarith

theorem fitting_expect (h : Drawing cfg start ℓ updates damping lam L b Λ c) (hs : Sampling cfg start ℓ updates damping states)
    (hf : Fitting cfg ℓ low lam L c M μ) (t : ℕ) :
    expect n (t + 1) (fun l => meanLoss ℓ (states l).params) ≤ expect n t (fun l => meanLoss ℓ (states l).params) -
      cfg.learningRate / (4 * c) * expect n t (fun l => ∑ j, ∑ k, grad (meanLoss ℓ) (states l).params j k ^ 2) := by
  rw [expect_succ]
  refine (expect_mono (fitting_step h hs hf)).trans (le_of_eq ?_)
  have := expect_linear (t := t) h.batches (fun l => meanLoss ℓ (states l).params)
    (fun l => ∑ j, ∑ k, grad (meanLoss ℓ) (states l).params j k ^ 2) 1 (-(cfg.learningRate / (4 * c))) 0
  simp only [one_mul, neg_mul, ← sub_eq_add_neg, add_zero] at this
  exact this

theorem expect_low (h : 0 < n) (hf : Fitting cfg ℓ low lam L c M μ) (t : ℕ) (states : List (Fin n) → Net shapes) :
    meanLow low ≤ expect n t (fun l => meanLoss ℓ (states l).params) := by
  have := expect_linear (t := t) h (fun _ => 0) (fun _ => 0) 0 0 (meanLow low)
  simp only [mul_zero, zero_add, zero_mul] at this
  rw [← this]
  exact expect_mono fun l => meanLow_le hf _

/-- C131: the expected squared gradients of all steps together are bounded, unlike in C114, however large the variance. -/
theorem C131_gradients (h : Drawing cfg start ℓ updates damping lam L b Λ c) (hs : Sampling cfg start ℓ updates damping states)
    (hf : Fitting cfg ℓ low lam L c M μ) (T : ℕ) :
    ∑ t ∈ Finset.range T, expect n t (fun l => ∑ j, ∑ k, grad (meanLoss ℓ) (states l).params j k ^ 2) ≤
      4 * c * (meanLoss ℓ start.params - meanLow low) / cfg.learningRate := by
  have hc := h.positive
  have hlr := h.rate
  have h2 : cfg.learningRate / (4 * c) * ∑ t ∈ Finset.range T, expect n t
      (fun l => ∑ j, ∑ k, grad (meanLoss ℓ) (states l).params j k ^ 2) ≤ meanLoss ℓ start.params -
      expect n T (fun l => meanLoss ℓ (states l).params) := by
    induction T with
    | zero => simp [expect_zero, sampling_first h hs]
    | succ T ih =>
      rw [Finset.sum_range_succ, mul_add]
      have := fitting_expect h hs hf T
      linarith
  have h3 := expect_low h.batches hf T states
  rw [le_div_iff₀ hlr]
  have h4 : cfg.learningRate / (4 * c) * ∑ t ∈ Finset.range T, expect n t
      (fun l => ∑ j, ∑ k, grad (meanLoss ℓ) (states l).params j k ^ 2) ≤ meanLoss ℓ start.params - meanLow low := by linarith
  have h5 := mul_le_mul_of_nonneg_left h4 (by positivity : 0 ≤ 4 * c)
  have e : 4 * c * (cfg.learningRate / (4 * c) * ∑ t ∈ Finset.range T, expect n t
      (fun l => ∑ j, ∑ k, grad (meanLoss ℓ) (states l).params j k ^ 2)) = (∑ t ∈ Finset.range T, expect n t
      (fun l => ∑ j, ∑ k, grad (meanLoss ℓ) (states l).params j k ^ 2)) * cfg.learningRate := by
    field_simp
  linarith

/-- C131: the expected distance from the best possible loss decreases geometrically to zero, with no remaining level. -/
theorem C131_linear (h : Drawing cfg start ℓ updates damping lam L b Λ c) (hs : Sampling cfg start ℓ updates damping states)
    (hf : Fitting cfg ℓ low lam L c M μ) (T : ℕ) :
    expect n T (fun l => meanLoss ℓ (states l).params) - meanLow low ≤
      Real.exp (-(cfg.learningRate * μ / (2 * c) * T)) * (meanLoss ℓ start.params - meanLow low) := by
  have hc := h.positive
  have hlr := h.rate
  have hμ := hf.steep_pos
  set ρ := cfg.learningRate * μ / (2 * c) with hρ
  induction T with
  | zero => simp [expect_zero, sampling_first h hs]
  | succ T ih =>
    have h1 : expect n (T + 1) (fun l => meanLoss ℓ (states l).params) - meanLow low ≤
        (1 - ρ) * (expect n T (fun l => meanLoss ℓ (states l).params) - meanLow low) := by
      rw [expect_succ]
      have h2 : ∀ l, (∑ i, meanLoss ℓ (states (i :: l)).params) / n ≤
          (1 - ρ) * meanLoss ℓ (states l).params + 0 * 0 + ρ * meanLow low := by
        intro l
        refine (fitting_step h hs hf l).trans ?_
        have h3 := mul_le_mul_of_nonneg_left (hf.steep (states l).params) (by positivity : 0 ≤ cfg.learningRate / (4 * c))
        have e : cfg.learningRate / (4 * c) * (2 * μ * (meanLoss ℓ (states l).params - meanLow low)) =
            ρ * (meanLoss ℓ (states l).params - meanLow low) := by
          rw [hρ]
          field_simp
          ring
        rw [e] at h3
        linarith
      have h3 := (expect_mono (t := T) h2).trans_eq (expect_linear h.batches _ (fun _ => 0) (1 - ρ) 0 (ρ * meanLow low))
      linarith
    have h0 : 0 ≤ expect n T (fun l => meanLoss ℓ (states l).params) - meanLow low :=
      sub_nonneg.mpr (expect_low h.batches hf T states)
    have h5 : 1 - ρ ≤ Real.exp (-ρ) := by
      have := Real.add_one_le_exp (-ρ)
      linarith
    have h6 := mul_le_mul_of_nonneg_right h5 h0
    have h7 := mul_le_mul_of_nonneg_left ih (Real.exp_pos (-ρ)).le
    have e : Real.exp (-ρ) * (Real.exp (-(ρ * T)) * (meanLoss ℓ start.params - meanLow low)) =
        Real.exp (-(ρ * (T + 1 : ℕ))) * (meanLoss ℓ start.params - meanLow low) := by
      rw [← mul_assoc, ← Real.exp_add]
      congr 2
      push_cast
      ring
    linarith

theorem share_step (h : Drawing cfg start ℓ updates damping lam L b Λ c) (hs : Sampling cfg start ℓ updates damping states)
    (hf : Fitting cfg ℓ low lam L c M μ) {ε : ℝ} (hε : 0 < ε) (T : ℕ) [DecidablePred fun l => ε < meanLoss ℓ (states l).params - meanLow low] :
    expect n T (fun l => if ε < meanLoss ℓ (states l).params - meanLow low then 1 else 0) ≤
      Real.exp (-(cfg.learningRate * μ / (2 * c) * T)) * ((meanLoss ℓ start.params - meanLow low) / ε) := by
  have h1 : ∀ l, (if ε < meanLoss ℓ (states l).params - meanLow low then (1 : ℝ) else 0) ≤
      ε⁻¹ * meanLoss ℓ (states l).params + 0 * 0 + -(ε⁻¹ * meanLow low) := by
    intro l
    have h2 := meanLow_le hf (states l).params
    have h3 : ε⁻¹ * meanLoss ℓ (states l).params + 0 * 0 + -(ε⁻¹ * meanLow low) =
        (meanLoss ℓ (states l).params - meanLow low) / ε := by
      field_simp
      ring
    rw [h3]
    split_ifs with h4
    · rw [le_div_iff₀ hε]
      linarith
    · exact div_nonneg (by linarith) hε.le
  refine (expect_mono h1).trans ?_
  rw [expect_linear h.batches _ (fun _ => 0)]
  have h2 := mul_le_mul_of_nonneg_left (C131_linear h hs hf T) (inv_pos.mpr hε).le
  refine le_trans (le_of_eq ?_) (h2.trans_eq ?_)
  · ring
  · ring

/-- C131: how unlikely it is that the loss is still far from the best possible one after `T` steps. -/
theorem C131_likely (h : Drawing cfg start ℓ updates damping lam L b Λ c) (hs : Sampling cfg start ℓ updates damping states)
    (hf : Fitting cfg ℓ low lam L c M μ) {ε : ℝ} (hε : 0 < ε) (T : ℕ) :
    share n T (fun l => ε < meanLoss ℓ (states l).params - meanLow low) ≤
      Real.exp (-(cfg.learningRate * μ / (2 * c) * T)) * ((meanLoss ℓ start.params - meanLow low) / ε) := by
  classical
  rw [share_expect]
  exact share_step h hs hf hε T

/-- C131: how unlikely it is that the loss is far from the best possible one at any of the times from `T` to `T'`; the
bound does not depend on `T'`, so that almost every run approaches the best possible loss and stays there. The history at
time `t` is the end of the list of length `T'`. -/
theorem C131_stays (h : Drawing cfg start ℓ updates damping lam L b Λ c) (hs : Sampling cfg start ℓ updates damping states)
    (hf : Fitting cfg ℓ low lam L c M μ) {ε : ℝ} (hε : 0 < ε) (T T' : ℕ) :
    share n T' (fun l => ∃ t, T ≤ t ∧ t ≤ T' ∧ ε < meanLoss ℓ (states (l.drop (T' - t))).params - meanLow low) ≤
      Real.exp (-(cfg.learningRate * μ / (2 * c) * T)) * ((meanLoss ℓ start.params - meanLow low) / ε) /
        (1 - Real.exp (-(cfg.learningRate * μ / (2 * c)))) := by
  classical
  have hc := h.positive
  have hlr := h.rate
  have hμ := hf.steep_pos
  set ρ := cfg.learningRate * μ / (2 * c) with hρ
  have hρ0 : 0 < ρ := by positivity
  set E := (meanLoss ℓ start.params - meanLow low) / ε with hE
  have hE0 : 0 ≤ E := div_nonneg (sub_nonneg.mpr (meanLow_le hf _)) hε.le
  let χ : List (Fin n) → ℝ := fun l => if ε < meanLoss ℓ (states l).params - meanLow low then 1 else 0
  have hχ : ∀ l, 0 ≤ χ l := fun l => by simp only [χ]; split_ifs <;> norm_num
  rw [share_expect]
  have h1 : ∀ l : List (Fin n), (if ∃ t, T ≤ t ∧ t ≤ T' ∧ ε < meanLoss ℓ (states (l.drop (T' - t))).params - meanLow low
      then (1 : ℝ) else 0) ≤ ∑ t ∈ Finset.Ico T (T' + 1), χ (l.drop (T' - t)) := by
    intro l
    split_ifs with hl
    · obtain ⟨t, ht, ht', hlt⟩ := hl
      refine le_trans (le_of_eq ?_) (Finset.single_le_sum (f := fun t => χ (l.drop (T' - t))) (fun t _ => hχ _)
        (Finset.mem_Ico.mpr ⟨ht, Nat.lt_succ_of_le ht'⟩))
      simp only [χ, if_pos hlt]
    · exact Finset.sum_nonneg fun t _ => hχ _
  refine (expect_mono h1).trans ?_
  rw [expect_sum]
  have h2 : ∀ t ∈ Finset.Ico T (T' + 1), expect n T' (fun l => χ (l.drop (T' - t))) ≤ Real.exp (-ρ) ^ t * E := by
    intro t ht
    have ht' : t ≤ T' := Nat.lt_succ_iff.mp (Finset.mem_Ico.mp ht).2
    have h3 := expect_drop h.batches t (T' - t) χ
    rw [Nat.add_sub_cancel' ht'] at h3
    rw [h3, ← Real.exp_nat_mul]
    refine (share_step h hs hf hε t).trans (le_of_eq ?_)
    rw [← hρ]
    congr 2
    ring
  refine (Finset.sum_le_sum h2).trans ?_
  rw [← Finset.sum_mul]
  have hx0 := Real.exp_pos (-ρ)
  have hx1 : Real.exp (-ρ) < 1 := by
    have := Real.exp_lt_exp.mpr (neg_lt_zero.mpr hρ0)
    rwa [Real.exp_zero] at this
  have e : Real.exp (-(ρ * T)) = Real.exp (-ρ) ^ T := by
    rw [← Real.exp_nat_mul]
    congr 1
    ring
  rw [e]
  set x := Real.exp (-ρ)
  have h4 : ∑ t ∈ Finset.Ico T (T' + 1), x ^ t ≤ x ^ T / (1 - x) := by
    rw [le_div_iff₀ (by linarith)]
    by_cases hT : T ≤ T' + 1
    · rw [geom_sum_Ico_mul_neg x hT]
      have := pow_pos hx0 (T' + 1)
      linarith
    · rw [Finset.Ico_eq_empty (by omega)]
      simp only [Finset.sum_empty, zero_mul]
      positivity
  refine (mul_le_mul_of_nonneg_right h4 hE0).trans (le_of_eq ?_)
  ring

end theorems

/-- A net with all kinds of blocks, two batches with different losses that have their minimum at the same parameters: the
hypotheses of the theorems hold, and no bound on the variance holds as in C114. -/
example : ∃ (shapes : Fin 4 → Shape) (cfg : Config) (start : Net shapes) (ℓ : Fin 2 → Params shapes → ℝ)
    (updates : List (Fin 2) → List (Op shapes)) (damping : List (Fin 2) → ℝ) (states : List (Fin 2) → Net shapes) (c : ℝ),
    Drawing cfg start ℓ updates damping 1 1 3 2 c ∧ Sampling cfg start ℓ updates damping states ∧
    Fitting cfg ℓ (fun _ => 0) 1 1 c (3 / 2) 1 ∧ 0 < meanLoss ℓ start.params - meanLow (fun _ : Fin 2 => 0) ∧
    ∀ v, ∃ θ, v < (∑ i, ∑ j, ∑ k, (grad (ℓ i) θ j k - grad (meanLoss ℓ) θ j k) ^ 2) / (2 : ℕ) := by
  let shapes : Fin 4 → Shape := ![.kron (.conv 5) 2 3 true false false, .kron .fullyConnected 2 1 false true true, .full 3,
    .diagonal .naive 7]
  let a : Params shapes := fun _ _ => 1
  let ℓ : Fin 2 → Params shapes → ℝ := fun i θ => ![1 / 2, 3 / 2] i * (inner θ θ / 2)
  let start : Net shapes := ⟨a, 0, fun j => (shapes j).fresh⟩
  let cov (x : ℝ) : Op shapes := .cov (fun j => (shapes j).unit 1 1) x
  let updates : List (Fin 2) → List (Op shapes) := fun h => match h with
    | [] => [cov (95 / 100), .inv 1]
    | i :: h => if h.length % 2 = 0 then [cov i.1] else [cov (1 / 2), .inv (1 + i.1)]
  let damping : List (Fin 2) → ℝ := fun h => 1 + (h.headD 0).1
  have hmean : meanLoss ℓ = fun θ => inner θ θ / 2 := by
    funext θ
    simp [meanLoss, ℓ, Fin.sum_univ_two]
    ring
  have hfd : ∀ i θ d, fderiv ℝ (ℓ i) θ d = ![1 / 2, 3 / 2] i * inner θ d := by
    intro i θ d
    show fderiv ℝ (fun θ => ![1 / 2, 3 / 2] i * (inner θ θ / 2)) θ d = _
    rw [fderiv_const_mul (half_differentiable θ), ← half_fderiv]
    rfl
  have hpr : ∀ j, (shapes j).Proper := by
    intro j
    fin_cases j
    · exact ⟨by decide, by norm_num [KronKind.renorm]⟩
    · exact ⟨by decide, by norm_num [KronKind.renorm]⟩
    · trivial
    · intro l h; cases h
  have hmix : ∀ j, ¬(shapes j).Mixed := by
    intro j
    fin_cases j <;> simp [shapes, Shape.Mixed]
  have hbelow : ∀ j, (shapes j).NewBelow 3 ((shapes j).unit 1 1) := by
    intro j
    fin_cases j
    · exact unit_below (by norm_num) (by norm_num)
    · exact unit_below (by norm_num) (by norm_num)
    · show Matrix.trace (_ • (1 : Matrix (Fin 3) (Fin 3) ℝ)) ≤ (3 : ℝ)
      simp [Matrix.trace]
    · intro i
      show (1 : ℝ) ≤ 3
      norm_num
  have hcov : ∀ x : ℝ, 0 ≤ x → (cov x).Update 1 3 2 := fun x hx => ⟨fun j => unit_psd zero_le_one zero_le_one _, hbelow, hx⟩
  have hi : ∀ i : Fin 2, (i.1 : ℝ) ≤ 1 := fun i => by exact_mod_cast Nat.lt_succ_iff.mp i.2
  have hup : ∀ h, ∀ op ∈ updates h, op.Update 1 3 2 := by
    intro h op hop
    match h with
    | [] =>
      rcases List.mem_pair.mp hop with rfl | rfl
      · exact hcov _ (by norm_num)
      · exact ⟨le_refl _, one_le_two⟩
    | i :: h =>
      simp only [updates] at hop
      split_ifs at hop
      · rw [List.mem_singleton.mp hop]
        exact hcov _ (Nat.cast_nonneg _)
      · rcases List.mem_pair.mp hop with rfl | rfl
        · exact hcov _ (by norm_num)
        · have := hi i
          exact ⟨le_add_of_nonneg_right (Nat.cast_nonneg _), by linarith⟩
  obtain ⟨c, hc0, hcw⟩ : ∃ c : ℝ, 1 ≤ c ∧ ∀ j, (shapes j).worst 3 2 ≤ c := by
    refine ⟨1 + ∑ j, |(shapes j).worst 3 2|, le_add_of_nonneg_right (by positivity), fun j => ?_⟩
    have := Finset.single_le_sum (f := fun j => |(shapes j).worst 3 2|) (fun j _ => abs_nonneg _) (Finset.mem_univ j)
    have := le_abs_self ((shapes j).worst 3 2)
    linarith
  have hpos : 0 < inner a a := by
    refine Finset.sum_pos' (fun k _ => Finset.sum_nonneg fun i _ => mul_self_nonneg _) ⟨2, Finset.mem_univ _, ?_⟩
    show 0 < ∑ i : Fin 3, (1 : ℝ) * 1
    simp
  let cfg : Config := ⟨1 / (3 * c), 0, none, .tracenorm, 1⟩
  have hrate : 1 / (3 * c) ≤ 1 := by
    rw [div_le_one (by linarith)]
    linarith
  have hd : Drawing cfg start ℓ updates damping 1 1 3 2 c := by
    refine ⟨by norm_num, fun _ => rfl, hpr, hmix, rfl, rfl, rfl, one_pos, hup, ⟨_, _, _, 1, rfl, by simp⟩,
      fun h => le_add_of_nonneg_right (Nat.cast_nonneg _), fun h => ?_, fun i => half_differentiable.const_mul _, zero_le_one,
      fun θ d => ?_, by positivity, by simpa [cfg] using hrate, hcw, by linarith⟩
    · have := hi (h.headD 0)
      show 1 + ((h.headD 0).1 : ℝ) ≤ 2
      linarith
    · rw [hmean, half_fderiv]
      have := half_smooth θ d 1
      rw [one_smul] at this
      linarith
  have hf : Fitting cfg ℓ (fun _ => 0) 1 1 c (3 / 2) 1 := by
    refine ⟨fun i θ => ?_, fun i θ d => ?_, by norm_num, fun θ => ?_, one_pos, ?_⟩
    · have := inner_self_nonneg θ
      fin_cases i <;> simp [ℓ] <;> positivity
    · rw [hfd]
      have h1 := half_smooth θ d 1
      rw [one_smul] at h1
      have h2 := inner_self_nonneg d
      fin_cases i
      · simp only [ℓ, Fin.zero_eta, Matrix.cons_val_zero]
        linarith
      · simp only [ℓ, Fin.mk_one, Matrix.cons_val_one, Matrix.cons_val_fin_one]
        linarith
    · rw [hmean, half_grad]
      simp only [inner, pow_two, meanLow, Finset.sum_const_zero, zero_div]
      linarith
    · show 2 * c * 1 * (1 / (3 * c)) * (3 / 2) ≤ 1 ^ 2 * 1
      refine le_of_eq ?_
      field_simp
  obtain ⟨states, hs⟩ := drawing_succeeds hd
  refine ⟨shapes, cfg, start, ℓ, updates, damping, states, c, hd, hs, hf, ?_, fun v => ?_⟩
  · rw [hmean]
    simpa [meanLow] using div_pos hpos two_pos
  · rw [hmean]
    have hg : ∀ i θ, grad (ℓ i) θ = (![1 / 2, 3 / 2] i : ℝ) • θ := by
      intro i θ
      funext j k
      rw [grad, hfd, inner_single]
      rfl
    have hv : ∀ x : ℝ, (∑ i, ∑ j, ∑ k, (grad (ℓ i) (x • a) j k - grad (fun θ => inner θ θ / 2) (x • a) j k) ^ 2) / (2 : ℕ) =
        x ^ 2 * inner a a / 4 := by
      intro x
      rw [half_grad]
      simp only [hg, Fin.sum_univ_two, inner, Finset.mul_sum, Finset.sum_div, ← Finset.sum_add_distrib]
      refine Finset.sum_congr rfl fun j _ => Finset.sum_congr rfl fun k _ => ?_
      simp [a]
      ring
    refine ⟨(1 + 4 * |v| / inner a a) • a, ?_⟩
    rw [hv]
    have h1 : 0 ≤ 4 * |v| / inner a a := by positivity
    have h2 : (1 + 4 * |v| / inner a a) * 1 ≤ (1 + 4 * |v| / inner a a) ^ 2 := by
      rw [pow_two]
      exact mul_le_mul_of_nonneg_left (by linarith) (by linarith)
    have h3 := mul_le_mul_of_nonneg_right h2 hpos.le
    have h4 : (1 + 4 * |v| / inner a a) * 1 * inner a a = inner a a + 4 * |v| := by
      field_simp
    have := le_abs_self v
    linarith

end Kfac.Mix
