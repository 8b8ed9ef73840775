import Verif.Mix.PropsSchedule

/-! # C134: mini-batches with momentum -/

namespace Kfac.Mix

open Kfac.Stats Kfac.Block Kfac.Train Kfac.Params Matrix

variable {B : ℕ} {shapes : Fin B → Shape}

section mean

variable {n : ℕ} {ℓ : Fin n → Params shapes → ℝ}

/-- The mean of the preconditioned gradients and of their squares. -/
theorem mean_square (hn : 0 < n) (hf : ∀ i, Differentiable ℝ (ℓ i)) {lam v : ℝ} (hlam : 0 < lam)
    {P : Params shapes →ₗ[ℝ] Params shapes} (hP : ∀ g, lam * inner (P g) (P g) ≤ inner g (P g)) (θ : Params shapes)
    (hv : (∑ i, ∑ j, ∑ k, (grad (ℓ i) θ j k - grad (meanLoss ℓ) θ j k) ^ 2) / n ≤ v) :
    (∀ y, ∑ i, inner y (P (grad (ℓ i) θ)) = n * inner y (P (grad (meanLoss ℓ) θ))) ∧
    ∑ i, inner (P (grad (ℓ i) θ)) (P (grad (ℓ i) θ)) ≤
      n * (inner (P (grad (meanLoss ℓ) θ)) (P (grad (meanLoss ℓ) θ)) + v / lam ^ 2) := by
  have hn' : (0 : ℝ) < n := by exact_mod_cast hn
  set g := grad (meanLoss ℓ) θ with hg
  set x : Fin n → Params shapes := fun i => grad (ℓ i) θ with hx
  have hsum : ∑ i, x i = (n : ℝ) • g := mean_grad hn hf θ
  have h2 : ∀ y, ∑ i, inner y (P (x i)) = n * inner y (P g) := by
    intro y
    rw [← inner_sum_right, ← map_sum, hsum, map_smul, inner_smul]
  refine ⟨h2, ?_⟩
  have h4 : ∀ i, inner (P (x i)) (P (x i)) = inner (P (x i - g)) (P (x i - g)) + 2 * inner (P g) (P (x i)) - inner (P g) (P g) := by
    intro i
    have e : P (x i) = P (x i - g) + P g := by rw [← map_add, sub_add_cancel]
    set y := P (x i - g)
    rw [e]
    simp only [inner_add_left, inner_add_right]
    rw [inner_comm y (P g)]
    ring
  have h3 : ∑ i, inner (P (x i)) (P (x i)) = n * inner (P g) (P g) + ∑ i, inner (P (x i - g)) (P (x i - g)) := by
    simp only [h4, Finset.sum_add_distrib, Finset.sum_sub_distrib, ← Finset.mul_sum, h2]
    simp
    ring
  have h6 : ∑ i, inner (P (x i - g)) (P (x i - g)) ≤ n * v / lam ^ 2 := by
    have h7 : ∑ i, inner (x i - g) (x i - g) ≤ n * v := by
      have := hv
      rw [div_le_iff₀ hn'] at this
      refine le_trans (le_of_eq ?_) (this.trans_eq (mul_comm _ _))
      refine Finset.sum_congr rfl fun i _ => ?_
      simp only [inner, pow_two]
      rfl
    rw [le_div_iff₀ (by positivity), Finset.sum_mul]
    refine (Finset.sum_le_sum fun i _ => ?_).trans h7
    rw [mul_comm]
    exact linear_small hlam hP _
  rw [h3, mul_add, ← mul_div_assoc]
  linarith

/-- The loss at the point where the velocity comes from, and a multiple of the square of the velocity. -/
noncomputable def potential (C α m : ℝ) (f : Params shapes → ℝ) (θ v : Params shapes) : ℝ :=
  f (θ - (α * m) • v) + C * inner v v

/-- The mean of the potential after one step. -/
theorem potential_mean (hn : 0 < n) (hd : ∀ i, Differentiable ℝ (ℓ i)) {L lam v m α C : ℝ} (hf : Lipschitz L (meanLoss ℓ)) (hL : 0 ≤ L)
    (hlam : 0 < lam) (hα : 0 < α) (hm : 0 ≤ m) (hm1 : m < 1) (hC : 0 ≤ C)
    {P : Params shapes →ₗ[ℝ] Params shapes} (hP : ∀ g, lam * inner (P g) (P g) ≤ inner g (P g)) (θ w : Params shapes)
    (hv : (∑ i, ∑ j, ∑ k, (grad (ℓ i) θ j k - grad (meanLoss ℓ) θ j k) ^ 2) / n ≤ v) :
    (∑ i, potential C α m (meanLoss ℓ) (θ - (α * (1 - m)) • (m • w + P (grad (ℓ i) θ))) (m • w + P (grad (ℓ i) θ))) / n ≤
      meanLoss ℓ (θ - (α * m) • w) + (C * m + L * α ^ 2 * m / 2) * inner w w -
      α * inner (grad (meanLoss ℓ) θ) (P (grad (meanLoss ℓ) θ)) +
      (L * α ^ 2 * m / 2 + (L / 2 * α ^ 2 + C / (1 - m))) * inner (P (grad (meanLoss ℓ) θ)) (P (grad (meanLoss ℓ) θ)) +
      (L / 2 * α ^ 2 + C / (1 - m)) * (v / lam ^ 2) := by
  have hn' : (0 : ℝ) < n := by exact_mod_cast hn
  have h1m : 0 < 1 - m := sub_pos.mpr hm1
  obtain ⟨hlin, hsq⟩ := mean_square hn hd hlam hP θ hv
  set f := meanLoss ℓ with hfdef
  set g := grad f θ with hg
  set x : Fin n → Params shapes := fun i => P (grad (ℓ i) θ) with hx
  set z := θ - (α * m) • w with hz
  have hpos : ∀ i, θ - (α * (1 - m)) • (m • w + x i) - (α * m) • (m • w + x i) = z + (-α) • x i := by
    intro i
    rw [hz]
    module
  have h1 : ∀ i, potential C α m f (θ - (α * (1 - m)) • (m • w + x i)) (m • w + x i) ≤
      f z + C * (m * inner w w) - α * inner (grad f z) (x i) + (L / 2 * α ^ 2 + C / (1 - m)) * inner (x i) (x i) := by
    intro i
    rw [potential, hpos]
    have h2 := lipschitz_parabola hf hL z ((-α) • x i)
    rw [inner_smul, inner_smul, inner_smul_left] at h2
    have h3 := mul_le_mul_of_nonneg_left (velocity_bound hm hm1 w (x i)) hC
    have e : C * (m * inner w w + inner (x i) (x i) / (1 - m)) = C * (m * inner w w) + C / (1 - m) * inner (x i) (x i) := by ring
    rw [e] at h3
    linarith
  set K := L / 2 * α ^ 2 + C / (1 - m) with hK
  have hK0 : 0 ≤ K := by positivity
  have h4 : (∑ i, potential C α m f (θ - (α * (1 - m)) • (m • w + x i)) (m • w + x i)) / n ≤
      f z + C * (m * inner w w) - α * inner (grad f z) (P g) + K * (inner (P g) (P g) + v / lam ^ 2) := by
    rw [div_le_iff₀ hn']
    refine (Finset.sum_le_sum fun i _ => h1 i).trans ?_
    rw [Finset.sum_add_distrib, Finset.sum_sub_distrib, ← Finset.mul_sum, ← Finset.mul_sum, hlin]
    simp only [Finset.sum_const, Finset.card_univ, Fintype.card_fin, nsmul_eq_mul]
    have := mul_le_mul_of_nonneg_left hsq hK0
    linarith
  refine h4.trans ?_
  -- the gradient at `z` instead of `θ`
  have h5 : inner g (P g) - inner (grad f z) (P g) ≤ L * (α * m) * ((inner w w + inner (P g) (P g)) / 2) := by
    have h6 := hf.2 θ z
    have e : θ - z = (α * m) • w := by rw [hz]; module
    rw [e, inner_smul, inner_smul_left] at h6
    have h7 := inner_sq_le (grad f θ - grad f z) (P g)
    have h8 : inner (grad f θ - grad f z) (P g) = inner g (P g) - inner (grad f z) (P g) := by
      rw [sub_eq_add_neg, inner_add_left, ← neg_one_smul ℝ (grad f z), inner_smul_left]
      ring
    rw [← h8]
    refine abs_le_of_sq_le_sq' ?_ ?_ |>.2
    · refine h7.trans ((mul_le_mul_of_nonneg_right h6 (inner_self_nonneg _)).trans ?_)
      have h9 : inner w w * inner (P g) (P g) ≤ ((inner w w + inner (P g) (P g)) / 2) ^ 2 := by
        nlinarith [sq_nonneg (inner w w - inner (P g) (P g))]
      have := mul_le_mul_of_nonneg_left h9 (by positivity : 0 ≤ (L * (α * m)) ^ 2)
      rw [mul_pow (L * (α * m))]
      linarith
    · have := inner_self_nonneg w
      have := inner_self_nonneg (P g)
      positivity
  have h10 := mul_le_mul_of_nonneg_left h5 hα.le
  have e3 : α * (L * (α * m) * ((inner w w + inner (P g) (P g)) / 2)) =
      L * α ^ 2 * m / 2 * inner w w + L * α ^ 2 * m / 2 * inner (P g) (P g) := by ring
  rw [e3] at h10
  linarith

/-- The potential decreases by the squared gradient if the square of the velocity has the right weight. -/
theorem potential_step (hn : 0 < n) (hd : ∀ i, Differentiable ℝ (ℓ i)) {L lam v m α : ℝ} (hf : Lipschitz L (meanLoss ℓ)) (hL : 0 ≤ L)
    (hlam : 0 < lam) (hα : 0 < α) (hm : 0 ≤ m) (hm1 : m < 1) (hslow : L * α * (1 + m + m / (1 - m) ^ 2) ≤ lam)
    {P : Params shapes →ₗ[ℝ] Params shapes} (hP : ∀ g, lam * inner (P g) (P g) ≤ inner g (P g)) (θ w : Params shapes)
    (hv : (∑ i, ∑ j, ∑ k, (grad (ℓ i) θ j k - grad (meanLoss ℓ) θ j k) ^ 2) / n ≤ v) :
    (∑ i, potential (L * α ^ 2 * m / (2 * (1 - m))) α m (meanLoss ℓ) (θ - (α * (1 - m)) • (m • w + P (grad (ℓ i) θ)))
      (m • w + P (grad (ℓ i) θ))) / n ≤
      potential (L * α ^ 2 * m / (2 * (1 - m))) α m (meanLoss ℓ) θ w -
      α / 2 * inner (grad (meanLoss ℓ) θ) (P (grad (meanLoss ℓ) θ)) + L * α ^ 2 * v / (2 * lam ^ 2) * (1 + m / (1 - m) ^ 2) := by
  have h1m : 0 < 1 - m := sub_pos.mpr hm1
  set C := L * α ^ 2 * m / (2 * (1 - m)) with hC
  refine (potential_mean hn hd hf hL hlam hα hm hm1 (by positivity : 0 ≤ C) hP θ w hv).trans ?_
  set g := grad (meanLoss ℓ) θ with hg
  have h11 : (L * α ^ 2 * m / 2 + (L / 2 * α ^ 2 + C / (1 - m))) * inner (P g) (P g) ≤ α / 2 * inner g (P g) := by
    have e : L * α ^ 2 * m / 2 + (L / 2 * α ^ 2 + C / (1 - m)) = α / 2 * (L * α * (1 + m + m / (1 - m) ^ 2)) := by
      rw [hC]
      field_simp
      ring
    rw [e, mul_assoc]
    refine mul_le_mul_of_nonneg_left ?_ (by positivity)
    exact (mul_le_mul_of_nonneg_right hslow (inner_self_nonneg _)).trans (hP g)
  have e1 : (L / 2 * α ^ 2 + C / (1 - m)) * (v / lam ^ 2) = L * α ^ 2 * v / (2 * lam ^ 2) * (1 + m / (1 - m) ^ 2) := by
    rw [hC]
    field_simp
  have e2 : C * m + L * α ^ 2 * m / 2 = C := by
    rw [hC]
    field_simp
    ring
  rw [e1, e2, potential]
  linarith

/-- With twice that weight the potential decreases by the square of the velocity as well: under the Polyak-Łojasiewicz
condition by a share of itself. -/
theorem potential_shrinks (hn : 0 < n) (hd : ∀ i, Differentiable ℝ (ℓ i)) {L lam v m α μ low c ρ : ℝ} (hf : Lipschitz L (meanLoss ℓ))
    (hlam : 0 < lam) (hα : 0 < α) (hm : 0 ≤ m) (hm1 : m < 1) (hslow : L * α * (1 + m + 2 * m / (1 - m) ^ 2) ≤ lam)
    {P : Params shapes →ₗ[ℝ] Params shapes} (hP : ∀ g, lam * inner (P g) (P g) ≤ inner g (P g) ∧ inner g g ≤ c * inner g (P g))
    (hc : 0 < c) (hμ : 0 < μ) (hμL : μ ≤ L) (hst : ∀ θ, 2 * μ * (meanLoss ℓ θ - low) ≤ ∑ j, ∑ k, grad (meanLoss ℓ) θ j k ^ 2)
    (hρ : 0 ≤ ρ) (hρ1 : ρ ≤ α * μ / (2 * c)) (hρ2 : ρ ≤ (1 - m) / 4) (θ w : Params shapes)
    (hv : (∑ i, ∑ j, ∑ k, (grad (ℓ i) θ j k - grad (meanLoss ℓ) θ j k) ^ 2) / n ≤ v) :
    (∑ i, potential (L * α ^ 2 * m / (1 - m)) α m (meanLoss ℓ) (θ - (α * (1 - m)) • (m • w + P (grad (ℓ i) θ)))
      (m • w + P (grad (ℓ i) θ))) / n ≤
      (1 - ρ) * potential (L * α ^ 2 * m / (1 - m)) α m (meanLoss ℓ) θ w + ρ * low +
      L * α ^ 2 * v / (2 * lam ^ 2) * (1 + 2 * m / (1 - m) ^ 2) := by
  have h1m : 0 < 1 - m := sub_pos.mpr hm1
  have hL : 0 < L := hμ.trans_le hμL
  set C := L * α ^ 2 * m / (1 - m) with hC
  have hC0 : 0 ≤ C := by positivity
  refine (potential_mean hn hd hf hL.le hlam hα hm hm1 hC0 (fun g => (hP g).1) θ w hv).trans ?_
  set g := grad (meanLoss ℓ) θ with hg
  set f := meanLoss ℓ with hfdef
  have h11 : (L * α ^ 2 * m / 2 + (L / 2 * α ^ 2 + C / (1 - m))) * inner (P g) (P g) ≤ α / 2 * inner g (P g) := by
    have e : L * α ^ 2 * m / 2 + (L / 2 * α ^ 2 + C / (1 - m)) = α / 2 * (L * α * (1 + m + 2 * m / (1 - m) ^ 2)) := by
      rw [hC]
      field_simp
      ring
    rw [e, mul_assoc]
    refine mul_le_mul_of_nonneg_left ?_ (by positivity)
    exact (mul_le_mul_of_nonneg_right hslow (inner_self_nonneg _)).trans (hP g).1
  have e1 : (L / 2 * α ^ 2 + C / (1 - m)) * (v / lam ^ 2) = L * α ^ 2 * v / (2 * lam ^ 2) * (1 + 2 * m / (1 - m) ^ 2) := by
    rw [hC]
    field_simp
  have e2 : C * m + L * α ^ 2 * m / 2 = C - L * α ^ 2 * m / 2 := by
    rw [hC]
    field_simp
    ring
  rw [e1, e2, potential]
  -- the decrease in terms of the squared gradient
  have h12 : α / (2 * c) * inner g g ≤ α / 2 * inner g (P g) := by
    have := mul_le_mul_of_nonneg_left (hP g).2 (by positivity : 0 ≤ α / (2 * c))
    refine this.trans (le_of_eq ?_)
    field_simp
  -- the potential in terms of the squares
  have h13 : f (θ - (α * m) • w) - low ≤ inner g g / μ + L * α ^ 2 * m ^ 2 * inner w w := by
    have h14 := lipschitz_parabola hf hL.le θ ((-(α * m)) • w)
    rw [inner_smul, inner_smul, inner_smul_left, neg_smul, ← sub_eq_add_neg] at h14
    have h15 := hst θ
    rw [← inner_grad] at h15
    have h16 : f θ - low ≤ inner g g / (2 * μ) := by
      rw [le_div_iff₀ (by positivity)]
      linarith
    have h17 : -(α * m) * inner g w ≤ inner g g / (2 * L) + L * α ^ 2 * m ^ 2 / 2 * inner w w := by
      have h18 := inner_self_nonneg (g + (L * (α * m)) • w)
      rw [inner_add_left, inner_add_right, inner_add_right, inner_smul_left, inner_smul_left, inner_smul, inner_smul, inner_comm w g] at h18
      have h19 := div_nonneg h18 (by positivity : 0 ≤ 2 * L)
      have e : (inner g g + L * (α * m) * inner g w + (L * (α * m) * inner g w + L * (α * m) * (L * (α * m) * inner w w))) / (2 * L) =
          inner g g / (2 * L) + α * m * inner g w + L * α ^ 2 * m ^ 2 / 2 * inner w w := by
        field_simp
        ring
      rw [e] at h19
      linarith
    have h20 : inner g g / (2 * L) ≤ inner g g / (2 * μ) :=
      div_le_div_of_nonneg_left (inner_self_nonneg g) (by positivity) (by linarith)
    have e : inner g g / μ = inner g g / (2 * μ) + inner g g / (2 * μ) := by
      field_simp
      norm_num
    rw [e]
    linarith
  have hg0 := inner_self_nonneg g
  have hw0 := inner_self_nonneg w
  have h21 : ρ * (inner g g / μ) ≤ α / (2 * c) * inner g g := by
    have := mul_le_mul_of_nonneg_right hρ1 (div_nonneg hg0 hμ.le)
    refine this.trans (le_of_eq ?_)
    field_simp
  have h22 : ρ * (L * α ^ 2 * m ^ 2 * inner w w + C * inner w w) ≤ L * α ^ 2 * m / 2 * inner w w := by
    have h23 : L * α ^ 2 * m ^ 2 + C ≤ L * α ^ 2 * (2 * m / (1 - m)) := by
      have h24 : m ^ 2 ≤ m / (1 - m) := by
        rw [le_div_iff₀ h1m]
        nlinarith [mul_nonneg hm hm, mul_nonneg (mul_nonneg hm hm) hm]
      have := mul_le_mul_of_nonneg_left h24 (by positivity : 0 ≤ L * α ^ 2)
      have e : L * α ^ 2 * (2 * m / (1 - m)) = L * α ^ 2 * (m / (1 - m)) + C := by
        rw [hC]
        field_simp
        ring
      rw [e]
      linarith
    rw [← add_mul, ← mul_assoc]
    refine mul_le_mul_of_nonneg_right ?_ hw0
    have h25 := mul_le_mul hρ2 h23 (by positivity) (by positivity)
    refine h25.trans (le_of_eq ?_)
    field_simp
    norm_num
  have h26 := mul_le_mul_of_nonneg_left h13 hρ
  linarith

/-- The loss in terms of the potential. -/
theorem potential_loss {f : Params shapes → ℝ} {L m α low : ℝ} (hf : Lipschitz L f) (hL : 0 < L) (hm : 0 ≤ m) (hm1 : m < 1)
    (hlow : ∀ θ, low ≤ f θ) (θ w : Params shapes) :
    f θ - low ≤ 2 * (potential (L * α ^ 2 * m / (1 - m)) α m f θ w - low) := by
  have h1m : 0 < 1 - m := sub_pos.mpr hm1
  set z := θ - (α * m) • w with hz
  have hw0 := inner_self_nonneg w
  have h1 := lipschitz_parabola hf hL.le z ((α * m) • w)
  rw [hz, sub_add_cancel, ← hz, inner_smul, inner_smul, inner_smul_left] at h1
  have h2 := grad_bound hf hL hlow z
  have h17 : α * m * inner (grad f z) w ≤ inner (grad f z) (grad f z) / (2 * L) + L * α ^ 2 * m ^ 2 / 2 * inner w w := by
    have h18 := inner_self_nonneg (grad f z + (-(L * (α * m))) • w)
    rw [inner_add_left, inner_add_right, inner_add_right, inner_smul_left, inner_smul_left, inner_smul, inner_smul, inner_comm w (grad f z)] at h18
    have h19 := div_nonneg h18 (by positivity : 0 ≤ 2 * L)
    have e : (inner (grad f z) (grad f z) + -(L * (α * m)) * inner (grad f z) w +
        (-(L * (α * m)) * inner (grad f z) w + -(L * (α * m)) * (-(L * (α * m)) * inner w w))) / (2 * L) =
        inner (grad f z) (grad f z) / (2 * L) - α * m * inner (grad f z) w + L * α ^ 2 * m ^ 2 / 2 * inner w w := by
      field_simp
      ring
    rw [e] at h19
    linarith
  have h3 : inner (grad f z) (grad f z) / (2 * L) ≤ f z - low := by
    rw [div_le_iff₀ (by positivity)]
    linarith
  have h24 : m ^ 2 ≤ m / (1 - m) := by
    rw [le_div_iff₀ h1m]
    nlinarith [mul_nonneg hm hm, mul_nonneg (mul_nonneg hm hm) hm]
  have h4 : L * α ^ 2 * m ^ 2 * inner w w ≤ L * α ^ 2 * m / (1 - m) * inner w w := by
    refine mul_le_mul_of_nonneg_right ?_ hw0
    have := mul_le_mul_of_nonneg_left h24 (by positivity : 0 ≤ L * α ^ 2)
    rwa [← mul_div_assoc] at this
  have h5 : 0 ≤ L * α ^ 2 * m / (1 - m) * inner w w := by positivity
  rw [potential, ← hz]
  linarith

end mean

section theorems

variable {n : ℕ} {cfg : Config} {start : Net shapes} {ℓ : Fin n → Params shapes → ℝ}
  {updates : List (Fin n) → List (Op shapes)} {damping : List (Fin n) → ℝ} {states : List (Fin n) → Net shapes}
  {lam L b Λ c v low : ℝ}

theorem momentum_next (h : Drawing { cfg with momentum := 0 } start ℓ updates damping lam L b Λ c) {net : Net shapes}
    (hc : Cond lam b c true true net) (l : List (Fin n)) :
    ∃ P : Params shapes →ₗ[ℝ] Params shapes, (∀ g, lam * inner (P g) (P g) ≤ inner g (P g) ∧ inner g g ≤ c * inner g (P g)) ∧
      ∀ i, ∃ net', execute cfg net (.train (ℓ i) (damping l) :: updates (i :: l)) = .ok net' ∧ Cond lam b c true true net' ∧
        net'.velocity = cfg.momentum • net.velocity + P (grad (ℓ i) net.params) ∧
        net'.params = net.params - cfg.learningRate • net'.velocity := by
  obtain ⟨P, h1, h2⟩ := cond_velocity (cfg := cfg) h.proper h.pure h.power h.damped h.worst h.unconstrained hc
    (h.damping_lower l) (h.damping_upper l)
  refine ⟨P, h1, fun i => ?_⟩
  obtain ⟨net1, h3, h4, h5, h6⟩ := h2 (ℓ i)
  obtain ⟨net2, h7, h8, h9⟩ := cond_execute (cfg := cfg) h.proper h.power h.damped h.worst (updates (i :: l)) h4 (h.allowed _)
  have h10 := execute_velocity _ (h.allowed _) h7
  refine ⟨net2, ?_, by simpa using h8, h10.trans h5, ?_⟩
  · rw [execute_cons, h3]
    exact h7
  · rw [h9, h10]
    exact h6

theorem momentum_first (h : Drawing { cfg with momentum := 0 } start ℓ updates damping lam L b Λ c)
    (hs : Sampling cfg start ℓ updates damping states) :
    Cond lam b c true true (states []) ∧ (states []).params = start.params ∧ (states []).velocity = start.velocity := by
  obtain ⟨net, h1, h2, h3⟩ := drawn_first h
  have h4 : execute cfg start (updates []) = .ok net := (execute_plain (cfg := cfg) (r := cfg.learningRate) _ (h.allowed []) start).trans h1
  have h5 := Except.ok.inj (hs.1.symm.trans h4)
  rw [h5]
  exact ⟨h2, h3, execute_velocity _ (h.allowed []) h4⟩

theorem momentum_cond (h : Drawing { cfg with momentum := 0 } start ℓ updates damping lam L b Λ c)
    (hs : Sampling cfg start ℓ updates damping states) : ∀ l, Cond lam b c true true (states l)
  | [] => (momentum_first h hs).1
  | i :: l => by
    obtain ⟨P, -, h1⟩ := momentum_next h (momentum_cond h hs l) l
    obtain ⟨net', h2, h3, -⟩ := h1 i
    rwa [← Except.ok.inj ((hs.2 i l).symm.trans h2)] at h3

/-- C134: whatever batches are drawn, no operation fails. -/
theorem C134_succeeds (h : Drawn { cfg with momentum := 0 } start ℓ updates damping lam L b Λ c v) :
    ∃ states, Sampling cfg start ℓ updates damping states :=
  C133_succeeds (cfg := cfg) (rate := fun _ => cfg.learningRate) fun _ => h.toDrawing

/-- C134: with momentum the expected squared gradients of the whole loss, summed over the first `T` steps. Without momentum
this is the bound of C114. -/
theorem C134_average (h : Drawn { cfg with momentum := 0 } start ℓ updates damping lam L b Λ c v)
    (hs : Sampling cfg start ℓ updates damping states) (hf : Lipschitz L (meanLoss ℓ)) (hm : 0 ≤ cfg.momentum) (hm1 : cfg.momentum < 1)
    (hslow : L * cfg.learningRate * (1 + cfg.momentum + cfg.momentum / (1 - cfg.momentum) ^ 2) ≤ lam * (1 - cfg.momentum))
    (hv : start.velocity = 0) (hlow : ∀ θ, low ≤ meanLoss ℓ θ) (T : ℕ) :
    ∑ t ∈ Finset.range T, expect n t (fun l => ∑ j, ∑ k, grad (meanLoss ℓ) (states l).params j k ^ 2) ≤
      2 * c * (1 - cfg.momentum) * (meanLoss ℓ start.params - low) / cfg.learningRate +
      T * (c * L * cfg.learningRate * v / (lam ^ 2 * (1 - cfg.momentum)) * (1 + cfg.momentum / (1 - cfg.momentum) ^ 2)) := by
  set m := cfg.momentum with hmdef
  set lr := cfg.learningRate with hlr
  have h1m : 0 < 1 - m := sub_pos.mpr hm1
  have hc := h.positive
  have hL := h.curved
  have hlam := h.damped
  have hr : 0 < lr := h.rate
  set α := lr / (1 - m) with hα
  have hα0 : 0 < α := by positivity
  have hαm : α * (1 - m) = lr := by rw [hα]; field_simp
  have hslow' : L * α * (1 + m + m / (1 - m) ^ 2) ≤ lam := by
    rw [hα, mul_div_assoc', div_mul_eq_mul_div, div_le_iff₀ h1m]
    exact hslow
  set N := L * α ^ 2 * v / (2 * lam ^ 2) * (1 + m / (1 - m) ^ 2) with hN
  let Φ : List (Fin n) → ℝ := fun l => potential (L * α ^ 2 * m / (2 * (1 - m))) α m (meanLoss ℓ) (states l).params (states l).velocity
  let S : List (Fin n) → ℝ := fun l => ∑ j, ∑ k, grad (meanLoss ℓ) (states l).params j k ^ 2
  have h1 : ∀ l, (∑ i, Φ (i :: l)) / n ≤ 1 * Φ l + -(α / (2 * c)) * S l + N := by
    intro l
    obtain ⟨P, h2, h3⟩ := momentum_next h.toDrawing (momentum_cond h.toDrawing hs l) l
    have h4 : ∀ i, Φ (i :: l) = potential (L * α ^ 2 * m / (2 * (1 - m))) α m (meanLoss ℓ)
        ((states l).params - (α * (1 - m)) • (m • (states l).velocity + P (grad (ℓ i) (states l).params)))
        (m • (states l).velocity + P (grad (ℓ i) (states l).params)) := by
      intro i
      obtain ⟨net', h5, -, h6, h7⟩ := h3 i
      have h8 := Except.ok.inj ((hs.2 i l).symm.trans h5)
      simp only [Φ, h8, h7, h6, hαm]
      rfl
    rw [Finset.sum_congr rfl fun i _ => h4 i]
    refine (potential_step h.batches h.differentiable hf hL hlam hα0 hm hm1 hslow' (fun g => (h2 g).1) _ _ (h.variance _)).trans ?_
    have h5 := (h2 (grad (meanLoss ℓ) (states l).params)).2
    rw [inner_grad] at h5
    have h6 := mul_le_mul_of_nonneg_left h5 (by positivity : 0 ≤ α / (2 * c))
    have e : α / (2 * c) * (c * inner (grad (meanLoss ℓ) (states l).params) (P (grad (meanLoss ℓ) (states l).params))) =
        α / 2 * inner (grad (meanLoss ℓ) (states l).params) (P (grad (meanLoss ℓ) (states l).params)) := by
      field_simp
    rw [e] at h6
    simp only [Φ, S]
    linarith
  have h2 : ∀ t, expect n (t + 1) Φ ≤ expect n t Φ - α / (2 * c) * expect n t S + N := by
    intro t
    rw [expect_succ]
    refine (expect_mono h1).trans (le_of_eq ?_)
    rw [expect_linear h.batches]
    ring
  have h3 : α / (2 * c) * ∑ t ∈ Finset.range T, expect n t S ≤ meanLoss ℓ start.params - expect n T Φ + T * N := by
    induction T with
    | zero =>
      obtain ⟨-, h4, h5⟩ := momentum_first h.toDrawing hs
      have h6 : Φ [] = meanLoss ℓ start.params := by
        simp only [Φ, potential, h4, h5, hv]
        simp [inner]
      simp [expect_zero, h6]
    | succ T ih =>
      rw [Finset.sum_range_succ, mul_add]
      have := h2 T
      push_cast
      linarith
  have h4 : low ≤ expect n T Φ := expect_above h.batches (fun l => by
    have h5 := hlow ((states l).params - (α * m) • (states l).velocity)
    have h6 := inner_self_nonneg (states l).velocity
    have h7 : 0 ≤ L * α ^ 2 * m / (2 * (1 - m)) * inner (states l).velocity (states l).velocity := by positivity
    simp only [Φ, potential]
    linarith) T
  have h5 : α / (2 * c) * ∑ t ∈ Finset.range T, expect n t S ≤ α / (2 * c) * (2 * c * (1 - m) * (meanLoss ℓ start.params - low) / lr +
      T * (c * L * lr * v / (lam ^ 2 * (1 - m)) * (1 + m / (1 - m) ^ 2))) := by
    have e : α / (2 * c) * (2 * c * (1 - m) * (meanLoss ℓ start.params - low) / lr +
        T * (c * L * lr * v / (lam ^ 2 * (1 - m)) * (1 + m / (1 - m) ^ 2))) = meanLoss ℓ start.params - low + T * N := by
      rw [hN, hα]
      field_simp
    rw [e]
    linarith
  exact le_of_mul_le_mul_left h5 (by positivity)

/-- C134: at one of the first `T` steps the expected squared gradient is at most the mean of the bound. -/
theorem C134_best (h : Drawn { cfg with momentum := 0 } start ℓ updates damping lam L b Λ c v)
    (hs : Sampling cfg start ℓ updates damping states) (hf : Lipschitz L (meanLoss ℓ)) (hm : 0 ≤ cfg.momentum) (hm1 : cfg.momentum < 1)
    (hslow : L * cfg.learningRate * (1 + cfg.momentum + cfg.momentum / (1 - cfg.momentum) ^ 2) ≤ lam * (1 - cfg.momentum))
    (hv : start.velocity = 0) (hlow : ∀ θ, low ≤ meanLoss ℓ θ) {T : ℕ} (hT : 0 < T) :
    ∃ t < T, expect n t (fun l => ∑ j, ∑ k, grad (meanLoss ℓ) (states l).params j k ^ 2) ≤
      2 * c * (1 - cfg.momentum) * (meanLoss ℓ start.params - low) / (cfg.learningRate * T) +
      c * L * cfg.learningRate * v / (lam ^ 2 * (1 - cfg.momentum)) * (1 + cfg.momentum / (1 - cfg.momentum) ^ 2) := by
  by_contra hno
  push Not at hno
  have hT' : (0 : ℝ) < T := by exact_mod_cast hT
  have h1 := C134_average h hs hf hm hm1 hslow hv hlow T
  have h2 := Finset.sum_lt_sum_of_nonempty (s := Finset.range T) ⟨0, Finset.mem_range.mpr hT⟩
    fun t ht => hno t (Finset.mem_range.mp ht)
  rw [Finset.sum_const, Finset.card_range, nsmul_eq_mul, mul_add] at h2
  have hr : cfg.learningRate ≠ 0 := (show 0 < cfg.learningRate from h.rate).ne'
  have e : (T : ℝ) * (2 * c * (1 - cfg.momentum) * (meanLoss ℓ start.params - low) / (cfg.learningRate * T)) =
      2 * c * (1 - cfg.momentum) * (meanLoss ℓ start.params - low) / cfg.learningRate := by
    field_simp
  rw [e] at h2
  linarith

/-- C134: with momentum, under the Polyak-Łojasiewicz condition, the expected distance to the minimum decreases geometrically
to a level given by the variance. -/
theorem C134_linear {μ : ℝ} (h : Drawn { cfg with momentum := 0 } start ℓ updates damping lam L b Λ c v)
    (hs : Sampling cfg start ℓ updates damping states) (hf : Lipschitz L (meanLoss ℓ)) (hm : 0 ≤ cfg.momentum) (hm1 : cfg.momentum < 1)
    (hslow : L * cfg.learningRate * (1 + cfg.momentum + 2 * cfg.momentum / (1 - cfg.momentum) ^ 2) ≤ lam * (1 - cfg.momentum))
    (hv : start.velocity = 0) (hlow : ∀ θ, low ≤ meanLoss ℓ θ) (hμ : 0 < μ) (hμL : μ ≤ L)
    (hst : ∀ θ, 2 * μ * (meanLoss ℓ θ - low) ≤ ∑ j, ∑ k, grad (meanLoss ℓ) θ j k ^ 2) {ρ : ℝ}
    (hρ : ρ = min (cfg.learningRate * μ / (2 * c * (1 - cfg.momentum))) ((1 - cfg.momentum) / 4)) (T : ℕ) :
    expect n T (fun l => meanLoss ℓ (states l).params) - low ≤ 2 * Real.exp (-(ρ * T)) * (meanLoss ℓ start.params - low) +
      L * cfg.learningRate ^ 2 * v / (ρ * lam ^ 2 * (1 - cfg.momentum) ^ 2) * (1 + 2 * cfg.momentum / (1 - cfg.momentum) ^ 2) := by
  set m := cfg.momentum with hmdef
  set lr := cfg.learningRate with hlr
  have h1m : 0 < 1 - m := sub_pos.mpr hm1
  have hc := h.positive
  have hL : 0 < L := hμ.trans_le hμL
  have hlam := h.damped
  have hr : 0 < lr := h.rate
  have hvar : 0 ≤ v := le_trans (div_nonneg (Finset.sum_nonneg fun i _ => Finset.sum_nonneg fun j _ => Finset.sum_nonneg fun k _ => sq_nonneg _)
    (Nat.cast_nonneg n)) (h.variance start.params)
  set α := lr / (1 - m) with hα
  have hα0 : 0 < α := by positivity
  have hαm : α * (1 - m) = lr := by rw [hα]; field_simp
  have hslow' : L * α * (1 + m + 2 * m / (1 - m) ^ 2) ≤ lam := by
    rw [hα, mul_div_assoc', div_mul_eq_mul_div, div_le_iff₀ h1m]
    exact hslow
  have hρ0 : 0 < ρ := by
    rw [hρ]
    exact lt_min (by positivity) (by positivity)
  have hρ1 : ρ ≤ α * μ / (2 * c) := by
    rw [hρ]
    refine (min_le_left _ _).trans (le_of_eq ?_)
    rw [hα]
    field_simp
  have hρ2 : ρ ≤ (1 - m) / 4 := by
    rw [hρ]
    exact min_le_right _ _
  have hρ3 : ρ ≤ 1 := by linarith
  set N := L * α ^ 2 * v / (2 * lam ^ 2) * (1 + 2 * m / (1 - m) ^ 2) with hN
  have hN0 : 0 ≤ N := by positivity
  let Φ : List (Fin n) → ℝ := fun l => potential (L * α ^ 2 * m / (1 - m)) α m (meanLoss ℓ) (states l).params (states l).velocity
  have h1 : ∀ l, (∑ i, Φ (i :: l)) / n ≤ (1 - ρ) * Φ l + 0 * 0 + (ρ * low + N) := by
    intro l
    obtain ⟨P, h2, h3⟩ := momentum_next h.toDrawing (momentum_cond h.toDrawing hs l) l
    have h4 : ∀ i, Φ (i :: l) = potential (L * α ^ 2 * m / (1 - m)) α m (meanLoss ℓ)
        ((states l).params - (α * (1 - m)) • (m • (states l).velocity + P (grad (ℓ i) (states l).params)))
        (m • (states l).velocity + P (grad (ℓ i) (states l).params)) := by
      intro i
      obtain ⟨net', h5, -, h6, h7⟩ := h3 i
      have h8 := Except.ok.inj ((hs.2 i l).symm.trans h5)
      simp only [Φ, h8, h7, h6, hαm]
      rfl
    rw [Finset.sum_congr rfl fun i _ => h4 i]
    refine (potential_shrinks h.batches h.differentiable hf hlam hα0 hm hm1 hslow' h2 hc hμ hμL hst hρ0.le hρ1 hρ2 _ _ (h.variance _)).trans
      (le_of_eq ?_)
    simp only [Φ]
    ring
  have h2 : ∀ t, expect n (t + 1) Φ - low ≤ (1 - ρ) * (expect n t Φ - low) + N := by
    intro t
    rw [expect_succ]
    have h3 := (expect_mono (t := t) h1).trans_eq (expect_linear h.batches _ (fun _ => 0) (1 - ρ) 0 (ρ * low + N))
    linarith
  have hE0 : 0 ≤ meanLoss ℓ start.params - low := sub_nonneg.mpr (hlow _)
  have h3 : expect n T Φ - low ≤ Real.exp (-(ρ * T)) * (meanLoss ℓ start.params - low) + N / ρ := by
    induction T with
    | zero =>
      obtain ⟨-, h4, h5⟩ := momentum_first h.toDrawing hs
      have h6 : Φ [] = meanLoss ℓ start.params := by
        simp only [Φ, potential, h4, h5, hv]
        simp [inner]
      rw [expect_zero, h6]
      simp
      positivity
    | succ T ih =>
      refine (h2 T).trans ?_
      have h4 := mul_le_mul_of_nonneg_left ih (sub_nonneg.mpr hρ3)
      have h5 : 1 - ρ ≤ Real.exp (-ρ) := by
        have := Real.add_one_le_exp (-ρ)
        linarith
      have h6 := mul_le_mul_of_nonneg_right h5 (mul_nonneg (Real.exp_pos (-(ρ * T))).le hE0)
      have h7 : Real.exp (-ρ) * (Real.exp (-(ρ * T)) * (meanLoss ℓ start.params - low)) =
          Real.exp (-(ρ * (T + 1 : ℕ))) * (meanLoss ℓ start.params - low) := by
        rw [← mul_assoc, ← Real.exp_add]
        congr 2
        push_cast
        ring
      rw [h7] at h6
      have h8 : (1 - ρ) * (N / ρ) + N = N / ρ := by
        field_simp
        ring
      linarith
  have h4 : expect n T (fun l => meanLoss ℓ (states l).params) - low ≤ 2 * (expect n T Φ - low) := by
    have h5 : ∀ l, meanLoss ℓ (states l).params ≤ 2 * Φ l + 0 * 0 + -low := fun l => by
      have := potential_loss (α := α) hf hL hm hm1 hlow (states l).params (states l).velocity
      simp only [Φ]
      linarith
    have h6 := (expect_mono (t := T) h5).trans_eq (expect_linear h.batches Φ (fun _ => 0) 2 0 (-low))
    linarith
  have e : L * lr ^ 2 * v / (ρ * lam ^ 2 * (1 - m) ^ 2) * (1 + 2 * m / (1 - m) ^ 2) = 2 * (N / ρ) := by
    rw [hN, hα]
    field_simp
  rw [e]
  linarith

end theorems

/-- The net of C114 with momentum 9/10: the hypotheses of `C134_linear`, and with them those of `C134_average`, hold. -/
example : ∃ (shapes : Fin 4 → Shape) (cfg : Config) (start : Net shapes) (ℓ : Fin 2 → Params shapes → ℝ)
    (updates : List (Fin 2) → List (Op shapes)) (damping : List (Fin 2) → ℝ) (states : List (Fin 2) → Net shapes) (c v : ℝ),
    cfg.momentum = 9 / 10 ∧ Drawn { cfg with momentum := 0 } start ℓ updates damping 1 1 3 2 c v ∧
    Sampling cfg start ℓ updates damping states ∧ Lipschitz 1 (meanLoss ℓ) ∧
    1 * cfg.learningRate * (1 + cfg.momentum + 2 * cfg.momentum / (1 - cfg.momentum) ^ 2) ≤ 1 * (1 - cfg.momentum) ∧
    (∀ θ, 2 * 1 * (meanLoss ℓ θ - 0) ≤ ∑ j, ∑ k, grad (meanLoss ℓ) θ j k ^ 2) ∧
    start.velocity = 0 ∧ (∀ θ, 0 ≤ meanLoss ℓ θ) ∧ 0 < meanLoss ℓ start.params ∧ ℓ 0 ≠ ℓ 1 := by
  obtain ⟨shapes, cfg, start, ℓ, updates, damping, -, c, v, hd, -, -, h1, h0, h2, h3, h4, h5⟩ := drawn_example
  have hr := hd.rate
  let cfg' : Config := { cfg with learningRate := min cfg.learningRate (1 / 2000), momentum := 9 / 10 }
  have hd' : Drawn { cfg' with momentum := 0 } start ℓ updates damping 1 1 3 2 c v :=
    { hd with
      momentum := rfl
      rate := lt_min hr (by norm_num)
      slow := (mul_le_mul_of_nonneg_left (min_le_left _ _) zero_le_one).trans hd.slow }
  obtain ⟨states, hs⟩ := C134_succeeds hd'
  refine ⟨shapes, cfg', start, ℓ, updates, damping, states, c, v, rfl, hd', hs, h5, ?_, h0, h4, h1, h2, h3⟩
  have h6 : min cfg.learningRate (1 / 2000) ≤ 1 / 2000 := min_le_right _ _
  show 1 * min cfg.learningRate (1 / 2000) * (1 + 9 / 10 + 2 * (9 / 10) / (1 - 9 / 10) ^ 2) ≤ 1 * (1 - 9 / 10)
  norm_num
  linarith

end Kfac.Mix
