import Verif.Factor.Rnn
import Verif.Factor.SuaLemmas
import Mathlib.Analysis.SpecificLimits.Basic

/-! # Lemmas on layers shared over time -/

namespace Kfac.Factor

open Matrix Kfac.Stats

variable {n : ℕ}

/-! ### The lag-one covariance is dominated by the covariance -/

/-- `C0` is positive semidefinite and so is the block matrix `[[C0, C1], [C1ᵀ, C0]]` (also with `-C1`). -/
def Dom (C0 C1 : Mat n) : Prop :=
  Psd C0 ∧ ∀ u v : Fin n → ℝ, 2 * (u ⬝ᵥ C1 *ᵥ v) ≤ u ⬝ᵥ C0 *ᵥ u + v ⬝ᵥ C0 *ᵥ v

theorem dom_zero : Dom (0 : Mat n) 0 := by
  refine ⟨⟨transpose_zero, fun v => by simp⟩, fun u v => by simp⟩

theorem Dom.add {A A' B B' : Mat n} (h : Dom A A') (h' : Dom B B') : Dom (A + B) (A' + B') := by
  refine ⟨⟨?_, fun v => ?_⟩, fun u v => ?_⟩
  · have h1 := h.1.1; have h2 := h'.1.1
    unfold Matrix.IsSymm at *
    rw [transpose_add, h1, h2]
  · rw [add_mulVec, dotProduct_add]; exact add_nonneg (h.1.2 v) (h'.1.2 v)
  · simp only [add_mulVec, dotProduct_add]
    have := h.2 u v; have := h'.2 u v
    linarith

theorem Dom.smul {A A' : Mat n} (h : Dom A A') {a : ℝ} (ha : 0 ≤ a) : Dom (a • A) (a • A') := by
  refine ⟨⟨?_, fun v => ?_⟩, fun u v => ?_⟩
  · have h1 := h.1.1
    unfold Matrix.IsSymm at *
    rw [transpose_smul, h1]
  · rw [smul_mulVec, dotProduct_smul]; exact mul_nonneg ha (h.1.2 v)
  · simp only [smul_mulVec, dotProduct_smul, smul_eq_mul]
    have := mul_le_mul_of_nonneg_left (h.2 u v) ha
    linarith

theorem Dom.sum {B : Type} (l : List B) (f g : B → Mat n) (h : ∀ b ∈ l, Dom (f b) (g b)) :
    Dom (l.map f).sum (l.map g).sum := by
  induction l with
  | nil => exact dom_zero
  | cons b l ih =>
    rw [List.map_cons, List.map_cons, List.sum_cons, List.sum_cons]
    exact (h b (by simp)).add (ih fun x hx => h x (by simp [hx]))

theorem Dom.total {B : Type} (f g : B → Mat n) (h : ∀ b, Dom (f b) (g b)) (data : List (List (List B))) :
    Dom (newCovOverReplicas f data) (newCovOverReplicas g data) := by
  unfold newCovOverReplicas allAverage totalNewCov
  rw [List.length_map, List.length_map]
  refine Dom.smul (Dom.sum _ _ _ fun r _ => Dom.smul (Dom.sum _ _ _ fun s _ => Dom.sum _ _ _ fun t _ => h t) ?_) ?_
  · positivity
  · positivity

theorem Dom.symmetrise {A A' : Mat n} (h : Dom A A') : Dom A (symmetrise A') := by
  refine ⟨h.1, fun u v => ?_⟩
  unfold Factor.symmetrise
  rw [smul_mulVec, dotProduct_smul, smul_eq_mul, add_mulVec, dotProduct_add]
  have e : u ⬝ᵥ A'ᵀ *ᵥ v = v ⬝ᵥ A' *ᵥ u := by
    rw [mulVec_transpose, dotProduct_comm, dotProduct_mulVec]
  rw [e]
  have := h.2 u v; have := h.2 v u
  linarith

theorem crossCov_quad (left right : Rows n) (m : ℕ) (u v : Fin n → ℝ) :
    u ⬝ᵥ crossCov left right m *ᵥ v =
      ((List.zip left right).map fun p => (u ⬝ᵥ p.1) * (v ⬝ᵥ p.2)).sum / (m : ℝ) := by
  have key : ∀ l : List ((Fin n → ℝ) × (Fin n → ℝ)),
      (∑ i, u i * ∑ j, (l.map fun p => p.1 i * p.2 j).sum / (m : ℝ) * v j) =
        (l.map fun p => (u ⬝ᵥ p.1) * (v ⬝ᵥ p.2)).sum / (m : ℝ) := by
    intro l
    induction l with
    | nil => simp
    | cons p l ih =>
      simp only [List.map_cons, List.sum_cons, add_div, add_mul, Finset.sum_add_distrib, mul_add]
      rw [ih]
      congr 1
      unfold dotProduct
      rw [Finset.sum_mul_sum, Finset.sum_div]
      refine Finset.sum_congr rfl fun i _ => ?_
      rw [Finset.mul_sum, Finset.sum_div]
      exact Finset.sum_congr rfl fun j _ => by ring
  exact key _

theorem computeCov_quad (rows : Rows n) (u : Fin n → ℝ) :
    u ⬝ᵥ computeCov rows *ᵥ u = (rows.map fun x => (u ⬝ᵥ x) ^ 2).sum / (rows.length : ℝ) := by
  have h : computeCov rows = crossCov rows rows rows.length := by
    rw [computeCov_eq]
    ext i j
    have hz : ∀ l : Rows n, List.zip l l = l.map fun x => (x, x) := by
      intro l
      induction l with
      | nil => rfl
      | cons a l ih => rw [List.zip_cons_cons, ih]; rfl
    simp only [Matrix.smul_apply, list_sum_apply, vecMulVec_apply, crossCov, smul_eq_mul, hz, List.map_map,
      Function.comp_def]
    ring
  rw [h, crossCov_quad]
  have hz : ∀ l : Rows n, List.zip l l = l.map fun x => (x, x) := by
    intro l
    induction l with
    | nil => rfl
    | cons a l ih => rw [List.zip_cons_cons, ih]; rfl
  rw [hz, List.map_map]
  congr 2
  exact List.map_congr_left fun x _ => by simp only [Function.comp_def]; ring

theorem zip_bound (l r : Rows n) (u v : Fin n → ℝ) :
    2 * ((List.zip l r).map fun p => (u ⬝ᵥ p.1) * (v ⬝ᵥ p.2)).sum ≤
      (l.map fun x => (u ⬝ᵥ x) ^ 2).sum + (r.map fun x => (v ⬝ᵥ x) ^ 2).sum := by
  induction l generalizing r with
  | nil =>
    have : ∀ r : Rows n, 0 ≤ (r.map fun x => (v ⬝ᵥ x) ^ 2).sum := fun r =>
      List.sum_nonneg (by
        intro x hx
        obtain ⟨y, _, rfl⟩ := List.mem_map.1 hx
        exact sq_nonneg _)
    simpa using this r
  | cons a l ih =>
    cases r with
    | nil =>
      have : 0 ≤ ((a :: l).map fun x => (u ⬝ᵥ x) ^ 2).sum :=
        List.sum_nonneg (by
          intro x hx
          obtain ⟨y, _, rfl⟩ := List.mem_map.1 hx
          exact sq_nonneg _)
      simpa using this
    | cons b r =>
      have := ih r
      simp only [List.zip_cons_cons, List.map_cons, List.sum_cons]
      nlinarith [sq_nonneg (u ⬝ᵥ a - v ⬝ᵥ b)]

theorem sum_sub_le (l l' : Rows n) (h : l'.Sublist l) (u : Fin n → ℝ) :
    (l'.map fun x => (u ⬝ᵥ x) ^ 2).sum ≤ (l.map fun x => (u ⬝ᵥ x) ^ 2).sum := by
  induction h with
  | slnil => exact le_refl _
  | cons a _ ih =>
    rw [List.map_cons, List.sum_cons]
    have := sq_nonneg (u ⬝ᵥ a)
    linarith
  | cons_cons a _ ih =>
    rw [List.map_cons, List.sum_cons, List.map_cons, List.sum_cons]
    linarith

theorem dom_tensor (T : ℕ) (t : Rows n) : Dom (computeCov t) (newCovDt1 T t) := by
  refine ⟨psd_of_posSemidef (computeCov_psd t), fun u v => ?_⟩
  unfold newCovDt1
  rw [crossCov_quad, computeCov_quad, computeCov_quad, ← add_div, ← mul_div_assoc]
  refine div_le_div_of_nonneg_right ?_ (Nat.cast_nonneg _)
  refine (zip_bound _ _ u v).trans (add_le_add (sum_sub_le _ _ (List.drop_sublist _ _) u)
    (sum_sub_le _ _ (List.take_sublist _ _) v))

/-- Histories: covariance updates with their data and decay (the weight is 1, estimator.py 613-629). -/
abbrev RnnHist (n : ℕ) := List (List (List (List (Rows n))) × ℝ)

/-- The factor after a history of covariance updates. -/
noncomputable def MultiKF.after (T : ℕ) (h : RnnHist n) : MultiKF n :=
  h.foldl (fun f u => f.covUpdate T u.1 u.2 1) (MultiKF.init n)

/-- After any non-empty history with non-negative decays both averages are defined and related as above. -/
theorem rnn_dom (T : ℕ) (h : RnnHist n) (hne : h ≠ []) (hd : ∀ u ∈ h, 0 ≤ u.2) :
    ∃ C0 C1, (MultiKF.after T h).cov.value true = some C0 ∧ (MultiKF.after T h).covDt1.value true = some C1 ∧
      Dom C0 C1 := by
  have key : ∀ h : RnnHist n, (∀ u ∈ h, 0 ≤ u.2) →
      Dom (MultiKF.after T h).cov.var (MultiKF.after T h).covDt1.var ∧
      0 ≤ (MultiKF.after T h).cov.totalWeight ∧ (h ≠ [] → 0 < (MultiKF.after T h).cov.totalWeight) ∧
      (MultiKF.after T h).covDt1.totalWeight = (MultiKF.after T h).cov.totalWeight := by
    intro h
    induction h using List.reverseRecOn with
    | nil => intro _; exact ⟨dom_zero, le_refl _, fun h => absurd rfl h, rfl⟩
    | append_singleton h u ih =>
      intro hd
      obtain ⟨i1, i2, _, i4⟩ := ih fun x hx => hd x (by simp [hx])
      have hu := hd u (by simp)
      have e : MultiKF.after T (h ++ [u]) = (MultiKF.after T h).covUpdate T u.1 u.2 1 := by
        unfold MultiKF.after
        rw [List.foldl_append, List.foldl_cons, List.foldl_nil]
      rw [e]
      have ht : 0 < u.2 * (MultiKF.after T h).cov.totalWeight + 1 := by
        have := mul_nonneg hu i2
        linarith
      refine ⟨?_, ht.le, fun _ => ht, ?_⟩
      · exact (i1.smul hu).add ((Dom.total _ _ (dom_tensor T) u.1).smul zero_le_one)
      · simp only [MultiKF.covUpdate, MovAvg.add, i4]
  obtain ⟨h1, _, h3, h4⟩ := key h hd
  have hp := h3 hne
  refine ⟨_, _, value_pos hp, value_pos (by rw [h4]; exact hp), ?_⟩
  rw [h4]
  exact h1.smul (inv_nonneg.2 hp.le)

/-! ### The inverse square root -/

theorem invSqrt_spec {la : Linalg n} (hla : la.Good) (c : Constants) (hclip : c.clipThreshold ≤ 0) {C0 : Mat n}
    (hC : Psd C0) {d : ℝ} (hd : 0 < d) :
    (invSqrtC0 (eigTensors la c C0) d)ᵀ = invSqrtC0 (eigTensors la c C0) d ∧
    invSqrtC0 (eigTensors la c C0) d * (C0 + d • 1) * invSqrtC0 (eigTensors la c C0) d = 1 := by
  have hU := hla.orthonormal _ hC.1
  have hA := hla.eigen _ hC.1
  generalize hV : (la.eig C0).2 = V at *
  generalize he : (la.eig C0).1 = e at *
  have hUU : V * Vᵀ = 1 := mul_eq_one_comm.1 hU
  have hnn : ∀ i, 0 ≤ e i := by
    intro i
    have := hC.2 (V *ᵥ Pi.single i 1)
    have e1 : C0 *ᵥ (V *ᵥ Pi.single i 1) = V *ᵥ (diagonal e *ᵥ Pi.single i 1) := by
      rw [hA, mulVec_mulVec, mulVec_mulVec, Matrix.mul_assoc, hU, Matrix.mul_one]
    rw [e1, dotProduct_mulVec, vecMul_mulVec, hU] at this
    simpa using this
  have hmax : ∀ i, max (e i) c.clipThreshold = e i := fun i => max_eq_left (hclip.trans (hnn i))
  have hform : ∀ w : Fin n → ℝ, (Matrix.of fun i j => V i j * w j) = V * diagonal w := by
    intro w; ext i j; simp [mul_diagonal]
  set w : Fin n → ℝ := fun j => (e j + d) ^ (-(0.5) : ℝ) with hw
  have hS : invSqrtC0 (eigTensors la c C0) d = V * diagonal w * Vᵀ := by
    unfold invSqrtC0 eigTensors
    simp only [hV, he, hmax]
    rw [hform]
    have : (V * diagonal w * Vᵀ)ᵀ = V * diagonal w * Vᵀ := by
      rw [transpose_mul, transpose_mul, transpose_transpose, diagonal_transpose, Matrix.mul_assoc]
    rw [this, ← two_smul ℝ, smul_smul, inv_mul_cancel₀ two_ne_zero, one_smul]
  have hsum : C0 + d • 1 = V * diagonal (fun j => e j + d) * Vᵀ := by
    have : diagonal (fun j => e j + d) = diagonal e + d • (1 : Mat n) := by
      ext i j
      by_cases h : i = j
      · subst h; simp
      · simp [h]
    rw [this, Matrix.mul_add, Matrix.add_mul, ← hA, Matrix.mul_smul, Matrix.smul_mul, Matrix.mul_one, hUU]
  refine ⟨?_, ?_⟩
  · rw [hS, transpose_mul, transpose_mul, transpose_transpose, diagonal_transpose, Matrix.mul_assoc]
  · rw [hS, hsum]
    have h1 : V * diagonal w * Vᵀ * (V * diagonal (fun j => e j + d) * Vᵀ) * (V * diagonal w * Vᵀ) =
        V * (diagonal w * (Vᵀ * V) * diagonal (fun j => e j + d) * (Vᵀ * V) * diagonal w) * Vᵀ := by
      simp only [Matrix.mul_assoc]
    have h2 : diagonal w * diagonal (fun j => e j + d) * diagonal w = 1 := by
      rw [diagonal_mul_diagonal, diagonal_mul_diagonal, ← diagonal_one]
      congr 1
      funext j
      have hp : 0 < e j + d := by have := hnn j; linarith
      have h3 : w j * w j * (e j + d) = 1 := by
        rw [hw]
        simp only
        rw [← Real.rpow_add hp]
        have : (-(0.5) : ℝ) + -0.5 = -1 := by norm_num
        rw [this, Real.rpow_neg_one, inv_mul_cancel₀ hp.ne']
      linarith [h3, mul_comm (w j * (e j + d)) (w j), mul_assoc (w j) (w j) (e j + d),
        mul_comm (w j) (w j * (e j + d))]
    rw [h1, hU, Matrix.mul_one, Matrix.mul_one, h2, Matrix.mul_one, hUU]

/-! ### Contraction -/

theorem quad_bound (M : Mat n) : ∃ τ : ℝ, 0 ≤ τ ∧ ∀ w : Fin n → ℝ, w ⬝ᵥ M *ᵥ w ≤ τ * (w ⬝ᵥ w) := by
  refine ⟨∑ i, ∑ j, |M i j|, Finset.sum_nonneg fun i _ => Finset.sum_nonneg fun j _ => abs_nonneg _, fun w => ?_⟩
  have hs : ∀ i, w i * w i ≤ w ⬝ᵥ w := fun i =>
    Finset.single_le_sum (f := fun i => w i * w i) (fun j _ => mul_self_nonneg (w j)) (Finset.mem_univ i)
  unfold mulVec
  rw [dotProduct, Finset.sum_mul]
  refine Finset.sum_le_sum fun i _ => ?_
  rw [dotProduct, Finset.mul_sum, Finset.sum_mul]
  refine Finset.sum_le_sum fun j _ => ?_
  have h1 : |w i * w j| ≤ w ⬝ᵥ w := by
    rw [abs_le]
    constructor <;> nlinarith [hs i, hs j, sq_nonneg (w i + w j), sq_nonneg (w i - w j)]
  calc w i * (M i j * w j) = M i j * (w i * w j) := by ring
    _ ≤ |M i j * (w i * w j)| := le_abs_self _
    _ = |M i j| * |w i * w j| := abs_mul _ _
    _ ≤ |M i j| * (w ⬝ᵥ w) := mul_le_mul_of_nonneg_left h1 (abs_nonneg _)

theorem quad_conj {S : Mat n} (hS : Sᵀ = S) (C : Mat n) (u v : Fin n → ℝ) :
    u ⬝ᵥ (S * C * S) *ᵥ v = (S *ᵥ u) ⬝ᵥ C *ᵥ (S *ᵥ v) := by
  have h : u ᵥ* S = S *ᵥ u := by rw [← vecMul_transpose, hS]
  rw [← mulVec_mulVec, ← mulVec_mulVec, dotProduct_mulVec, h]

theorem contraction {C0 C1 S : Mat n} (h : Dom C0 C1) {d : ℝ} (hd : 0 < d) (hS : Sᵀ = S)
    (hS1 : S * (C0 + d • 1) * S = 1) :
    ∃ θ : ℝ, 0 ≤ θ ∧ θ < 1 ∧ ∀ u v, 2 * (u ⬝ᵥ (S * C1 * S) *ᵥ v) ≤ θ * (u ⬝ᵥ u + v ⬝ᵥ v) := by
  obtain ⟨τ, h0, hτ⟩ := quad_bound C0
  have hτd : 0 < τ + d := by linarith
  refine ⟨τ / (τ + d), by positivity, by rw [div_lt_one hτd]; linarith, fun u v => ?_⟩
  have key : ∀ w : Fin n → ℝ, (S *ᵥ w) ⬝ᵥ C0 *ᵥ (S *ᵥ w) ≤ τ / (τ + d) * (w ⬝ᵥ w) := by
    intro w
    have e1 : w ⬝ᵥ w = (S *ᵥ w) ⬝ᵥ C0 *ᵥ (S *ᵥ w) + d * ((S *ᵥ w) ⬝ᵥ (S *ᵥ w)) := by
      have := quad_conj hS (C0 + d • 1) w w
      rw [hS1, one_mulVec, add_mulVec, dotProduct_add, smul_mulVec, one_mulVec, dotProduct_smul] at this
      exact this
    have e2 := hτ (S *ᵥ w)
    rw [div_mul_eq_mul_div, le_div_iff₀ hτd]
    nlinarith
  rw [quad_conj hS]
  have := h.2 (S *ᵥ u) (S *ᵥ v)
  have := key u
  have := key v
  linarith

theorem norm_contraction {H : Mat n} {θ : ℝ} (h1 : θ < 1)
    (h : ∀ u v, 2 * (u ⬝ᵥ H *ᵥ v) ≤ θ * (u ⬝ᵥ u + v ⬝ᵥ v)) (v : Fin n → ℝ) :
    (H *ᵥ v) ⬝ᵥ (H *ᵥ v) ≤ θ * (v ⬝ᵥ v) := by
  have := h (H *ᵥ v) v
  have hn : 0 ≤ (H *ᵥ v) ⬝ᵥ (H *ᵥ v) := Finset.sum_nonneg fun i _ => mul_self_nonneg _
  nlinarith

theorem pow_tendsto {H : Mat n} {θ : ℝ} (h0 : 0 ≤ θ) (h1 : θ < 1)
    (h : ∀ v : Fin n → ℝ, (H *ᵥ v) ⬝ᵥ (H *ᵥ v) ≤ θ * (v ⬝ᵥ v)) (i j : Fin n) :
    Filter.Tendsto (fun N => (H ^ N) i j) Filter.atTop (nhds 0) := by
  have hp : ∀ (N : ℕ) (v : Fin n → ℝ), (H ^ N *ᵥ v) ⬝ᵥ (H ^ N *ᵥ v) ≤ θ ^ N * (v ⬝ᵥ v) := by
    intro N
    induction N with
    | zero => intro v; simp
    | succ N ih =>
      intro v
      rw [pow_succ', ← mulVec_mulVec]
      refine (h _).trans ?_
      rw [pow_succ', mul_assoc]
      exact mul_le_mul_of_nonneg_left (ih v) h0
  have hb : ∀ N, ((H ^ N) i j) ^ 2 ≤ θ ^ N := by
    intro N
    have := hp N (Pi.single j 1)
    have e : ∀ a, (H ^ N *ᵥ Pi.single j 1) a = (H ^ N) a j := by intro a; simp
    have h1 : (Pi.single j 1 : Fin n → ℝ) ⬝ᵥ Pi.single j 1 = 1 := by simp
    rw [h1, mul_one] at this
    refine le_trans ?_ this
    rw [dotProduct]
    simp only [e]
    rw [sq]
    exact Finset.single_le_sum (f := fun a => (H ^ N) a j * (H ^ N) a j) (fun a _ => mul_self_nonneg _)
      (Finset.mem_univ i)
  have hsq : Filter.Tendsto (fun N => ((H ^ N) i j) ^ 2) Filter.atTop (nhds 0) :=
    squeeze_zero (fun N => sq_nonneg _) hb (tendsto_pow_atTop_nhds_zero_of_lt_one h0 h1)
  have habs := hsq.sqrt
  rw [Real.sqrt_zero] at habs
  simp only [Real.sqrt_sq_eq_abs] at habs
  exact (tendsto_zero_iff_abs_tendsto_zero _).2 habs

/-! ### Covariances at larger lags -/

/-- Specification: the lag-`d` covariance `E[x_{t+d} x_tᵀ]` of the stationary first-order autoregressive process
with covariance `C0` and lag-one covariance `C1`. -/
noncomputable def lagCov (C0 C1 : Mat n) (d : ℕ) : Mat n := (C1 * C0⁻¹) ^ d * C0

theorem lag_conj {C0 C1 S : Mat n} (hS1 : S * C0 * S = 1) (d : ℕ) :
    S * lagCov C0 C1 d * S = (S * C1 * S) ^ d := by
  have hSS : C0⁻¹ = S * S := by
    apply Matrix.inv_eq_left_inv
    rw [Matrix.mul_assoc] at hS1 ⊢
    exact mul_eq_one_comm.1 (by rw [← hS1]; simp only [Matrix.mul_assoc])
  induction d with
  | zero => simpa [lagCov] using hS1
  | succ d ih =>
    unfold lagCov at ih ⊢
    rw [pow_succ', pow_succ', ← ih, hSS]
    simp only [Matrix.mul_assoc]

/-! ### The geometric sum behind `gamma` -/

/-- `sum_{|d|<T} (T-|d|) x^|d|`. -/
def geoSum (T : ℕ) (x : ℝ) : ℝ := T + 2 * ∑ d ∈ Finset.Ico 1 T, ((T : ℝ) - d) * x ^ d

theorem geoSum_closed (T : ℕ) (x : ℝ) : (1 - x) ^ 2 * geoSum T x = T * (1 - x ^ 2) - 2 * x * (1 - x ^ T) := by
  have hg : ∀ T : ℕ, (1 - x) * ∑ d ∈ Finset.Ico 1 (T + 1), x ^ d = x - x ^ (T + 1) := by
    intro T
    induction T with
    | zero => simp
    | succ T ih => rw [Finset.sum_Ico_succ_top (by omega), mul_add, ih]; ring
  induction T with
  | zero => simp [geoSum]
  | succ T ih =>
    have hs : geoSum (T + 1) x = geoSum T x + 1 + 2 * ∑ d ∈ Finset.Ico 1 (T + 1), x ^ d := by
      unfold geoSum
      have h1 : ∑ d ∈ Finset.Ico 1 (T + 1), (((T + 1 : ℕ) : ℝ) - d) * x ^ d =
          ∑ d ∈ Finset.Ico 1 (T + 1), ((T : ℝ) - d) * x ^ d + ∑ d ∈ Finset.Ico 1 (T + 1), x ^ d := by
        rw [← Finset.sum_add_distrib]
        refine Finset.sum_congr rfl fun d _ => ?_
        push_cast; ring
      have h2 : ∑ d ∈ Finset.Ico 1 (T + 1), ((T : ℝ) - d) * x ^ d = ∑ d ∈ Finset.Ico 1 T, ((T : ℝ) - d) * x ^ d := by
        rcases T with _ | T
        · simp
        · rw [Finset.sum_Ico_succ_top (by omega)]; simp
      rw [h1, h2]; push_cast; ring
    have := hg T
    rw [hs, mul_add, mul_add, ih]
    have h3 : (1 - x) ^ 2 * (2 * ∑ d ∈ Finset.Ico 1 (T + 1), x ^ d) = 2 * (1 - x) * (x - x ^ (T + 1)) := by
      rw [← this]; ring
    rw [h3]; push_cast; ring

theorem gamma_geoSum {T : ℕ} (hT : 0 < T) {x : ℝ} (h0 : 0 ≤ x) (h1 : x < 1) : gamma T x * geoSum T x = 1 := by
  have hpos : 0 < geoSum T x := by
    unfold geoSum
    have : 0 ≤ ∑ d ∈ Finset.Ico 1 T, ((T : ℝ) - d) * x ^ d := by
      refine Finset.sum_nonneg fun d hd => mul_nonneg ?_ (pow_nonneg h0 _)
      have := (Finset.mem_Ico.1 hd).2
      have : (d : ℝ) < T := by exact_mod_cast this
      linarith
    have : (0 : ℝ) < T := by exact_mod_cast hT
    linarith
  unfold gamma
  rw [← geoSum_closed]
  have hx : (1 - x) ≠ 0 := by linarith
  field_simp

end Kfac.Factor
