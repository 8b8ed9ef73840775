import Verif.Mix.PropsMomentum
import Mathlib.Analysis.Convex.Deriv
import Mathlib.Analysis.SpecialFunctions.Exp

/-! # C113: how fast the loss approaches its minimum -/

namespace Kfac.Mix

open Kfac.Stats Kfac.Block Kfac.Train Kfac.Params Matrix Filter Topology

variable {B : ℕ} {shapes : Fin B → Shape}

/-! ### Specification -/

/-- Training without momentum under the assumptions of C110, with estimates and dampings bounded by `b` and `Λ`; `c` bounds
the damped curvature of every block. -/
structure Plain (cfg : Config) (start : Net shapes) (ops : ℕ → Op shapes) (states : ℕ → Net shapes) (lam L b Λ c : ℝ)
    (f : Params shapes → ℝ) : Prop where
  trajectory : Trajectory cfg start ops states
  fresh : ∀ j, start.stats j = (shapes j).fresh
  proper : ∀ j, (shapes j).Proper
  pure : ∀ j, ¬(shapes j).Mixed
  power : cfg.power = 1
  damped : 0 < lam
  fits : ∀ k, (ops k).Fits lam f
  differentiable : Differentiable ℝ f
  curved : 0 ≤ L
  smooth : SmoothBelow (f start.params) L f
  momentum : cfg.momentum = 0
  rate : 0 < cfg.learningRate
  slow : L * cfg.learningRate ≤ lam
  moderate : ∀ k, (ops k).Moderate b Λ
  worst : ∀ j, (shapes j).worst b Λ ≤ c
  positive : 0 < c

/-- The number of training steps among the operations `k0, .., k - 1`. -/
noncomputable def trainings (ops : ℕ → Op shapes) (k0 k : ℕ) : ℕ := by
  classical exact ((Finset.Ico k0 k).filter fun i => ∃ f damping, ops i = .train f damping).card

/-- The Polyak-Łojasiewicz condition below the level `top`. -/
def Steep (top μ low : ℝ) (f : Params shapes → ℝ) : Prop :=
  ∀ θ, f θ ≤ top → 2 * μ * (f θ - low) ≤ ∑ j, ∑ i, grad f θ j i ^ 2

/-! ### Lemmas -/

theorem trainings_self (ops : ℕ → Op shapes) (k : ℕ) : trainings ops k k = 0 := by simp [trainings]

theorem trainings_succ {ops : ℕ → Op shapes} {k0 k : ℕ} (h : k0 ≤ k) :
    ((∃ f damping, ops k = .train f damping) → trainings ops k0 (k + 1) = trainings ops k0 k + 1) ∧
    ((¬∃ f damping, ops k = .train f damping) → trainings ops k0 (k + 1) = trainings ops k0 k) := by
  classical
  have e : Finset.Ico k0 (k + 1) = insert k (Finset.Ico k0 k) := by
    ext i
    simp only [Finset.mem_Ico, Finset.mem_insert]
    omega
  constructor
  · intro ht
    simp only [trainings, e]
    rw [Finset.filter_insert, if_pos ht, Finset.card_insert_of_notMem (by simp)]
  · intro ht
    simp only [trainings, e]
    rw [Finset.filter_insert, if_neg ht]

theorem clip_mul {lr s : ℝ} (hlr : 0 < lr) (hs : 0 ≤ s) (ν : ℝ) (hν : 0 < ν) :
    min s (√(ν * s) / lr) ≤ clipFactor (some ν) lr s * s := by
  simp only [clipFactor]
  split_ifs with h
  · rw [one_mul]
    exact min_le_left _ _
  · have hs' : 0 < s := lt_of_le_of_ne hs fun h' => h (by rw [← h', zero_mul])
    rw [min_mul_of_nonneg _ _ hs, one_mul]
    refine min_le_min_left _ (le_of_eq ?_)
    rw [Real.sqrt_div' _ (by positivity), Real.sqrt_mul' _ (sq_nonneg lr), Real.sqrt_sq hlr.le, Real.sqrt_mul hν.le]
    have h1 := Real.mul_self_sqrt hs
    have h2 : √s ≠ 0 := (Real.sqrt_pos.mpr hs').ne'
    field_simp
    nlinarith

section trajectory

variable {cfg : Config} {start : Net shapes} {ops : ℕ → Op shapes} {states : ℕ → Net shapes} {lam L b Λ c low μ : ℝ}
  {f : Params shapes → ℝ}

theorem plain_step (h : Plain cfg start ops states lam L b Λ c f) {k : ℕ} (hi : ∃ i d, i < k ∧ ops i = .inv d)
    {damping : ℝ} (hop : ops k = .train f damping) :
    ∃ s, 0 ≤ s ∧ inner (grad f (states k).params) (grad f (states k).params) ≤ c * s ∧ f (states (k + 1)).params ≤
      f (states k).params - cfg.learningRate / 2 * (clipFactor cfg.normConstraint cfg.learningRate s * s) := by
  obtain ⟨-, h1, -⟩ := descent h.trajectory h.fresh h.proper h.pure h.power h.damped h.fits h.differentiable h.curved h.smooth
    h.momentum h.rate.le h.slow k
  obtain ⟨s, ⟨u, hu, rfl⟩, h2, h3⟩ := h1 damping hop
  refine ⟨_, h2, ?_, h3⟩
  obtain ⟨w, h4⟩ := state_ok h.trajectory h.fresh h.proper h.power h.damped h.fits k
  obtain ⟨h5, h6⟩ := state_moderate h.trajectory h.fresh h.proper h.power h.damped h.fits h.moderate h.worst k
  have hd := h.fits k
  have hmk := h.moderate k
  rw [hop] at hd hmk
  exact (net_small fun j => tame (K := some c) h.power h.damped hd.2 _ (h.pure j) (h.proper j) (h4 j).1 (h6 hi j)
    (fun k' hk' => by
      obtain rfl : c = k' := by simpa using hk'
      exact ⟨b, Λ, h5 j, hmk, h.worst j⟩) (collect_inv hu j)).2 c rfl

theorem plain_other (h : Plain cfg start ops states lam L b Λ c f) {k : ℕ} (hop : ¬∃ f damping, ops k = .train f damping) :
    (states (k + 1)).params = (states k).params :=
  (descent h.trajectory h.fresh h.proper h.pure h.power h.damped h.fits h.differentiable h.curved h.smooth
    h.momentum h.rate.le h.slow k).2.2 fun damping h' => hop ⟨f, damping, h'⟩

theorem plain_train (h : Plain cfg start ops states lam L b Λ c f) {k : ℕ} (hop : ∃ f damping, ops k = .train f damping) :
    ∃ damping, ops k = .train f damping := by
  obtain ⟨f', damping, hop⟩ := hop
  have hd := h.fits k
  rw [hop] at hd
  exact ⟨damping, by rw [hop, hd.1]⟩

theorem plain_top (h : Plain cfg start ops states lam L b Λ c f) (k : ℕ) : f (states k).params ≤ f start.params :=
  (descent h.trajectory h.fresh h.proper h.pure h.power h.damped h.fits h.differentiable h.curved h.smooth
    h.momentum h.rate.le h.slow k).1

theorem inner_grad (θ : Params shapes) : inner (grad f θ) (grad f θ) = ∑ j, ∑ i, grad f θ j i ^ 2 := by
  simp only [inner, pow_two]

/-! ### Theorems -/

/-- C113: on a loss that satisfies the Polyak-Łojasiewicz condition, the distance to the minimum decreases by a constant
factor with each training step after the first update of the inverses. -/
theorem C113_linear (h : Plain cfg start ops states lam L b Λ c f) (hb : ∀ θ, low ≤ f θ) (hμ : 0 ≤ μ)
    (hst : Steep (f start.params) μ low f) {ρ : ℝ} (hρ : ρ ≤ cfg.learningRate * μ / c)
    (hν : ∀ ν ∈ cfg.normConstraint, 0 < ν ∧ ρ ≤ √(ν * μ / (2 * c * (f start.params - low))))
    {k0 : ℕ} (hi : ∃ i d, i < k0 ∧ ops i = .inv d) {k : ℕ} (hk : k0 ≤ k) :
    f (states k).params - low ≤ Real.exp (-(ρ * trainings ops k0 k)) * (f (states k0).params - low) := by
  induction k, hk using Nat.le_induction with
  | base => rw [trainings_self]; simp
  | succ k hk ih =>
    by_cases hop : ∃ f damping, ops k = .train f damping
    · rw [(trainings_succ hk).1 hop]
      obtain ⟨damping, hop⟩ := plain_train h hop
      obtain ⟨i, d, hi1, hi2⟩ := hi
      obtain ⟨s, hs, h1, h2⟩ := plain_step h ⟨i, d, by omega, hi2⟩ hop
      have h3 := hst _ (plain_top h k)
      rw [← inner_grad] at h3
      have hE : 0 ≤ f (states k).params - low := sub_nonneg.mpr (hb _)
      have htop := plain_top h k
      have key : ρ * (f (states k).params - low) ≤
          cfg.learningRate / 2 * (clipFactor cfg.normConstraint cfg.learningRate s * s) := by
        have hc := h.positive
        have hlr := h.rate
        have hs1 : 2 * μ * (f (states k).params - low) / c ≤ s := by
          rw [div_le_iff₀ hc]
          linarith
        have hfirst : ρ * (f (states k).params - low) ≤ cfg.learningRate / 2 * s := by
          refine (mul_le_mul_of_nonneg_right hρ hE).trans ?_
          refine le_trans (le_of_eq ?_) (mul_le_mul_of_nonneg_left hs1 (by positivity : 0 ≤ cfg.learningRate / 2))
          field_simp
        cases hn : cfg.normConstraint with
        | none => simpa [clipFactor] using hfirst
        | some ν =>
          obtain ⟨hν0, hν1⟩ := hν ν hn
          refine le_trans ?_ (mul_le_mul_of_nonneg_left (clip_mul hlr hs ν hν0) (by positivity : 0 ≤ cfg.learningRate / 2))
          rw [mul_min_of_nonneg _ _ (by positivity : 0 ≤ cfg.learningRate / 2)]
          refine le_min hfirst ?_
          rw [show cfg.learningRate / 2 * (√(ν * s) / cfg.learningRate) = √(ν * s) / 2 by field_simp]
          refine (mul_le_mul_of_nonneg_right hν1 hE).trans ?_
          rcases hE.eq_or_lt with h0 | h0
          · rw [← h0, mul_zero]
            positivity
          · have hE0 : 0 < f start.params - low := by linarith
            rw [le_div_iff₀ two_pos]
            refine Real.le_sqrt_of_sq_le ?_
            rw [mul_pow, mul_pow, Real.sq_sqrt (by positivity)]
            have h5 : ν * μ / (2 * c * (f start.params - low)) * (f (states k).params - low) ^ 2 * 2 ^ 2 =
                ν * (2 * μ * (f (states k).params - low) / c) * ((f (states k).params - low) / (f start.params - low)) := by
              field_simp
            rw [h5]
            have h6 : (f (states k).params - low) / (f start.params - low) ≤ 1 := by
              rw [div_le_one hE0]
              linarith
            calc ν * (2 * μ * (f (states k).params - low) / c) * ((f (states k).params - low) / (f start.params - low))
                ≤ ν * (2 * μ * (f (states k).params - low) / c) * 1 := mul_le_mul_of_nonneg_left h6 (by positivity)
              _ ≤ ν * s := by rw [mul_one]; exact mul_le_mul_of_nonneg_left hs1 hν0.le
      have h4 : f (states (k + 1)).params - low ≤ (1 - ρ) * (f (states k).params - low) := by linarith
      have h5 : 1 - ρ ≤ Real.exp (-ρ) := by
        have := Real.add_one_le_exp (-ρ)
        linarith
      calc f (states (k + 1)).params - low ≤ (1 - ρ) * (f (states k).params - low) := h4
        _ ≤ Real.exp (-ρ) * (f (states k).params - low) := mul_le_mul_of_nonneg_right h5 hE
        _ ≤ Real.exp (-ρ) * (Real.exp (-(ρ * trainings ops k0 k)) * (f (states k0).params - low)) :=
          mul_le_mul_of_nonneg_left ih (Real.exp_pos _).le
        _ = _ := by
          rw [← mul_assoc, ← Real.exp_add]
          congr 2
          push_cast
          ring
    · rw [(trainings_succ hk).2 hop, plain_other h hop]
      exact ih

/-- The tangent of a convex loss lies below it. -/
theorem tangent_le (hf : Differentiable ℝ f) (hc : ConvexOn ℝ Set.univ f) (θ θ' : Params shapes) :
    f θ + inner (grad f θ) (θ' - θ) ≤ f θ' := by
  have h1 : ConvexOn ℝ Set.univ (f ∘ AffineMap.lineMap (k := ℝ) θ θ') := hc.comp_affineMap _
  have h2 : HasDerivAt (f ∘ AffineMap.lineMap (k := ℝ) θ θ') (inner (grad f θ) (θ' - θ)) 0 := by
    rw [← fderiv_inner]
    have h3 : HasDerivAt (AffineMap.lineMap (k := ℝ) θ θ' : ℝ → Params shapes) (θ' - θ) 0 := AffineMap.hasDerivAt_lineMap
    have h4 : HasFDerivAt f (fderiv ℝ f θ) (AffineMap.lineMap (k := ℝ) θ θ' (0 : ℝ)) := by
      rw [AffineMap.lineMap_apply_zero]
      exact (hf θ).hasFDerivAt
    exact h4.comp_hasDerivAt 0 h3
  have h3 := h1.le_slope_of_hasDerivAt (Set.mem_univ 0) (Set.mem_univ 1) zero_lt_one h2
  simp [slope] at h3
  linarith

/-- C113: on a convex loss whose minimum is at a distance of at most `R` from all parameters with a loss not above the
first one, the loss after `T` training steps exceeds the minimum by at most `2 c R² / (learning rate * T)`. -/
theorem C113_convex (h : Plain cfg start ops states lam L b Λ c f) (hn : cfg.normConstraint = none)
    (hcv : ConvexOn ℝ Set.univ f) {best : Params shapes} (hb : ∀ θ, f best ≤ f θ) {R : ℝ}
    (hR : ∀ θ, f θ ≤ f start.params → ∑ j, ∑ i, (θ j i - best j i) ^ 2 ≤ R ^ 2)
    {k0 : ℕ} (hi : ∃ i d, i < k0 ∧ ops i = .inv d) {k : ℕ} (hk : k0 ≤ k) :
    (f (states k).params - f best) * (cfg.learningRate * trainings ops k0 k) ≤ 2 * c * R ^ 2 := by
  have hc := h.positive
  have hlr := h.rate
  suffices hs : f (states k).params = f best ∨ cfg.learningRate * trainings ops k0 k * (f (states k).params - f best) ≤ 2 * c * R ^ 2 by
    rcases hs with hs | hs
    · rw [hs, sub_self, zero_mul]
      positivity
    · linarith
  induction k, hk using Nat.le_induction with
  | base =>
    right
    rw [trainings_self]
    simp
    positivity
  | succ k hk ih =>
    by_cases hop : ∃ f damping, ops k = .train f damping
    · rw [(trainings_succ hk).1 hop]
      obtain ⟨damping, hop⟩ := plain_train h hop
      obtain ⟨i, d, hi1, hi2⟩ := hi
      obtain ⟨s, hs, h1, h2⟩ := plain_step h ⟨i, d, by omega, hi2⟩ hop
      rw [hn, show clipFactor none cfg.learningRate s = 1 from rfl, one_mul] at h2
      by_cases h0 : f (states (k + 1)).params = f best
      · exact Or.inl h0
      right
      have hE1 : 0 < f (states (k + 1)).params - f best := sub_pos.mpr (lt_of_le_of_ne (hb _) (Ne.symm h0))
      have hls := mul_nonneg hlr.le hs
      have hE : 0 < f (states k).params - f best := by linarith
      have ih' := ih.resolve_left (by linarith)
      have h3 := tangent_le h.differentiable hcv (states k).params best
      have h4 := hR _ (plain_top h k)
      have h5 := inner_sq_le (grad f (states k).params) (best - (states k).params)
      have h6 : inner (best - (states k).params) (best - (states k).params) =
          ∑ j, ∑ i, ((states k).params j i - best j i) ^ 2 := by
        simp only [inner]
        refine Finset.sum_congr rfl fun j _ => Finset.sum_congr rfl fun i _ => ?_
        simp only [Pi.sub_apply]
        ring
      rw [h6] at h5
      set E := f (states k).params - f best with hEdef
      set E1 := f (states (k + 1)).params - f best with hE1def
      set g := inner (grad f (states k).params) (grad f (states k).params) with hg
      have hg0 : 0 ≤ g := inner_self_nonneg _
      have h7 : E ^ 2 ≤ g * R ^ 2 := by
        have h8 : E ≤ -inner (grad f (states k).params) (best - (states k).params) := by linarith
        have h9 : E ^ 2 ≤ inner (grad f (states k).params) (best - (states k).params) ^ 2 := by nlinarith
        exact h9.trans (h5.trans (mul_le_mul_of_nonneg_left h4 hg0))
      -- lr E² ≤ 2 c R² (E - E1)
      have h10 : cfg.learningRate * E ^ 2 ≤ 2 * c * R ^ 2 * (E - E1) := by
        have h11 : cfg.learningRate / 2 * s ≤ E - E1 := by simp only [hEdef, hE1def]; linarith
        have h12 : E ^ 2 ≤ c * s * R ^ 2 := h7.trans (mul_le_mul_of_nonneg_right h1 (sq_nonneg R))
        have h13 := mul_le_mul_of_nonneg_left h11 (by positivity : 0 ≤ 2 * c * R ^ 2)
        have h14 := mul_le_mul_of_nonneg_left h12 hlr.le
        linarith
      have h15 : E1 ≤ E := by
        have := h2
        simp only [hEdef, hE1def]
        linarith
      push_cast
      refine le_of_mul_le_mul_right (a := E) ?_ hE
      have h16 : cfg.learningRate * E1 * E ≤ 2 * c * R ^ 2 * (E - E1) :=
        le_trans (by nlinarith [mul_nonneg hlr.le hE.le]) h10
      nlinarith [mul_le_mul_of_nonneg_right ih' hE1.le]
    · rw [(trainings_succ hk).2 hop, plain_other h hop]
      exact ih

end trajectory

theorem half_convex : ConvexOn ℝ Set.univ fun θ : Params shapes => inner θ θ / 2 := by
  refine ⟨convex_univ, fun x _ y _ p q hp hq hpq => ?_⟩
  have h : 0 ≤ inner (x - y) (x - y) := inner_self_nonneg _
  have e : inner (p • x + q • y) (p • x + q • y) = p * inner x x + q * inner y y - p * q * inner (x - y) (x - y) := by
    obtain rfl : q = 1 - p := by linarith
    simp only [inner, Finset.mul_sum, ← Finset.sum_add_distrib, ← Finset.sum_sub_distrib]
    refine Finset.sum_congr rfl fun j _ => Finset.sum_congr rfl fun i _ => ?_
    simp only [Pi.add_apply, Pi.smul_apply, Pi.sub_apply, smul_eq_mul]
    ring
  simp only [e, smul_eq_mul]
  nlinarith [mul_nonneg (mul_nonneg hp hq) h]

/-- A net with all kinds of blocks: the hypotheses of the theorems hold. -/
example : ∃ (shapes : Fin 4 → Shape) (cfg : Config) (start : Net shapes) (ops : ℕ → Op shapes) (states : ℕ → Net shapes)
    (f : Params shapes → ℝ) (c : ℝ) (best : Params shapes) (R : ℝ),
    Plain cfg start ops states 1 1 3 2 c f ∧ cfg.normConstraint = none ∧ ConvexOn ℝ Set.univ f ∧ (∀ θ, f best ≤ f θ) ∧
    (∀ θ, f θ ≤ f start.params → ∑ j, ∑ i, (θ j i - best j i) ^ 2 ≤ R ^ 2) ∧ Steep (f start.params) 1 (f best) f ∧
    (∃ i d, i < 2 ∧ ops i = .inv d) ∧ f best < f start.params ∧ trainings ops 2 6 = 2 := by
  let shapes : Fin 4 → Shape := ![.kron (.conv 5) 2 3 true false false, .kron .fullyConnected 2 1 false true true, .full 3,
    .diagonal .naive 7]
  let f : Params shapes → ℝ := fun θ => inner θ θ / 2
  let cfg : Config := ⟨1, 0, none, .tracenorm, 1⟩
  let start : Net shapes := ⟨fun _ _ => 1, 0, fun j => (shapes j).fresh⟩
  let ops : ℕ → Op shapes := fun k => if k % 3 = 0 then .cov (fun j => (shapes j).unit 1 1) (95 / 100) else if k % 3 = 1 then .inv 2
    else .train f 1
  have hpr : ∀ j, (shapes j).Proper := by
    intro j
    fin_cases j
    · exact ⟨by decide, by norm_num [KronKind.renorm]⟩
    · exact ⟨by decide, by norm_num [KronKind.renorm]⟩
    · trivial
    · intro l h; cases h
  have hmix : ∀ j, ¬(shapes j).Mixed := by
    intro j
    fin_cases j <;> simp [shapes, Shape.Mixed]
  have ho : ∀ k, (ops k).Fits (1 : ℝ) f := by
    intro k
    simp only [ops]
    split_ifs
    · exact ⟨fun j => unit_psd zero_le_one zero_le_one _, by norm_num⟩
    · exact one_le_two
    · exact ⟨rfl, le_refl _⟩
  obtain ⟨states, hs⟩ := C110_succeeds (cfg := cfg) (start := start) (fun _ => rfl) hpr rfl one_pos ho
    (show ops 0 = .cov (fun j => (shapes j).unit 1 1) (95 / 100) from rfl)
  have hmod : ∀ k, (ops k).Moderate 3 2 := by
    intro k
    simp only [ops]
    split_ifs
    · intro j
      fin_cases j
      · exact unit_below (by norm_num) (by norm_num)
      · exact unit_below (by norm_num) (by norm_num)
      · show Matrix.trace (_ • (1 : Matrix (Fin 3) (Fin 3) ℝ)) ≤ (3 : ℝ)
        simp [Matrix.trace]
      · intro i
        show (1 : ℝ) ≤ 3
        norm_num
    · exact le_refl (2 : ℝ)
    · exact one_le_two (α := ℝ)
  obtain ⟨c, hc0, hcw⟩ : ∃ c : ℝ, 0 < c ∧ ∀ j, (shapes j).worst 3 2 ≤ c := by
    refine ⟨1 + ∑ j, |(shapes j).worst 3 2|, by positivity, fun j => ?_⟩
    have := Finset.single_le_sum (f := fun j => |(shapes j).worst 3 2|) (fun j _ => abs_nonneg _) (Finset.mem_univ j)
    have := le_abs_self ((shapes j).worst 3 2)
    linarith
  have hsq : ∀ θ : Params shapes, ∑ j, ∑ i, (θ j i - (0 : Params shapes) j i) ^ 2 = inner θ θ := by
    intro θ
    simp [inner, pow_two]
  have h0 : f 0 = 0 := by simp [f, inner]
  refine ⟨shapes, cfg, start, ops, states, f, c, 0, √(inner start.params start.params), ⟨hs, fun _ => rfl, hpr, hmix, rfl, one_pos, ho,
    half_differentiable, zero_le_one, half_below _, rfl, by norm_num [cfg], by norm_num [cfg], hmod, hcw, hc0⟩, rfl, half_convex,
    fun θ => ?_, fun θ hθ => ?_, fun θ _ => ?_, ⟨1, 2, by norm_num, rfl⟩, ?_, ?_⟩
  · rw [h0]
    exact div_nonneg (inner_self_nonneg _) zero_le_two
  · rw [hsq, Real.sq_sqrt (inner_self_nonneg _)]
    have : inner θ θ / 2 ≤ inner start.params start.params / 2 := hθ
    linarith
  · rw [h0]
    simp only [f, half_grad]
    simp only [inner, pow_two]
    linarith
  · rw [h0]
    refine div_pos ?_ two_pos
    refine Finset.sum_pos' (fun k _ => Finset.sum_nonneg fun i _ => mul_self_nonneg _) ⟨2, Finset.mem_univ _, ?_⟩
    show 0 < ∑ i : Fin 3, (1 : ℝ) * 1
    simp
  · have t : ∀ k, (∃ f damping, ops k = .train f damping) ↔ k % 3 = 2 := by
      intro k
      simp only [ops]
      split_ifs <;> simp <;> omega
    simp only [trainings, t]
    decide

end Kfac.Mix
