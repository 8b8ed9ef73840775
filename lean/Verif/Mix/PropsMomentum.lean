import Verif.Mix.PropsMix
import Mathlib.Analysis.Calculus.Deriv.MeanValue

/-! # C111: training with momentum -/

namespace Kfac.Mix

open Kfac.Stats Kfac.Block Kfac.Train Kfac.Params Matrix Filter Topology

variable {B : ℕ} {shapes : Fin B → Shape}

/-! ### Specification -/

/-- The gradient of the loss is Lipschitz with constant `L`. -/
def Lipschitz (L : ℝ) (f : Params shapes → ℝ) : Prop :=
  Differentiable ℝ f ∧ ∀ θ θ', inner (grad f θ - grad f θ') (grad f θ - grad f θ') ≤ L ^ 2 * inner (θ - θ') (θ - θ')

/-! ### Energy -/

theorem inner_comm (x y : Params shapes) : inner x y = inner y x :=
  Finset.sum_congr rfl fun _ _ => Finset.sum_congr rfl fun _ _ => mul_comm _ _

theorem inner_add_left (x y z : Params shapes) : inner (x + y) z = inner x z + inner y z := by
  simp only [inner, Pi.add_apply, add_mul, Finset.sum_add_distrib]

theorem inner_smul_left (c : ℝ) (x y : Params shapes) : inner (c • x) y = c * inner x y := by
  rw [inner_comm, inner_smul, inner_comm]

theorem inner_add_right (x y z : Params shapes) : inner x (y + z) = inner x y + inner x z := by
  rw [inner_comm, inner_add_left, inner_comm y, inner_comm z]

theorem inner_sq_le (x y : Params shapes) : inner x y ^ 2 ≤ inner x x * inner y y := by
  rcases eq_or_lt_of_le (inner_self_nonneg y) with h | h
  · have h1 : ∀ t : ℝ, 0 ≤ inner x x + t * (2 * inner x y) := fun t => by
      have := inner_self_nonneg (x + t • y)
      rw [inner_add_left, inner_add_right, inner_add_right, inner_smul_left, inner_smul_left, inner_smul, inner_smul, ← h,
        inner_comm y x] at this
      linarith
    have h2 : inner x y = 0 := by
      by_contra hne
      have := h1 (-(inner x x + 1) / (2 * inner x y))
      rw [div_mul_cancel₀ _ (mul_ne_zero two_ne_zero hne)] at this
      linarith
    rw [h2, ← h]
    simp
  · have := inner_self_nonneg (inner y y • x + (-inner x y) • y)
    rw [inner_add_left, inner_add_right, inner_add_right, inner_smul_left, inner_smul_left, inner_smul_left, inner_smul_left, inner_smul, inner_smul,
      inner_smul, inner_smul, inner_comm y x] at this
    have h3 : 0 ≤ inner y y * (inner x x * inner y y - inner x y ^ 2) := by linarith
    have := nonneg_of_mul_nonneg_right h3 h
    linarith

/-- The loss is below parabolas. -/
theorem lipschitz_parabola {L : ℝ} {f : Params shapes → ℝ} (hf : Lipschitz L f) (hL : 0 ≤ L) (θ d : Params shapes) :
    f (θ + d) ≤ f θ + inner (grad f θ) d + L / 2 * inner d d := by
  have hder : ∀ t : ℝ, HasDerivAt (fun t : ℝ => f (θ + t • d)) (inner (grad f (θ + t • d)) d) t := fun t => by
    have h2 : HasDerivAt (fun t : ℝ => θ + t • d) d t := by
      have := ((hasDerivAt_id t).smul_const d).const_add θ
      rwa [one_smul] at this
    have h4 := ((hf.1 (θ + t • d)).hasFDerivAt).comp_hasDerivAt t h2
    rw [fderiv_inner] at h4
    exact h4
  let φ : ℝ → ℝ := fun t => f (θ + t • d) - (t * inner (grad f θ) d + L / 2 * t ^ 2 * inner d d)
  have hφ : ∀ t, HasDerivAt φ (inner (grad f (θ + t • d)) d - (inner (grad f θ) d + L * t * inner d d)) t := fun t => by
    have h5 := (hder t).sub (((hasDerivAt_id t).mul_const (inner (grad f θ) d)).add
      ((((hasDerivAt_id t).pow 2).const_mul (L / 2)).mul_const (inner d d)))
    refine h5.congr_deriv ?_
    simp only [id_eq, Nat.cast_ofNat, show 2 - 1 = 1 from rfl, pow_one]
    ring
  have hneg : ∀ t, 0 ≤ t → inner (grad f (θ + t • d)) d - (inner (grad f θ) d + L * t * inner d d) ≤ 0 := fun t ht => by
    have h1 := hf.2 (θ + t • d) θ
    rw [add_sub_cancel_left, inner_smul, inner_smul_left] at h1
    set q := grad f (θ + t • d) - grad f θ with hq
    have h2 : inner q d ≤ L * t * inner d d := by
      have h3 := inner_sq_le q d
      have h4 : inner q d ^ 2 ≤ (L * t * inner d d) ^ 2 := by
        have := mul_le_mul_of_nonneg_right h1 (inner_self_nonneg d)
        nlinarith
      exact (abs_le.mp (abs_le_of_sq_le_sq h4 (mul_nonneg (mul_nonneg hL ht) (inner_self_nonneg d)))).2
    have h5 : grad f (θ + t • d) = grad f θ + q := by rw [hq]; abel
    rw [h5, inner_add_left]
    linarith
  have hanti : AntitoneOn φ (Set.Ici 0) := by
    refine antitoneOn_of_deriv_nonpos (convex_Ici 0) (fun t _ => (hφ t).continuousAt.continuousWithinAt)
      (fun t _ => (hφ t).differentiableAt.differentiableWithinAt) fun t ht => ?_
    rw [interior_Ici] at ht
    rw [(hφ t).deriv]
    exact hneg t (le_of_lt ht)
  have := hanti (Set.mem_Ici.mpr le_rfl) (Set.mem_Ici.mpr zero_le_one) zero_le_one
  simp only [φ, one_smul, zero_smul, add_zero, one_mul, zero_mul, one_pow, mul_one] at this
  norm_num at this
  linarith

theorem velocity_bound {m : ℝ} (hm : 0 ≤ m) (hm1 : m < 1) (v w : Params shapes) :
    inner (m • v + w) (m • v + w) ≤ m * inner v v + inner w w / (1 - m) := by
  have h1m : 0 < 1 - m := by linarith
  have h := inner_self_nonneg (v + (-(1 / (1 - m))) • w)
  rw [inner_add_left, inner_add_right, inner_add_right, inner_smul_left, inner_smul_left, inner_smul, inner_smul, inner_comm w v] at h
  rw [inner_add_left, inner_add_right, inner_add_right, inner_smul_left, inner_smul_left, inner_smul, inner_smul, inner_comm w v]
  have h6 := mul_nonneg (mul_nonneg hm h1m.le) h
  have e : m * (1 - m) * (inner v v + -(1 / (1 - m)) * inner v w + (-(1 / (1 - m)) * inner v w + -(1 / (1 - m)) * (-(1 / (1 - m)) * inner w w))) =
      m * (1 - m) * inner v v - 2 * m * inner v w + m * inner w w / (1 - m) := by
    field_simp
    ring
  rw [e] at h6
  have e2 : inner w w / (1 - m) = inner w w + m * inner w w / (1 - m) := by field_simp; ring
  rw [e2]
  nlinarith

/-- The energy of a state: the loss where the velocity comes from, and the square of the velocity. -/
noncomputable def energy (lr m L : ℝ) (f : Params shapes → ℝ) (θ v : Params shapes) : ℝ :=
  f (θ - (m * (lr / (1 - m))) • v) + L * m * (lr / (1 - m)) ^ 2 / 2 * inner v v

/-- One step with momentum. -/
theorem energy_step {lr m L lam : ℝ} {f : Params shapes → ℝ} {θ v w : Params shapes} (hf : Lipschitz L f) (hL : 0 ≤ L) (hm : 0 ≤ m) (hm1 : m < 1)
    (hlr : 0 ≤ lr) (hc : L * lr * (1 + m) ≤ lam * (1 - m) ^ 2) (hw : lam * inner w w ≤ inner (grad f θ) w) :
    energy lr m L f (θ - lr • (m • v + w)) (m • v + w) ≤ energy lr m L f θ v - lr / (1 - m) / 2 * inner (grad f θ) w := by
  have h1m : 0 < 1 - m := by linarith
  set β := lr / (1 - m) with hβ
  have hβ0 : 0 ≤ β := div_nonneg hlr h1m.le
  have hlrβ : lr = β * (1 - m) := by rw [hβ, div_mul_cancel₀ _ h1m.ne']
  set z := θ - (m * β) • v with hz
  have ez : θ - lr • (m • v + w) - (m * β) • (m • v + w) = z + (-β) • w := by
    rw [hz]
    have : lr • (m • v + w) + (m * β) • (m • v + w) = (m * β) • v + β • w := by
      rw [← add_smul, smul_add, smul_smul, hlrβ]
      congr 2 <;> ring
    rw [sub_sub, this, neg_smul]
    abel
  have hpar := lipschitz_parabola hf hL z ((-β) • w)
  rw [inner_smul, inner_smul, inner_smul_left] at hpar
  set g := grad f θ with hg
  set q := grad f z - g with hq
  have eq : grad f z = g + q := by rw [hq]; abel
  rw [eq, inner_add_left] at hpar
  set V := inner v v with hV
  set W := inner w w with hW
  have hV0 : 0 ≤ V := inner_self_nonneg v
  have hW0 : 0 ≤ W := inner_self_nonneg w
  have hqq : inner q q ≤ (L * (m * β)) ^ 2 * V := by
    have h := hf.2 z θ
    have e : z - θ = (-(m * β)) • v := by rw [hz, neg_smul]; abel
    rw [e, inner_smul, inner_smul_left] at h
    calc inner q q ≤ _ := h
      _ = _ := by ring
  have hqw : -inner q w ≤ L * (m * β) * (((1 - m) * V + W / (1 - m)) / 2) := by
    have h1 := inner_sq_le q w
    have h2 : V * W ≤ (((1 - m) * V + W / (1 - m)) / 2) ^ 2 := by
      have e : V * W = ((1 - m) * V) * (W / (1 - m)) := by field_simp
      rw [e]
      nlinarith [sq_nonneg ((1 - m) * V - W / (1 - m))]
    have h3 : inner q w ^ 2 ≤ (L * (m * β) * (((1 - m) * V + W / (1 - m)) / 2)) ^ 2 := by
      have h4 := mul_le_mul_of_nonneg_right hqq hW0
      have h5 := mul_le_mul_of_nonneg_left h2 (sq_nonneg (L * (m * β)))
      rw [mul_pow]
      calc inner q w ^ 2 ≤ inner q q * W := h1
        _ ≤ (L * (m * β)) ^ 2 * V * W := h4
        _ = (L * (m * β)) ^ 2 * (V * W) := by ring
        _ ≤ _ := h5
    have := abs_le_of_sq_le_sq h3 (by positivity)
    linarith [(abs_le.mp this).1]
  have hvel : inner (m • v + w) (m • v + w) ≤ m * V + W / (1 - m) := velocity_bound hm hm1 v w
  have hLW : L * β * (1 + m) * W ≤ (1 - m) * inner g w := by
    have h7 : L * β * (1 + m) ≤ lam * (1 - m) := by
      rw [hlrβ] at hc
      have : (L * β * (1 + m)) * (1 - m) ≤ (lam * (1 - m)) * (1 - m) := by nlinarith
      exact le_of_mul_le_mul_right this h1m
    have := mul_le_mul_of_nonneg_right h7 hW0
    have := mul_le_mul_of_nonneg_left hw h1m.le
    nlinarith
  have hLW' : L * β * (1 + m) * (W / (1 - m)) ≤ inner g w := by
    rw [mul_div_assoc', div_le_iff₀ h1m]
    linarith
  unfold energy
  rw [← hβ, ez, ← hz]
  have t1 := mul_le_mul_of_nonneg_left hqw hβ0
  have t2 := mul_le_mul_of_nonneg_left hvel (by positivity : 0 ≤ L * m * β ^ 2 / 2)
  have t3 := mul_le_mul_of_nonneg_left hLW' (by positivity : 0 ≤ β / 2)
  have e3 : W = (1 - m) * (W / (1 - m)) := by field_simp
  set Q := W / (1 - m)
  rw [e3] at hpar
  nlinarith

/-! ### Training -/

section trajectory

variable {cfg : Config} {start : Net shapes} {ops : ℕ → Op shapes} {states : ℕ → Net shapes} {lam L low : ℝ} {f : Params shapes → ℝ}

theorem other_same {op : Op shapes} (h : ∀ f' damping, op ≠ .train f' damping) {net net' : Net shapes} (hs : net.step cfg op = .ok net') :
    net'.params = net.params ∧ net'.velocity = net.velocity := by
  cases hop : op with
  | cov new decay => rw [hop] at hs; rw [← Except.ok.inj hs]; exact ⟨rfl, rfl⟩
  | inv damping =>
    rw [hop] at hs
    simp only [Net.step] at hs
    cases hc : collect (fun j => (shapes j).invUpdate cfg.rule cfg.power damping (net.stats j)) with
    | error e => rw [hc] at hs; cases hs
    | ok s => rw [hc] at hs; rw [← Except.ok.inj hs]; exact ⟨rfl, rfl⟩
  | train f' damping => exact absurd hop (h f' damping)

/-- The hypotheses on a run with momentum: new factors, no velocity at first, blocks with at least one output, location and use, none of them
mixed, dampings of at least `lam`, a loss with a Lipschitz gradient and a learning rate to match. -/
structure Run (cfg : Config) (start : Net shapes) (ops : ℕ → Op shapes) (states : ℕ → Net shapes) (lam L : ℝ) (f : Params shapes → ℝ) : Prop where
  trajectory : Trajectory cfg start ops states
  fresh : ∀ j, start.stats j = (shapes j).fresh
  still : start.velocity = 0
  proper : ∀ j, (shapes j).Proper
  pure : ∀ j, ¬(shapes j).Mixed
  power : cfg.power = 1
  damped : 0 < lam
  fits : ∀ k, (ops k).Fits lam f
  smooth : Lipschitz L f
  curved : 0 < L
  momentum : 0 ≤ cfg.momentum
  momentum1 : cfg.momentum < 1
  rate : 0 < cfg.learningRate
  slow : L * cfg.learningRate * (1 + cfg.momentum) ≤ lam * (1 - cfg.momentum) ^ 2

/-- The energy in a state. -/
noncomputable def energyAt (cfg : Config) (L : ℝ) (f : Params shapes → ℝ) (net : Net shapes) : ℝ :=
  energy cfg.learningRate cfg.momentum L f net.params net.velocity

theorem run_step (h : Run cfg start ops states lam L f) (k : ℕ) :
    (∀ damping, ops k = .train f damping → ∃ s w, NormAt cfg f damping (states k) s ∧ 0 ≤ s ∧
      (states (k + 1)).velocity = cfg.momentum • (states k).velocity + w ∧
      (states (k + 1)).params = (states k).params - cfg.learningRate • (states (k + 1)).velocity ∧
      lam * inner w w ≤ clipFactor cfg.normConstraint cfg.learningRate s * s ∧
      energyAt cfg L f (states (k + 1)) ≤ energyAt cfg L f (states k) -
        cfg.learningRate / (1 - cfg.momentum) / 2 * (clipFactor cfg.normConstraint cfg.learningRate s * s)) ∧
    ((∀ damping, ops k ≠ .train f damping) → (states (k + 1)).params = (states k).params ∧ (states (k + 1)).velocity = (states k).velocity) := by
  have hs := h.trajectory.2 k
  have hd := h.fits k
  refine ⟨fun damping hop => ?_, fun hop => ?_⟩
  · obtain ⟨w0, h1⟩ := state_ok h.trajectory h.fresh h.proper h.power h.damped h.fits k
    rw [hop] at hs hd
    simp only [Net.step, Net.trainStep, Bind.bind, Except.bind, Pure.pure, Except.pure] at hs
    cases hu : (states k).precondition cfg damping (grad f (states k).params) with
    | error m => rw [hu] at hs; cases hs
    | ok u =>
      rw [hu] at hs
      have hs := Except.ok.inj hs
      have h2 := (net_small fun j => tame (K := none) h.power h.damped hd.2 _ (h.pure j) (h.proper j) (h1 j).1 (h1 j).2 (by simp) (collect_inv hu j)).1
      set g := grad f (states k).params with hg
      set s := inner g u with hsdef
      have hs0 : 0 ≤ s := (mul_nonneg h.damped.le (inner_self_nonneg u)).trans h2
      set κ := clipFactor cfg.normConstraint cfg.learningRate s with hκ
      obtain ⟨k0, k1⟩ := clipFactor_mem cfg.normConstraint cfg.learningRate s
      have hgw : inner g (κ • u) = κ * s := inner_smul _ _ _
      have hww : lam * inner (κ • u) (κ • u) ≤ κ * s := by
        rw [inner_smul, inner_smul_left]
        have h3 := mul_le_mul_of_nonneg_left h2 (mul_nonneg k0 k0)
        have h4 := mul_le_mul_of_nonneg_right (mul_le_of_le_one_right k0 k1) hs0
        calc lam * (κ * (κ * inner u u)) = κ * κ * (lam * inner u u) := by ring
          _ ≤ κ * κ * s := h3
          _ ≤ κ * s := h4
      have hv : (states (k + 1)).velocity = cfg.momentum • (states k).velocity + κ • u := by rw [← hs]
      have hp : (states (k + 1)).params = (states k).params - cfg.learningRate • (states (k + 1)).velocity := by rw [← hs]
      refine ⟨s, κ • u, ⟨u, hu, rfl⟩, hs0, hv, hp, hww, ?_⟩
      unfold energyAt
      rw [hp, hv]
      have := energy_step (v := (states k).velocity) (w := κ • u) h.smooth h.curved.le h.momentum h.momentum1 h.rate.le h.slow (by rw [← hg, hgw]; exact hww)
      rwa [← hg, hgw] at this
  · refine other_same (fun f' damping h' => ?_) hs
    rw [h'] at hd
    exact hop damping (by rw [h', hd.1])

theorem run_energy (h : Run cfg start ops states lam L f) (k : ℕ) : energyAt cfg L f (states (k + 1)) ≤ energyAt cfg L f (states k) := by
  obtain ⟨h1, h2⟩ := run_step h k
  by_cases hop : ∃ damping, ops k = .train f damping
  · obtain ⟨damping, hop⟩ := hop
    obtain ⟨s, w, -, h3, -, -, -, h4⟩ := h1 damping hop
    have h5 : 0 ≤ cfg.learningRate / (1 - cfg.momentum) / 2 := div_nonneg (div_nonneg h.rate.le (by linarith [h.momentum1])) zero_le_two
    have := mul_nonneg h5 (mul_nonneg (clipFactor_mem cfg.normConstraint cfg.learningRate s).1 h3)
    linarith
  · obtain ⟨h3, h4⟩ := h2 fun damping h' => hop ⟨damping, h'⟩
    unfold energyAt
    rw [h3, h4]

theorem energy_start (h : Run cfg start ops states lam L f) : energyAt cfg L f (states 0) = f start.params := by
  rw [h.trajectory.1, energyAt, energy, h.still]
  have : inner (0 : Params shapes) 0 = 0 := by simp [inner]
  rw [this, smul_zero, sub_zero, mul_zero, add_zero]

theorem energy_first (h : Run cfg start ops states lam L f) (k : ℕ) : energyAt cfg L f (states k) ≤ f start.params := by
  induction k with
  | zero => exact (energy_start h).le
  | succ k ih => exact (run_energy h k).trans ih

/-- The gradient of a loss that is bounded below. -/
theorem grad_bound (hf : Lipschitz L f) (hL : 0 < L) (hb : ∀ θ, low ≤ f θ) (θ : Params shapes) :
    inner (grad f θ) (grad f θ) ≤ 2 * L * (f θ - low) := by
  have h1 := lipschitz_parabola hf hL.le θ ((-(1 / L)) • grad f θ)
  rw [inner_smul, inner_smul, inner_smul_left] at h1
  have h2 := hb (θ + (-(1 / L)) • grad f θ)
  have e : L / 2 * (-(1 / L) * (-(1 / L) * inner (grad f θ) (grad f θ))) = 1 / L / 2 * inner (grad f θ) (grad f θ) := by field_simp
  rw [e] at h1
  have h3 : 1 / L / 2 * inner (grad f θ) (grad f θ) ≤ f θ - low := by linarith
  have h4 := mul_le_mul_of_nonneg_left h3 (by positivity : 0 ≤ 2 * L)
  have e2 : 2 * L * (1 / L / 2 * inner (grad f θ) (grad f θ)) = inner (grad f θ) (grad f θ) := by field_simp
  linarith

/-- The parts of the energy. -/
theorem energy_parts (hb : ∀ θ, low ≤ f θ) (h : Run cfg start ops states lam L f) (k : ℕ) :
    ∃ a b, 0 ≤ a ∧ 0 ≤ b ∧ energyAt cfg L f (states k) = low + a + b ∧
      b = L * cfg.momentum * (cfg.learningRate / (1 - cfg.momentum)) ^ 2 / 2 * inner (states k).velocity (states k).velocity ∧
      f ((states k).params - (cfg.momentum * (cfg.learningRate / (1 - cfg.momentum))) • (states k).velocity) = low + a := by
  refine ⟨_, _, sub_nonneg.mpr (hb ((states k).params - (cfg.momentum * (cfg.learningRate / (1 - cfg.momentum))) • (states k).velocity)),
    mul_nonneg (div_nonneg (mul_nonneg (mul_nonneg h.curved.le h.momentum) (sq_nonneg (cfg.learningRate / (1 - cfg.momentum)))) zero_le_two)
      (inner_self_nonneg (states k).velocity), ?_, rfl, by ring⟩
  unfold energyAt energy
  ring

/-- C111: with momentum the loss may rise, but it never exceeds its greatest lower bound by more than 1 plus the momentum times what it did
at the start. -/
theorem C111_bounded (h : Run cfg start ops states lam L f) (hb : ∀ θ, low ≤ f θ) (k : ℕ) :
    f (states k).params - low ≤ (1 + cfg.momentum) * (f start.params - low) := by
  obtain ⟨a, b, ha, hb0, he, hbe, hz⟩ := energy_parts hb h k
  have hD := energy_first h k
  rw [he] at hD
  set m := cfg.momentum
  set β := cfg.learningRate / (1 - m)
  set v := (states k).velocity
  set z := (states k).params - (m * β) • v with hzdef
  have hpar := lipschitz_parabola h.smooth h.curved.le z ((m * β) • v)
  have e1 : z + (m * β) • v = (states k).params := by rw [hzdef]; abel
  rw [e1, inner_smul, inner_smul, inner_smul_left, hz] at hpar
  have hg := grad_bound h.smooth h.curved hb z
  rw [hz] at hg
  have hm : 0 ≤ m := h.momentum
  have hcs := inner_sq_le (grad f z) v
  have h1 : (m * β * inner (grad f z) v) ^ 2 ≤ (b + m * a) ^ 2 := by
    have h2 := mul_le_mul_of_nonneg_right hg (inner_self_nonneg v)
    have h3 := mul_le_mul_of_nonneg_left (hcs.trans h2) (sq_nonneg (m * β))
    have e : (m * β) ^ 2 * (2 * L * (low + a - low) * inner v v) = 4 * (m * a) * b := by
      rw [hbe]
      ring
    rw [e] at h3
    nlinarith [sq_nonneg (b - m * a)]
  have h2 := (abs_le.mp (abs_le_of_sq_le_sq h1 (add_nonneg hb0 (mul_nonneg hm ha)))).2
  have e2 : L / 2 * (m * β * (m * β * inner v v)) = m * b := by
    rw [hbe]
    ring
  rw [e2] at hpar
  have h3 : (1 + m) * (a + b) ≤ (1 + m) * (f start.params - low) := mul_le_mul_of_nonneg_left (by linarith) (by linarith)
  nlinarith

/-- The decrease of the energy at each operation. -/
theorem run_decrease (h : Run cfg start ops states lam L f) : ∃ a : ℕ → ℝ, (∀ k, 0 ≤ a k) ∧
    (∀ k, energyAt cfg L f (states (k + 1)) ≤ energyAt cfg L f (states k) - a k) ∧
    ∀ k damping s, ops k = .train f damping → NormAt cfg f damping (states k) s →
      a k = cfg.learningRate / (1 - cfg.momentum) / 2 * (clipFactor cfg.normConstraint cfg.learningRate s * s) := by
  classical
  choose s w hs using fun k => (run_step h k).1
  have hβ : 0 ≤ cfg.learningRate / (1 - cfg.momentum) / 2 := div_nonneg (div_nonneg h.rate.le (by linarith [h.momentum1])) zero_le_two
  refine ⟨fun k => if hk : ∃ damping, ops k = .train f damping then cfg.learningRate / (1 - cfg.momentum) / 2 *
    (clipFactor cfg.normConstraint cfg.learningRate (s k hk.choose hk.choose_spec) * s k hk.choose hk.choose_spec) else 0, fun k => ?_, fun k => ?_,
    fun k damping t hk ht => ?_⟩
  · simp only
    split_ifs with hk
    · exact mul_nonneg hβ (mul_nonneg (clipFactor_mem _ _ _).1 (hs k _ hk.choose_spec).2.1)
    · exact le_refl _
  · simp only
    split_ifs with hk
    · exact (hs k _ hk.choose_spec).2.2.2.2.2
    · rw [sub_zero]
      exact run_energy h k
  · have hex : ∃ damping, ops k = .train f damping := ⟨damping, hk⟩
    simp only [dif_pos hex]
    have e : hex.choose = damping := by
      have := hex.choose_spec.symm.trans hk
      injection this
    obtain ⟨u, h1, h2⟩ := (hs k _ hex.choose_spec).1
    obtain ⟨u', h3, h4⟩ := ht
    rw [e] at h1
    obtain rfl := Except.ok.inj (h1.symm.trans h3)
    rw [h2, h4]

theorem energy_low (h : Run cfg start ops states lam L f) (hb : ∀ θ, low ≤ f θ) (k : ℕ) : low ≤ energyAt cfg L f (states k) := by
  obtain ⟨a, b, h1, h2, h3, -⟩ := energy_parts hb h k
  linarith

/-- C111: without a norm constraint the squared Fisher norms of all training steps add up to at most the excess of the loss at the start times
twice (1 - momentum) over the learning rate. -/
theorem C111_total (h : Run cfg start ops states lam L f) (hb : ∀ θ, low ≤ f θ) (hn : cfg.normConstraint = none) {s : ℕ → ℝ}
    (hs : ∀ k, (∃ damping, ops k = .train f damping ∧ NormAt cfg f damping (states k) (s k)) ∨
      (∀ damping, ops k ≠ .train f damping) ∧ s k = 0) (n : ℕ) :
    ∑ k ∈ Finset.range n, s k ≤ 2 * (1 - cfg.momentum) / cfg.learningRate * (f start.params - low) := by
  obtain ⟨a, h1, h2, h3⟩ := run_decrease h
  have h1m : 0 < 1 - cfg.momentum := by linarith [h.momentum1]
  have h4 := (decrease_small h1 h2 (energy_low h hb)).1 n
  rw [energy_start h] at h4
  have h5 : ∀ k, cfg.learningRate / (1 - cfg.momentum) / 2 * s k ≤ a k := fun k => by
    rcases hs k with ⟨damping, h6, h7⟩ | ⟨-, h7⟩
    · rw [h3 k damping _ h6 h7, hn]
      simp [clipFactor]
    · rw [h7, mul_zero]
      exact h1 k
  have h6 : cfg.learningRate / (1 - cfg.momentum) / 2 * ∑ k ∈ Finset.range n, s k ≤ f start.params - low := by
    rw [Finset.mul_sum]
    have := (Finset.sum_le_sum fun k (_ : k ∈ Finset.range n) => h5 k).trans h4
    linarith [energy_low h hb n]
  have h7 := mul_le_mul_of_nonneg_left h6 (div_nonneg (mul_nonneg zero_le_two h1m.le) h.rate.le)
  have e : 2 * (1 - cfg.momentum) / cfg.learningRate * (cfg.learningRate / (1 - cfg.momentum) / 2 * ∑ k ∈ Finset.range n, s k) =
      ∑ k ∈ Finset.range n, s k := by
    have := h.rate.ne'
    field_simp
  linarith

/-- C111: the squared Fisher norm of the training steps tends to zero, with or without a norm constraint. -/
theorem C111_vanishes (h : Run cfg start ops states lam L f) (hb : ∀ θ, low ≤ f θ) (hc : ∀ v ∈ cfg.normConstraint, 0 < v) {ε : ℝ} (hε : 0 < ε) :
    ∃ K, ∀ k, K ≤ k → ∀ damping, ops k = .train f damping → ∃ s, NormAt cfg f damping (states k) s ∧ 0 ≤ s ∧ s < ε := by
  obtain ⟨a, h1, h2, h3⟩ := run_decrease h
  have h1m : 0 < 1 - cfg.momentum := by linarith [h.momentum1]
  have hβ : 0 < cfg.learningRate / (1 - cfg.momentum) / 2 := div_pos (div_pos h.rate h1m) two_pos
  have h4 := (decrease_small h1 h2 (energy_low h hb)).2
  obtain ⟨δ, hδ, h5⟩ := clip_lower cfg.normConstraint hc h.rate hε
  obtain ⟨K, hK⟩ := eventually_atTop.mp (h4.eventually (gt_mem_nhds (mul_pos hβ hδ)))
  refine ⟨K, fun k hk damping hop => ?_⟩
  obtain ⟨s, w, h6, h7, -⟩ := (run_step h k).1 damping hop
  refine ⟨s, h6, h7, ?_⟩
  by_contra hn
  have h8 := hK k hk
  rw [h3 k damping s hop h6] at h8
  have := mul_le_mul_of_nonneg_left (h5 _ (not_lt.mp hn)) hβ.le
  linarith

/-- C111: if the estimates and the dampings stay bounded, the gradient at the training steps tends to zero. -/
theorem C111_stationary {b Λ : ℝ} (h : Run cfg start ops states lam L f) (hb : ∀ θ, low ≤ f θ) (hc : ∀ v ∈ cfg.normConstraint, 0 < v)
    (hmod : ∀ k, (ops k).Moderate b Λ) (hi : ∃ k damping, ops k = .inv damping) {ε : ℝ} (hε : 0 < ε) :
    ∃ K, ∀ k, K ≤ k → (∃ damping, ops k = .train f damping) → ∑ j, ∑ i, grad f (states k).params j i ^ 2 < ε := by
  obtain ⟨k0, d0, hk0⟩ := hi
  obtain ⟨c, hc0, hcw⟩ : ∃ c : ℝ, 0 < c ∧ ∀ j, (shapes j).worst b Λ ≤ c := by
    refine ⟨1 + ∑ j, |(shapes j).worst b Λ|, by positivity, fun j => ?_⟩
    have := Finset.single_le_sum (f := fun j => |(shapes j).worst b Λ|) (fun j _ => abs_nonneg _) (Finset.mem_univ j)
    have := le_abs_self ((shapes j).worst b Λ)
    linarith
  obtain ⟨K, hK⟩ := C111_vanishes h hb hc (div_pos hε hc0)
  refine ⟨max K (k0 + 1), fun k hk ⟨damping, hop⟩ => ?_⟩
  obtain ⟨s, ⟨u, h1, rfl⟩, h2, h3⟩ := hK k ((le_max_left _ _).trans hk) damping hop
  obtain ⟨w, h4⟩ := state_ok h.trajectory h.fresh h.proper h.power h.damped h.fits k
  obtain ⟨h5, h6⟩ := state_moderate h.trajectory h.fresh h.proper h.power h.damped h.fits hmod hcw k
  have hd := h.fits k
  have hmk := hmod k
  rw [hop] at hd hmk
  have h7 := (net_small fun j => tame (K := some c) h.power h.damped hd.2 _ (h.pure j) (h.proper j) (h4 j).1
    (h6 ⟨k0, d0, (Nat.lt_of_succ_le ((le_max_right _ _).trans hk)), hk0⟩ j)
    (fun k' hk' => by
      obtain rfl : c = k' := by simpa using hk'
      exact ⟨b, Λ, h5 j, hmk, hcw j⟩) (collect_inv h1 j)).2 c rfl
  rw [lt_div_iff₀ hc0] at h3
  have e : ∑ j, ∑ i, grad f (states k).params j i ^ 2 = inner (grad f (states k).params) (grad f (states k).params) := by
    simp only [inner, pow_two]
  rw [e]
  linarith

/-- C111: if training goes on for ever, the velocity tends to zero. -/
theorem C111_calms (h : Run cfg start ops states lam L f) (hb : ∀ θ, low ≤ f θ) (hinf : ∀ K, ∃ k, K ≤ k ∧ ∃ damping, ops k = .train f damping) :
    Tendsto (fun k => ∑ j, ∑ i, (states k).velocity j i ^ 2) atTop (𝓝 0) := by
  have e : (fun k => ∑ j, ∑ i, (states k).velocity j i ^ 2) = fun k => inner (states k).velocity (states k).velocity := by
    funext k
    simp only [inner, pow_two]
  rw [e]
  obtain ⟨a, h1, h2, h3⟩ := run_decrease h
  set m := cfg.momentum with hm
  have h1m : 0 < 1 - m := by linarith [h.momentum1]
  have hβ : 0 < cfg.learningRate / (1 - m) / 2 := div_pos (div_pos h.rate h1m) two_pos
  -- the energy pays for the velocity
  set C := 1 / (lam * (1 - m) * (cfg.learningRate / (1 - m) / 2)) with hC
  have hC0 : 0 < C := by rw [hC]; exact one_div_pos.mpr (mul_pos (mul_pos h.damped h1m) hβ)
  let V : ℕ → ℝ := fun k => inner (states k).velocity (states k).velocity
  have hV : ∀ k, 0 ≤ V k := fun k => inner_self_nonneg _
  have htrain : ∀ k damping, ops k = .train f damping → V (k + 1) ≤ m * V k + C * a k := by
    intro k damping hop
    obtain ⟨s, w, h4, h5, h6, -, h7, -⟩ := (run_step h k).1 damping hop
    have h8 := h3 k damping s hop h4
    have hvel : inner (m • (states k).velocity + w) (m • (states k).velocity + w) ≤ m * V k + inner w w / (1 - m) := velocity_bound h.momentum h.momentum1 _ _
    rw [← h6] at hvel
    have h9 : inner w w / (1 - m) ≤ C * a k := by
      rw [h8, hC, div_le_iff₀ h1m]
      have h10 : inner w w ≤ clipFactor cfg.normConstraint cfg.learningRate s * s / lam := by
        rw [le_div_iff₀ h.damped]
        linarith
      refine h10.trans (le_of_eq ?_)
      have := h.rate.ne'
      have := h.damped.ne'
      field_simp
    exact hvel.trans (by linarith)
  have hother : ∀ k, (∀ damping, ops k ≠ .train f damping) → V (k + 1) = V k := fun k hop => by
    simp only [V, ((run_step h k).2 hop).2]
  -- potential
  let Ψ : ℕ → ℝ := fun k => V k + C * energyAt cfg L f (states k)
  classical
  let d : ℕ → ℝ := fun k => if ∃ damping, ops k = .train f damping then (1 - m) * V k else 0
  have hd0 : ∀ k, 0 ≤ d k := fun k => by
    simp only [d]
    split_ifs
    · exact mul_nonneg h1m.le (hV k)
    · exact le_refl _
  have hd : ∀ k, Ψ (k + 1) ≤ Ψ k - d k := fun k => by
    have h4 := mul_le_mul_of_nonneg_left (h2 k) hC0.le
    simp only [Ψ, d]
    split_ifs with hop
    · obtain ⟨damping, hop⟩ := hop
      have := htrain k damping hop
      linarith
    · have := hother k fun damping h' => hop ⟨damping, h'⟩
      have := mul_nonneg hC0.le (h1 k)
      linarith
  have hlow : ∀ k, C * low ≤ Ψ k := fun k => by
    have := mul_le_mul_of_nonneg_left (energy_low h hb k) hC0.le
    have := hV k
    simp only [Ψ]
    linarith
  have h4 := (decrease_small hd0 hd hlow).2
  have h5 := (decrease_small h1 h2 (energy_low h hb)).2
  rw [Metric.tendsto_atTop]
  intro ε hε
  obtain ⟨K1, hK1⟩ := eventually_atTop.mp (h4.eventually (gt_mem_nhds (show 0 < (1 - m) * (ε / 2) by positivity)))
  obtain ⟨K2, hK2⟩ := eventually_atTop.mp (h5.eventually (gt_mem_nhds (show 0 < ε / 2 / C by positivity)))
  have hsmall : ∀ k, max K1 K2 ≤ k → ∀ damping, ops k = .train f damping → V (k + 1) < ε := by
    intro k hk damping hop
    have h6 := hK1 k ((le_max_left _ _).trans hk)
    have h7 := hK2 k ((le_max_right _ _).trans hk)
    simp only [d, if_pos (show ∃ damping, ops k = .train f damping from ⟨damping, hop⟩)] at h6
    have h8 : V k < ε / 2 := lt_of_mul_lt_mul_left h6 h1m.le
    have h9 : C * a k < ε / 2 := by
      rw [lt_div_iff₀ hC0] at h7
      linarith
    have h10 := htrain k damping hop
    have h11 : m * V k ≤ V k := mul_le_of_le_one_left (hV k) h.momentum1.le
    linarith
  obtain ⟨k1, hk1, d1, hop1⟩ := hinf (max K1 K2)
  refine ⟨k1 + 1, fun k hk => ?_⟩
  rw [Real.dist_eq, sub_zero, abs_of_nonneg (inner_self_nonneg _)]
  show V k < ε
  induction k, hk using Nat.le_induction with
  | base => exact hsmall k1 hk1 d1 hop1
  | succ k hk ih =>
    by_cases hop : ∃ damping, ops k = .train f damping
    · obtain ⟨damping, hop⟩ := hop
      exact hsmall k (by omega) damping hop
    · rw [hother k fun damping h' => hop ⟨damping, h'⟩]
      exact ih

/-- C111: and the loss converges. -/
theorem C111_settles (h : Run cfg start ops states lam L f) (hb : ∀ θ, low ≤ f θ) (hinf : ∀ K, ∃ k, K ≤ k ∧ ∃ damping, ops k = .train f damping) :
    ∃ ℓ, Tendsto (fun k => f (states k).params) atTop (𝓝 ℓ) := by
  have hanti : Antitone fun k => energyAt cfg L f (states k) := antitone_nat_of_succ_le (run_energy h)
  have hE := tendsto_atTop_ciInf hanti ⟨low, by rintro _ ⟨k, rfl⟩; exact energy_low h hb k⟩
  refine ⟨⨅ i, energyAt cfg L f (states i), ?_⟩
  have hcalm := C111_calms h hb hinf
  have e : (fun k => ∑ j, ∑ i, (states k).velocity j i ^ 2) = fun k => inner (states k).velocity (states k).velocity := by
    funext k
    simp only [inner, pow_two]
  rw [e] at hcalm
  set m := cfg.momentum with hm
  set β := cfg.learningRate / (1 - m) with hβ
  set D := (1 + m) * (f start.params - low) with hD
  have hmβ : 0 ≤ m * β := mul_nonneg h.momentum (div_nonneg h.rate.le (by linarith [h.momentum1]))
  -- the distance of the loss from the energy
  have key : ∀ k, |f (states k).params - energyAt cfg L f (states k)| ≤
      m * β * √(2 * L * D * inner (states k).velocity (states k).velocity) +
        (L / 2 * (m * β) ^ 2 + L * m * β ^ 2 / 2) * inner (states k).velocity (states k).velocity := by
    intro k
    obtain ⟨a, b, ha, hb0, he, hbe, hz⟩ := energy_parts hb h k
    have hfirst := energy_first h k
    rw [← hm, ← hβ] at hz hbe
    rw [he] at hfirst ⊢
    set v := (states k).velocity
    set V := inner v v
    have hV : 0 ≤ V := inner_self_nonneg v
    set θ := (states k).params
    set z := θ - (m * β) • v with hzdef
    have hθ := C111_bounded h hb k
    have haD : a ≤ D := by
      have : 0 ≤ m * (f start.params - low) := mul_nonneg h.momentum (by linarith)
      rw [hD]
      linarith
    have bound : ∀ x, f x - low ≤ D → |inner (grad f x) v| ≤ √(2 * L * D * V) := fun x hx => by
      apply Real.abs_le_sqrt
      refine (inner_sq_le _ _).trans (mul_le_mul_of_nonneg_right ?_ hV)
      exact (grad_bound h.smooth h.curved hb x).trans (mul_le_mul_of_nonneg_left hx (by linarith [h.curved]))
    have b1 := abs_le.mp (bound z (by rw [hz]; linarith))
    have b2 := abs_le.mp (bound θ hθ)
    have p1 := lipschitz_parabola h.smooth h.curved.le z ((m * β) • v)
    have p2 := lipschitz_parabola h.smooth h.curved.le θ ((-(m * β)) • v)
    have e1 : z + (m * β) • v = θ := by rw [hzdef]; abel
    have e2 : θ + (-(m * β)) • v = z := by rw [hzdef, neg_smul]; abel
    rw [e1, inner_smul, inner_smul, inner_smul_left, hz] at p1
    rw [e2, inner_smul, inner_smul, inner_smul_left, hz] at p2
    have q1 := mul_le_mul_of_nonneg_left b1.2 hmβ
    have q2 := mul_le_mul_of_nonneg_left b2.1 hmβ
    have hb1 : b = L * m * β ^ 2 / 2 * V := hbe
    rw [abs_le]
    constructor <;> nlinarith
  have hbnd : Tendsto (fun k => m * β * √(2 * L * D * inner (states k).velocity (states k).velocity) +
        (L / 2 * (m * β) ^ 2 + L * m * β ^ 2 / 2) * inner (states k).velocity (states k).velocity) atTop (𝓝 0) := by
    have h1 := ((Real.continuous_sqrt.tendsto _).comp (hcalm.const_mul (2 * L * D))).const_mul (m * β)
    have h2 := h1.add (hcalm.const_mul (L / 2 * (m * β) ^ 2 + L * m * β ^ 2 / 2))
    simpa using h2
  have hdiff := squeeze_zero_norm (f := fun k => f (states k).params - energyAt cfg L f (states k)) key hbnd
  have := hdiff.add hE
  simpa using this

end trajectory

theorem half_lipschitz : Lipschitz (shapes := shapes) 1 fun θ => inner θ θ / 2 :=
  ⟨half_differentiable, fun θ θ' => by rw [half_grad, half_grad, one_pow, one_mul]⟩

/-- The net of C110 with all kinds of blocks and momentum 1/2: the hypotheses of the theorems hold. -/
example : ∃ (shapes : Fin 4 → Shape) (cfg : Config) (start : Net shapes) (ops : ℕ → Op shapes) (states : ℕ → Net shapes) (f : Params shapes → ℝ),
    Run cfg start ops states 1 1 f ∧ cfg.momentum = 1 / 2 ∧ (∀ θ, 0 ≤ f θ) ∧ (∀ v ∈ cfg.normConstraint, 0 < v) ∧ 0 < f start.params ∧
    (∀ k, (ops k).Moderate 3 2) ∧ (∃ k damping, ops k = .inv damping) ∧ ∀ K, ∃ k, K ≤ k ∧ ∃ damping, ops k = .train f damping := by
  let shapes : Fin 4 → Shape := ![.kron (.conv 5) 2 3 true false false, .kron .fullyConnected 2 1 false true true, .full 3,
    .diagonal .naive 7]
  let f : Params shapes → ℝ := fun θ => inner θ θ / 2
  let cfg : Config := ⟨1 / 6, 1 / 2, some (1 / 100), .tracenorm, 1⟩
  let start : Net shapes := ⟨fun _ _ => 1, 0, fun j => (shapes j).fresh⟩
  let ops : ℕ → Op shapes := fun k => if k % 3 = 0 then .cov (fun j => (shapes j).unit 1 1) (95 / 100) else if k % 3 = 1 then .inv 2
    else .train f 1
  have hpr : ∀ j, (shapes j).Proper := by
    intro j
    fin_cases j
    · exact ⟨by decide, by norm_num [KronKind.renorm]⟩
    · exact ⟨by decide, by norm_num [KronKind.renorm]⟩
    · trivial
    · intro l h; cases h
  have hmix : ∀ j, ¬(shapes j).Mixed := by
    intro j
    fin_cases j <;> simp [shapes, Shape.Mixed]
  have ho : ∀ k, (ops k).Fits (1 : ℝ) f := by
    intro k
    simp only [ops]
    split_ifs
    · exact ⟨fun j => unit_psd zero_le_one zero_le_one _, by norm_num⟩
    · exact one_le_two
    · exact ⟨rfl, le_refl _⟩
  obtain ⟨states, hs⟩ := C110_succeeds (cfg := cfg) (start := start) (fun _ => rfl) hpr rfl one_pos ho
    (show ops 0 = .cov (fun j => (shapes j).unit 1 1) (95 / 100) from rfl)
  refine ⟨shapes, cfg, start, ops, states, f, ⟨hs, fun _ => rfl, rfl, hpr, hmix, rfl, one_pos, ho, half_lipschitz, one_pos, by norm_num [cfg],
    by norm_num [cfg], by norm_num [cfg], by norm_num [cfg]⟩, rfl, fun θ => div_nonneg (inner_self_nonneg _) zero_le_two, by simp [cfg], ?_, fun k => ?_,
    ⟨1, 2, rfl⟩, fun K => ⟨3 * K + 2, by omega, 1, ?_⟩⟩
  · refine div_pos ?_ two_pos
    refine Finset.sum_pos' (fun k _ => Finset.sum_nonneg fun i _ => mul_self_nonneg _) ⟨2, Finset.mem_univ _, ?_⟩
    show 0 < ∑ i : Fin 3, (1 : ℝ) * 1
    simp
  · simp only [ops]
    split_ifs
    · intro j
      fin_cases j
      · exact unit_below (by norm_num) (by norm_num)
      · exact unit_below (by norm_num) (by norm_num)
      · show Matrix.trace (_ • (1 : Matrix (Fin 3) (Fin 3) ℝ)) ≤ (3 : ℝ)
        simp [Matrix.trace]
      · intro i
        show (1 : ℝ) ≤ 3
        norm_num
    · exact le_refl (2 : ℝ)
    · exact one_le_two (α := ℝ)
  · simp only [ops]
    rw [if_neg (by omega), if_neg (by omega)]

end Kfac.Mix
