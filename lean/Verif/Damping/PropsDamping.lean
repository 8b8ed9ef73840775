import Verif.Damping.Model
import Verif.Block.Lemmas
import Mathlib.LinearAlgebra.Matrix.PosDef
import Mathlib.Analysis.Matrix.Spectrum
import Mathlib.Analysis.Matrix.PosDef
import Mathlib.Analysis.SpecialFunctions.Pow.Real
import Mathlib.Topology.Algebra.Order.Field
import Mathlib.Algebra.Order.Star.Real
import Mathlib.Tactic.FieldSimp
import Mathlib.Tactic.Positivity
import Mathlib.Tactic.Linarith
import Mathlib.Tactic.Ring

/-! # C103: what the damping does to the preconditioned gradient -/

namespace Kfac.Damping

open Kfac.Stats Kfac.Block Kfac.Params Matrix Filter Topology

variable {p q : ℕ}

/-! ### Specification -/

/-- The sum of the products of all entries of two tensors (or pairs of tensors) with `p * q` entries. -/
def inner (p q : ℕ) (v w : LayerParams ℝ) : ℝ := ∑ i, ∑ j, grid p q v i j * grid p q w i j

/-- The damping that is added to the block as a whole: the identity is added `total` times. -/
noncomputable def total (k : KronKind) (power damping : ℝ) : ℝ :=
  k.renorm * k.normalization.elim damping fun n => damping / n ^ power

/-! ### Diagonalisation -/

theorem psd_eig {n : ℕ} {A : Matrix (Fin n) (Fin n) ℝ} (hA : A.PosSemidef) : ∃ (V : Matrix (Fin n) (Fin n) ℝ) (a : Fin n → ℝ),
    Vᵀ * V = 1 ∧ V * Vᵀ = 1 ∧ A = V * diagonal a * Vᵀ ∧ (∀ i, 0 ≤ a i) ∧ (A.PosDef → ∀ i, 0 < a i) := by
  have h := hA.isHermitian
  have h1 : (h.eigenvectorUnitary : Matrix (Fin n) (Fin n) ℝ)ᵀ * (h.eigenvectorUnitary : Matrix (Fin n) (Fin n) ℝ) = 1 := by
    have := Unitary.coe_star_mul_self h.eigenvectorUnitary
    rwa [star_eq_conjTranspose, conjTranspose_eq_transpose_of_trivial] at this
  refine ⟨h.eigenvectorUnitary, h.eigenvalues, h1, mul_eq_one_comm.mp h1, ?_, hA.eigenvalues_nonneg, fun hp => hp.eigenvalues_pos⟩
  have := h.spectral_theorem
  rw [Unitary.conjStarAlgAut_apply, star_eq_conjTranspose, conjTranspose_eq_transpose_of_trivial] at this
  exact this

theorem inverse_eig {n : ℕ} {A V : Matrix (Fin n) (Fin n) ℝ} {a : Fin n → ℝ} (hV : Vᵀ * V = 1) (hV' : V * Vᵀ = 1)
    (hA : A = V * diagonal a * Vᵀ) {d : ℝ} (hd : ∀ i, a i + d ≠ 0) :
    (A + d • (1 : Matrix (Fin n) (Fin n) ℝ))⁻¹ = V * diagonal (fun i => (a i + d)⁻¹) * Vᵀ := by
  refine Matrix.inv_eq_right_inv ?_
  have h1 : A + d • (1 : Matrix (Fin n) (Fin n) ℝ) = V * diagonal (fun i => a i + d) * Vᵀ := by
    have : diagonal (fun i => a i + d) = diagonal a + d • (1 : Matrix (Fin n) (Fin n) ℝ) := by
      ext i j
      by_cases h : i = j <;> simp [h, diagonal_apply, one_apply]
    rw [this, mul_add, add_mul, ← hA]
    simp [hV']
  rw [h1]
  calc V * diagonal (fun i => a i + d) * Vᵀ * (V * diagonal (fun i => (a i + d)⁻¹) * Vᵀ)
      = V * diagonal (fun i => a i + d) * (Vᵀ * V) * diagonal (fun i => (a i + d)⁻¹) * Vᵀ := by simp only [Matrix.mul_assoc]
    _ = V * (diagonal (fun i => a i + d) * diagonal (fun i => (a i + d)⁻¹)) * Vᵀ := by rw [hV, mul_one]; simp only [Matrix.mul_assoc]
    _ = 1 := by
      rw [diagonal_mul_diagonal]
      have : (fun i => (a i + d) * (a i + d)⁻¹) = fun _ => (1 : ℝ) := by
        funext i; exact mul_inv_cancel₀ (hd i)
      rw [this, diagonal_one, mul_one, hV']

/-- The coordinates of a matrix in the two eigenbases. -/
noncomputable def coords (V : Matrix (Fin p) (Fin p) ℝ) (W : Matrix (Fin q) (Fin q) ℝ) (M : Matrix (Fin p) (Fin q) ℝ) :
    Matrix (Fin p) (Fin q) ℝ := Vᵀ * M * W

theorem solve_coords {A V : Matrix (Fin p) (Fin p) ℝ} {a : Fin p → ℝ} (hV : Vᵀ * V = 1) (hV' : V * Vᵀ = 1)
    (hA : A = V * diagonal a * Vᵀ) {G W : Matrix (Fin q) (Fin q) ℝ} {b : Fin q → ℝ} (hW : Wᵀ * W = 1) (hW' : W * Wᵀ = 1)
    (hG : G = W * diagonal b * Wᵀ) {d e : ℝ} (hd : ∀ i, a i + d ≠ 0) (he : ∀ j, b j + e ≠ 0) (M : Matrix (Fin p) (Fin q) ℝ) :
    (A + d • (1 : Matrix (Fin p) (Fin p) ℝ))⁻¹ * M * (G + e • (1 : Matrix (Fin q) (Fin q) ℝ))⁻¹ =
      V * (Matrix.of fun i j => coords V W M i j * ((a i + d)⁻¹ * (b j + e)⁻¹)) * Wᵀ := by
  rw [inverse_eig hV hV' hA hd, inverse_eig hW hW' hG he]
  have : (Matrix.of fun i j => coords V W M i j * ((a i + d)⁻¹ * (b j + e)⁻¹)) =
      diagonal (fun i => (a i + d)⁻¹) * coords V W M * diagonal (fun j => (b j + e)⁻¹) := by
    ext i j
    rw [mul_diagonal, diagonal_mul, of_apply]
    ring
  rw [this, coords]
  simp only [Matrix.mul_assoc]

/-- Inner products in the two eigenbases. -/
theorem inner_coords {V : Matrix (Fin p) (Fin p) ℝ} (hV : Vᵀ * V = 1) {W : Matrix (Fin q) (Fin q) ℝ} (hW : Wᵀ * W = 1)
    (X Y : Matrix (Fin p) (Fin q) ℝ) : ∑ i, ∑ j, (V * X * Wᵀ) i j * (V * Y * Wᵀ) i j = ∑ i, ∑ j, X i j * Y i j := by
  have key : ∀ X Y : Matrix (Fin p) (Fin q) ℝ, ∑ i, ∑ j, X i j * Y i j = (Xᵀ * Y).trace := by
    intro X Y
    simp only [trace, diag_apply, mul_apply, transpose_apply]
    exact Finset.sum_comm
  rw [key, key]
  have : (V * X * Wᵀ)ᵀ * (V * Y * Wᵀ) = W * (Xᵀ * (Vᵀ * V) * Y) * Wᵀ := by
    simp only [transpose_mul, transpose_transpose, Matrix.mul_assoc]
  rw [this, hV, Matrix.mul_one, trace_mul_comm, ← Matrix.mul_assoc, hW, Matrix.one_mul]

theorem coords_back {V : Matrix (Fin p) (Fin p) ℝ} (hV' : V * Vᵀ = 1) {W : Matrix (Fin q) (Fin q) ℝ} (hW' : W * Wᵀ = 1)
    (M : Matrix (Fin p) (Fin q) ℝ) : V * coords V W M * Wᵀ = M := by
  calc V * (Vᵀ * M * W) * Wᵀ = (V * Vᵀ) * M * (W * Wᵀ) := by simp only [Matrix.mul_assoc]
    _ = M := by rw [hV', hW', Matrix.one_mul, Matrix.mul_one]

/-! ### The damping of the factors -/

/-- The factors' dampings are proportional to the square root of the damping. -/
theorem setup_sqrt (k : KronKind) (hk : 0 < k.renorm) (rule : PiRule) (power lt rt : ℝ) (ld rd : ℕ) (h1 : 0 ≤ lt) (h2 : 0 ≤ rt) :
    ∃ π : ℝ, 0 < π ∧ ∀ damping, 0 ≤ damping → setupDamping rule power lt ld rt rd damping k.normalization =
      .ok (Real.sqrt (total k power damping / k.renorm) * π, Real.sqrt (total k power damping / k.renorm) / π) := by
  have hnorm : ∀ damping, 0 ≤ damping → (match k.normalization with
      | some n => normalizeDamping power damping n
      | none => damping) = total k power damping / k.renorm := by
    intro damping hd
    cases k <;> simp only [KronKind.normalization, KronKind.renorm, total, Option.elim] at hk ⊢ <;>
      simp [normalizeDamping, mul_div_cancel_left₀ _ hk.ne'] <;> (intro h; simp [h])
  have hsq : ∀ damping, 0 ≤ damping → setupDamping rule power lt ld rt rd damping k.normalization =
      piAdjustedDamping rule lt ld rt rd (Real.sqrt (total k power damping / k.renorm)) := by
    intro damping hd
    rw [Real.sqrt_eq_rpow, ← hnorm damping hd]
    rfl
  cases rule with
  | off => exact ⟨1, one_pos, fun damping hd => by rw [hsq damping hd]; simp [piAdjustedDamping]⟩
  | tracenorm =>
    obtain ⟨π, hπ, h3⟩ : ∃ π, piTracenorm lt ld rt rd = .ok π ∧ 0 < π := by
      simp only [piTracenorm]
      split_ifs with h3 h4
      · exact ⟨1, rfl, one_pos⟩
      · refine ⟨_, rfl, Real.sqrt_pos.mpr (div_pos ?_ h4)⟩
        exact lt_of_le_of_ne (by positivity) (fun h => h3 (by rw [← h, zero_mul]))
      · exact absurd (lt_of_le_of_ne (by positivity) (fun h => h3 (by rw [← h, mul_zero]))) h4
    refine ⟨π, h3, fun damping hd => ?_⟩
    rw [hsq damping hd, piAdjustedDamping, hπ]
    rfl

/-- The preconditioned gradient in closed form. -/
theorem direction_eq (k : KronKind) (hk : 0 < k.renorm) (rule : PiRule) (power : ℝ) {left : DenseStat p} {right : DenseStat q}
    {A : Matrix (Fin p) (Fin p) ℝ} {G : Matrix (Fin q) (Fin q) ℝ} (hl : left.avg.value true = some A)
    (hr : right.avg.value true = some G) (hA : A.PosSemidef) (hG : G.PosSemidef) {vec : LayerParams ℝ} (hv : Fits p q vec) :
    ∃ π : ℝ, 0 < π ∧ ∀ damping, 0 ≤ damping → ∃ out, direction k rule power left right damping vec = .ok out ∧ SameShape out vec ∧
      grid p q out = k.renorm⁻¹ • ((A + (Real.sqrt (total k power damping / k.renorm) * π) • (1 : Matrix (Fin p) (Fin p) ℝ))⁻¹ *
        grid p q vec * (G + (Real.sqrt (total k power damping / k.renorm) / π) • (1 : Matrix (Fin q) (Fin q) ℝ))⁻¹) := by
  obtain ⟨π, h1, h2⟩ := setup_sqrt k hk rule power A.trace G.trace p q hA.trace_nonneg hG.trace_nonneg
  refine ⟨π, h1, fun damping hd => ?_⟩
  obtain ⟨out, h3, h4, -, h5⟩ := multiplyFactored_spec
    (L := .full (ofMat (left.step (.inv (Real.sqrt (total k power damping / k.renorm) * π))).inverse))
    (R := .full (ofMat (right.step (.inv (Real.sqrt (total k power damping / k.renorm) / π))).inverse)) rfl rfl hv
    (k.renorm ^ (-1 : ℝ)) false false
  refine ⟨out, ?_, h4, ?_⟩
  · simp only [direction, hl, hr, h2 damping hd, Except.bind]
    exact h3
  · rw [h5, Real.rpow_neg_one]
    simp [tr?, DenseStat.step, hl, hr]

theorem total_pos (k : KronKind) (hk : 0 < k.renorm) (power : ℝ) : ∃ c : ℝ, 0 < c ∧ ∀ damping, total k power damping = c * damping := by
  cases k with
  | fullyConnected => exact ⟨1, one_pos, fun d => by simp [total, KronKind.renorm, KronKind.normalization]⟩
  | conv l =>
    simp only [KronKind.renorm] at hk
    exact ⟨l / (l : ℝ) ^ power, div_pos hk (Real.rpow_pos_of_pos hk _), fun d => by
      simp only [total, KronKind.renorm, KronKind.normalization, Option.elim]; ring⟩
  | fullyConnectedMulti u =>
    simp only [KronKind.renorm] at hk
    exact ⟨u / (u : ℝ) ^ power, div_pos hk (Real.rpow_pos_of_pos hk _), fun d => by
      simp only [total, KronKind.renorm, KronKind.normalization, Option.elim]; ring⟩
  | convMulti l u =>
    simp only [KronKind.renorm] at hk
    exact ⟨l * u / ((l : ℝ) * u) ^ power, div_pos hk (Real.rpow_pos_of_pos hk _), fun d => by
      simp only [total, KronKind.renorm, KronKind.normalization, Option.elim]; ring⟩

/-! ### Theorems -/

/-- C103: with the default `NORMALIZE_DAMPING_POWER = 1.0` the damping added to the block is the damping that was asked for,
whatever the number of locations or uses. -/
theorem C103_total (k : KronKind) (hk : 0 < k.renorm) (damping : ℝ) : total k 1 damping = damping := by
  cases k <;> simp only [KronKind.renorm] at hk <;>
    simp only [total, KronKind.renorm, KronKind.normalization, Option.elim, Real.rpow_one, one_mul] <;>
    exact mul_div_cancel₀ _ hk.ne'

/-- C103: raising the damping shortens the preconditioned gradient and its inner product with the gradient, and the preconditioned
gradient is never longer than the gradient divided by the damping. -/
theorem C103_shorter (k : KronKind) (hk : 0 < k.renorm) (rule : PiRule) (power : ℝ) (left : DenseStat p) (right : DenseStat q)
    {A : Matrix (Fin p) (Fin p) ℝ} {G : Matrix (Fin q) (Fin q) ℝ} (hl : left.avg.value true = some A)
    (hr : right.avg.value true = some G) (hA : A.PosSemidef) (hG : G.PosSemidef) {vec : LayerParams ℝ} (hv : Fits p q vec)
    {damping more : ℝ} (h0 : 0 < damping) (hle : damping ≤ more) :
    ∃ u u', direction k rule power left right damping vec = .ok u ∧ direction k rule power left right more vec = .ok u' ∧
      inner p q u' u' ≤ inner p q u u ∧ inner p q vec u' ≤ inner p q vec u ∧ 0 ≤ inner p q vec u' ∧
      total k power damping ^ 2 * inner p q u u ≤ inner p q vec vec ∧
      total k power damping * inner p q vec u ≤ inner p q vec vec := by
  obtain ⟨π, hπ, hdir⟩ := direction_eq k hk rule power hl hr hA hG hv
  obtain ⟨V, a, hV, hV', hAe, ha, -⟩ := psd_eig hA
  obtain ⟨W, b, hW, hW', hGe, hb, -⟩ := psd_eig hG
  obtain ⟨c, hc, htot⟩ := total_pos k hk power
  obtain ⟨u, e1, -, e2⟩ := hdir damping h0.le
  obtain ⟨u', f1, -, f2⟩ := hdir more (h0.le.trans hle)
  refine ⟨u, u', e1, f1, ?_⟩
  have hs : ∀ d, 0 < d → 0 < Real.sqrt (total k power d / k.renorm) := fun d hd =>
    Real.sqrt_pos.mpr (div_pos (by rw [htot]; positivity) hk)
  set s := Real.sqrt (total k power damping / k.renorm) with hsd
  set s' := Real.sqrt (total k power more / k.renorm) with hsd'
  have p1 : 0 < s := hs _ h0
  have p2 : 0 < s' := hs _ (h0.trans_le hle)
  have hss : s ≤ s' := Real.sqrt_le_sqrt (div_le_div_of_nonneg_right (by rw [htot, htot]; exact mul_le_mul_of_nonneg_left hle hc.le) hk.le)
  have hsq : total k power damping = k.renorm * (s * s) := by
    rw [hsd, Real.mul_self_sqrt (div_nonneg (by rw [htot]; positivity) hk.le)]
    field_simp
  -- coordinates
  let r : ℝ → Fin p → Fin q → ℝ := fun s i j => (a i + s * π)⁻¹ * (b j + s / π)⁻¹
  have hr0 : ∀ {s}, 0 < s → ∀ i j, 0 < r s i j := fun {s} hs i j => by
    have := ha i; have := hb j
    have h1 : 0 < a i + s * π := by positivity
    have h2 : 0 < b j + s / π := by positivity
    exact mul_pos (inv_pos.mpr h1) (inv_pos.mpr h2)
  have hrle : ∀ i j, r s' i j ≤ r s i j := fun i j => by
    have := ha i; have := hb j
    have h1 : 0 < a i + s * π := by positivity
    have h2 : 0 < b j + s / π := by positivity
    refine mul_le_mul (inv_anti₀ h1 ?_) (inv_anti₀ h2 ?_) (inv_nonneg.mpr (by positivity)) (inv_nonneg.mpr h1.le)
    · have := mul_le_mul_of_nonneg_right hss hπ.le; linarith
    · have := div_le_div_of_nonneg_right hss hπ.le; linarith
  have hrs : ∀ i j, s * s * r s i j ≤ 1 := fun i j => by
    have h3 := ha i; have h4 := hb j
    have h1 : 0 < a i + s * π := by positivity
    have h2 : 0 < b j + s / π := by positivity
    have : s * s * r s i j = (s * s) / ((a i + s * π) * (b j + s / π)) := by
      simp only [r]; field_simp
    rw [this, div_le_one (mul_pos h1 h2)]
    have h5 : s * π * (s / π) = s * s := by field_simp
    have h6 : 0 ≤ a i * b j := mul_nonneg h3 h4
    have h7 : 0 ≤ a i * (s / π) := by positivity
    have h8 : 0 ≤ s * π * b j := by positivity
    nlinarith
  set M := grid p q vec with hM
  have form : ∀ {s : ℝ}, 0 < s → (A + (s * π) • (1 : Matrix (Fin p) (Fin p) ℝ))⁻¹ * M *
      (G + (s / π) • (1 : Matrix (Fin q) (Fin q) ℝ))⁻¹ = V * (Matrix.of fun i j => coords V W M i j * r s i j) * Wᵀ := fun {s} hs =>
    solve_coords hV hV' hAe hW hW' hGe (fun i => by have := ha i; positivity) (fun j => by have := hb j; positivity) M
  have hnn : ∀ {t : ℝ}, 0 < t → ∀ {v : LayerParams ℝ}, grid p q v = k.renorm⁻¹ • ((A + (t * π) • (1 : Matrix (Fin p) (Fin p) ℝ))⁻¹ * M *
      (G + (t / π) • (1 : Matrix (Fin q) (Fin q) ℝ))⁻¹) →
      inner p q v v = k.renorm⁻¹ ^ 2 * ∑ i, ∑ j, coords V W M i j ^ 2 * r t i j ^ 2 ∧
      inner p q vec v = k.renorm⁻¹ * ∑ i, ∑ j, coords V W M i j ^ 2 * r t i j := by
    intro t ht v hv
    rw [form ht] at hv
    constructor
    · rw [inner, hv]
      simp only [Matrix.smul_apply, smul_eq_mul]
      have := inner_coords hV hW (Matrix.of fun i j => coords V W M i j * r t i j) (Matrix.of fun i j => coords V W M i j * r t i j)
      simp only [of_apply] at this
      rw [show ∑ i, ∑ j, coords V W M i j ^ 2 * r t i j ^ 2 = ∑ i, ∑ j, coords V W M i j * r t i j * (coords V W M i j * r t i j) from
        Finset.sum_congr rfl fun i _ => Finset.sum_congr rfl fun j _ => by ring, ← this, Finset.mul_sum]
      refine Finset.sum_congr rfl fun i _ => ?_
      rw [Finset.mul_sum]
      exact Finset.sum_congr rfl fun j _ => by ring
    · rw [inner, hv, ← hM]
      simp only [Matrix.smul_apply, smul_eq_mul]
      have := inner_coords hV hW (coords V W M) (Matrix.of fun i j => coords V W M i j * r t i j)
      rw [coords_back hV' hW'] at this
      simp only [of_apply] at this
      rw [show ∑ i, ∑ j, coords V W M i j ^ 2 * r t i j = ∑ i, ∑ j, coords V W M i j * (coords V W M i j * r t i j) from
        Finset.sum_congr rfl fun i _ => Finset.sum_congr rfl fun j _ => by ring, ← this, Finset.mul_sum]
      refine Finset.sum_congr rfl fun i _ => ?_
      rw [Finset.mul_sum]
      exact Finset.sum_congr rfl fun j _ => by ring
  have hvv : inner p q vec vec = ∑ i, ∑ j, coords V W M i j ^ 2 := by
    rw [inner, ← hM]
    have := inner_coords hV hW (coords V W M) (coords V W M)
    rw [coords_back hV' hW'] at this
    rw [this]
    exact Finset.sum_congr rfl fun i _ => Finset.sum_congr rfl fun j _ => by ring
  obtain ⟨g1, g2⟩ := hnn p1 e2
  obtain ⟨g3, g4⟩ := hnn p2 f2
  have hrk : 0 ≤ k.renorm⁻¹ := inv_nonneg.mpr hk.le
  refine ⟨?_, ?_, ?_, ?_, ?_⟩
  · rw [g1, g3]
    refine mul_le_mul_of_nonneg_left (Finset.sum_le_sum fun i _ => Finset.sum_le_sum fun j _ => ?_) (by positivity)
    exact mul_le_mul_of_nonneg_left (pow_le_pow_left₀ (hr0 p2 i j).le (hrle i j) 2) (sq_nonneg _)
  · rw [g2, g4]
    refine mul_le_mul_of_nonneg_left (Finset.sum_le_sum fun i _ => Finset.sum_le_sum fun j _ => ?_) hrk
    exact mul_le_mul_of_nonneg_left (hrle i j) (sq_nonneg _)
  · rw [g4]
    exact mul_nonneg hrk (Finset.sum_nonneg fun i _ => Finset.sum_nonneg fun j _ => mul_nonneg (sq_nonneg _) (hr0 p2 i j).le)
  · rw [g1, hvv, hsq]
    have : (k.renorm * (s * s)) ^ 2 * (k.renorm⁻¹ ^ 2 * ∑ i, ∑ j, coords V W M i j ^ 2 * r s i j ^ 2) =
        ∑ i, ∑ j, coords V W M i j ^ 2 * (s * s * r s i j) ^ 2 := by
      rw [← mul_assoc, show (k.renorm * (s * s)) ^ 2 * k.renorm⁻¹ ^ 2 = (s * s) ^ 2 by field_simp, Finset.mul_sum]
      refine Finset.sum_congr rfl fun i _ => ?_
      rw [Finset.mul_sum]
      exact Finset.sum_congr rfl fun j _ => by ring
    rw [this]
    refine Finset.sum_le_sum fun i _ => Finset.sum_le_sum fun j _ => ?_
    refine mul_le_of_le_one_right (sq_nonneg _) ?_
    exact pow_le_one₀ (mul_nonneg (by positivity) (hr0 p1 i j).le) (hrs i j)
  · rw [g2, hvv, hsq]
    have : k.renorm * (s * s) * (k.renorm⁻¹ * ∑ i, ∑ j, coords V W M i j ^ 2 * r s i j) =
        ∑ i, ∑ j, coords V W M i j ^ 2 * (s * s * r s i j) := by
      rw [← mul_assoc, show k.renorm * (s * s) * k.renorm⁻¹ = s * s by field_simp, Finset.mul_sum]
      refine Finset.sum_congr rfl fun i _ => ?_
      rw [Finset.mul_sum]
      exact Finset.sum_congr rfl fun j _ => by ring
    rw [this]
    exact Finset.sum_le_sum fun i _ => Finset.sum_le_sum fun j _ => mul_le_of_le_one_right (sq_nonneg _) (hrs i j)

/-- The entries of a matrix given by coordinates depend continuously on them. -/
theorem tendsto_coords {α : Type} {f : Filter α} (V : Matrix (Fin p) (Fin p) ℝ) (W : Matrix (Fin q) (Fin q) ℝ)
    (H : Matrix (Fin p) (Fin q) ℝ) {r : α → Fin p → Fin q → ℝ} {t : Fin p → Fin q → ℝ}
    (h : ∀ i j, Tendsto (fun x => r x i j) f (𝓝 (t i j))) (i : Fin p) (j : Fin q) :
    Tendsto (fun x => (V * (Matrix.of fun i j => H i j * r x i j) * Wᵀ) i j) f (𝓝 ((V * (Matrix.of fun i j => H i j * t i j) * Wᵀ) i j)) := by
  simp only [mul_apply, of_apply]
  refine tendsto_finsetSum _ fun l _ => Tendsto.mul_const _ ?_
  exact tendsto_finsetSum _ fun m _ => ((h m l).const_mul _).const_mul _

/-- C103: with growing damping the preconditioned gradient, times the damping, tends to the gradient: K-FAC becomes gradient descent
with the learning rate divided by the damping. -/
theorem C103_gradient (k : KronKind) (hk : 0 < k.renorm) (rule : PiRule) (power : ℝ) (left : DenseStat p) (right : DenseStat q)
    {A : Matrix (Fin p) (Fin p) ℝ} {G : Matrix (Fin q) (Fin q) ℝ} (hl : left.avg.value true = some A)
    (hr : right.avg.value true = some G) (hA : A.PosSemidef) (hG : G.PosSemidef) {vec : LayerParams ℝ} (hv : Fits p q vec) :
    ∃ u : ℝ → LayerParams ℝ, (∀ d, 0 ≤ d → direction k rule power left right d vec = .ok (u d) ∧ SameShape (u d) vec) ∧
      ∀ i j, Tendsto (fun d => total k power d * grid p q (u d) i j) atTop (𝓝 (grid p q vec i j)) := by
  obtain ⟨π, hπ, hdir⟩ := direction_eq k hk rule power hl hr hA hG hv
  obtain ⟨V, a, hV, hV', hAe, ha, -⟩ := psd_eig hA
  obtain ⟨W, b, hW, hW', hGe, hb, -⟩ := psd_eig hG
  obtain ⟨c, hc, htot⟩ := total_pos k hk power
  have : Nonempty (LayerParams ℝ) := ⟨vec⟩
  choose! u e1 e2 e3 using hdir
  refine ⟨u, fun d hd => ⟨e1 d hd, e2 d hd⟩, fun i j => ?_⟩
  set S : ℝ → ℝ := fun d => Real.sqrt (total k power d / k.renorm) with hS
  have hSpos : ∀ d, 0 < d → 0 < S d := fun d hd => Real.sqrt_pos.mpr (div_pos (by rw [htot]; positivity) hk)
  have hSlim : Tendsto S atTop atTop := by
    refine Real.tendsto_sqrt_atTop.comp ?_
    have : (fun d => total k power d / k.renorm) = fun d => (c / k.renorm) * d := by
      funext d; rw [htot]; ring
    rw [this]
    exact tendsto_id.const_mul_atTop (div_pos hc hk)
  set M := grid p q vec
  let r : ℝ → Fin p → Fin q → ℝ := fun s i j => (1 + a i / π * s⁻¹)⁻¹ * (1 + b j * π * s⁻¹)⁻¹
  have hform : ∀ d, 0 < d → total k power d * grid p q (u d) i j =
      (V * (Matrix.of fun i j => coords V W M i j * r (S d) i j) * Wᵀ) i j := by
    intro d hd
    have hs := hSpos d hd
    have hsq : total k power d = k.renorm * (S d * S d) := by
      rw [hS]
      simp only
      rw [Real.mul_self_sqrt (div_nonneg (by rw [htot]; positivity) hk.le)]
      field_simp
    have e4 : grid p q (u d) = k.renorm⁻¹ • ((A + (S d * π) • (1 : Matrix (Fin p) (Fin p) ℝ))⁻¹ * M *
        (G + (S d / π) • (1 : Matrix (Fin q) (Fin q) ℝ))⁻¹) := e3 d hd.le
    rw [e4, solve_coords hV hV' hAe hW hW' hGe (fun i => by have := ha i; positivity) (fun j => by have := hb j; positivity) M]
    rw [Matrix.smul_apply, smul_eq_mul, ← mul_assoc, hsq, show k.renorm * (S d * S d) * k.renorm⁻¹ = S d * S d by field_simp]
    have : (Matrix.of fun i j => coords V W M i j * r (S d) i j) = (S d * S d) • (Matrix.of fun i j => coords V W M i j *
        ((a i + S d * π)⁻¹ * (b j + S d / π)⁻¹)) := by
      ext i j
      simp only [of_apply, Matrix.smul_apply, smul_eq_mul, r]
      have h1 : 0 < a i + S d * π := by have := ha i; positivity
      have h2 : 0 < b j + S d / π := by have := hb j; positivity
      have h3 : 0 < 1 + a i / π * (S d)⁻¹ := by have := ha i; positivity
      have h4 : 0 < 1 + b j * π * (S d)⁻¹ := by have := hb j; positivity
      have h5 : a i + S d * π = S d * π * (1 + a i / π * (S d)⁻¹) := by field_simp; ring
      have h6 : b j + S d / π = S d / π * (1 + b j * π * (S d)⁻¹) := by field_simp; ring
      rw [h5, h6]
      field_simp
    rw [this, Matrix.mul_smul, Matrix.smul_mul, Matrix.smul_apply, smul_eq_mul]
  refine Tendsto.congr' (f₁ := fun d => (V * (Matrix.of fun i j => coords V W M i j * r (S d) i j) * Wᵀ) i j) ?_ ?_
  · filter_upwards [eventually_gt_atTop 0] with d hd
    exact (hform d hd).symm
  · have hlim : ∀ i j, Tendsto (fun d => r (S d) i j) atTop (𝓝 ((fun _ _ => 1 : Fin p → Fin q → ℝ) i j)) := by
      intro i j
      have h0 : Tendsto (fun d => (S d)⁻¹) atTop (𝓝 0) := tendsto_inv_atTop_zero.comp hSlim
      have h1 : Tendsto (fun d => (1 + a i / π * (S d)⁻¹)⁻¹) atTop (𝓝 1) := by
        have := ((h0.const_mul (a i / π)).const_add 1).inv₀ (by simp)
        simpa using this
      have h2 : Tendsto (fun d => (1 + b j * π * (S d)⁻¹)⁻¹) atTop (𝓝 1) := by
        have := ((h0.const_mul (b j * π)).const_add 1).inv₀ (by simp)
        simpa using this
      simpa using h1.mul h2
    have := tendsto_coords V W (coords V W M) hlim i j
    have hone : (Matrix.of fun i j => coords V W M i j * (fun _ _ => 1 : Fin p → Fin q → ℝ) i j) = coords V W M := by
      ext i j; simp
    rwa [hone, coords_back hV' hW'] at this

/-- C103: with vanishing damping the preconditioned gradient tends to the solution of the undamped system (the natural gradient of
the block), if the statistics are positive definite. -/
theorem C103_natural (k : KronKind) (hk : 0 < k.renorm) (rule : PiRule) (power : ℝ) (left : DenseStat p) (right : DenseStat q)
    {A : Matrix (Fin p) (Fin p) ℝ} {G : Matrix (Fin q) (Fin q) ℝ} (hl : left.avg.value true = some A)
    (hr : right.avg.value true = some G) (hA : A.PosDef) (hG : G.PosDef) {vec : LayerParams ℝ} (hv : Fits p q vec) :
    ∃ (u : ℝ → LayerParams ℝ) (x : Matrix (Fin p) (Fin q) ℝ),
      (∀ d, 0 ≤ d → direction k rule power left right d vec = .ok (u d) ∧ SameShape (u d) vec) ∧
      k.renorm • (A * x * G) = grid p q vec ∧
      ∀ i j, Tendsto (fun d => grid p q (u d) i j) (𝓝[>] 0) (𝓝 (x i j)) := by
  obtain ⟨π, hπ, hdir⟩ := direction_eq k hk rule power hl hr hA.posSemidef hG.posSemidef hv
  obtain ⟨V, a, hV, hV', hAe, -, ha'⟩ := psd_eig hA.posSemidef
  obtain ⟨W, b, hW, hW', hGe, -, hb'⟩ := psd_eig hG.posSemidef
  have ha := ha' hA
  have hb := hb' hG
  obtain ⟨c, hc, htot⟩ := total_pos k hk power
  have : Nonempty (LayerParams ℝ) := ⟨vec⟩
  choose! u e1 e2 e3 using hdir
  set M := grid p q vec
  refine ⟨u, k.renorm⁻¹ • (A⁻¹ * M * G⁻¹), fun d hd => ⟨e1 d hd, e2 d hd⟩, ?_, fun i j => ?_⟩
  · have hA' : IsUnit A.det := (Matrix.isUnit_iff_isUnit_det _).mp hA.isUnit
    have hG' : IsUnit G.det := (Matrix.isUnit_iff_isUnit_det _).mp hG.isUnit
    rw [Matrix.mul_smul, Matrix.smul_mul, smul_smul, mul_inv_cancel₀ hk.ne', one_smul]
    calc A * (A⁻¹ * M * G⁻¹) * G = (A * A⁻¹) * M * (G⁻¹ * G) := by simp only [Matrix.mul_assoc]
      _ = M := by rw [Matrix.mul_nonsing_inv _ hA', Matrix.nonsing_inv_mul _ hG', Matrix.one_mul, Matrix.mul_one]
  · set S : ℝ → ℝ := fun d => Real.sqrt (total k power d / k.renorm) with hS
    have hSlim : Tendsto S (𝓝[>] 0) (𝓝 0) := by
      have h1 : Continuous S := by
        rw [hS]
        refine Real.continuous_sqrt.comp ?_
        have : (fun d => total k power d / k.renorm) = fun d => (c / k.renorm) * d := by
          funext d; rw [htot]; ring
        rw [this]
        exact continuous_const.mul continuous_id
      have h2 : S 0 = 0 := by simp [hS, htot]
      have := h1.tendsto 0
      rw [h2] at this
      exact this.mono_left nhdsWithin_le_nhds
    let r : ℝ → Fin p → Fin q → ℝ := fun s i j => (a i + s * π)⁻¹ * (b j + s / π)⁻¹
    have hform : ∀ d, 0 ≤ d → grid p q (u d) i j = k.renorm⁻¹ * (V * (Matrix.of fun i j => coords V W M i j * r (S d) i j) * Wᵀ) i j := by
      intro d hd
      have hs : 0 ≤ S d := Real.sqrt_nonneg _
      rw [e3 d hd, solve_coords hV hV' hAe hW hW' hGe (fun i => by have := ha i; positivity) (fun j => by have := hb j; positivity) M,
        Matrix.smul_apply, smul_eq_mul]
    have hzero : (A⁻¹ * M * G⁻¹) = V * (Matrix.of fun i j => coords V W M i j * r 0 i j) * Wᵀ := by
      have := solve_coords hV hV' hAe hW hW' hGe (d := 0) (e := 0) (fun i => by simpa using (ha i).ne') (fun j => by simpa using (hb j).ne') M
      rw [zero_smul, zero_smul, add_zero, add_zero] at this
      rw [this]
      congr 3
      ext i j
      simp [r]
    refine Tendsto.congr' (f₁ := fun d => k.renorm⁻¹ * (V * (Matrix.of fun i j => coords V W M i j * r (S d) i j) * Wᵀ) i j) ?_ ?_
    · filter_upwards [self_mem_nhdsWithin] with d hd
      exact (hform d (le_of_lt hd)).symm
    · rw [Matrix.smul_apply, smul_eq_mul, hzero]
      refine Tendsto.const_mul _ (tendsto_coords V W (coords V W M) (t := r 0) (fun i j => ?_) i j)
      have h1 : Tendsto (fun d => (a i + S d * π)⁻¹) (𝓝[>] 0) (𝓝 (a i + 0 * π)⁻¹) :=
        ((hSlim.mul_const π).const_add (a i)).inv₀ (by simpa using (ha i).ne')
      have h2 : Tendsto (fun d => (b j + S d / π)⁻¹) (𝓝[>] 0) (𝓝 (b j + 0 / π)⁻¹) :=
        ((hSlim.div_const π).const_add (b j)).inv₀ (by simpa using (hb j).ne')
      exact h1.mul h2

/-- A fully connected layer with two inputs, three outputs and a bias, whose statistics are the identity; the hypotheses of the three
theorems hold. -/
example : ∃ (left : DenseStat 3) (right : DenseStat 3) (A G : Matrix (Fin 3) (Fin 3) ℝ) (vec : LayerParams ℝ),
    left.avg.value true = some A ∧ right.avg.value true = some G ∧ A.PosDef ∧ G.PosDef ∧ Fits 3 3 vec ∧
    0 < KronKind.fullyConnected.renorm ∧ inner 3 3 vec vec ≠ 0 :=
  ⟨⟨⟨1, 1⟩, 0⟩, ⟨⟨1, 1⟩, 0⟩, 1, 1, .weightBias ⟨[2, 3], [1, 2, 3, 4, 5, 6]⟩ ⟨[3], [7, 8, 9]⟩, by simp [MovAvg.value],
    by simp [MovAvg.value], PosDef.one, PosDef.one, by simp [Fits, Kfac.Tensor.WF], by simp [KronKind.renorm], by
      simp [inner, grid, flat, Fin.sum_univ_succ]
      norm_num⟩

end Kfac.Damping
