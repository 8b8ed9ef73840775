import Verif.Stats.Warm
import Mathlib.Probability.StrongLaw
import Mathlib.Probability.Moments.Variance
import Mathlib.Topology.Instances.Matrix
import Mathlib.Probability.HasLawExists
import Mathlib.Algebra.Order.Field.GeomSum

/-! # C116: what the statistics estimate (fisher_factors.py 219-240, 585-601; utils.py 1296-1320) -/

namespace Kfac.Stats

open MeasureTheory ProbabilityTheory Filter Topology

variable {Ω : Type*} [MeasurableSpace Ω]

/-! ### Specification -/

/-- Mini-batches of `N` rows of length `n`, drawn independently from the same distribution, with `M` the second moments of a row.
The rows of one batch may depend on each other, as when they are drawn without replacement. -/
structure Stream (P : Measure Ω) {N n : ℕ} (x : ℕ → Ω → Fin N → Fin n → ℝ) (M : Matrix (Fin n) (Fin n) ℝ) : Prop where
  independent : Pairwise fun s t => IndepFun (x s) (x t) P
  same : ∀ t, IdentDistrib (x t) (x 0) P P
  square : ∀ k i, MemLp (fun ω => x 0 ω k i) 2 P
  moment : ∀ k i j, ∫ ω, x 0 ω k i * x 0 ω k j ∂P = M i j

/-- The operations of `T` covariance updates, update `t` with batch `t` and the decay `d t`. -/
def updates {N n : ℕ} (x : ℕ → Fin N → Fin n → ℝ) (d : ℕ → ℝ) (T : ℕ) : List (StatOp n) :=
  (List.range T).map fun t => .cov [[[List.ofFn (x t)]]] (d t)

/-! ### The average as a sum -/

/-- What is left of the weight of update `t` after `T` updates. -/
def weight (d : ℕ → ℝ) (T t : ℕ) : ℝ := ∏ u ∈ Finset.Ico (t + 1) T, d u

theorem weight_succ (d : ℕ → ℝ) {T t : ℕ} (h : t < T) : weight d (T + 1) t = d T * weight d T t := by
  rw [weight, Finset.prod_Ico_succ_top (by omega), mul_comm]
  rfl

theorem weight_self (d : ℕ → ℝ) (T : ℕ) : weight d (T + 1) T = 1 := by simp [weight]

theorem weight_const (d : ℝ) (T t : ℕ) : weight (fun _ => d) T t = d ^ (T - (t + 1)) := by simp [weight]

theorem weight_sum_pos {d : ℕ → ℝ} (hd : ∀ t, 0 ≤ d t) {T : ℕ} (hT : 0 < T) : 0 < ∑ t ∈ Finset.range T, weight d T t := by
  obtain ⟨T, rfl⟩ : ∃ k, T = k + 1 := ⟨T - 1, by omega⟩
  rw [Finset.sum_range_succ, weight_self]
  exact add_pos_of_nonneg_of_pos (Finset.sum_nonneg fun t _ => Finset.prod_nonneg fun u _ => hd u) one_pos

/-- The entry of the estimate of one batch. -/
theorem batch_entry {N n : ℕ} (b : Fin N → Fin n → ℝ) (i j : Fin n) :
    newCovOverReplicas computeCov [[[List.ofFn b]]] i j = (∑ k, b k i * b k j) / N := by
  have e : ∀ i j, (List.map (fun x : Fin n → ℝ => x i * x j) (List.ofFn b)).sum = ∑ k, b k i * b k j := by
    intro i j
    rw [List.map_ofFn, List.sum_ofFn]
    rfl
  have e2 : ∑ k, b k j * b k i = ∑ k, b k i * b k j := Finset.sum_congr rfl fun k _ => mul_comm _ _
  have e3 : computeCov (List.ofFn b) i j = (∑ k, b k i * b k j) / N := by
    simp only [computeCov, Matrix.transpose, Matrix.of_apply, e, List.length_ofFn, e2, add_self_div_two]
  rw [← e3]
  have e4 : newCovOverReplicas computeCov [[[List.ofFn b]]] = computeCov (List.ofFn b) := by
    simp only [newCovOverReplicas, allAverage, totalNewCov, List.map_cons, List.map_nil, List.headD_cons, List.length_cons,
      List.length_nil, List.sum_cons, List.sum_nil, add_zero, zero_add, Nat.cast_one, inv_one, one_smul]
  rw [e4]

theorem avg_updates {N n : ℕ} (x : ℕ → Fin N → Fin n → ℝ) (d : ℕ → ℝ) (s : DenseStat n) (hs : s.avg = MovAvg.init) (T : ℕ) :
    ((updates x d T).foldl DenseStat.step s).avg =
      ⟨fun i j => ∑ t ∈ Finset.range T, weight d T t * ((∑ k, x t k i * x t k j) / N), ∑ t ∈ Finset.range T, weight d T t⟩ := by
  induction T with
  | zero =>
    simp only [updates, List.range_zero, List.map_nil, List.foldl_nil, hs, MovAvg.init, Finset.range_zero, Finset.sum_empty]
    rfl
  | succ T ih =>
    have e : (updates x d (T + 1)).foldl DenseStat.step s =
        DenseStat.step ((updates x d T).foldl DenseStat.step s) (.cov [[[List.ofFn (x T)]]] (d T)) := by
      simp [updates, List.range_succ]
    rw [e]
    simp only [DenseStat.step, ih, MovAvg.add]
    have e2 : ∀ t ∈ Finset.range T, weight d (T + 1) t = d T * weight d T t := fun t ht => weight_succ d (Finset.mem_range.1 ht)
    congr 1
    · funext i j
      show d T * _ + 1 * newCovOverReplicas computeCov [[[List.ofFn (x T)]]] i j = _
      rw [Finset.sum_range_succ, weight_self, Finset.sum_congr rfl fun t ht => by rw [e2 t ht]]
      simp only [one_mul, batch_entry, Finset.mul_sum, mul_assoc]
    · rw [Finset.sum_range_succ, weight_self, Finset.sum_congr rfl e2, Finset.mul_sum]

theorem value_updates {N n : ℕ} (x : ℕ → Fin N → Fin n → ℝ) {d : ℕ → ℝ} (hd : ∀ t, 0 ≤ d t) (s : DenseStat n)
    (hs : s.avg = MovAvg.init) {T : ℕ} (hT : 0 < T) :
    ((updates x d T).foldl DenseStat.step s).avg.value true = some fun i j =>
      (∑ t ∈ Finset.range T, weight d T t)⁻¹ * ∑ t ∈ Finset.range T, weight d T t * ((∑ k, x t k i * x t k j) / N) := by
  rw [avg_updates x d s hs, MovAvg.value]
  simp only [if_true, (weight_sum_pos hd hT).ne', if_false]
  rfl

/-! ### Means, variances and limits -/

section
variable {P : Measure Ω} {N n : ℕ} {x : ℕ → Ω → Fin N → Fin n → ℝ} {M : Matrix (Fin n) (Fin n) ℝ}

/-- The estimate of batch `t`. -/
noncomputable def estimate (x : ℕ → Ω → Fin N → Fin n → ℝ) (i j : Fin n) (t : ℕ) (ω : Ω) : ℝ := (∑ k, x t ω k i * x t ω k j) / N

theorem measurable_entry (i j : Fin n) : Measurable fun b : Fin N → Fin n → ℝ => (∑ k, b k i * b k j) / N := by
  fun_prop

theorem estimate_same (h : Stream P x M) (i j : Fin n) (t : ℕ) : IdentDistrib (estimate x i j t) (estimate x i j 0) P P :=
  (h.same t).comp (measurable_entry i j)

theorem estimate_indep (h : Stream P x M) (i j : Fin n) {s t : ℕ} (hst : s ≠ t) :
    IndepFun (estimate x i j s) (estimate x i j t) P :=
  (h.independent hst).comp (measurable_entry i j) (measurable_entry i j)

theorem estimate_integrable (h : Stream P x M) (i j : Fin n) (t : ℕ) : Integrable (estimate x i j t) P := by
  refine (estimate_same h i j t).integrable_iff.2 (Integrable.div_const ?_ _)
  exact integrable_finsetSum _ fun k _ => (h.square k i).integrable_mul (h.square k j)

theorem estimate_mean (h : Stream P x M) (hN : 0 < N) (i j : Fin n) (t : ℕ) : ∫ ω, estimate x i j t ω ∂P = M i j := by
  rw [(estimate_same h i j t).integral_eq]
  have h1 : ∀ k : Fin N, Integrable (fun ω => x 0 ω k i * x 0 ω k j) P := fun k => (h.square k i).integrable_mul (h.square k j)
  simp only [estimate]
  rw [integral_div, integral_finsetSum _ fun k _ => h1 k]
  simp only [h.moment, Finset.sum_const, Finset.card_univ, Fintype.card_fin, nsmul_eq_mul]
  field_simp

/-- C116: after any number of covariance updates with any decays the expected statistics are the second moments. -/
theorem C116_unbiased (h : Stream P x M) (hN : 0 < N) {d : ℕ → ℝ} (hd : ∀ t, 0 ≤ d t) (s : DenseStat n)
    (hs : s.avg = MovAvg.init) {T : ℕ} (hT : 0 < T) :
    ∃ c : Ω → Matrix (Fin n) (Fin n) ℝ,
      (∀ ω, ((updates (fun t => x t ω) d T).foldl DenseStat.step s).avg.value true = some (c ω)) ∧
      ∀ i j, ∫ ω, c ω i j ∂P = M i j := by
  refine ⟨_, fun ω => value_updates (fun t => x t ω) hd s hs hT, fun i j => ?_⟩
  have h1 := fun t => estimate_integrable h i j t
  have h2 := fun t => estimate_mean h hN i j t
  show ∫ ω, (∑ t ∈ Finset.range T, weight d T t)⁻¹ * ∑ t ∈ Finset.range T, weight d T t * estimate x i j t ω ∂P = M i j
  rw [integral_const_mul, integral_finsetSum _ fun t _ => (h1 t).const_mul _]
  simp only [integral_const_mul, h2, ← Finset.sum_mul]
  rw [← mul_assoc, inv_mul_cancel₀ (weight_sum_pos hd hT).ne', one_mul]

/-- The variance in terms of the weights. -/
theorem variance_weights (h : Stream P x M) (i j : Fin n) (h4 : MemLp (estimate x i j 0) 2 P) (d : ℕ → ℝ) (T : ℕ) (a : ℝ) :
    variance (fun ω => a * ∑ t ∈ Finset.range T, weight d T t * estimate x i j t ω) P =
      a ^ 2 * ((∑ t ∈ Finset.range T, weight d T t ^ 2) * variance (estimate x i j 0) P) := by
  rw [variance_const_mul]
  congr 1
  have e : (fun ω => ∑ t ∈ Finset.range T, weight d T t * estimate x i j t ω) =
      ∑ t ∈ Finset.range T, fun ω => weight d T t * estimate x i j t ω := by
    funext ω
    simp
  rw [e, IndepFun.variance_sum]
  · rw [Finset.sum_mul]
    refine Finset.sum_congr rfl fun t _ => ?_
    rw [variance_const_mul, (estimate_same h i j t).variance_eq]
  · exact fun t _ => ((estimate_same h i j t).memLp_iff.2 h4).const_mul _
  · intro s _ t _ hst
    exact (estimate_indep h i j hst).comp (measurable_const_mul _) (measurable_const_mul _)

theorem square_div_one {d : ℝ} (h0 : 0 ≤ d) (h1 : d < 1) {T : ℕ} (hT : 0 < T) :
    ((∑ t ∈ Finset.range T, weight (fun _ => d) T t)⁻¹) ^ 2 * ∑ t ∈ Finset.range T, weight (fun _ => d) T t ^ 2 =
      (1 - d) / (1 + d) * ((1 + d ^ T) / (1 - d ^ T)) := by
  have e1 : ∑ t ∈ Finset.range T, weight (fun _ => d) T t = (1 - d ^ T) / (1 - d) := by
    simp only [weight_const]
    rw [← Finset.sum_range_reflect]
    rw [Finset.sum_congr rfl fun j hj => by
      rw [show T - (T - 1 - j + 1) = j by have := Finset.mem_range.1 hj; omega]]
    rw [geom_sum_eq h1.ne, ← neg_div_neg_eq, neg_sub, neg_sub]
  have e2 : ∑ t ∈ Finset.range T, weight (fun _ => d) T t ^ 2 = (1 - d ^ T * d ^ T) / (1 - d * d) := by
    simp only [weight_const, ← pow_mul]
    rw [← Finset.sum_range_reflect]
    rw [Finset.sum_congr rfl fun j hj => by
      rw [show (T - (T - 1 - j + 1)) * 2 = 2 * j by have := Finset.mem_range.1 hj; omega, pow_mul]]
    rw [geom_sum_eq (by nlinarith), ← neg_div_neg_eq, neg_sub, neg_sub, ← pow_mul, mul_comm 2 T, pow_mul, sq, sq]
  have h2 : d ^ T < 1 := pow_lt_one₀ h0 h1 hT.ne'
  have h3 : 0 ≤ d ^ T := pow_nonneg h0 T
  rw [e1, e2]
  have a1 : (1 - d) ≠ 0 := by linarith
  have a2 : (1 - d ^ T) ≠ 0 := by linarith
  have a3 : (1 + d) ≠ 0 := by linarith
  have a4 : (1 - d * d) ≠ 0 := by nlinarith
  rw [show (1 : ℝ) - d * d = (1 - d) * (1 + d) by ring, show (1 : ℝ) - d ^ T * d ^ T = (1 - d ^ T) * (1 + d ^ T) by ring]
  field_simp

/-- C116: with the decay `d < 1` the variance after `T` updates is that of the estimate of one batch times the given factor, which
tends to `(1 - d) / (1 + d)`; with `d = 1` it is that of one batch divided by `T`. -/
theorem C116_variance (h : Stream P x M) (i j : Fin n) (h4 : MemLp (estimate x i j 0) 2 P) {d : ℝ} (h0 : 0 ≤ d) (h1 : d ≤ 1)
    (s : DenseStat n) (hs : s.avg = MovAvg.init) {T : ℕ} (hT : 0 < T) :
    ∃ c : Ω → Matrix (Fin n) (Fin n) ℝ,
      (∀ ω, ((updates (fun t => x t ω) (fun _ => d) T).foldl DenseStat.step s).avg.value true = some (c ω)) ∧
      variance (fun ω => c ω i j) P = (if d = 1 then (1 / T : ℝ) else (1 - d) / (1 + d) * ((1 + d ^ T) / (1 - d ^ T))) *
        variance (estimate x i j 0) P := by
  refine ⟨_, fun ω => value_updates (fun t => x t ω) (fun _ => h0) s hs hT, ?_⟩
  have := variance_weights h i j h4 (fun _ => d) T (∑ t ∈ Finset.range T, weight (fun _ => d) T t)⁻¹
  refine this.trans ?_
  rw [← mul_assoc]
  congr 1
  split
  · rename_i hd
    have e : ∀ t, weight (fun _ => d) T t = 1 := fun t => by rw [weight_const, hd, one_pow]
    simp only [e, Finset.sum_const, Finset.card_range, nsmul_eq_mul, mul_one, one_pow]
    have : (T : ℝ) ≠ 0 := by positivity
    field_simp
  · rename_i hd
    exact square_div_one h0 (lt_of_le_of_ne h1 hd) hT

/-- C116: the variance of one batch of independent rows. -/
theorem C116_batch (hN : 0 < N) (i j : Fin n) (hrows : Pairwise fun k l => IndepFun (fun ω => x 0 ω k) (fun ω => x 0 ω l) P)
    (hsame : ∀ k l, IdentDistrib (fun ω => x 0 ω k) (fun ω => x 0 ω l) P P)
    (h4 : ∀ k, MemLp (fun ω => x 0 ω k i * x 0 ω k j) 2 P) (k : Fin N) :
    MemLp (estimate x i j 0) 2 P ∧ variance (estimate x i j 0) P = variance (fun ω => x 0 ω k i * x 0 ω k j) P / N := by
  have e : estimate x i j 0 = fun ω => (N : ℝ)⁻¹ * (∑ k, fun ω => x 0 ω k i * x 0 ω k j) ω := by
    funext ω
    simp [estimate, div_eq_inv_mul]
  have hm : Measurable fun r : Fin n → ℝ => r i * r j := by fun_prop
  refine ⟨?_, ?_⟩
  · rw [e]
    exact (memLp_finsetSum' _ fun k _ => h4 k).const_mul _
  · rw [e, variance_const_mul, IndepFun.variance_sum (fun k _ => h4 k) fun k _ l _ hkl => (hrows hkl).comp hm hm]
    have e3 : ∀ l, variance (fun ω => x 0 ω l i * x 0 ω l j) P = variance (fun ω => x 0 ω k i * x 0 ω k j) P := fun l =>
      ((hsame l k).comp hm).variance_eq
    simp only [e3]
    simp only [Finset.sum_const, Finset.card_univ, Fintype.card_fin, nsmul_eq_mul]
    have : (N : ℝ) ≠ 0 := by positivity
    field_simp

theorem Stream.psd (h : Stream P x M) (hN : 0 < N) : M.PosSemidef := by
  have hi : ∀ i j, Integrable (fun ω => x 0 ω ⟨0, hN⟩ i * x 0 ω ⟨0, hN⟩ j) P := fun i j =>
    (h.square ⟨0, hN⟩ i).integrable_mul (h.square ⟨0, hN⟩ j)
  refine Matrix.PosSemidef.of_dotProduct_mulVec_nonneg ?_ fun y => ?_
  · ext i j
    rw [Matrix.conjTranspose_apply, star_trivial, ← h.moment ⟨0, hN⟩, ← h.moment ⟨0, hN⟩]
    simp only [mul_comm]
  · have e : star y ⬝ᵥ M.mulVec y = ∫ ω, (∑ i, y i * x 0 ω ⟨0, hN⟩ i) ^ 2 ∂P := by
      have e2 : ∀ ω, (∑ i, y i * x 0 ω ⟨0, hN⟩ i) ^ 2 = ∑ i, ∑ j, y i * y j * (x 0 ω ⟨0, hN⟩ i * x 0 ω ⟨0, hN⟩ j) := by
        intro ω
        rw [sq, Finset.sum_mul_sum]
        exact Finset.sum_congr rfl fun i _ => Finset.sum_congr rfl fun j _ => by ring
      simp only [e2]
      rw [integral_finsetSum _ fun i _ => integrable_finsetSum _ fun j _ => (hi i j).const_mul _]
      simp only [dotProduct, Matrix.mulVec, star_trivial, Finset.mul_sum]
      refine Finset.sum_congr rfl fun i _ => ?_
      rw [integral_finsetSum _ fun j _ => (hi i j).const_mul _]
      refine Finset.sum_congr rfl fun j _ => ?_
      rw [integral_const_mul, h.moment]
      ring
    rw [e]
    exact integral_nonneg fun ω => sq_nonneg _

/-- C116: without decay the statistics, and the inverses stored with any damping, tend to what they estimate almost surely. -/
theorem C116_consistent (h : Stream P x M) (hN : 0 < N) (s : DenseStat n) (hs : s.avg = MovAvg.init) {lam : ℝ} (hlam : 0 < lam) :
    ∀ᵐ ω ∂P, ∃ c : ℕ → Matrix (Fin n) (Fin n) ℝ,
      (∀ T, 0 < T → ((updates (fun t => x t ω) (fun _ => 1) T).foldl DenseStat.step s).avg.value true = some (c T)) ∧
      Tendsto c atTop (𝓝 M) ∧
      Tendsto (fun T => ((updates (fun t => x t ω) (fun _ => 1) T ++ [StatOp.inv lam]).foldl DenseStat.step s).inverse) atTop
        (𝓝 (M + lam • 1)⁻¹) := by
  have hl : (M + lam • (1 : Matrix (Fin n) (Fin n) ℝ)).det ≠ 0 :=
    (Matrix.PosDef.posSemidef_add (h.psd hN) (Matrix.PosDef.one.smul hlam)).det_pos.ne'
  have h1 : ∀ i j, ∀ᵐ ω ∂P, Tendsto (fun T : ℕ => (∑ t ∈ Finset.range T, estimate x i j t ω) / T) atTop (𝓝 (M i j)) := by
    intro i j
    have := strong_law_ae_real (estimate x i j) (estimate_integrable h i j 0)
      (fun s t hst => estimate_indep h i j hst) (estimate_same h i j)
    rw [estimate_mean h hN i j 0] at this
    exact this
  filter_upwards [ae_all_iff.2 fun i => ae_all_iff.2 fun j => h1 i j] with ω hω
  set c : ℕ → Matrix (Fin n) (Fin n) ℝ := fun T => Matrix.of fun i j => (∑ t ∈ Finset.range T, estimate x i j t ω) / T with hc
  have c1 : ∀ T, 0 < T → ((updates (fun t => x t ω) (fun _ => 1) T).foldl DenseStat.step s).avg.value true = some (c T) := by
    intro T hT
    rw [value_updates (fun t => x t ω) (fun _ => zero_le_one) s hs hT]
    congr 1
    funext i j
    simp only [weight_const, one_pow, Finset.sum_const, Finset.card_range, nsmul_eq_mul, mul_one, one_mul]
    rw [inv_mul_eq_div]
    rfl
  have c2 : Tendsto c atTop (𝓝 M) := tendsto_pi_nhds.2 fun i => tendsto_pi_nhds.2 fun j => hω i j
  refine ⟨c, c1, c2, ?_⟩
  have c3 : Tendsto (fun T => (c T + lam • (1 : Matrix (Fin n) (Fin n) ℝ))⁻¹) atTop (𝓝 (M + lam • 1)⁻¹) := by
    have hcont : ContinuousAt Ring.inverse (M + lam • (1 : Matrix (Fin n) (Fin n) ℝ)).det := by
      rw [Ring.inverse_eq_inv']
      exact continuousAt_inv₀ hl
    exact (continuousAt_matrix_inv _ hcont).tendsto.comp (c2.add_const _)
  refine c3.congr' ?_
  filter_upwards [eventually_gt_atTop 0] with T hT
  rw [List.foldl_append]
  simp only [List.foldl_cons, List.foldl_nil, DenseStat.step, c1 T hT]

/-- C116: diagonal factors hold the diagonal of the same statistics, so all of this applies to them. -/
theorem C116_diagonal (x : ℕ → Fin N → Fin n → ℝ) {d : ℕ → ℝ} (hd : ∀ t, 0 ≤ d t) {T : ℕ} (hT : 0 < T) (s : DenseStat n)
    (hs : s.avg = MovAvg.init) (r : DiagStat n) (hr : r.avg = MovAvg.init) :
    ∃ c, ((updates x d T).foldl DenseStat.step s).avg.value true = some c ∧
      ((updates x d T).foldl DiagStat.step r).avg.value true = some fun i => c i i := by
  refine ⟨_, value_updates x hd s hs hT, ?_⟩
  have key : ∀ T, ((updates x d T).foldl DiagStat.step r).avg =
      ⟨fun i => ((updates x d T).foldl DenseStat.step s).avg.var i i, ((updates x d T).foldl DenseStat.step s).avg.totalWeight⟩ := by
    intro T
    induction T with
    | zero =>
      simp only [updates, List.range_zero, List.map_nil, List.foldl_nil, hs, hr, MovAvg.init]
      rfl
    | succ T ih =>
      have e : ∀ {α : Type} (f : α → StatOp n → α) (a : α), (updates x d (T + 1)).foldl f a =
          f ((updates x d T).foldl f a) (.cov [[[List.ofFn (x T)]]] (d T)) := by
        intro α f a
        simp [updates, List.range_succ]
      rw [e, e]
      simp only [DiagStat.step, DenseStat.step, ih, MovAvg.add]
      congr 1
      funext i
      show d T * _ + 1 * newCovOverReplicas computeDiagCov [[[List.ofFn (x T)]]] i =
        d T * _ + 1 * newCovOverReplicas computeCov [[[List.ofFn (x T)]]] i i
      rw [batch_entry]
      simp [newCovOverReplicas, allAverage, totalNewCov, computeDiagCov, List.sum_ofFn, sq]
  rw [key, avg_updates x d s hs, MovAvg.value]
  simp only [if_true, (weight_sum_pos hd hT).ne', if_false]
  rfl

end

/-! ### Example -/

/-- Batches drawn again and again from any distribution of batches. -/
theorem stream_of {N n : ℕ} (μ : Measure (Fin N → Fin n → ℝ)) [IsProbabilityMeasure μ] {M : Matrix (Fin n) (Fin n) ℝ}
    (h2 : ∀ k i, MemLp (fun b : Fin N → Fin n → ℝ => b k i) 2 μ) (hM : ∀ k i j, ∫ b, b k i * b k j ∂μ = M i j) :
    Stream (Measure.infinitePi fun _ : ℕ => μ) (fun t ω => ω t) M := by
  have hp := fun t => measurePreserving_eval_infinitePi (fun _ : ℕ => μ) t
  refine ⟨fun s t hst => ?_, fun t => ⟨(hp t).measurable.aemeasurable, (hp 0).measurable.aemeasurable, ?_⟩, fun k i => (h2 k i).comp_measurePreserving (hp 0), fun k i j => ?_⟩
  · exact (iIndepFun_infinitePi (X := fun _ b => b) fun _ => measurable_id).indepFun hst
  · exact (hp t).map_eq.trans (hp 0).map_eq.symm
  · rw [← hM k i j]
    conv_rhs => rw [← (hp 0).map_eq]
    rw [integral_map (hp 0).measurable.aemeasurable (Measurable.aestronglyMeasurable (by fun_prop))]

/-- One row per batch, (1, 2) or (1, 0) with equal probability: the statistics tend to ((1, 1), (1, 2)), and after 20 updates with
decay 0.9 the variance of the last entry is a little more than 4 / 19. -/
noncomputable def exCoin : Measure (Fin 1 → Fin 2 → ℝ) :=
  (1 / 2 : ENNReal) • Measure.dirac ![![1, 2]] + (1 / 2 : ENNReal) • Measure.dirac ![![1, 0]]

instance : IsProbabilityMeasure exCoin := ⟨by simp [exCoin, ENNReal.inv_two_add_inv_two]⟩

theorem exCoin_integral (f : (Fin 1 → Fin 2 → ℝ) → ℝ) : Integrable f exCoin ∧
    ∫ b, f b ∂exCoin = (f ![![1, 2]] + f ![![1, 0]]) / 2 := by
  have h : ∀ b : Fin 1 → Fin 2 → ℝ, Integrable f ((1 / 2 : ENNReal) • Measure.dirac b) := fun b =>
    (integrable_dirac (by simp)).smul_measure (by simp)
  refine ⟨(h _).add_measure (h _), ?_⟩
  rw [exCoin, integral_add_measure (h _) (h _), integral_smul_measure, integral_smul_measure, integral_dirac, integral_dirac]
  simp
  ring

theorem exCoin_stream : Stream (Measure.infinitePi fun _ : ℕ => exCoin) (fun t ω => ω t) !![1, 1; 1, 2] := by
  refine stream_of exCoin (fun k i => ?_) fun k i j => ?_
  · rw [memLp_two_iff_integrable_sq (Measurable.aestronglyMeasurable (by fun_prop))]
    exact (exCoin_integral _).1
  · rw [(exCoin_integral _).2]
    fin_cases k
    fin_cases i <;> fin_cases j <;> norm_num

example : ∀ᵐ ω ∂(Measure.infinitePi fun _ : ℕ => exCoin), ∃ c : ℕ → Matrix (Fin 2) (Fin 2) ℝ,
    (∀ T, 0 < T → ((updates ω (fun _ => 1) T).foldl DenseStat.step ⟨MovAvg.init, 0⟩).avg.value true = some (c T)) ∧
    Tendsto c atTop (𝓝 !![1, 1; 1, 2]) := by
  filter_upwards [C116_consistent exCoin_stream one_pos ⟨MovAvg.init, 0⟩ rfl one_pos] with ω h
  obtain ⟨c, h1, h2, -⟩ := h
  exact ⟨c, h1, h2⟩

example : ∃ c : (ℕ → Fin 1 → Fin 2 → ℝ) → Matrix (Fin 2) (Fin 2) ℝ,
    (∀ ω, ((updates ω (fun _ => 0.9) 20).foldl DenseStat.step ⟨MovAvg.init, 0⟩).avg.value true = some (c ω)) ∧
    variance (fun ω => c ω 1 1) (Measure.infinitePi fun _ : ℕ => exCoin) =
      (1 - 0.9) / (1 + 0.9) * ((1 + 0.9 ^ 20) / (1 - 0.9 ^ 20)) * 4 := by
  have e : estimate (fun t (ω : ℕ → Fin 1 → Fin 2 → ℝ) => ω t) 1 1 0 = fun ω => (fun b : Fin 1 → Fin 2 → ℝ => b 0 1 * b 0 1) (ω 0) := by
    funext ω
    simp [estimate]
  have hp := measurePreserving_eval_infinitePi (fun _ : ℕ => exCoin) 0
  have hm : MemLp (fun b : Fin 1 → Fin 2 → ℝ => b 0 1 * b 0 1) 2 exCoin := by
    rw [memLp_two_iff_integrable_sq (Measurable.aestronglyMeasurable (by fun_prop))]
    exact (exCoin_integral _).1
  have hv : variance (fun b : Fin 1 → Fin 2 → ℝ => b 0 1 * b 0 1) exCoin = 4 := by
    rw [variance_eq_sub hm, (exCoin_integral _).2, (exCoin_integral _).2]
    norm_num
  obtain ⟨c, h1, h2⟩ := C116_variance exCoin_stream 1 1 (by rw [e]; exact hm.comp_measurePreserving hp) (d := 0.9) (by norm_num)
    (by norm_num) ⟨MovAvg.init, 0⟩ rfl (T := 20) (by norm_num)
  refine ⟨c, h1, h2.trans ?_⟩
  rw [if_neg (by norm_num), e]
  congr 1
  rw [← hv]
  exact ((IdentDistrib.mk hp.measurable.aemeasurable (by fun_prop) (hp.map_eq.trans Measure.map_id.symm) :
    IdentDistrib (fun ω : ℕ → Fin 1 → Fin 2 → ℝ => ω 0) id (Measure.infinitePi fun _ : ℕ => exCoin) exCoin).comp
    (u := fun b : Fin 1 → Fin 2 → ℝ => b 0 1 * b 0 1) (by fun_prop)).variance_eq

end Kfac.Stats
