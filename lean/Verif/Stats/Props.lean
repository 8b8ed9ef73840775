import Verif.Stats.Warm
import Mathlib.Tactic.NormNum

/-!
# C09–C12: curvature statistics
-/

namespace Kfac.Stats
open Kfac

variable {V : Type} [AddCommGroup V] [Module ℝ V]

/-! ## C10 — moving averages

`updatesSinceReset ops` lists the updates since the last reset, oldest first; `histWeight` and `histSum`
are the total weight and the weighted sum, an update's weight being its own weight times the product of
all later decays. -/

/-- The reported value is the weighted mean of the values seen since the last reset. -/
theorem C10_weighted_mean (ops : List (MovOp V))
    (hne : updatesSinceReset ops ≠ [])
    (hw : ∀ u ∈ updatesSinceReset ops, 0 < u.w ∧ 0 ≤ u.d ∧ u.d ≤ 1) :
    0 < histWeight (updatesSinceReset ops) ∧
    (ops.foldl MovAvg.step MovAvg.init).value true
      = some ((histWeight (updatesSinceReset ops))⁻¹ • histSum (updatesSinceReset ops)) := by
  have hp := histWeight_pos _ hne fun u hu => ⟨(hw u hu).1, (hw u hu).2.1⟩
  refine ⟨hp, ?_⟩
  rw [foldl_step, foldl_add]
  simp only [MovAvg.init, smul_zero, mul_zero, zero_add, MovAvg.value, if_true, hp.ne', if_false]

/-- The reported value lies between any bounds on the values seen (in particular their minimum and
maximum). -/
theorem C10_between (ops : List (MovOp ℝ)) (hne : updatesSinceReset ops ≠ [])
    (hw : ∀ u ∈ updatesSinceReset ops, 0 < u.w ∧ 0 ≤ u.d ∧ u.d ≤ 1)
    (a b : ℝ) (hab : ∀ u ∈ updatesSinceReset ops, a ≤ u.v ∧ u.v ≤ b) :
    ∃ x, (ops.foldl MovAvg.step MovAvg.init).value true = some x ∧ a ≤ x ∧ x ≤ b := by
  obtain ⟨hp, h⟩ := C10_weighted_mean ops hne hw
  refine ⟨_, h, ?_⟩
  have hb := histSum_bounds _ a b (fun u hu => ⟨(hw u hu).1, (hw u hu).2.1⟩) hab
  rw [smul_eq_mul, inv_mul_eq_div]
  exact ⟨(le_div_iff₀ hp).2 hb.1, (div_le_iff₀ hp).2 hb.2⟩

/-- On constant data the reported value is that constant. -/
theorem C10_constant (ops : List (MovOp V)) (hne : updatesSinceReset ops ≠ [])
    (hw : ∀ u ∈ updatesSinceReset ops, 0 < u.w ∧ 0 ≤ u.d ∧ u.d ≤ 1)
    (c : V) (hc : ∀ u ∈ updatesSinceReset ops, u.v = c) :
    (ops.foldl MovAvg.step MovAvg.init).value true = some c := by
  obtain ⟨hp, h⟩ := C10_weighted_mean ops hne hw
  rw [h, histSum_const _ c hc, smul_smul, inv_mul_cancel₀ hp.ne', one_smul]

/-- Before any update (or right after a reset) the debiased value is undefined, and the undebiased one is
zero. -/
theorem C10_undefined (ops : List (MovOp V)) (h : updatesSinceReset ops = []) :
    (ops.foldl MovAvg.step MovAvg.init).value true = none ∧
    (ops.foldl MovAvg.step MovAvg.init).value false = some 0 := by
  rw [foldl_step, h]
  simp [MovAvg.init, MovAvg.value]

/-- With constant decay `d` and weight `1 - d` (the usual exponential moving average), the undebiased
value after `k` updates is the debiased one times `1 - d^k`. -/
theorem C10_debias_factor (d : ℝ) (h0 : 0 ≤ d) (h1 : d < 1) (vs : List V) (hne : vs ≠ []) :
    ∃ x, (vs.foldl (fun s v => s.add v d (1 - d)) MovAvg.init).value true = some x ∧
      (vs.foldl (fun s v => s.add v d (1 - d)) MovAvg.init).value false
        = some ((1 - d ^ vs.length) • x) := by
  have key : ∀ (vs : List V) (s : MovAvg V),
      (vs.foldl (fun s v => s.add v d (1 - d)) s).totalWeight
        = d ^ vs.length * s.totalWeight + (1 - d ^ vs.length) := by
    intro vs
    induction vs with
    | nil => intro s; simp
    | cons v vs ih =>
      intro s
      rw [List.foldl_cons, ih]
      simp only [MovAvg.add, List.length_cons, pow_succ]
      ring
  have hk := key vs MovAvg.init
  simp only [MovAvg.init, mul_zero, zero_add] at hk
  have hlt : d ^ vs.length < 1 := pow_lt_one₀ h0 h1 (by
    intro h; exact hne (List.length_eq_zero_iff.1 h))
  have hne' : 1 - d ^ vs.length ≠ 0 := by linarith
  refine ⟨_, by simp only [MovAvg.value, if_true]; rw [if_neg]; exact hk ▸ hne', ?_⟩
  simp only [MovAvg.value, Bool.false_eq_true, if_false, Option.some.injEq]
  show _ = (1 - d ^ vs.length) • _
  have hk' : (vs.foldl (fun s v => s.add v d (1 - d)) (MovAvg.init : MovAvg V)).totalWeight
      = 1 - d ^ vs.length := hk
  rw [hk', smul_smul, mul_inv_cancel₀ hne', one_smul]

/-- Non-trivial history: two updates, a reset, two more. -/
example : updatesSinceReset [MovOp.add (5 : ℝ) 0.9 1, .reset, .add 1 0.5 1, .add 2 0.9 0.1] ≠ [] ∧
    ∀ u ∈ updatesSinceReset [MovOp.add (5 : ℝ) 0.9 1, .reset, .add 1 0.5 1, .add 2 0.9 0.1],
      0 < u.w ∧ 0 ≤ u.d ∧ u.d ≤ 1 := by
  simp [updatesSinceReset]; norm_num

/-! ## C11 — accumulators -/

/-- After any sequence of operations the reported value is the mean of the values accumulated since the
last reset; with none it is undefined. -/
theorem C11_mean (ops : List (AccOp V)) :
    (ops.foldl (fun s op => (s.step op).1) Accum.init).value
      = if valuesSinceReset ops = [] then none
        else some (((valuesSinceReset ops).length : ℝ)⁻¹ • (valuesSinceReset ops).sum) := by
  rw [accum_state, Accum.value]
  by_cases h : valuesSinceReset ops = []
  · simp [h]
  · have : ((valuesSinceReset ops).length : ℝ) ≠ 0 := by
      simp [h]
    simp only [this, h, if_false]

/-- `read_value_and_reset` returns exactly that mean, and the next read starts from nothing. -/
theorem C11_read_and_reset (ops : List (AccOp V)) (s : Accum V)
    (hs : s = ops.foldl (fun s op => (s.step op).1) Accum.init) :
    (s.step .readAndReset).2
      = some (if valuesSinceReset ops = [] then none
        else some (((valuesSinceReset ops).length : ℝ)⁻¹ • (valuesSinceReset ops).sum)) ∧
    ∀ v, ((s.step .readAndReset).1.accumulate v).value = some v := by
  subst hs
  constructor
  · show some (Accum.value _) = _
    rw [C11_mean]
  · intro v
    simp [Accum.step, Accum.readValueAndReset, Accum.reset, Accum.accumulate, Accum.value]

example : valuesSinceReset [AccOp.accumulate (1 : ℝ), .readAndReset, .accumulate 2, .accumulate 4]
    = [2, 4] := rfl

/-! ## C12 — splitting a batch over towers -/

/-- Batches of every source split into the same number of equally sized non-empty towers: the estimate
from the towers is the one from the unsplit batches. -/
theorem C12_equal_towers {n : Nat} (data : List (List (Rows n))) (T m : Nat) (hne : data ≠ [])
    (hT : 0 < T) (hm : 0 < m) (htowers : ∀ towers ∈ data, towers.length = T)
    (hsize : ∀ towers ∈ data, ∀ t ∈ towers, t.length = m) :
    totalNewCov computeCov data = totalNewCov computeCov (data.map fun towers => [towers.flatten]) ∧
    totalNewCov computeDiagCov data
      = totalNewCov computeDiagCov (data.map fun towers => [towers.flatten]) :=
  ⟨totalNewCov_towers _ _ computeCov_eq data T m hne htowers hsize,
    totalNewCov_towers _ _ computeDiagCov_eq data T m hne htowers hsize⟩

/-- The order of the towers of each source does not matter. -/
theorem C12_tower_order {n : Nat} (data data' : List (List (Rows n)))
    (h : List.Forall₂ List.Perm data data') :
    totalNewCov computeCov data = totalNewCov computeCov data' ∧
    totalNewCov computeDiagCov data = totalNewCov computeDiagCov data' :=
  ⟨totalNewCov_perm _ data data' h, totalNewCov_perm _ data data' h⟩

/-- Under the "concat" tower strategy the estimate is that of the unsplit batch for any tower sizes. -/
theorem C12_concat_strategy {n : Nat} (data : List (List (Rows n))) (hne : data ≠ []) :
    totalNewCov computeCov (data.map (processTowers .concat))
      = (data.map fun towers => computeCov towers.flatten).sum := by
  cases data with
  | nil => exact absurd rfl hne
  | cons a l => simp [totalNewCov, processTowers, Function.comp_def]

/-- The full claim asks that unequal towers be rejected. The check compares only source `i` with tower
`i`; a difference there is rejected. Missing: every other pair, see the counterexample. -/
theorem C12_diagonal_pairs_rejected_partial (reference : Nat) (sizes : List (List Nat)) (i : Nat)
    (hs : i < sizes.length) (ht : i < (sizes.headD []).length)
    (hdiff : (sizes.getD i []).getD i 0 ≠ (sizes.headD []).getD 0 0) :
    ∃ e, checkBatchSizes reference sizes = .error e := by
  have hi : i ≠ 0 := by
    rintro rfl
    cases sizes <;> simp at hs hdiff
  unfold checkBatchSizes
  split
  · exact ⟨_, rfl⟩
  · refine ⟨"Inconsistent (partial) batch sizes detected", ?_⟩
    unfold checkPartialBatchSizes
    rw [if_pos (by left; omega), if_neg]
    rw [List.all_eq_true]
    intro h
    have hmem : (i, i) ∈ List.zip (List.range sizes.length) (List.range (sizes.headD []).length) := by
      rw [List.mem_iff_getElem]
      exact ⟨i, by rw [List.length_zip, List.length_range, List.length_range]; omega, by simp⟩
    have := h (i, i) hmem
    simp only [decide_eq_true_eq] at this
    apply hdiff
    rw [← this]
    cases sizes <;> simp

/-- One source, a tower of one row and a tower of three: the sizes sum to the declared batch size, the
check passes, and the estimate differs from that of the batch of four rows. -/
theorem C12_unequal_towers_accepted_counterexample :
    ∃ (data : List (List (Rows 1))) (reference : Nat),
      checkBatchSizes reference (data.map fun s => s.map List.length) = .ok () ∧
      (∃ s ∈ data, ∃ t ∈ s, ∃ t' ∈ s, t.length ≠ t'.length) ∧
      totalNewCov computeCov (data.map (processTowers .separate))
        ≠ totalNewCov computeCov (data.map fun towers => [towers.flatten]) := by
  refine ⟨[[[fun _ => 2], [fun _ => 0, fun _ => 0, fun _ => 0]]], 4, by decide, ?_, ?_⟩
  · exact ⟨_, List.mem_singleton.2 rfl, [fun _ => 2], by simp, [fun _ => 0, fun _ => 0, fun _ => 0],
      by simp, by simp⟩
  · intro h
    have := congrFun (congrFun h 0) 0
    simp [totalNewCov, processTowers, computeCov_eq, Matrix.vecMulVec_apply] at this
    norm_num at this

example : ∀ towers ∈ [[[![1, 2]], [![3, (4 : ℝ)]]], [[![0, 1]], [![1, 1]]]], towers.length = 2 ∧
    ∀ t ∈ towers, t.length = 1 := by simp

/-! ## C09 — positive semidefinite statistics and descent directions -/

/- The vocabulary (`HistOk`, `Warm`, `HasCov`) is in `Verif/Stats/Warm.lean`. -/

/-- After any history, whatever the data, the dense covariance estimate is symmetric positive
semidefinite; it is defined as soon as one covariance update was run. -/
theorem C09_covariance_psd {n : Nat} (ops : List (StatOp n)) (h : HistOk ops) (hc : HasCov ops) :
    ∃ c, (ops.foldl DenseStat.step ⟨MovAvg.init, 0⟩).avg.value true = some c ∧ c.IsSymm ∧
      ∀ x : Fin n → ℝ, 0 ≤ x ⬝ᵥ c.mulVec x := by
  obtain ⟨h1, h2, h3⟩ := dense_inv ops h
  have ht := h3 hc
  have hp := h1.smul (inv_nonneg.2 ht.le)
  refine ⟨_, value_of_pos ht, ?_, ?_⟩
  · have := hp.1
    rwa [Matrix.IsHermitian, Matrix.conjTranspose_eq_transpose_of_trivial] at this
  · intro x
    have := hp.dotProduct_mulVec_nonneg x
    rwa [star_trivial] at this

/-- The same for diagonal statistics: entrywise non-negative. -/
theorem C09_diagonal_nonneg {n : Nat} (ops : List (StatOp n)) (h : HistOk ops) (hc : HasCov ops) :
    ∃ c, (ops.foldl DiagStat.step ⟨MovAvg.init⟩).avg.value true = some c ∧ ∀ i, 0 ≤ c i := by
  obtain ⟨h1, h2, h3⟩ := diag_inv ops h
  have ht := h3 hc
  simp only [MovAvg.value, if_true, ht.ne', if_false]
  exact ⟨_, rfl, fun i => smul_nonneg (inv_nonneg.2 h2) h1 i⟩

/-- For statistics of both factors with any history (dense or diagonal, inverses possibly stale), any
positive dampings and renormalisation and any parameter layout, the preconditioned gradient of a nonzero
gradient has positive inner product with the gradient. -/
theorem C09_descent (p c : Nat) (diagA diagG : Bool) (opsA : List (StatOp p)) (opsG : List (StatOp c))
    (hA : HistOk opsA) (hG : HistOk opsG) (wA : Warm opsA) (wG : Warm opsG)
    (dIn dOut renorm : ℝ) (h1 : 0 < dIn) (h2 : 0 < dOut) (hr : 0 < renorm)
    (v : Params.LayerParams ℝ) (hv : Block.Fits p c v)
    (hnz : ∃ k, (Block.flat v).getD k 0 ≠ 0) :
    ∃ fA fG out, (opsA.foldl FStat.step (FStat.init diagA)).factor = some fA ∧
      (opsG.foldl FStat.step (FStat.init diagG)).factor = some fG ∧
      (Block.KBlock.mk fA fG dIn dOut renorm).multiplyInverse v = .ok out ∧
      Block.SameShape out v ∧
      0 < ∑ k ∈ Finset.range (Block.flat v).length,
        (Block.flat v).getD k 0 * (Block.flat out).getD k 0 := by
  obtain ⟨fA, MA, a1, a2, a3⟩ := factor_warm diagA opsA hA wA h1
  obtain ⟨fG, MG, g1, g2, g3⟩ := factor_warm diagG opsG hG wG h2
  obtain ⟨out, o1, o2, o3, o4⟩ := Block.multiplyFactored_spec a2 g2 hv (renorm ^ (-1 : ℝ)) false false
  refine ⟨fA, fG, out, a1, g1, o1, o2, ?_⟩
  rw [hv.length, Block.sum_range_mul]
  have hX : Block.grid p c v ≠ 0 := by
    obtain ⟨k, hk⟩ := hnz
    intro h0
    apply hk
    by_cases hlt : k < p * c
    · obtain ⟨i, o, hi, ho, rfl⟩ := Params.C04_indices_cover p c k hlt
      exact congrFun (congrFun h0 ⟨i, hi⟩) ⟨o, ho⟩
    · rw [List.getD_eq_getElem?_getD, List.getElem?_eq_none (by rw [hv.length]; omega)]
      rfl
  have := inner_pos a3 g3 hX
  have hs : 0 < renorm ^ (-1 : ℝ) := Real.rpow_pos_of_pos hr _
  have e : ∀ (i : Fin p) (j : Fin c), (Block.flat v).getD (i * c + j) 0 * (Block.flat out).getD (i * c + j) 0
      = renorm ^ (-1 : ℝ) * (Block.grid p c v i j * (MA * Block.grid p c v * MG) i j) := by
    intro i j
    have h4 := congrFun (congrFun o4 i) j
    simp only [Block.tr?, Bool.false_eq_true, if_false, Matrix.smul_apply, smul_eq_mul] at h4
    show Block.grid p c v i j * Block.grid p c out i j = _
    rw [h4, Matrix.mul_assoc]; ring
  simp only [e, ← Finset.mul_sum]
  exact mul_pos hs this

/-- A non-trivial history meeting the hypotheses: covariance updates with and without decay, an inverse
update, another covariance update (so the inverse is stale). -/
example : HistOk [StatOp.cov [[[[![(1 : ℝ), 2]]]]] 0.95, .inv 0.1, .cov [[[[![3, 4], ![5, 6]]]]] 1] ∧
    Warm [StatOp.cov [[[[![(1 : ℝ), 2]]]]] 0.95, .inv 0.1, .cov [[[[![3, 4], ![5, 6]]]]] 1] := by
  refine ⟨?_, [], _, _, [], _, [_], rfl⟩
  intro op hop
  simp only [List.mem_cons, List.not_mem_nil, or_false] at hop
  rcases hop with rfl | rfl | rfl
  · simp [DataOk]; norm_num
  · norm_num
  · simp [DataOk]

end Kfac.Stats
