import Verif.Factor.SuaLemmas

/-! # C48, C49, C63: the SUA factor -/

namespace Kfac.Factor

open Matrix Kronecker Kfac.Stats

variable {c k : ℕ}

theorem invUpdate_inverse {la : Linalg c} (hla : la.Good) (m : InvMethod) (const : SuaConst) (k : ℕ) (bias : Bool)
    (s : Sua c) (ops : List (SuaOp c)) (hi : SuaInv const s ops) (hc : SuaHasCov ops) {d : ℝ} (hd : 0 < d) :
    ∃ F, (s.invUpdate la m const k bias d).covOperator const k bias (some d) = some F ∧
      (s.invUpdate la m const k bias d).inverseOperator const k bias * F = 1 := by
  have hw := hi.pos hc
  have hpsd : Psd (s.cov.totalWeight⁻¹ • s.cov.var) :=
    psd_of_posSemidef (hi.covPsd.smul (inv_nonneg.2 hw.le))
  have hpd := hpsd.add_damping hd
  have hdet : IsUnit (s.cov.totalWeight⁻¹ • s.cov.var + d • (1 : Mat c)).det := isUnit_iff_ne_zero.2 hpd.det_ne_zero
  obtain ⟨k1, k2⟩ := invUpdate_keeps la m const k bias s d
  have hv := value_pos hw
  generalize hcov : s.cov.totalWeight⁻¹ • s.cov.var = cov at *
  have hN : posdefInv la m cov d * (cov + d • 1) = 1 := by
    rw [posdefInv_eq hla m hpsd hd, nonsing_inv_mul _ hdet]
  have hblock := block_inverse (k := k) hN hd.ne' bias
  unfold Sua.covOperator
  rw [k1, k2, hv]
  rcases hz : const.zeroMean with _ | _
  · have hw2 : 0 < s.mu.totalWeight := by rw [hi.same hz]; exact hw
    have hv2 := value_pos hw2
    generalize hmu : s.mu.totalWeight⁻¹ • s.mu.var = mu at *
    simp only [hv2, Option.bind_eq_bind, Option.bind_some, Option.getD_some, Bool.false_eq_true, if_false]
    refine ⟨_, rfl, ?_⟩
    have e : (s.invUpdate la m const k bias d) =
        { s with covInv := posdefInv la m cov d, damping := d,
                 covInvMu := (smQuants k bias (posdefInv la m cov d) mu d).1,
                 scale := (smQuants k bias (posdefInv la m cov d) mu d).2 } := by
      unfold Sua.invUpdate
      rw [hv, hv2]
      simp only [hz, if_true]
    have h1 : (smQuants k bias (posdefInv la m cov d) mu d).1 = posdefInv la m cov d *ᵥ mu := by
      unfold smQuants; split_ifs <;> rfl
    have h2 : (smQuants k bias (posdefInv la m cov d) mu d).2 *
        (1 + ((k : ℝ) * (mu ⬝ᵥ (posdefInv la m cov d *ᵥ mu)) + (bias.toNat : ℝ) * (1 / d))) = 1 := by
      have hq : 0 ≤ (k : ℝ) * (mu ⬝ᵥ (posdefInv la m cov d *ᵥ mu)) := by
        refine mul_nonneg (Nat.cast_nonneg _) ?_
        rw [posdefInv_eq hla m hpsd hd]
        have := (psd_of_posSemidef (Matrix.PosDef.inv hpd.posDef).posSemidef).2 mu
        exact this
      have hq2 : 0 < 1 / d := by positivity
      unfold smQuants
      cases bias
      · simp only [Bool.false_eq_true, if_false, Bool.toNat_false, Nat.cast_zero, zero_mul, add_zero]
        exact one_div_mul_cancel (by linarith)
      · simp only [if_true, Bool.toNat_true, Nat.cast_one, one_mul]
        exact one_div_mul_cancel (by linarith)
    unfold Sua.inverseOperator
    rw [e]
    simp only [hz, Bool.false_eq_true, if_false]
    refine sherman_morrison hblock ?_ ?_ ?_
    · rw [kron_mulVec_tiled, h1, mul_one]
    · rw [fromBlocks_transpose, transpose_zero, transpose_smul, transpose_one, transpose_zero, ← kroneckerMap_transpose,
        transpose_one, hpd.1]
    · rw [tiled_dot, h1, mul_one, dotProduct_comm]
      exact h2
  · simp only [Option.bind_eq_bind, Option.bind_some, Option.getD_some, if_true]
    refine ⟨_, rfl, ?_⟩
    have e : (s.invUpdate la m const k bias d) =
        { s with covInv := posdefInv la m cov d, damping := d } := by
      unfold Sua.invUpdate
      rw [hv]
      simp only [hz, Bool.true_eq_false, if_false]
    unfold Sua.inverseOperator
    rw [e]
    simp only [hz, if_true]
    exact hblock

theorem inverse_kept (la : Linalg c) (m : InvMethod) (const : SuaConst) (k : ℕ) (bias : Bool) (s : Sua c)
    (later : List (SuaOp c)) (hl : OnlyCov later) :
    (later.foldl (Sua.step la m const k bias) s).inverseOperator const k bias = s.inverseOperator const k bias := by
  induction later generalizing s with
  | nil => rfl
  | cons op later ih =>
    obtain ⟨data, decay, rfl⟩ := hl op (by simp)
    rw [List.foldl_cons, ih _ fun o ho => hl o (by simp [ho])]
    obtain ⟨-, -, e1, e2, e3, e4⟩ := covUpdate_cov const s data decay 1
    simp only [Sua.step, Sua.inverseOperator, e1, e2, e3, e4]

/-- C48: after any history with at least one covariance update, an inverse update with damping `d > 0` and any number
of further covariance updates, `get_matpower(-1)` is the two-sided inverse of what `get_matpower(1)` was, with the
damping `d`, at the time of the inverse update. -/
theorem C48_inverse {la : Linalg c} (hla : la.Good) (m : InvMethod) (const : SuaConst) (k : ℕ) (bias : Bool)
    (ops later : List (SuaOp c)) (h : SuaHistOk ops) (hc : SuaHasCov ops) (hl : OnlyCov later) {d : ℝ} (hd : 0 < d)
    (d' : ℝ) :
    ∃ F X, (Sua.after la m const k bias (ops ++ [.inv d])).getMatpower const k bias 1 d = .ok (some F) ∧
      (Sua.after la m const k bias (ops ++ [.inv d] ++ later)).getMatpower const k bias (-1) d' = .ok (some X) ∧
      X * F = 1 ∧ F * X = 1 := by
  obtain ⟨F, hF, hX⟩ := invUpdate_inverse hla m const k bias _ ops (suaInv la m const k bias ops h) hc hd
  refine ⟨F, (Sua.invUpdate la m const k bias (Sua.after la m const k bias ops) d).inverseOperator const k bias,
    ?_, ?_, hX, mul_eq_one_comm.1 hX⟩
  · unfold Sua.getMatpower Sua.after
    rw [List.foldl_append, List.foldl_cons, List.foldl_nil, if_pos rfl]
    exact congrArg _ hF
  · unfold Sua.getMatpower Sua.after
    rw [List.foldl_append, inverse_kept _ _ _ _ _ _ _ hl, List.foldl_append, List.foldl_cons, List.foldl_nil,
      if_neg (by norm_num), if_pos rfl]
    rfl

/-- C48: the channel covariance served by the factor is positive semidefinite after every history with data, in
both modes (so that the hypotheses of the inverse formula hold). -/
theorem C48_cov_psd (la : Linalg c) (m : InvMethod) (const : SuaConst) (k : ℕ) (bias : Bool) (ops : List (SuaOp c))
    (h : SuaHistOk ops) (hc : SuaHasCov ops) :
    ∃ C, (Sua.after la m const k bias ops).cov.value true = some C ∧ Psd C := by
  have i := suaInv la m const k bias ops h
  exact ⟨_, value_pos (i.pos hc), psd_of_posSemidef (i.covPsd.smul (inv_nonneg.2 (i.pos hc).le))⟩

/-- The hypotheses of C48 are met by a batch of one row on one tower. -/
example : SuaHistOk [SuaOp.cov [[[![1, 2]]]] 0.95, SuaOp.inv 0.1] ∧
    SuaHasCov [SuaOp.cov [[[(![1, 2] : Fin 2 → ℝ)]]] 0.95, SuaOp.inv 0.1] := by
  refine ⟨?_, ⟨_, _, List.mem_cons_self⟩⟩
  intro op hop
  simp only [List.mem_cons, List.not_mem_nil, or_false] at hop
  rcases hop with rfl | rfl
  · refine ⟨⟨by simp, ?_⟩, by norm_num, by norm_num⟩
    simp
  · norm_num

/-! ### C63: what the factor contains after the first update -/

/-- Specification: mean over all rows of all towers of all replicas. -/
noncomputable def rowMean (data : List (List (Rows c))) (f : (Fin c → ℝ) → ℝ) : ℝ :=
  ((data.flatten.flatten).map f).sum / (data.flatten.flatten).length

/-- Specification: Theorem 4 of the paper cited by the class: second moments within a location, products of means
between different locations, means between a location and the bias, one for the bias. -/
noncomputable def theorem4 (k : ℕ) (bias : Bool) (data : List (List (Rows c))) :
    Matrix (SIdx c k bias) (SIdx c k bias) ℝ
  | .inl (a, l), .inl (a', l') =>
    if l = l' then rowMean data (fun x => x a * x a')
    else rowMean data (fun x => x a) * rowMean data (fun x => x a')
  | .inl (a, _), .inr _ => rowMean data (fun x => x a)
  | .inr _, .inl (a, _) => rowMean data (fun x => x a)
  | .inr _, .inr _ => 1

/-- The towers hold the same number `n > 0` of rows each and the replicas the same number `T > 0` of towers
(enforced by the batch size checks, C12). -/
def EqualSizes (data : List (List (Rows c))) : Prop :=
  data ≠ [] ∧ ∃ T > 0, ∃ n > 0, ∀ r ∈ data, r.length = T ∧ ∀ t ∈ r, t.length = n

theorem mean_flatten {α : Type} (ls : List (List α)) (n : ℕ) (h : ∀ l ∈ ls, l.length = n) (g : α → ℝ) :
    (ls.length : ℝ)⁻¹ * (ls.map fun l => (l.length : ℝ)⁻¹ * (l.map g).sum).sum =
      ((ls.flatten).length : ℝ)⁻¹ * ((ls.flatten).map g).sum := by
  have h1 : (ls.map fun l => (l.length : ℝ)⁻¹ * (l.map g).sum) = ls.map fun l => (n : ℝ)⁻¹ * (l.map g).sum :=
    List.map_congr_left fun l hl => by rw [h l hl]
  have h2 : ∀ ls : List (List α), (ls.map fun l => (n : ℝ)⁻¹ * (l.map g).sum).sum =
      (n : ℝ)⁻¹ * ((ls.flatten).map g).sum := by
    intro ls
    induction ls with
    | nil => simp
    | cons l ls ih => simp only [List.map_cons, List.sum_cons, ih, List.flatten_cons, List.map_append,
        List.sum_append, mul_add]
  have h3 : (ls.flatten).length = ls.length * n := flatten_length_eq ls n h
  rw [h1, h2, h3, Nat.cast_mul, mul_inv, mul_assoc]

theorem total_entry {data : List (List (Rows c))} (hd : EqualSizes data) (i j : Fin (c + 1)) :
    suaTotalCov data i j = rowMean data fun x => homog x i * homog x j := by
  obtain ⟨-, T, -, n, -, h⟩ := hd
  unfold suaTotalCov newCovOverReplicas allAverage rowMean
  rw [List.map_map, List.length_map, Matrix.smul_apply, list_sum_apply, smul_eq_mul]
  have e : ∀ r ∈ data, (totalNewCov computeCov ∘ fun towers : List (Rows c) => [towers.map fun rows => rows.map homog]) r i j
      = (r.flatten.length : ℝ)⁻¹ * (r.flatten.map fun x => homog x i * homog x j).sum := by
    intro r hr
    simp only [Function.comp_def, totalNewCov, List.headD_cons, List.length_map, List.map_cons, List.map_nil,
      List.sum_cons, List.sum_nil, add_zero, List.map_map]
    rw [Matrix.smul_apply, list_sum_apply, smul_eq_mul, ← mean_flatten r n (h r hr).2]
    congr 2
    refine List.map_congr_left fun t _ => ?_
    rw [computeCov_eq, Matrix.smul_apply, list_sum_apply, smul_eq_mul, List.length_map, List.map_map]
    rfl
  rw [List.map_congr_left e]
  have h1 : data.map (fun r => (r.flatten.length : ℝ)⁻¹ * (r.flatten.map fun x => homog x i * homog x j).sum) =
      (data.map List.flatten).map fun l => (l.length : ℝ)⁻¹ * (l.map fun x => homog x i * homog x j).sum := by
    rw [List.map_map]; rfl
  have h2 : (data.length : ℝ) = ((data.map List.flatten).length : ℝ) := by rw [List.length_map]
  rw [h1, h2, mean_flatten (data.map List.flatten) (T * n), div_eq_inv_mul]
  · have : (data.map List.flatten).flatten = data.flatten.flatten := by
      rw [List.flatten_flatten]
    rw [this]
  · intro l hl
    obtain ⟨r, hr, rfl⟩ := List.mem_map.1 hl
    rw [flatten_length_eq r n (h r hr).2, (h r hr).1]

theorem rawCov_entry {data : List (List (Rows c))} (hd : EqualSizes data) (a a' : Fin c) :
    rawCov data a a' = rowMean data fun x => x a * x a' := by
  unfold rawCov
  rw [total_entry hd]
  simp only [homog, Fin.snoc_castSucc]

theorem rawMu_entry {data : List (List (Rows c))} (hd : EqualSizes data) (a : Fin c) :
    rawMu data a = rowMean data fun x => x a := by
  unfold rawMu
  rw [total_entry hd]
  simp only [homog, Fin.snoc_castSucc, Fin.snoc_last, mul_one]

theorem first_update (const : SuaConst) (data : List (List (Rows c))) (decay : ℝ) :
    ((Sua.init c).covUpdate const data decay 1).cov.value true =
      some (if const.zeroMean = false ∨ const.subtractMean = true then
        rawCov data - vecMulVec (rawMu data) (rawMu data) else rawCov data) ∧
    (const.zeroMean = false → ((Sua.init c).covUpdate const data decay 1).mu.value true = some (rawMu data)) := by
  obtain ⟨e1, e2, -⟩ := covUpdate_cov const (Sua.init c) data decay 1
  refine ⟨?_, fun hz => ?_⟩
  · rw [e1, MovAvg.value, if_pos rfl, if_neg (by simp [MovAvg.add, Sua.init, MovAvg.init])]
    simp [MovAvg.add, Sua.init, MovAvg.init]
  · rw [e2 hz, MovAvg.value, if_pos rfl, if_neg (by simp [MovAvg.add, Sua.init, MovAvg.init])]
    simp [MovAvg.add, Sua.init, MovAvg.init]

/-- C63: without the zero-mean assumption the factor after the first covariance update is exactly the matrix of
Theorem 4 for the batch, whatever the decay. -/
theorem C63_first_update (la : Linalg c) (m : InvMethod) (const : SuaConst) (hz : const.zeroMean = false) (k : ℕ)
    (bias : Bool) (data : List (List (Rows c))) (hd : EqualSizes data) (decay : ℝ) :
    (Sua.after la m const k bias [.cov data decay]).covOperator const k bias none = some (theorem4 k bias data) := by
  obtain ⟨e1, e2⟩ := first_update const data decay
  simp only [Sua.after, List.foldl_cons, List.foldl_nil, Sua.step, Sua.covOperator, e1, e2 hz, hz, true_or, if_true,
    Option.bind_eq_bind, Option.bind_some, Bool.false_eq_true, if_false, Option.getD_none]
  congr 1
  ext i j
  rcases i with ⟨a, l⟩ | i <;> rcases j with ⟨a', l'⟩ | j
  · simp only [Matrix.add_apply, fromBlocks_apply₁₁, kroneckerMap_apply, Matrix.sub_apply, vecMulVec_apply, tiled,
      Sum.elim_inl, one_apply, theorem4, rawCov_entry hd, rawMu_entry hd]
    split_ifs <;> ring
  · simp [tiled, theorem4, rawMu_entry hd, vecMulVec_apply]
  · simp [tiled, theorem4, rawMu_entry hd, vecMulVec_apply]
  · simp [tiled, theorem4, vecMulVec_apply]

/-- Specification of the zero-mean mode: as Theorem 4 with vanishing means; within a location the covariance is
centred if `SUBTRACT_MEAN_CONTRIB_FROM_COV`. -/
noncomputable def theorem4ZeroMean (subtract : Bool) (k : ℕ) (bias : Bool) (data : List (List (Rows c))) :
    Matrix (SIdx c k bias) (SIdx c k bias) ℝ
  | .inl (a, l), .inl (a', l') =>
    if l = l' then rowMean data (fun x => x a * x a') -
      (if subtract then rowMean data (fun x => x a) * rowMean data (fun x => x a') else 0)
    else 0
  | .inl _, .inr _ => 0
  | .inr _, .inl _ => 0
  | .inr _, .inr _ => 1

/-- C63: in the zero-mean mode the same holds for layers without bias. Missing: layers with bias, where it is false. -/
theorem C63_zero_mean_partial (la : Linalg c) (m : InvMethod) (const : SuaConst) (hz : const.zeroMean = true) (k : ℕ)
    (data : List (List (Rows c))) (hd : EqualSizes data) (decay : ℝ) :
    (Sua.after la m const k false [.cov data decay]).covOperator const k false none =
      some (theorem4ZeroMean const.subtractMean k false data) := by
  obtain ⟨e1, -⟩ := first_update const data decay
  simp only [Sua.after, List.foldl_cons, List.foldl_nil, Sua.step, Sua.covOperator, e1, hz, Bool.true_eq_false,
    false_or, if_true, Option.bind_eq_bind, Option.bind_some]
  congr 1
  ext i j
  rcases i with ⟨a, l⟩ | i
  · rcases j with ⟨a', l'⟩ | j
    · simp only [fromBlocks_apply₁₁, kroneckerMap_apply, one_apply, theorem4ZeroMean]
      split_ifs <;> simp [rawCov_entry hd, rawMu_entry hd, vecMulVec_apply]
    · exact j.elim0
  · exact i.elim0

/-- C63: with a bias the zero-mean mode stores 0 instead of 1 for the bias, for all data. -/
theorem C63_zero_mean_bias_counterexample (la : Linalg c) (m : InvMethod) (const : SuaConst)
    (hz : const.zeroMean = true) (k : ℕ) (data : List (List (Rows c))) (decay : ℝ) :
    ∃ F, (Sua.after la m const k true [.cov data decay]).covOperator const k true none = some F ∧
      (∀ i, F (.inr i) (.inr i) = 0) ∧ F ≠ theorem4ZeroMean const.subtractMean k true data := by
  obtain ⟨e1, -⟩ := first_update const data decay
  simp only [Sua.after, List.foldl_cons, List.foldl_nil, Sua.step, Sua.covOperator, e1, hz, if_true,
    Option.bind_eq_bind, Option.bind_some]
  refine ⟨_, rfl, by simp, fun h => ?_⟩
  have := congrFun (congrFun h (.inr ⟨0, Nat.one_pos⟩)) (.inr ⟨0, Nat.one_pos⟩)
  simp [theorem4ZeroMean] at this

/-- Two towers of one row each satisfy the hypothesis. -/
example : EqualSizes [[[![1, 2]], [(![3, 4] : Fin 2 → ℝ)]]] :=
  ⟨by simp, 2, by norm_num, 1, by norm_num, by simp⟩

/-! ### C49: the layout -/

/-- C49: if there is one input channel or a 1x1 kernel, filter weights of different spatial positions are
uncorrelated in the zero-mean factor. Missing: all other kernels, where it is false. -/
theorem C49_separate_taps_partial (const : SuaConst) (hz : const.zeroMean = true) (bias : Bool)
    (s : Sua c) (d : Option ℝ) (F : Matrix (SIdx c k bias) (SIdx c k bias) ℝ)
    (hF : s.covOperator const k bias d = some F) (hck : c = 1 ∨ k = 1) (l l' : Fin k) (hl : l ≠ l') (a a' : Fin c) :
    filterEntry F l a l' a' = 0 := by
  rcases hck with rfl | rfl
  · have key : ∀ (x : Fin k) (y : Fin 1), operatorCoord (filterRow x y) = (0, x) := by
      intro x y
      apply finProdFinEquiv.injective
      apply Fin.ext
      simp [operatorCoord, filterRow, finProdFinEquiv_apply_val, Nat.mod_eq_of_lt x.2]
    unfold Sua.covOperator at hF
    simp only [hz, if_true, Option.bind_eq_bind] at hF
    obtain ⟨cov0, _, h2⟩ := Option.bind_eq_some_iff.1 hF
    cases h2
    simp only [filterEntry, key, fromBlocks_apply₁₁, kroneckerMap_apply, one_apply_ne hl, mul_zero]
  · exact absurd (Subsingleton.elim l l') hl

/-- C49: it holds in the operator's own coordinates, i.e. if the rows of the parameter matrix were laid out
channel-major. Missing: the layout of the parameters the block really uses. -/
theorem C49_channel_major_partial (const : SuaConst) (hz : const.zeroMean = true) (bias : Bool)
    (s : Sua c) (d : Option ℝ) (F : Matrix (SIdx c k bias) (SIdx c k bias) ℝ)
    (hF : s.covOperator const k bias d = some F) (l l' : Fin k) (hl : l ≠ l') (a a' : Fin c) :
    F (.inl (a, l)) (.inl (a', l')) = 0 := by
  unfold Sua.covOperator at hF
  simp only [hz, if_true, Option.bind_eq_bind] at hF
  obtain ⟨cov0, _, h2⟩ := Option.bind_eq_some_iff.1 hF
  cases h2
  simp only [fromBlocks_apply₁₁, kroneckerMap_apply, one_apply_ne hl, mul_zero]

theorem coord_of_val (r : Fin (k * c)) (a : Fin c) (l : Fin k) (h : r.val = l.val + k * a.val) :
    operatorCoord r = (a, l) := by
  unfold operatorCoord
  rw [Equiv.symm_apply_eq]
  apply Fin.ext
  rw [finProdFinEquiv_apply_val]
  exact h

/-- C49 is false for every layer with at least two input channels and two filter positions: a single batch whose
channels are all equal to one correlates weights of different positions. -/
theorem C49_mixed_taps_counterexample (hc : 2 ≤ c) (hk : 2 ≤ k) (la : Linalg c) (m : InvMethod) (bias : Bool) :
    ∃ F, (Sua.after la m ⟨true, false⟩ k bias [.cov [[[fun _ => 1]]] 1]).covOperator ⟨true, false⟩ k bias none =
        some F ∧
      ∃ l l' : Fin k, l ≠ l' ∧ ∃ a a' : Fin c, filterEntry F l a l' a' ≠ 0 := by
  obtain ⟨e1, -⟩ := first_update (c := c) ⟨true, false⟩ [[[fun _ => 1]]] 1
  have hd : EqualSizes [[[(fun _ => 1 : Fin c → ℝ)]]] := ⟨by simp, 1, by norm_num, 1, by norm_num, by simp⟩
  simp only [Sua.after, List.foldl_cons, List.foldl_nil, Sua.step, Sua.covOperator, e1, if_true,
    Option.bind_eq_bind, Option.bind_some]
  refine ⟨_, rfl, ?_⟩
  have one : ∀ i j : Fin c, rawCov [[[(fun _ => 1 : Fin c → ℝ)]]] i j = 1 := by
    intro i j
    rw [rawCov_entry hd]
    simp [rowMean]
  -- two rows of the parameter matrix with the same operator location and different positions
  suffices h : ∃ (l l' : Fin k) (a a' : Fin c) (q : Fin k) (b b' : Fin c), l ≠ l' ∧
      (filterRow l a).val = q.val + k * b.val ∧ (filterRow l' a').val = q.val + k * b'.val by
    obtain ⟨l, l', a, a', q, b, b', hll, h1, h2⟩ := h
    refine ⟨l, l', hll, a, a', ?_⟩
    simp only [filterEntry, coord_of_val _ _ _ h1, coord_of_val _ _ _ h2, fromBlocks_apply₁₁, kroneckerMap_apply,
      one_apply_eq, mul_one]
    simp [one]
  by_cases hkc : c ≤ k
  · -- rows 0 and k
    have hkc' : k / c < k := Nat.div_lt_self (by omega) (by omega)
    have hpos : 0 < k / c := Nat.div_pos hkc (by omega)
    refine ⟨⟨0, by omega⟩, ⟨k / c, hkc'⟩, ⟨0, by omega⟩, ⟨k % c, Nat.mod_lt _ (by omega)⟩, ⟨0, by omega⟩,
      ⟨0, by omega⟩, ⟨1, by omega⟩, ?_, ?_, ?_⟩
    · intro h; rw [Fin.mk.injEq] at h; omega
    · simp [filterRow, finProdFinEquiv_apply_val]
    · simp only [filterRow, finProdFinEquiv_apply_val, mul_one, zero_add]
      exact Nat.mod_add_div k c
  · -- rows c - k and c
    have hck : k < c := by omega
    have hm := Nat.mod_add_div (c - k) k
    have hlt : (c - k) / k + 1 < c := by
      have : (c - k) / k ≤ (c - k) / 1 := Nat.div_le_div_left (by omega) (by omega)
      rw [Nat.div_one] at this
      omega
    refine ⟨⟨0, by omega⟩, ⟨1, by omega⟩, ⟨c - k, by omega⟩, ⟨0, by omega⟩,
      ⟨(c - k) % k, Nat.mod_lt _ (by omega)⟩, ⟨(c - k) / k, by omega⟩, ⟨(c - k) / k + 1, hlt⟩, ?_, ?_, ?_⟩
    · intro h; rw [Fin.mk.injEq] at h; omega
    · simp only [filterRow, finProdFinEquiv_apply_val, mul_zero, add_zero]
      exact hm.symm
    · simp only [filterRow, finProdFinEquiv_apply_val, mul_one, zero_add, mul_add]
      omega

end Kfac.Factor
