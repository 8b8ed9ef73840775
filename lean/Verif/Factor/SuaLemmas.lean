import Verif.Factor.Sua
import Verif.Factor.PropsDense
import Mathlib.Algebra.BigOperators.Field
import Mathlib.LinearAlgebra.Matrix.Notation
import Mathlib.Tactic.FinCases

/-! # Lemmas on the SUA factor -/

namespace Kfac.Factor

open Matrix Kronecker Kfac.Stats

variable {c k : ℕ}

/-! ### Vocabulary -/

/-- Histories the optimizer can produce: at least one replica, tower and row in every batch, decays in `[0,1]`,
positive dampings. -/
def SuaHistOk (ops : List (SuaOp c)) : Prop :=
  ∀ op ∈ ops, match op with
    | .cov data decay => (data ≠ [] ∧ ∀ r ∈ data, r ≠ [] ∧ ∀ t ∈ r, t ≠ []) ∧ 0 ≤ decay ∧ decay ≤ 1
    | .inv damping => 0 < damping

/-- The history contains a covariance update. -/
def SuaHasCov (ops : List (SuaOp c)) : Prop := ∃ data decay, SuaOp.cov data decay ∈ ops

/-- Only covariance updates. -/
def OnlyCov (ops : List (SuaOp c)) : Prop := ∀ op ∈ ops, ∃ data decay, op = SuaOp.cov data decay

/-! ### The covariance stays positive semidefinite -/

theorem psd_of_posSemidef {n : ℕ} {A : Mat n} (h : A.PosSemidef) : Psd A := by
  rw [Matrix.posSemidef_iff_dotProduct_mulVec] at h
  refine ⟨?_, fun v => ?_⟩
  · have := h.1
    rwa [Matrix.IsHermitian, conjTranspose_eq_transpose_of_trivial] at this
  · simpa using h.2 v

theorem posSemidef_of_psd {n : ℕ} {A : Mat n} (h : Psd A) : A.PosSemidef := by
  rw [Matrix.posSemidef_iff_dotProduct_mulVec]
  refine ⟨?_, fun v => ?_⟩
  · rw [Matrix.IsHermitian, conjTranspose_eq_transpose_of_trivial]; exact h.1
  · simpa using h.2 v

theorem computeCov_corner {rows : Rows c} (h : rows ≠ []) :
    computeCov (rows.map homog) (Fin.last c) (Fin.last c) = 1 := by
  have hl : (rows.length : ℝ) ≠ 0 := by
    exact_mod_cast (List.length_pos_iff.2 h).ne'
  rw [computeCov_eq, Matrix.smul_apply, list_sum_apply]
  simp only [List.map_map, Function.comp_def, vecMulVec_apply, homog, Fin.snoc_last, mul_one, smul_eq_mul,
    List.length_map, List.map_const', List.sum_replicate, nsmul_eq_mul]
  field_simp

theorem mean_of_ones {ι : Type} (l : List ι) (hl : l ≠ []) {n m : ℕ} (f : ι → Matrix (Fin n) (Fin m) ℝ)
    (i : Fin n) (j : Fin m) (h : ∀ x ∈ l, f x i j = 1) : ((l.length : ℝ)⁻¹ • (l.map f).sum) i j = 1 := by
  have hl' : (l.length : ℝ) ≠ 0 := by
    exact_mod_cast (List.length_pos_iff.2 hl).ne'
  rw [Matrix.smul_apply, list_sum_apply, List.map_congr_left h, List.map_const', List.sum_replicate]
  simp only [nsmul_eq_mul, mul_one, smul_eq_mul]
  field_simp

theorem total_corner {data : List (List (Rows c))} (h : data ≠ [] ∧ ∀ r ∈ data, r ≠ [] ∧ ∀ t ∈ r, t ≠ []) :
    suaTotalCov data (Fin.last c) (Fin.last c) = 1 := by
  unfold suaTotalCov newCovOverReplicas allAverage
  rw [List.map_map, List.length_map]
  refine mean_of_ones data h.1 _ _ _ fun r hr => ?_
  simp only [Function.comp_def, totalNewCov, List.headD_cons, List.length_map, List.map_cons, List.map_nil,
    List.sum_cons, List.sum_nil, add_zero, List.map_map]
  exact mean_of_ones r (h.2 r hr).1 _ _ _ fun t ht => computeCov_corner ((h.2 r hr).2 t ht)

/-- The two covariances a covariance update may store. -/
noncomputable def rawCov (data : List (List (Rows c))) : Mat c :=
  fun i j => suaTotalCov data i.castSucc j.castSucc
noncomputable def rawMu (data : List (List (Rows c))) : Fin c → ℝ :=
  fun i => suaTotalCov data i.castSucc (Fin.last c)

theorem total_psd (data : List (List (Rows c))) : Psd (suaTotalCov data) := psd_of_posSemidef (newCov_psd _)

theorem rawCov_psd (data : List (List (Rows c))) : Psd (rawCov data) := by
  have h := total_psd data
  refine ⟨?_, fun v => ?_⟩
  · ext i j; exact congrFun (congrFun h.1 i.castSucc) j.castSucc
  · have := h.2 (Fin.snoc v 0)
    simpa [dotProduct, mulVec, Fin.sum_univ_castSucc, Fin.snoc_castSucc, Fin.snoc_last, rawCov] using this

theorem quad_snoc (data : List (List (Rows c)))
    (hd : data ≠ [] ∧ ∀ r ∈ data, r ≠ [] ∧ ∀ t ∈ r, t ≠ []) (v : Fin c → ℝ) (x : ℝ) :
    (Fin.snoc v x : Fin (c + 1) → ℝ) ⬝ᵥ suaTotalCov data *ᵥ (Fin.snoc v x : Fin (c + 1) → ℝ) =
      v ⬝ᵥ rawCov data *ᵥ v + 2 * x * (v ⬝ᵥ rawMu data) + x * x := by
  have h := total_psd data
  have hsym : ∀ i : Fin c, suaTotalCov data (Fin.last c) i.castSucc = rawMu data i := fun i =>
    congrFun (congrFun h.1 i.castSucc) (Fin.last c)
  simp only [dotProduct, mulVec, Fin.sum_univ_castSucc, Fin.snoc_castSucc, Fin.snoc_last, hsym, total_corner hd,
    mul_add, Finset.sum_add_distrib]
  have e1 : ∀ i j : Fin c, suaTotalCov data i.castSucc j.castSucc = rawCov data i j := fun _ _ => rfl
  have e2 : ∀ i : Fin c, suaTotalCov data i.castSucc (Fin.last c) = rawMu data i := fun _ => rfl
  simp only [e1, e2, one_mul]
  have s1 : ∑ i, v i * (rawMu data i * x) = x * ∑ i, v i * rawMu data i := by
    rw [Finset.mul_sum]; exact Finset.sum_congr rfl fun i _ => by ring
  have s2 : ∑ i, rawMu data i * v i = ∑ i, v i * rawMu data i :=
    Finset.sum_congr rfl fun i _ => by ring
  rw [s1, s2]
  ring

theorem centred_psd {data : List (List (Rows c))}
    (hd : data ≠ [] ∧ ∀ r ∈ data, r ≠ [] ∧ ∀ t ∈ r, t ≠ []) :
    Psd (rawCov data - vecMulVec (rawMu data) (rawMu data)) := by
  refine ⟨?_, fun v => ?_⟩
  · have := (rawCov_psd data).1
    unfold Matrix.IsSymm at this ⊢
    rw [transpose_sub, this, transpose_vecMulVec]
  · have h := (total_psd data).2 (Fin.snoc v (-(v ⬝ᵥ rawMu data)))
    rw [quad_snoc data hd] at h
    rw [sub_mulVec, dotProduct_sub, vecMulVec_mulVec, dotProduct_smul, dotProduct_comm (rawMu data) v]
    have : (MulOpposite.op (v ⬝ᵥ rawMu data) • (v ⬝ᵥ rawMu data)) = (v ⬝ᵥ rawMu data) * (v ⬝ᵥ rawMu data) := rfl
    rw [this]
    linarith

/-- Invariant of every history. -/
structure SuaInv (const : SuaConst) (s : Sua c) (ops : List (SuaOp c)) : Prop where
  covPsd : s.cov.var.PosSemidef
  nonneg : 0 ≤ s.cov.totalWeight
  pos : SuaHasCov ops → 0 < s.cov.totalWeight
  same : const.zeroMean = false → s.mu.totalWeight = s.cov.totalWeight

theorem invUpdate_keeps (la : Linalg c) (m : InvMethod) (const : SuaConst) (k : ℕ) (bias : Bool) (s : Sua c)
    (d : ℝ) : (s.invUpdate la m const k bias d).cov = s.cov ∧ (s.invUpdate la m const k bias d).mu = s.mu := by
  unfold Sua.invUpdate
  cases s.cov.value true with
  | none => exact ⟨rfl, rfl⟩
  | some cov =>
    dsimp only
    split_ifs
    · cases s.mu.value true <;> exact ⟨rfl, rfl⟩
    · exact ⟨rfl, rfl⟩

theorem covUpdate_cov (const : SuaConst) (s : Sua c) (data : List (List (Rows c))) (decay w : ℝ) :
    (s.covUpdate const data decay w).cov =
      s.cov.add (if const.zeroMean = false ∨ const.subtractMean = true then
        rawCov data - vecMulVec (rawMu data) (rawMu data) else rawCov data) decay w ∧
    (const.zeroMean = false → (s.covUpdate const data decay w).mu = s.mu.add (rawMu data) decay w) ∧
    (s.covUpdate const data decay w).covInv = s.covInv ∧
    (s.covUpdate const data decay w).damping = s.damping ∧
    (s.covUpdate const data decay w).covInvMu = s.covInvMu ∧
    (s.covUpdate const data decay w).scale = s.scale := by
  unfold Sua.covUpdate
  rcases h1 : const.zeroMean with _ | _ <;> rcases h2 : const.subtractMean with _ | _ <;>
    simp <;> first | rfl | exact ⟨rfl, rfl⟩

theorem suaInv (la : Linalg c) (m : InvMethod) (const : SuaConst) (k : ℕ) (bias : Bool) (ops : List (SuaOp c))
    (h : SuaHistOk ops) : SuaInv const (Sua.after la m const k bias ops) ops := by
  induction ops using List.reverseRecOn with
  | nil =>
    refine ⟨Matrix.PosSemidef.zero, le_refl _, ?_, fun _ => rfl⟩
    rintro ⟨_, _, h⟩
    simp at h
  | append_singleton ops op ih =>
    have i := ih fun o ho => h o (by simp [ho])
    have hop := h op (by simp)
    unfold Sua.after at i ⊢
    rw [List.foldl_append, List.foldl_cons, List.foldl_nil]
    generalize List.foldl (Sua.step la m const k bias) (Sua.init c) ops = s at i ⊢
    cases op with
    | cov data decay =>
      obtain ⟨hd, hd0, _⟩ := hop
      obtain ⟨e1, e2, _⟩ := covUpdate_cov const s data decay 1
      have ht : 0 < decay * s.cov.totalWeight + 1 := by
        have := mul_nonneg hd0 i.nonneg
        linarith
      simp only [Sua.step]
      refine ⟨?_, ?_, ?_, ?_⟩
      · rw [e1]
        refine (i.covPsd.smul hd0).add (Matrix.PosSemidef.smul ?_ zero_le_one)
        split_ifs
        · exact posSemidef_of_psd (centred_psd hd)
        · exact posSemidef_of_psd (rawCov_psd data)
      · rw [e1]; exact ht.le
      · rw [e1]; exact fun _ => ht
      · intro hz
        rw [e1, e2 hz]
        simp only [MovAvg.add, i.same hz]
    | inv damping =>
      simp only [Sua.step]
      obtain ⟨e1, e2⟩ := invUpdate_keeps la m const k bias s damping
      refine ⟨?_, ?_, ?_, ?_⟩
      · rw [e1]; exact i.covPsd
      · rw [e1]; exact i.nonneg
      · intro hc
        rw [e1]
        refine i.pos ?_
        obtain ⟨d, r, hm⟩ := hc
        simp only [List.mem_append, List.mem_singleton, reduceCtorEq, or_false] at hm
        exact ⟨d, r, hm⟩
      · intro hz; rw [e1, e2]; exact i.same hz

theorem value_pos {V : Type} [AddCommGroup V] [Module ℝ V] {s : MovAvg V} (h : 0 < s.totalWeight) :
    s.value true = some (s.totalWeight⁻¹ • s.var) := by
  simp only [MovAvg.value, if_true, h.ne', if_false]

/-! ### The rank-one update formula -/

theorem kron_mulVec_tiled (M : Mat c) (v : Fin c → ℝ) (x y : ℝ) (bias : Bool) :
    (fromBlocks (M ⊗ₖ (1 : Mat k)) 0 0 (x • (1 : Matrix (Fin bias.toNat) (Fin bias.toNat) ℝ))) *ᵥ
      tiled k bias v y = tiled k bias (M *ᵥ v) (x * y) := by
  rw [fromBlocks_mulVec]
  funext i
  rcases i with ⟨a, l⟩ | i
  · simp [tiled, mulVec, dotProduct, Fintype.sum_prod_type, one_apply, Function.comp_def]
  · simp only [tiled, Sum.elim_inr, zero_mulVec, zero_add, smul_mulVec, one_mulVec, Pi.smul_apply, smul_eq_mul,
      Function.comp_def]

theorem tiled_dot (v w : Fin c → ℝ) (x y : ℝ) (bias : Bool) :
    tiled k bias v x ⬝ᵥ tiled k bias w y = (k : ℝ) * (v ⬝ᵥ w) + (bias.toNat : ℝ) * (x * y) := by
  unfold tiled dotProduct
  rw [Fintype.sum_sum_type]
  simp only [Sum.elim_inl, Sum.elim_inr, Fintype.sum_prod_type, Finset.sum_const, Finset.card_univ,
    Fintype.card_fin, nsmul_eq_mul, ← Finset.mul_sum]

theorem block_inverse {M N : Mat c} (h : N * M = 1) {d : ℝ} (hd : d ≠ 0) (bias : Bool) :
    (fromBlocks (N ⊗ₖ (1 : Mat k)) 0 0 ((1 / d) • (1 : Matrix (Fin bias.toNat) (Fin bias.toNat) ℝ))) *
      fromBlocks (M ⊗ₖ (1 : Mat k)) 0 0 (d • 1) = 1 := by
  rw [fromBlocks_multiply]
  simp only [Matrix.mul_zero, Matrix.zero_mul, add_zero, zero_add, ← mul_kronecker_mul, h, Matrix.mul_one,
    one_kronecker_one, Matrix.mul_smul, smul_smul, mul_one_div_cancel hd, one_smul, smul_zero, fromBlocks_one]

/-- Sherman–Morrison. -/
theorem sherman_morrison {n : Type} [Fintype n] [DecidableEq n] {B N : Matrix n n ℝ} {u w : n → ℝ} (h : N * B = 1)
    (hw : N *ᵥ u = w) (hB : Bᵀ = B) {s : ℝ} (hs : s * (1 + w ⬝ᵥ u) = 1) :
    (N + vecMulVec w (-s • w)) * (B + vecMulVec u u) = 1 := by
  have hBw : w ᵥ* B = u := by
    rw [← hw, ← hB, vecMul_transpose, mulVec_mulVec, mul_eq_one_comm.1 h, one_mulVec]
  rw [Matrix.add_mul, Matrix.mul_add, Matrix.mul_add, h, Matrix.mul_vecMulVec, hw, vecMulVec_mul,
    smul_vecMul, hBw, vecMulVec_mul_vecMulVec, smul_dotProduct, smul_eq_mul]
  have : vecMulVec w u + (vecMulVec w (-s • u) + vecMulVec w ((-s * (w ⬝ᵥ u)) • u)) = 0 := by
    rw [vecMulVec_smul, vecMulVec_smul]
    rw [← add_smul, ← one_smul ℝ (vecMulVec w u), smul_smul, ← add_smul]
    have : 1 + (-s + -s * (w ⬝ᵥ u)) * 1 = 0 := by linarith
    rw [this, zero_smul]
  rw [add_assoc, this, add_zero]

end Kfac.Factor
