import Verif.Stats.Lemmas

/-! Histories of statistics: vocabulary of C09 and the invariants behind it. -/

namespace Kfac.Stats
open Kfac

/-- The batch data of one covariance update: at least one replica, source, tower and row everywhere. -/
def DataOk {n : Nat} (data : List (List (List (Rows n)))) : Prop :=
  data ≠ [] ∧ ∀ r ∈ data, r ≠ [] ∧ ∀ s ∈ r, s ≠ [] ∧ ∀ t ∈ s, t ≠ []

/-- Histories the optimizer can produce: non-empty batches, decays in `[0,1]`, positive dampings. -/
def HistOk {n : Nat} (ops : List (StatOp n)) : Prop :=
  ∀ op ∈ ops, match op with
    | .cov data decay => DataOk data ∧ 0 ≤ decay ∧ decay ≤ 1
    | .inv damping => 0 < damping

/-- Some covariance update was followed (not necessarily immediately) by an inverse update. -/
def Warm {n : Nat} (ops : List (StatOp n)) : Prop :=
  ∃ a data decay b damping c, ops = a ++ [.cov data decay] ++ b ++ [.inv damping] ++ c

/-- The history contains a covariance update. -/
def HasCov {n : Nat} (ops : List (StatOp n)) : Prop := ∃ data decay, StatOp.cov data decay ∈ ops

theorem dense_inv {n : Nat} (ops : List (StatOp n)) (h : HistOk ops) :
    (ops.foldl DenseStat.step ⟨MovAvg.init, 0⟩).avg.var.PosSemidef ∧
    0 ≤ (ops.foldl DenseStat.step ⟨MovAvg.init, 0⟩).avg.totalWeight ∧
    (HasCov ops → 0 < (ops.foldl DenseStat.step ⟨MovAvg.init, 0⟩).avg.totalWeight) := by
  induction ops using List.reverseRecOn with
  | nil =>
    refine ⟨Matrix.PosSemidef.zero, le_refl _, ?_⟩
    rintro ⟨_, _, h⟩
    simp at h
  | append_singleton ops op ih =>
    obtain ⟨i1, i2, i3⟩ := ih fun o ho => h o (by simp [ho])
    have hop := h op (by simp)
    rw [List.foldl_append, List.foldl_cons, List.foldl_nil]
    cases op with
    | cov data decay =>
      obtain ⟨_, hd, _⟩ := hop
      have ht : 0 < decay * (ops.foldl DenseStat.step ⟨MovAvg.init, 0⟩).avg.totalWeight + 1 := by
        have := mul_nonneg hd i2
        linarith
      exact ⟨(i1.smul hd).add ((newCov_psd data).smul zero_le_one), ht.le, fun _ => ht⟩
    | inv damping =>
      have e : ∀ s : DenseStat n, (s.step (.inv damping)).avg = s.avg := by
        intro s
        unfold DenseStat.step
        cases s.avg.value true <;> rfl
      rw [e]
      refine ⟨i1, i2, fun hc => i3 ?_⟩
      obtain ⟨d, r, hm⟩ := hc
      simp only [List.mem_append, List.mem_singleton, reduceCtorEq, or_false] at hm
      exact ⟨d, r, hm⟩

/-- A warm dense state. -/
def WarmDense {n : Nat} (s : DenseStat n) : Prop :=
  s.avg.var.PosSemidef ∧ 0 < s.avg.totalWeight ∧ s.inverse.PosDef

theorem value_of_pos {n : Nat} {s : DenseStat n} (h : 0 < s.avg.totalWeight) :
    s.avg.value true = some (s.avg.totalWeight⁻¹ • s.avg.var) := by
  simp only [MovAvg.value, if_true, h.ne', if_false]

theorem warm_step {n : Nat} {s : DenseStat n} (op : StatOp n)
    (hop : match op with
      | .cov data decay => DataOk data ∧ 0 ≤ decay ∧ decay ≤ 1
      | .inv damping => 0 < damping)
    (hv : s.avg.var.PosSemidef) (ht : 0 < s.avg.totalWeight)
    (hi : s.inverse.PosDef ∨ ∃ d, op = .inv d) : WarmDense (s.step op) := by
  cases op with
  | cov data decay =>
    obtain ⟨_, hd, _⟩ := hop
    have ht : 0 < decay * s.avg.totalWeight + 1 := by
      have := mul_nonneg hd ht.le
      linarith
    exact ⟨(hv.smul hd).add ((newCov_psd data).smul zero_le_one), ht, by
      rcases hi with hi | ⟨d, hd⟩
      · exact hi
      · cases hd⟩
  | inv damping =>
    unfold DenseStat.step
    rw [value_of_pos ht]
    refine ⟨hv, ht, ?_⟩
    apply Matrix.PosDef.inv
    exact Matrix.PosDef.posSemidef_add (hv.smul (inv_nonneg.2 ht.le)) (Matrix.PosDef.one.smul hop)

theorem warm_foldl {n : Nat} (ops : List (StatOp n)) (h : HistOk ops) (s : DenseStat n)
    (hs : WarmDense s) : WarmDense (ops.foldl DenseStat.step s) := by
  induction ops generalizing s with
  | nil => exact hs
  | cons op ops ih =>
    exact ih (fun o ho => h o (by simp [ho])) _
      (warm_step op (h op (by simp)) hs.1 hs.2.1 (Or.inl hs.2.2))

theorem warm_dense {n : Nat} (ops : List (StatOp n)) (h : HistOk ops) (hw : Warm ops) :
    WarmDense (ops.foldl DenseStat.step ⟨MovAvg.init, 0⟩) := by
  obtain ⟨a, data, decay, b, damping, c, rfl⟩ := hw
  rw [List.foldl_append, List.foldl_append]
  apply warm_foldl _ fun o ho => h o (by simp [ho])
  obtain ⟨h1, h2, h3⟩ := dense_inv (a ++ [.cov data decay] ++ b) fun o ho => h o (by
    simp only [List.mem_append] at ho ⊢; tauto)
  exact warm_step _ (h (.inv damping) (by simp)) h1 (h3 ⟨data, decay, by simp⟩) (Or.inr ⟨_, rfl⟩)

theorem diag_inv {n : Nat} (ops : List (StatOp n)) (h : HistOk ops) :
    0 ≤ (ops.foldl DiagStat.step ⟨MovAvg.init⟩).avg.var ∧
    0 ≤ (ops.foldl DiagStat.step ⟨MovAvg.init⟩).avg.totalWeight ∧
    (HasCov ops → 0 < (ops.foldl DiagStat.step ⟨MovAvg.init⟩).avg.totalWeight) := by
  induction ops using List.reverseRecOn with
  | nil =>
    refine ⟨le_refl _, le_refl _, ?_⟩
    rintro ⟨_, _, h⟩
    simp at h
  | append_singleton ops op ih =>
    obtain ⟨i1, i2, i3⟩ := ih fun o ho => h o (by simp [ho])
    have hop := h op (by simp)
    rw [List.foldl_append, List.foldl_cons, List.foldl_nil]
    cases op with
    | cov data decay =>
      obtain ⟨_, hd, _⟩ := hop
      have ht : 0 < decay * (ops.foldl DiagStat.step ⟨MovAvg.init⟩).avg.totalWeight + 1 := by
        have := mul_nonneg hd i2
        linarith
      exact ⟨add_nonneg (smul_nonneg hd i1) (smul_nonneg zero_le_one (newDiagCov_nonneg data)), ht.le,
        fun _ => ht⟩
    | inv damping =>
      refine ⟨i1, i2, fun hc => i3 ?_⟩
      obtain ⟨d, r, hm⟩ := hc
      simp only [List.mem_append, List.mem_singleton, reduceCtorEq, or_false] at hm
      exact ⟨d, r, hm⟩

theorem foldl_dense {n : Nat} (ops : List (StatOp n)) (s : DenseStat n) :
    ops.foldl FStat.step (.dense s) = .dense (ops.foldl DenseStat.step s) := by
  induction ops generalizing s with
  | nil => rfl
  | cons op ops ih => exact ih _

theorem foldl_diag {n : Nat} (ops : List (StatOp n)) (s : DiagStat n) :
    ops.foldl FStat.step (.diag s) = .diag (ops.foldl DiagStat.step s) := by
  induction ops generalizing s with
  | nil => rfl
  | cons op ops ih => exact ih _

/-- A warm factor's inverse operator is a positive definite matrix. -/
theorem factor_warm {n : Nat} (isDiag : Bool) (ops : List (StatOp n)) (h : HistOk ops) (hw : Warm ops)
    {d : ℝ} (hd : 0 < d) :
    ∃ f M, (ops.foldl FStat.step (FStat.init isDiag)).factor = some f ∧
      (f.matpowerInv d).Is n M ∧ M.PosDef := by
  cases isDiag with
  | false =>
    obtain ⟨h1, h2, h3⟩ := warm_dense ops h hw
    rw [show (FStat.init false : FStat n) = .dense ⟨MovAvg.init, 0⟩ from rfl, foldl_dense]
    simp only [FStat.factor, value_of_pos h2, Option.map_some]
    exact ⟨_, _, rfl, rfl, h3⟩
  | true =>
    obtain ⟨h1, h2, h3⟩ := diag_inv ops h
    obtain ⟨a, data, decay, b, damping, c, he⟩ := hw
    have h4 := h3 ⟨data, decay, by simp [he]⟩
    rw [show (FStat.init true : FStat n) = .diag ⟨MovAvg.init⟩ from rfl, foldl_diag]
    simp only [FStat.factor, MovAvg.value, if_true, h4.ne', if_false, Option.map_some]
    refine ⟨_, Matrix.diagonal fun i : Fin n => (Tensor.get (Tensor.ofFn [n] fun idx =>
      if h : idx.getD 0 0 < n then ((ops.foldl DiagStat.step ⟨MovAvg.init⟩).avg.totalWeight⁻¹ •
          (ops.foldl DiagStat.step ⟨MovAvg.init⟩).avg.var) ⟨idx.getD 0 0, h⟩ else 0) [i.1] + d)⁻¹,
      rfl, ?_, ?_⟩
    · rw [Block.Factor.matpowerInv, if_pos rfl]
      exact Block.diagIs (Tensor.ofFn_wf _ _) rfl _
    · apply Matrix.PosDef.diagonal
      intro i
      apply inv_pos.2
      rw [Tensor.get_ofFn _ (show Tensor.Valid [n] [i.1] from .cons i.2 .nil)]
      have : (0 : ℝ) ≤ ((ops.foldl DiagStat.step ⟨MovAvg.init⟩).avg.totalWeight⁻¹ •
          (ops.foldl DiagStat.step ⟨MovAvg.init⟩).avg.var) i :=
        smul_nonneg (inv_nonneg.2 h2) h1 i
      simp only [List.getD_cons_zero, i.2, dif_pos]
      linarith

end Kfac.Stats
