import Verif.Block.Lemmas
import Mathlib.LinearAlgebra.Matrix.PosDef
import Mathlib.Algebra.Order.Star.Real

/-!
# C05–C08: Kronecker-factored blocks and the damping split
-/

namespace Kfac.Block
open Kfac Kfac.Params Tensor

/-! ### Specification -/

/-- A factor of dimension `n` whose statistics are symmetric positive semidefinite (non-negative for the
diagonal approximation). -/
def Factor.Good (n : Nat) (f : Factor) : Prop :=
  f.cov.WF ∧
    if f.isDiag then f.cov.shape = [n] ∧ ∀ i < n, 0 ≤ f.cov.get [i]
    else f.cov.shape = [n, n] ∧ (toMat n n f.cov).PosSemidef

/-- The statistics of a factor as a matrix. -/
noncomputable def Factor.covMat (n : Nat) (f : Factor) : Matrix (Fin n) (Fin n) ℝ :=
  if f.isDiag then Matrix.diagonal fun i => f.cov.get [i.1] else toMat n n f.cov

/-- The damped statistics of a factor: statistics plus `d` times the identity. -/
noncomputable def Factor.damped (n : Nat) (f : Factor) (d : ℝ) : Matrix (Fin n) (Fin n) ℝ :=
  f.covMat n + d • (1 : Matrix (Fin n) (Fin n) ℝ)

/-! ### Facts about factors -/

theorem Factor.Good.psd {n : Nat} {f : Factor} (h : f.Good n) : (f.covMat n).PosSemidef := by
  obtain ⟨_, h⟩ := h
  unfold Factor.covMat
  split
  · rename_i hd
    simp only [hd, if_true] at h
    exact Matrix.PosSemidef.diagonal fun i => h.2 i i.2
  · rename_i hd
    simp only [hd, if_false, Bool.false_eq_true] at h
    exact h.2

theorem Factor.Good.posDef {n : Nat} {f : Factor} (h : f.Good n) {d : ℝ} (hd : 0 < d) :
    (f.damped n d).PosDef :=
  Matrix.PosDef.posSemidef_add h.psd ((Matrix.PosDef.one).smul hd)

theorem Factor.Good.symm {n : Nat} {f : Factor} (h : f.Good n) (d : ℝ) :
    (f.damped n d).transpose = f.damped n d := by
  have h1 : (f.covMat n).transpose = f.covMat n := by
    have := h.psd.1
    rwa [Matrix.IsHermitian, Matrix.conjTranspose_eq_transpose_of_trivial] at this
  rw [Factor.damped, Matrix.transpose_add, h1, Matrix.transpose_smul, Matrix.transpose_one]

theorem diagIs {n : Nat} {d : Tensor ℝ} (hwf : d.WF) (hs : d.shape = [n]) (g : ℝ → ℝ) :
    (LinOp.diag ⟨d.shape, d.data.map g⟩).Is n (Matrix.diagonal fun i => g (d.get [i.1])) := by
  have hl : d.data.length = n := by rw [hwf, hs]; simp
  refine ⟨?_, hs, ?_⟩
  · show (List.map _ _).length = _
    rw [List.length_map]; exact hwf
  · congr 1
    funext i
    have hi : ravel [n] [i.1] < d.data.length := by
      rw [hl]; simp [ravel]
    simp only [Tensor.get, hs, List.getD_eq_getElem?_getD, List.getElem?_map]
    rw [List.getElem?_eq_getElem hi]
    rfl

theorem Factor.Good.matpowerOne_is {n : Nat} {f : Factor} (h : f.Good n) (d : ℝ) :
    (f.matpowerOne d).Is n (f.damped n d) := by
  obtain ⟨hw, h⟩ := h
  unfold Factor.matpowerOne Factor.damped Factor.covMat
  split
  · rename_i hd
    simp only [hd, if_true] at h
    have := diagIs hw h.1 (fun x => x + d)
    rwa [← Matrix.diagonal_add, ← Matrix.smul_one_eq_diagonal] at this
  · rename_i hd
    simp only [hd, if_false, Bool.false_eq_true] at h
    have hdim : f.dim = n := by simp [Factor.dim, h.1]
    show ofMat (dampedCov f.dim f.cov d) = ofMat _
    rw [hdim]; rfl

theorem Factor.Good.matpowerInv_is {n : Nat} {f : Factor} (h : f.Good n) {d : ℝ} (hd : 0 < d) :
    ((f.updateInverse d).matpowerInv d).Is n (f.damped n d)⁻¹ := by
  have hpd := h.posDef hd
  obtain ⟨hw, h⟩ := h
  unfold Factor.updateInverse Factor.matpowerInv
  by_cases hdiag : f.isDiag = true
  · simp only [hdiag, if_true] at h ⊢
    have := diagIs hw h.1 (fun x => (x + d)⁻¹)
    have e : (f.damped n d)⁻¹ = Matrix.diagonal fun i : Fin n => (f.cov.get [i.1] + d)⁻¹ := by
      apply Matrix.inv_eq_left_inv
      have hdm : f.damped n d = Matrix.diagonal fun i : Fin n => f.cov.get [i.1] + d := by
        rw [Factor.damped, Factor.covMat, if_pos hdiag, Matrix.smul_one_eq_diagonal,
          Matrix.diagonal_add]
      rw [hdm, Matrix.diagonal_mul_diagonal, ← Matrix.diagonal_one]
      congr 1
      funext i
      apply inv_mul_cancel₀
      have := h.2 i i.2
      positivity
    rw [e]; exact this
  · simp only [hdiag, if_false, Bool.false_eq_true] at h ⊢
    have hdim : f.dim = n := by simp [Factor.dim, h.1]
    show posdefInv f.dim f.cov d = ofMat _
    rw [hdim]
    unfold posdefInv Factor.damped Factor.covMat
    simp only [hdiag, if_false, Bool.false_eq_true]
    rfl

/-! ## C05 — multiplication is multiplication by the Kronecker product -/

/-- For any stored matrices `ML`, `MR` (any matrix power), any scale: the result has the shapes of the
argument, and its entry at row `i`, column `o` of the flattened layout is the `(i, o)` row of
`s · (ML ⊗ MRᵀ)` applied to the flattened argument. -/
theorem C05_factored (p c : Nat) (L R : LinOp) (ML : Matrix (Fin p) (Fin p) ℝ)
    (MR : Matrix (Fin c) (Fin c) ℝ) (hL : L.Is p ML) (hR : R.Is c MR) (v : LayerParams ℝ)
    (hv : Fits p c v) (s : ℝ) :
    ∃ out, multiplyFactored L R v s false false = .ok out ∧ SameShape out v ∧
      (flat out).length = p * c ∧
      ∀ (i : Fin p) (o : Fin c), (flat out).getD (i * c + o) 0 =
        ∑ i' : Fin p, ∑ o' : Fin c, s * (ML i i' * MR o' o) * (flat v).getD (i' * c + o') 0 := by
  obtain ⟨out, h1, h2, h3, h4⟩ := multiplyFactored_spec hL hR hv s false false
  refine ⟨out, h1, h2, h3.length, ?_⟩
  intro i o
  have := congrFun (congrFun h4 i) o
  simp only [tr?, Bool.false_eq_true, if_false] at this
  show grid p c out i o = _
  rw [this, Matrix.smul_apply, Matrix.mul_apply, smul_eq_mul, Finset.mul_sum]
  rw [Finset.sum_comm]
  apply Finset.sum_congr rfl
  intro o' _
  rw [Matrix.mul_apply, Finset.sum_mul, Finset.mul_sum]
  apply Finset.sum_congr rfl
  intro i' _
  simp only [grid]; ring

/-- `multiply`: the block acts on the flattened parameter vector as
`renorm · (A_damped ⊗ G_damped)`, with and without bias, for dense and diagonal factors. -/
theorem C05_multiply (p c : Nat) (b : KBlock) (hA : b.input.Good p) (hG : b.output.Good c)
    (v : LayerParams ℝ) (hv : Fits p c v) :
    ∃ out, b.multiply v = .ok out ∧ SameShape out v ∧ (flat out).length = p * c ∧
      ∀ (i : Fin p) (o : Fin c), (flat out).getD (i * c + o) 0 =
        ∑ i' : Fin p, ∑ o' : Fin c,
          b.renorm * (b.input.damped p b.dIn i i' * b.output.damped c b.dOut o o')
            * (flat v).getD (i' * c + o') 0 := by
  obtain ⟨out, h1, h2, h3, h4⟩ := C05_factored p c _ _ _ _ (hA.matpowerOne_is b.dIn)
    (hG.matpowerOne_is b.dOut) v hv (b.renorm ^ (1 : ℝ))
  refine ⟨out, h1, h2, h3, fun i o => ?_⟩
  rw [h4 i o]
  apply Finset.sum_congr rfl; intro i' _
  apply Finset.sum_congr rfl; intro o' _
  have hs : b.output.damped c b.dOut o' o = b.output.damped c b.dOut o o' :=
    congrFun (congrFun (hG.symm b.dOut) o) o'
  rw [Real.rpow_one, hs]

/-- `full_fisher_block` is the matrix of the undamped block: with zero dampings, `multiply` is exactly
multiplication of the flattened vector by the dense matrix the code returns. -/
theorem C05_full_fisher_block (p c : Nat) (b : KBlock) (hA : b.input.Good p) (hG : b.output.Good c)
    (hd1 : b.dIn = 0) (hd2 : b.dOut = 0) (v : LayerParams ℝ) (hv : Fits p c v) :
    ∃ K out, b.fullFisherBlock = .ok K ∧ K.shape = [p * c, p * c] ∧ b.multiply v = .ok out ∧
      ∀ r < p * c, (flat out).getD r 0 =
        ∑ s ∈ Finset.range (p * c), K.get [r, s] * (flat v).getD s 0 := by
  obtain ⟨out, h1, h2, h3, h4⟩ := C05_multiply p c b hA hG v hv
  have dense : ∀ (n : Nat) (f : Factor), f.Good n → f.denseCov = ofMat (f.covMat n) := by
    intro n f hf
    obtain ⟨hw, hf⟩ := hf
    unfold Factor.denseCov Factor.covMat
    split
    · rename_i hd
      simp only [hd, if_true] at hf
      have hdim : f.dim = n := by simp [Factor.dim, hf.1]
      rw [hdim]
      apply eq_ofMat (ofFn_wf _ _) rfl
      intro i j
      rw [get_ofFn _ (valid2 i.2 j.2)]
      show (if i.1 = j.1 then f.cov.get [i.1] else 0) = _
      rw [Matrix.diagonal_apply]
      simp [Fin.ext_iff]
    · rename_i hd
      simp only [hd, if_false, Bool.false_eq_true] at hf
      exact (ofMat_toMat hw hf.1).symm
  have hAd := dense p _ hA
  have hGd := dense c _ hG
  obtain ⟨k, k1, k2, k3, k4⟩ := C04_kronecker_entries b.input.denseCov b.output.denseCov p p c c
    (by rw [hAd]; exact ofMat_wf _) (by rw [hGd]; exact ofMat_wf _) (by rw [hAd]; rfl)
    (by rw [hGd]; rfl)
  refine ⟨scalarMul b.renorm k, out, ?_, k3, h1, ?_⟩
  · simp only [KBlock.fullFisherBlock, k1, bind, Except.bind, pure, Except.pure]
  · intro r hr
    obtain ⟨i, o, hi, ho, rfl⟩ := C04_indices_cover p c r hr
    have hc : 0 < c := by omega
    have h5 := h4 ⟨i, hi⟩ ⟨o, ho⟩
    simp only at h5
    rw [h5]
    have hk : ∀ i' o', i' < p → o' < c →
        (scalarMul b.renorm k).get [i * c + o, i' * c + o']
          = b.renorm * (b.input.denseCov.get [i, i'] * b.output.denseCov.get [o, o']) := by
      intro i' o' hi' ho'
      rw [← k4 i i' o o' hi hi' ho ho']
      have e : scalarMul b.renorm k = ofMat (b.renorm • toMat (p * c) (p * c) k) := by
        rw [← scalarMul_ofMat, ofMat_toMat k2 k3]
      have hb : i' * c + o' < p * c := by
        calc i' * c + o' < i' * c + c := by omega
          _ = (i' + 1) * c := by ring
          _ ≤ p * c := Nat.mul_le_mul_right _ hi'
      rw [e, ofMat_get' _ hr hb]
      rfl
    rw [sum_range_mul]
    apply Finset.sum_congr rfl; intro i' _
    apply Finset.sum_congr rfl; intro o' _
    rw [hk i' o' i'.2 o'.2, hAd, hGd, hd1, hd2]
    rw [ofMat_get' _ hi i'.2, ofMat_get' _ ho o'.2]
    simp [Factor.damped]

/-! ## C06 — multiply_inverse undoes multiply -/

/-- The block after the inverse update ops of both factors have run with the current dampings. -/
noncomputable def KBlock.refreshed (b : KBlock) : KBlock :=
  { b with input := b.input.updateInverse b.dIn, output := b.output.updateInverse b.dOut }

theorem updateInverse_matpowerOne (f : Factor) (d d' : ℝ) :
    (f.updateInverse d).matpowerOne d' = f.matpowerOne d' := by
  unfold Factor.updateInverse
  split
  · rfl
  · rfl

/-- For positive semidefinite statistics, positive dampings and a positive renormalisation,
`multiply_inverse(multiply(v)) = v` and `multiply(multiply_inverse(v)) = v`. -/
theorem C06_inverse (p c : Nat) (b : KBlock) (hA : b.input.Good p) (hG : b.output.Good c)
    (h1 : 0 < b.dIn) (h2 : 0 < b.dOut) (hr : 0 < b.renorm) (v : LayerParams ℝ) (hv : Fits p c v) :
    (b.refreshed.multiply v).bind b.refreshed.multiplyInverse = .ok v ∧
    (b.refreshed.multiplyInverse v).bind b.refreshed.multiply = .ok v := by
  have dA := (hA.posDef h1).isUnit
  have dG := (hG.posDef h2).isUnit
  rw [Matrix.isUnit_iff_isUnit_det] at dA dG
  have iA1 : (b.refreshed.input.matpowerOne b.dIn).Is p (b.input.damped p b.dIn) := by
    show ((b.input.updateInverse b.dIn).matpowerOne b.dIn).Is _ _
    rw [updateInverse_matpowerOne]; exact hA.matpowerOne_is _
  have iG1 : (b.refreshed.output.matpowerOne b.dOut).Is c (b.output.damped c b.dOut) := by
    show ((b.output.updateInverse b.dOut).matpowerOne b.dOut).Is _ _
    rw [updateInverse_matpowerOne]; exact hG.matpowerOne_is _
  have iA2 : (b.refreshed.input.matpowerInv b.dIn).Is p _ := hA.matpowerInv_is h1
  have iG2 : (b.refreshed.output.matpowerInv b.dOut).Is c _ := hG.matpowerInv_is h2
  have hr1 : b.renorm ^ (1 : ℝ) * b.renorm ^ (-1 : ℝ) = 1 := by
    rw [← Real.rpow_add hr]; norm_num
  constructor
  · obtain ⟨m, m1, m2, m3, m4⟩ := multiplyFactored_spec iA1 iG1 hv (b.renorm ^ (1 : ℝ)) false false
    obtain ⟨w, w1, w2, w3, w4⟩ := multiplyFactored_spec iA2 iG2 m3 (b.renorm ^ (-1 : ℝ)) false false
    have e : w = v := by
      refine w3.of_sameShape_eq hv (w2.trans' m2) ?_
      rw [w4, m4]
      simp only [tr?, Bool.false_eq_true, if_false, Matrix.mul_smul, Matrix.smul_mul, smul_smul]
      rw [mul_comm, hr1, one_smul]
      rw [← Matrix.mul_assoc, ← Matrix.mul_assoc, Matrix.nonsing_inv_mul _ dA, Matrix.one_mul,
        Matrix.mul_assoc, Matrix.mul_nonsing_inv _ dG, Matrix.mul_one]
    show (multiplyFactored _ _ _ _ _ _).bind _ = _
    erw [m1]
    show multiplyFactored _ _ _ _ _ _ = _
    erw [w1, e]
  · obtain ⟨m, m1, m2, m3, m4⟩ := multiplyFactored_spec iA2 iG2 hv (b.renorm ^ (-1 : ℝ)) false false
    obtain ⟨w, w1, w2, w3, w4⟩ := multiplyFactored_spec iA1 iG1 m3 (b.renorm ^ (1 : ℝ)) false false
    have e : w = v := by
      refine w3.of_sameShape_eq hv (w2.trans' m2) ?_
      rw [w4, m4]
      simp only [tr?, Bool.false_eq_true, if_false, Matrix.mul_smul, Matrix.smul_mul, smul_smul]
      rw [hr1, one_smul]
      rw [← Matrix.mul_assoc, ← Matrix.mul_assoc, Matrix.mul_nonsing_inv _ dA, Matrix.one_mul,
        Matrix.mul_assoc, Matrix.nonsing_inv_mul _ dG, Matrix.mul_one]
    show (multiplyFactored _ _ _ _ _ _).bind _ = _
    erw [m1]
    show multiplyFactored _ _ _ _ _ _ = _
    erw [w1, e]

/-! ## C07 — Cholesky operations -/

/-- The stored Cholesky variables of a factor are those of its damped statistics
(`tf.linalg.cholesky` and `tf.matrix_triangular_solve`, fisher_factors.py 855-880): `L Lᵀ` is the damped
matrix and the stored inverse solves `L X = I`. Diagonal factors compute both on demand. -/
def Factor.CholeskyStored (n : Nat) (f : Factor) (d : ℝ) : Prop :=
  f.isDiag = true ∨ ∃ L X : Matrix (Fin n) (Fin n) ℝ, f.cholesky = ofMat L ∧
    f.choleskyInverse = ofMat X ∧ L * L.transpose = f.damped n d ∧ L * X = 1

theorem Factor.Good.cholesky_is {n : Nat} {f : Factor} (h : f.Good n) {d : ℝ} (hd : 0 < d)
    (hc : f.CholeskyStored n d) :
    ∃ L X : Matrix (Fin n) (Fin n) ℝ, (f.choleskyOp d).Is n L ∧ (f.choleskyInvOp d).Is n X ∧
      L * L.transpose = f.damped n d ∧ L * X = 1 := by
  by_cases hdiag : f.isDiag = true
  · obtain ⟨hw, h⟩ := h
    simp only [hdiag, if_true] at h
    refine ⟨_, _, by rw [Factor.choleskyOp, if_pos hdiag]; exact diagIs hw h.1 _,
      by rw [Factor.choleskyInvOp, if_pos hdiag]; exact diagIs hw h.1 _, ?_, ?_⟩
    · rw [Matrix.diagonal_transpose, Matrix.diagonal_mul_diagonal, Factor.damped, Factor.covMat,
        if_pos hdiag, Matrix.smul_one_eq_diagonal, Matrix.diagonal_add]
      congr 1
      funext i
      have hp : 0 < f.cov.get [i.1] + d := by have := h.2 i i.2; linarith
      rw [← Real.rpow_add hp]; norm_num
    · rw [Matrix.diagonal_mul_diagonal, ← Matrix.diagonal_one]
      congr 1
      funext i
      have hp : 0 < f.cov.get [i.1] + d := by have := h.2 i i.2; linarith
      rw [← Real.rpow_add hp]; norm_num
  · rcases hc with hc | ⟨L, X, h1, h2, h3, h4⟩
    · exact absurd hc hdiag
    · refine ⟨L, X, ?_, ?_, h3, h4⟩
      · rw [Factor.choleskyOp, if_neg hdiag]; exact h1
      · rw [Factor.choleskyInvOp, if_neg hdiag]; exact h2

/-- `multiply_cholesky(multiply_cholesky(v, transpose=True)) = multiply(v)`. -/
theorem C07_cholesky_factors (p c : Nat) (b : KBlock) (hA : b.input.Good p) (hG : b.output.Good c)
    (h1 : 0 < b.dIn) (h2 : 0 < b.dOut) (hr : 0 < b.renorm)
    (cA : b.input.CholeskyStored p b.dIn) (cG : b.output.CholeskyStored c b.dOut)
    (v : LayerParams ℝ) (hv : Fits p c v) :
    ∃ out, b.multiply v = .ok out ∧
      (b.multiplyCholesky v true).bind (b.multiplyCholesky · false) = .ok out := by
  obtain ⟨LA, XA, a1, a2, a3, a4⟩ := hA.cholesky_is h1 cA
  obtain ⟨LG, XG, g1, g2, g3, g4⟩ := hG.cholesky_is h2 cG
  obtain ⟨out, o1, o2, o3, o4⟩ := multiplyFactored_spec (hA.matpowerOne_is b.dIn)
    (hG.matpowerOne_is b.dOut) hv (b.renorm ^ (1 : ℝ)) false false
  obtain ⟨m, m1, m2, m3, m4⟩ := multiplyFactored_spec a1 g1 hv (b.renorm ^ (1 / 2 : ℝ)) true false
  obtain ⟨w, w1, w2, w3, w4⟩ := multiplyFactored_spec a1 g1 m3 (b.renorm ^ (1 / 2 : ℝ)) false true
  have e : w = out := by
    refine w3.of_sameShape_eq o3 ?_ ?_
    · have hwv := w2.trans' m2
      cases v <;> cases w <;> cases out <;> simp_all [SameShape]
    · rw [w4, m4, o4]
      simp only [tr?, Bool.false_eq_true, if_false, if_true, Matrix.mul_smul, Matrix.smul_mul,
        smul_smul]
      rw [← Real.rpow_add hr, ← a3, ← g3]
      simp only [Matrix.mul_assoc]
      norm_num
  refine ⟨out, o1, ?_⟩
  show (multiplyFactored _ _ _ _ _ _).bind _ = _
  erw [m1]
  show multiplyFactored _ _ _ _ _ _ = _
  erw [w1, e]

/-- `multiply_cholesky_inverse` undoes `multiply_cholesky`, for both values of `transpose`. -/
theorem C07_cholesky_inverse (p c : Nat) (b : KBlock) (hA : b.input.Good p) (hG : b.output.Good c)
    (h1 : 0 < b.dIn) (h2 : 0 < b.dOut) (hr : 0 < b.renorm)
    (cA : b.input.CholeskyStored p b.dIn) (cG : b.output.CholeskyStored c b.dOut)
    (v : LayerParams ℝ) (hv : Fits p c v) (t : Bool) :
    (b.multiplyCholesky v t).bind (b.multiplyCholeskyInverse · t) = .ok v ∧
    (b.multiplyCholeskyInverse v t).bind (b.multiplyCholesky · t) = .ok v := by
  obtain ⟨LA, XA, a1, a2, a3, a4⟩ := hA.cholesky_is h1 cA
  obtain ⟨LG, XG, g1, g2, g3, g4⟩ := hG.cholesky_is h2 cG
  have a5 : XA * LA = 1 := mul_eq_one_comm.1 a4
  have g5 : XG * LG = 1 := mul_eq_one_comm.1 g4
  have a4t : XA.transpose * LA.transpose = 1 := by
    rw [← Matrix.transpose_mul, a4, Matrix.transpose_one]
  have a5t : LA.transpose * XA.transpose = 1 := by
    rw [← Matrix.transpose_mul, a5, Matrix.transpose_one]
  have g4t : XG.transpose * LG.transpose = 1 := by
    rw [← Matrix.transpose_mul, g4, Matrix.transpose_one]
  have g5t : LG.transpose * XG.transpose = 1 := by
    rw [← Matrix.transpose_mul, g5, Matrix.transpose_one]
  have hr1 : b.renorm ^ (1 / 2 : ℝ) * b.renorm ^ (-(1 / 2) : ℝ) = 1 := by
    rw [← Real.rpow_add hr]; norm_num
  constructor
  · obtain ⟨m, m1, m2, m3, m4⟩ := multiplyFactored_spec a1 g1 hv (b.renorm ^ (1 / 2 : ℝ)) t (!t)
    obtain ⟨w, w1, w2, w3, w4⟩ := multiplyFactored_spec a2 g2 m3 (b.renorm ^ (-(1 / 2) : ℝ)) t (!t)
    have e : w = v := by
      refine w3.of_sameShape_eq hv (w2.trans' m2) ?_
      rw [w4, m4]
      simp only [Matrix.mul_smul, Matrix.smul_mul, smul_smul]
      rw [mul_comm, hr1, one_smul, ← Matrix.mul_assoc, ← Matrix.mul_assoc, Matrix.mul_assoc]
      cases t <;> simp only [tr?, Bool.not_false, Bool.not_true, if_true, if_false,
        Bool.false_eq_true]
      · rw [a5, Matrix.one_mul, g5t, Matrix.mul_one]
      · rw [a4t, Matrix.one_mul, g4, Matrix.mul_one]
    show (multiplyFactored _ _ _ _ _ _).bind _ = _
    erw [m1]
    show multiplyFactored _ _ _ _ _ _ = _
    erw [w1, e]
  · obtain ⟨m, m1, m2, m3, m4⟩ := multiplyFactored_spec a2 g2 hv (b.renorm ^ (-(1 / 2) : ℝ)) t (!t)
    obtain ⟨w, w1, w2, w3, w4⟩ := multiplyFactored_spec a1 g1 m3 (b.renorm ^ (1 / 2 : ℝ)) t (!t)
    have e : w = v := by
      refine w3.of_sameShape_eq hv (w2.trans' m2) ?_
      rw [w4, m4]
      simp only [Matrix.mul_smul, Matrix.smul_mul, smul_smul]
      rw [hr1, one_smul, ← Matrix.mul_assoc, ← Matrix.mul_assoc, Matrix.mul_assoc]
      cases t <;> simp only [tr?, Bool.not_false, Bool.not_true, if_true, if_false,
        Bool.false_eq_true]
      · rw [a4, Matrix.one_mul, g4t, Matrix.mul_one]
      · rw [a5t, Matrix.one_mul, g5, Matrix.mul_one]
    show (multiplyFactored _ _ _ _ _ _).bind _ = _
    erw [m1]
    show multiplyFactored _ _ _ _ _ _ = _
    erw [w1, e]

/-! ## C08 — the damping split -/

theorem setupDamping_eq (k : PiRule) (power lt rt d : ℝ) (ld rd : Nat) (norm : Option ℝ) :
    setupDamping k power lt ld rt rd d norm
      = piAdjustedDamping k lt ld rt rd ((norm.elim d (normalizeDamping power d)) ^ (1 / 2 : ℝ)) := by
  cases norm <;> rfl

/-- Positive damping, positive normalisation, positive dimensions and non-negative traces: the two
dampings are positive, their product is the normalised damping, and, when both traces are positive, the
ratio of the dampings is the ratio of the average traces; when a trace is zero the split is even. -/
theorem C08_split (power lt rt d : ℝ) (ld rd : Nat) (norm : Option ℝ) (hd : 0 < d)
    (hld : 0 < ld) (hrd : 0 < rd) (hlt : 0 ≤ lt) (hrt : 0 ≤ rt) (hn : ∀ n ∈ norm, 0 < n) :
    ∃ d1 d2, setupDamping .tracenorm power lt ld rt rd d norm = .ok (d1, d2) ∧ 0 < d1 ∧ 0 < d2 ∧
      d1 * d2 = norm.elim d (fun n => d / n ^ power) ∧
      ((0 < lt ∧ 0 < rt) → d1 / d2 = (lt / ld) / (rt / rd)) ∧
      ((lt = 0 ∨ rt = 0) → d1 = d2) := by
  have hld' : (0 : ℝ) < ld := by exact_mod_cast hld
  have hrd' : (0 : ℝ) < rd := by exact_mod_cast hrd
  -- the normalised damping
  obtain ⟨e, he, hepos, heq⟩ : ∃ e : ℝ, e = norm.elim d (fun n => d / n ^ power) ∧ 0 < e ∧
      norm.elim d (normalizeDamping power d) = e := by
    refine ⟨_, rfl, ?_, ?_⟩
    · cases norm with
      | none => exact hd
      | some n =>
        have := Real.rpow_pos_of_pos (hn n rfl) power
        simp only [Option.elim]; positivity
    · cases norm with
      | none => rfl
      | some n =>
        simp only [normalizeDamping, Option.elim]
        split
        · rfl
        · rename_i h
          simp only [ne_eq, not_not] at h
          simp [h]
  rw [← he]
  have hs : e ^ (1 / 2 : ℝ) * e ^ (1 / 2 : ℝ) = e := by
    rw [← Real.rpow_add hepos]; norm_num
  have hs0 : 0 < e ^ (1 / 2 : ℝ) := Real.rpow_pos_of_pos hepos _
  by_cases hz : lt * rd * (rt * ld) = 0
  · refine ⟨e ^ (1 / 2 : ℝ), e ^ (1 / 2 : ℝ), ?_, hs0, hs0, hs, ?_, fun _ => rfl⟩
    · simp only [setupDamping_eq, heq, piAdjustedDamping, piTracenorm, hz, if_true, bind, Except.bind,
        pure, Except.pure, mul_one, div_one]
    · rintro ⟨h1, h2⟩
      exfalso
      have : 0 < lt * rd * (rt * ld) := by positivity
      linarith
  · have hlt' : 0 < lt := lt_of_le_of_ne hlt (by rintro rfl; simp at hz)
    have hrt' : 0 < rt := lt_of_le_of_ne hrt (by rintro rfl; simp at hz)
    have hR : 0 < rt * (ld : ℝ) := by positivity
    have hq : 0 < lt * rd / (rt * ld) := by positivity
    have hpi : 0 < Real.sqrt (lt * rd / (rt * ld)) := Real.sqrt_pos.2 hq
    refine ⟨e ^ (1 / 2 : ℝ) * Real.sqrt (lt * rd / (rt * ld)),
      e ^ (1 / 2 : ℝ) / Real.sqrt (lt * rd / (rt * ld)), ?_, by positivity, by positivity, ?_, ?_, ?_⟩
    · simp only [setupDamping_eq, heq, piAdjustedDamping, piTracenorm, hz, if_false, hR, if_true, bind,
        Except.bind, pure, Except.pure]
    · rw [mul_div_assoc', mul_right_comm, hs, mul_div_assoc, div_self hpi.ne', mul_one]
    · intro _
      have hsq : Real.sqrt (lt * rd / (rt * ld)) * Real.sqrt (lt * rd / (rt * ld))
          = lt * rd / (rt * ld) := Real.mul_self_sqrt hq.le
      have : e ^ (1 / 2 : ℝ) * Real.sqrt (lt * rd / (rt * ld))
          / (e ^ (1 / 2 : ℝ) / Real.sqrt (lt * rd / (rt * ld)))
          = Real.sqrt (lt * rd / (rt * ld)) * Real.sqrt (lt * rd / (rt * ld)) := by
        field_simp
      rw [this, hsq]
      field_simp
    · rintro (h | h)
      · exact absurd h hlt'.ne'
      · exact absurd h hrt'.ne'

/-- With the default normalisation power 1, for every Kronecker block of the library with at least one
location and use, the identity component `renorm · d1 · d2` of the damped block is exactly the damping. -/
theorem C08_total_damping (k : KronKind) (lt rt d : ℝ) (ld rd : Nat) (hd : 0 < d)
    (hld : 0 < ld) (hrd : 0 < rd) (hlt : 0 ≤ lt) (hrt : 0 ≤ rt) (hk : 0 < k.renorm) :
    ∃ d1 d2, setupDamping .tracenorm 1 lt ld rt rd d k.normalization = .ok (d1, d2) ∧
      0 < d1 ∧ 0 < d2 ∧ k.renorm * (d1 * d2) = d := by
  have hn : ∀ n ∈ k.normalization, 0 < n := by
    intro n h
    cases k <;> simp only [KronKind.normalization, Option.mem_def, Option.some.injEq,
      reduceCtorEq] at h <;> subst h <;> exact hk
  obtain ⟨d1, d2, h1, p1, p2, h4, _, _⟩ :=
    C08_split 1 lt rt d ld rd k.normalization hd hld hrd hlt hrt hn
  refine ⟨d1, d2, h1, p1, p2, ?_⟩
  rw [h4]
  cases k <;> simp only [KronKind.normalization, KronKind.renorm, Option.elim, Real.rpow_one,
    one_mul] <;> exact mul_div_cancel₀ _ hk.ne'

/-- With `PI_TYPE = "off"` the split is always even, with the same total. -/
theorem C08_off (power lt rt d : ℝ) (ld rd : Nat) (hd : 0 < d) :
    ∃ d1 d2, setupDamping .off power lt ld rt rd d none = .ok (d1, d2) ∧ d1 = d2 ∧ d1 * d2 = d := by
  refine ⟨_, _, rfl, rfl, ?_⟩
  rw [← Real.rpow_add hd]; norm_num

/-- A negative trace of the output factor (diverged statistics) is reported instead of producing a
damping. -/
theorem C08_negative_trace_rejected (lt rt : ℝ) (ld rd : Nat) (hld : 0 < ld) (hrd : 0 < rd)
    (hlt : lt ≠ 0) (hrt : rt < 0) :
    ∃ e, piTracenorm lt ld rt rd = .error e := by
  have hld' : (0 : ℝ) < ld := by exact_mod_cast hld
  have hrd' : (0 : ℝ) < rd := by exact_mod_cast hrd
  have h1 : lt * rd * (rt * ld) ≠ 0 := by
    have := hrt.ne
    positivity
  have h2 : ¬ 0 < rt * (ld : ℝ) := by
    have := mul_neg_of_neg_of_pos hrt hld'
    linarith
  exact ⟨"PI computation, trace of right cov matrix should be positive.", by
    simp only [piTracenorm, h1, h2, if_false]⟩

/-! ## The hypotheses are satisfiable -/

/-- A dense input factor of dimension 3 (two inputs and a bias), with a Cholesky factor. -/
noncomputable def exIn : Factor :=
  { isDiag := false, cov := ofMat ((3 : ℝ) • 1 : Matrix (Fin 3) (Fin 3) ℝ), inverse := ⟨[], []⟩,
    cholesky := ofMat ((2 : ℝ) • 1 : Matrix (Fin 3) (Fin 3) ℝ),
    choleskyInverse := ofMat ((1 / 2 : ℝ) • 1 : Matrix (Fin 3) (Fin 3) ℝ) }

/-- A diagonal output factor of dimension 2. -/
noncomputable def exOut : Factor :=
  { isDiag := true, cov := ⟨[2], [1, 5]⟩, inverse := ⟨[], []⟩, cholesky := ⟨[], []⟩,
    choleskyInverse := ⟨[], []⟩ }

/-- A block with a weight of shape `[2,2]` and a bias, damping 1 on the input and 2 on the output. -/
noncomputable def exBlock : KBlock := ⟨exIn, exOut, 1, 2, 4⟩

theorem exBlock_good : exBlock.input.Good 3 ∧ exBlock.output.Good 2 ∧ 0 < exBlock.dIn ∧ 0 < exBlock.dOut ∧
    0 < exBlock.renorm ∧ exBlock.input.CholeskyStored 3 exBlock.dIn ∧
    exBlock.output.CholeskyStored 2 exBlock.dOut ∧
    Fits 3 2 (.weightBias ⟨[2, 2], [1, 2, 3, 4]⟩ ⟨[2], [5, 6]⟩) := by
  refine ⟨⟨ofMat_wf _, rfl, ?_⟩, ⟨rfl, rfl, ?_⟩, ?_, ?_, ?_, Or.inr ⟨_, _, rfl, rfl, ?_, ?_⟩,
    Or.inl rfl, rfl, rfl, by norm_num, rfl, rfl, rfl⟩
  · show (toMat 3 3 (ofMat _)).PosSemidef
    rw [toMat_ofMat]
    exact Matrix.PosSemidef.one.smul (by norm_num : (0 : ℝ) ≤ 3)
  · intro i hi
    interval_cases i
    · show (0 : ℝ) ≤ 1
      norm_num
    · show (0 : ℝ) ≤ 5
      norm_num
  · show (0 : ℝ) < 1
    norm_num
  · show (0 : ℝ) < 2
    norm_num
  · show (0 : ℝ) < 4
    norm_num
  · show _ = toMat 3 3 (ofMat _) + (1 : ℝ) • 1
    rw [toMat_ofMat, Matrix.transpose_smul, Matrix.transpose_one, Matrix.smul_mul, Matrix.one_mul,
      smul_smul, ← add_smul]
    norm_num
  · rw [Matrix.smul_mul, Matrix.one_mul, smul_smul]
    norm_num

example : (0 : ℝ) < 0.01 ∧ (0 : ℝ) < (KronKind.convMulti 16 3).renorm := by
  norm_num [KronKind.renorm]

end Kfac.Block
