import Verif.Factor.Dense
import Mathlib.Analysis.Matrix.LDL
import Mathlib.Analysis.Matrix.Spectrum
import Mathlib.LinearAlgebra.Matrix.Block
import Mathlib.Tactic.Linarith

/-! # Linear algebra for dense factors -/

namespace Kfac.Factor

open Matrix

variable {k : ℕ}

/-- Specification: positive semidefinite. -/
def Psd (A : Mat k) : Prop := A.IsSymm ∧ ∀ v, 0 ≤ v ⬝ᵥ A *ᵥ v

/-- Specification: positive definite. -/
def Pd (A : Mat k) : Prop := A.IsSymm ∧ ∀ v, v ≠ 0 → 0 < v ⬝ᵥ A *ᵥ v

/-- Specification: `X` is the real power `A ** p` of a symmetric matrix: it acts on every eigenvector of `A` by
the power of the eigenvalue. -/
def IsPower (A : Mat k) (p : ℝ) (X : Mat k) : Prop :=
  ∀ (v : Fin k → ℝ) (a : ℝ), A *ᵥ v = a • v → X *ᵥ v = (a ^ p) • v

theorem Psd.add_damping {A : Mat k} (hA : Psd A) {d : ℝ} (hd : 0 < d) : Pd (A + d • 1) := by
  refine ⟨?_, fun v hv => ?_⟩
  · have h := hA.1
    unfold Matrix.IsSymm at h ⊢
    rw [transpose_add, transpose_smul, transpose_one, h]
  · have h1 : 0 < v ⬝ᵥ v := by
      rcases Function.ne_iff.1 hv with ⟨i, hi⟩
      have : 0 < v i * v i := mul_self_pos.2 hi
      exact lt_of_lt_of_le this (Finset.single_le_sum (f := fun i => v i * v i)
        (fun j _ => mul_self_nonneg (v j)) (Finset.mem_univ i))
    rw [add_mulVec, dotProduct_add, smul_mulVec, one_mulVec, dotProduct_smul, smul_eq_mul]
    have := hA.2 v
    have := mul_pos hd h1
    linarith

theorem Pd.det_ne_zero {A : Mat k} (hA : Pd A) : A.det ≠ 0 := by
  intro h
  obtain ⟨v, hv, h0⟩ := Matrix.exists_mulVec_eq_zero_iff.2 h
  have := hA.2 v hv
  rw [h0, dotProduct_zero] at this
  exact lt_irrefl _ this

theorem Pd.eigen_pos {A : Mat k} (hA : Pd A) {v : Fin k → ℝ} (hv : v ≠ 0) {a : ℝ} (h : A *ᵥ v = a • v) :
    0 < a := by
  have h1 := hA.2 v hv
  rw [h, dotProduct_smul, smul_eq_mul] at h1
  have h2 : 0 ≤ v ⬝ᵥ v := Finset.sum_nonneg fun i _ => mul_self_nonneg (v i)
  by_contra ha
  have := mul_nonneg_of_nonpos_of_nonpos (a := a) (b := -(v ⬝ᵥ v)) (not_lt.1 ha) (by linarith)
  linarith [this, mul_neg a (v ⬝ᵥ v)]

theorem Pd.posDef {A : Mat k} (hA : Pd A) : A.PosDef := by
  rw [Matrix.posDef_iff_dotProduct_mulVec]
  refine ⟨?_, fun v hv => ?_⟩
  · have := hA.1
    unfold Matrix.IsSymm at this
    rw [Matrix.IsHermitian, conjTranspose_eq_transpose_of_trivial, this]
  · simpa using hA.2 v hv

theorem isHermitian_of_isSymm {A : Mat k} (h : A.IsSymm) : A.IsHermitian := by
  rw [Matrix.IsHermitian, conjTranspose_eq_transpose_of_trivial]; exact h

/-- Every symmetric matrix has an orthonormal eigendecomposition. -/
theorem exists_eig (A : Mat k) (h : A.IsSymm) :
    ∃ e : (Fin k → ℝ) × Mat k, e.2ᵀ * e.2 = 1 ∧ A = e.2 * diagonal e.1 * e.2ᵀ := by
  have hA := isHermitian_of_isSymm h
  refine ⟨(hA.eigenvalues, (hA.eigenvectorUnitary : Mat k)), ?_, ?_⟩
  · have := Unitary.coe_star_mul_self hA.eigenvectorUnitary
    rwa [star_eq_conjTranspose, conjTranspose_eq_transpose_of_trivial] at this
  · have := hA.spectral_theorem
    rw [Unitary.conjStarAlgAut_apply, star_eq_conjTranspose, conjTranspose_eq_transpose_of_trivial] at this
    exact this

/-- Every positive definite matrix has a Cholesky factor. -/
theorem exists_chol (A : Mat k) (h : Pd A) :
    ∃ L : Mat k, (∀ i j, i < j → L i j = 0) ∧ L * Lᵀ = A := by
  have hA := h.posDef
  have hlow : ∀ i j, i < j → LDL.lower hA i j = 0 := by
    have h1 : (LDL.lowerInv hA).BlockTriangular OrderDual.toDual := by
      intro i j hij
      exact LDL.lowerInv_triangular hA hij
    have := blockTriangular_inv_of_blockTriangular h1
    intro i j hij
    exact this hij
  have hdiag : ∀ i, 0 ≤ LDL.diagEntries hA i := by
    intro i
    have h1 := congrFun (congrFun (LDL.diag_eq_lowerInv_conj hA) i) i
    rw [LDL.diag, diagonal_apply_eq] at h1
    rw [h1, mul_mul_apply]
    have := hA.posSemidef.dotProduct_mulVec_nonneg (LDL.lowerInv hA i)
    simpa using this
  refine ⟨LDL.lower hA * diagonal fun i => Real.sqrt (LDL.diagEntries hA i), ?_, ?_⟩
  · intro i j hij
    rw [mul_diagonal, hlow i j hij, zero_mul]
  · have h1 := LDL.lower_conj_diag hA
    rw [conjTranspose_eq_transpose_of_trivial] at h1
    rw [transpose_mul, diagonal_transpose, Matrix.mul_assoc, ← Matrix.mul_assoc (diagonal _), diagonal_mul_diagonal]
    rw [Matrix.mul_assoc, LDL.diag] at h1
    have : (fun i => Real.sqrt (LDL.diagEntries hA i) * Real.sqrt (LDL.diagEntries hA i)) =
        LDL.diagEntries hA := by
      funext i; exact Real.mul_self_sqrt (hdiag i)
    rw [this]
    exact h1

open Classical in
/-- Ops with the documented behaviour exist. -/
theorem exists_good (k : ℕ) : ∃ la : Linalg k, la.Good := by
  refine ⟨⟨fun A => if h : A.IsSymm then (exists_eig A h).choose else (0, 0),
    fun A => if h : Pd A then (exists_chol A h).choose else 0⟩, ?_, ?_, ?_, ?_⟩
  · intro A h; simp only [dif_pos h]; exact (exists_eig A h).choose_spec.1
  · intro A h; simp only [dif_pos h]; exact (exists_eig A h).choose_spec.2
  · intro A h h'; simp only [dif_pos (show Pd A from ⟨h, h'⟩)]; exact (exists_chol A ⟨h, h'⟩).choose_spec.1
  · intro A h h'; simp only [dif_pos (show Pd A from ⟨h, h'⟩)]; exact (exists_chol A ⟨h, h'⟩).choose_spec.2

/-- `U diag(w) Uᵀ` acts on an eigenvector of `U diag(e) Uᵀ`. -/
theorem conj_eigen {U : Mat k} (hU : Uᵀ * U = 1) (e w : Fin k → ℝ) (v : Fin k → ℝ) (a b : ℝ)
    (hv : (U * diagonal e * Uᵀ) *ᵥ v = a • v) (hw : ∀ i, e i = a → w i = b) :
    (U * diagonal w * Uᵀ) *ᵥ v = b • v := by
  have hU' : U * Uᵀ = 1 := mul_eq_one_comm.1 hU
  set x := Uᵀ *ᵥ v with hx
  have hUx : U *ᵥ x = v := by rw [hx, mulVec_mulVec, hU', one_mulVec]
  have h1 : diagonal e *ᵥ x = a • x := by
    have := congrArg (fun y => Uᵀ *ᵥ y) hv
    simp only [mulVec_smul, ← hx] at this
    rw [← this, hx, mulVec_mulVec, mulVec_mulVec, ← Matrix.mul_assoc, ← Matrix.mul_assoc, hU, Matrix.one_mul]
  have h2 : diagonal w *ᵥ x = b • x := by
    funext i
    have := congrFun h1 i
    simp only [mulVec_diagonal, Pi.smul_apply, smul_eq_mul] at this ⊢
    by_cases h0 : x i = 0
    · rw [h0]; simp
    · rw [hw i (mul_right_cancel₀ h0 this)]
  rw [← mulVec_mulVec, ← mulVec_mulVec, ← hx, h2, mulVec_smul, hUx]

theorem conj_add {U : Mat k} (hU : Uᵀ * U = 1) (e : Fin k → ℝ) (d : ℝ) :
    U * diagonal e * Uᵀ + d • (1 : Mat k) = U * diagonal (fun i => e i + d) * Uᵀ := by
  have hU' : U * Uᵀ = 1 := mul_eq_one_comm.1 hU
  have : diagonal (fun i => e i + d) = diagonal e + d • (1 : Mat k) := by
    rw [← diagonal_one, ← diagonal_smul, diagonal_add]
    congr 1; funext i; simp
  rw [this, Matrix.mul_add, Matrix.add_mul, Matrix.mul_smul, Matrix.smul_mul, Matrix.mul_one, hU']

theorem isPower_unique {A : Mat k} (hA : A.IsSymm) {p : ℝ} {X Y : Mat k} (hX : IsPower A p X)
    (hY : IsPower A p Y) : X = Y := by
  obtain ⟨⟨e, U⟩, hU, h⟩ := exists_eig A hA
  simp only at hU h
  have hU' : U * Uᵀ = 1 := mul_eq_one_comm.1 hU
  have hcol : ∀ j, A *ᵥ (fun i => U i j) = e j • fun i => U i j := by
    intro j
    have : A * U = U * diagonal e := by rw [h, Matrix.mul_assoc, hU, Matrix.mul_one]
    funext i
    have := congrFun (congrFun this i) j
    rw [mul_diagonal, mul_apply] at this
    simp only [mulVec, dotProduct, Pi.smul_apply, smul_eq_mul]
    rw [this, mul_comm]
  have : X * U = Y * U := by
    ext i j
    have h1 := congrFun (hX _ _ (hcol j)) i
    have h2 := congrFun (hY _ _ (hcol j)) i
    rw [mul_apply, mul_apply]
    exact h1.trans h2.symm
  calc X = X * (U * Uᵀ) := by rw [hU', Matrix.mul_one]
    _ = Y * (U * Uᵀ) := by rw [← Matrix.mul_assoc, this, Matrix.mul_assoc]
    _ = Y := by rw [hU', Matrix.mul_one]

theorem isPower_inv {A : Mat k} (hA : Pd A) : IsPower A (-1) A⁻¹ := by
  intro v a h
  by_cases hv : v = 0
  · rw [hv]; simp
  have ha := hA.eigen_pos hv h
  have hdet : IsUnit A.det := isUnit_iff_ne_zero.2 hA.det_ne_zero
  have h1 : v = a • A⁻¹ *ᵥ v := by
    rw [← mulVec_smul, ← h, mulVec_mulVec, nonsing_inv_mul _ hdet, one_mulVec]
  rw [Real.rpow_neg_one]
  calc A⁻¹ *ᵥ v = a⁻¹ • (a • A⁻¹ *ᵥ v) := by rw [smul_smul, inv_mul_cancel₀ ha.ne', one_smul]
    _ = a⁻¹ • v := by rw [← h1]

/-- Powers multiply: with this and uniqueness, the power 1/2 is a square root, the power -1/2 of `A` squared is
the inverse, and so on. -/
theorem isPower_mul {A : Mat k} (hA : Pd A) {p q : ℝ} {X Y : Mat k} (hX : IsPower A p X) (hY : IsPower A q Y) :
    IsPower A (p + q) (X * Y) := by
  intro v a h
  by_cases hv : v = 0
  · rw [hv]; simp
  rw [← mulVec_mulVec, hY v a h, mulVec_smul, hX v a h, smul_smul, Real.rpow_add (hA.eigen_pos hv h), mul_comm]

theorem isPower_one {A : Mat k} : IsPower A 1 A := by
  intro v a h
  rw [h, Real.rpow_one]

theorem isPower_zero {A : Mat k} : IsPower A 0 1 := by
  intro v a h
  simp

end Kfac.Factor
