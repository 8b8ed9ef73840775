import Verif.Block.Sparse
import Verif.Block.Props
import Mathlib.LinearAlgebra.Matrix.Notation

/-! # C84: sparse vectors in Kronecker blocks -/

namespace Kfac.Block
open Kfac Kfac.Params Tensor

/-! ### Specification -/

/-- The `IndexedSlices` with the slices `V` at the rows `ids` of a matrix with `p` rows. -/
def slices {k p c : ℕ} (ids : Fin k → Fin p) (V : Matrix (Fin k) (Fin c) ℝ) : Slices :=
  ⟨p, c, List.ofFn fun e => (ids e : ℕ), ofMat V⟩

/-- The matrix it stands for: slices with the same index are added, rows without a slice are zero. -/
def densify {k p c : ℕ} (ids : Fin k → Fin p) (V : Matrix (Fin k) (Fin c) ℝ) : Matrix (Fin p) (Fin c) ℝ :=
  fun i j => ∑ e, if ids e = i then V e j else 0

/-! ### Lemmas -/

theorem densify_mul {k p c d : ℕ} (ids : Fin k → Fin p) (V : Matrix (Fin k) (Fin c) ℝ) (M : Matrix (Fin c) (Fin d) ℝ) :
    densify ids (V * M) = densify ids V * M := by
  ext i j
  simp only [densify, Matrix.mul_apply, Finset.sum_mul]
  rw [Finset.sum_comm]
  refine Finset.sum_congr rfl fun e _ => ?_
  split <;> simp

theorem densify_diag {k p c : ℕ} (ids : Fin k → Fin p) (V : Matrix (Fin k) (Fin c) ℝ) (d : Fin p → ℝ) :
    densify ids (Matrix.diagonal (fun e => d (ids e)) * V) = Matrix.diagonal d * densify ids V := by
  ext i j
  simp only [densify, Matrix.diagonal_mul, Finset.mul_sum]
  refine Finset.sum_congr rfl fun e _ => ?_
  split
  · rename_i h; rw [h]
  · simp

theorem densify_smul {k p c : ℕ} (ids : Fin k → Fin p) (V : Matrix (Fin k) (Fin c) ℝ) (s : ℝ) :
    densify ids (s • V) = s • densify ids V := by
  ext i j
  simp only [densify, Matrix.smul_apply, smul_eq_mul, Finset.mul_sum, mul_ite, mul_zero]

theorem weight_eq {p c : ℕ} (hc : c ≠ 0) (M : Matrix (Fin p) (Fin c) ℝ) :
    Fits p c (.weight (ofMat M)) ∧ grid p c (.weight (ofMat M)) = M := by
  have hf : Fits p c (.weight (ofMat M)) := ⟨ofMat_wf M, by simp, hc, by simp⟩
  refine ⟨hf, ?_⟩
  have := ofMat_grid hf
  have h2 : ofMat (grid p c (.weight (ofMat M))) = ofMat M := this
  rw [← toMat_ofMat (grid p c (.weight (ofMat M))), h2, toMat_ofMat]

theorem multiply_weight {p c : ℕ} (hc : c ≠ 0) {L R : LinOp} {ML : Matrix (Fin p) (Fin p) ℝ} {MR : Matrix (Fin c) (Fin c) ℝ}
    (hL : L.Is p ML) (hR : R.Is c MR) (M : Matrix (Fin p) (Fin c) ℝ) (s : ℝ) (tl tr : Bool) :
    multiplyFactored L R (.weight (ofMat M)) s tl tr = .ok (.weight (ofMat (s • (tr? tl ML * M * tr? tr MR)))) := by
  obtain ⟨hf, hg⟩ := weight_eq hc M
  obtain ⟨out, h1, h2, h3, h4⟩ := multiplyFactored_spec hL hR hf s tl tr
  rw [hg] at h4
  obtain ⟨hf', hg'⟩ := weight_eq hc (s • (tr? tl ML * M * tr? tr MR))
  rw [h1, Fits.of_sameShape_eq h3 hf' ?_ (h4.trans hg'.symm)]
  cases out with
  | weight w => exact h2
  | weightBias w b => exact h2.elim

theorem matmulDiag_slices {k p c : ℕ} {d : Tensor ℝ} (hs : d.shape = [p]) (ids : Fin k → Fin p) (V : Matrix (Fin k) (Fin c) ℝ) :
    matmulDiagSparse d (slices ids V) = .ok (slices ids (Matrix.diagonal (fun e => d.get [(ids e).1]) * V)) := by
  have hall : (slices ids V).indices.all (· < d.shape.getD 0 0) = true := by
    rw [List.all_eq_true]
    intro i hi
    obtain ⟨e, rfl⟩ := (List.mem_ofFn' _ _).1 hi
    simp [hs]
  have hv : (ofFn [k, c] fun idx => d.get [(List.ofFn fun e => (ids e : ℕ)).getD (idx.getD 0 0) 0] * (ofMat V).get idx) =
      ofMat (Matrix.diagonal (fun e => d.get [(ids e).1]) * V) := by
    apply eq_ofMat (ofFn_wf _ _) rfl
    intro i j
    rw [get_ofFn _ (valid2 i.2 j.2), ofMat_get, Matrix.diagonal_mul]
    simp
  have h1 : ¬ d.shape.length ≠ 1 := by simp [hs]
  have h2 : ¬ (slices ids V).values.shape.length ≠ 2 := by simp [slices]
  rw [matmulDiagSparse, if_neg h1, if_neg h2, if_neg (by simp only [hall]; simp)]
  show Except.ok (Slices.mk p c _ _) = _
  unfold slices
  rw [← hv]
  rfl

theorem matmulSparseDense_slices {k p c q : ℕ} (ids : Fin k → Fin p) (V : Matrix (Fin k) (Fin c) ℝ) (M : Matrix (Fin c) (Fin q) ℝ) :
    matmulSparseDense (slices ids V) (ofMat M) false false = .ok (slices ids (V * M)) := by
  have h1 : ¬ (slices ids V).values.shape.length ≠ 2 := by simp [slices]
  have h2 : ¬ (ofMat M).shape.length ≠ 2 := by simp
  rw [matmulSparseDense, if_neg h1, if_neg h2]
  show (do let new ← matmul2 (ofMat V) (ofMat M); pure _) = _
  rw [matmul2_ofMat]
  rfl

/-! ### The theorems -/

/-- `matmul_sparse_dense` without `transpose_a` is the product with the matrix the slices stand for. -/
theorem C84_sparse_dense {k p c q : ℕ} (ids : Fin k → Fin p) (V : Matrix (Fin k) (Fin c) ℝ) (M : Matrix (Fin c) (Fin q) ℝ) :
    ∃ V', matmulSparseDense (slices ids V) (ofMat M) false false = .ok (slices ids V') ∧
      matmulSparseDense (slices ids V) (ofMat M.transpose) false true = .ok (slices ids V') ∧
      densify ids V' = densify ids V * M := by
  refine ⟨V * M, matmulSparseDense_slices ids V M, ?_, densify_mul ids V M⟩
  have h1 : ¬ (slices ids V).values.shape.length ≠ 2 := by simp [slices]
  have h2 : ¬ (ofMat M.transpose).shape.length ≠ 2 := by simp
  rw [matmulSparseDense, if_neg h1, if_neg h2]
  show (do let new ← matmul2 (ofMat V) (transpose2 (ofMat M.transpose)); pure _) = _
  rw [transpose2_ofMat, matmul2_ofMat]
  rfl

/-- `matmul_diag_sparse` is the product of the diagonal matrix with the matrix the slices stand for. -/
theorem C84_diag_sparse {k p c : ℕ} (d : Tensor ℝ) (hs : d.shape = [p]) (ids : Fin k → Fin p) (V : Matrix (Fin k) (Fin c) ℝ) :
    ∃ V', matmulDiagSparse d (slices ids V) = .ok (slices ids V') ∧
      densify ids V' = Matrix.diagonal (fun i : Fin p => d.get [i.1]) * densify ids V :=
  ⟨_, matmulDiag_slices hs ids V, densify_diag ids V fun i => d.get [i.1]⟩

/-- An index outside the diagonal is an error. -/
theorem C84_out_of_range (d : Tensor ℝ) (v : Slices) (i : ℕ) (hi : i ∈ v.indices) (h : d.shape.getD 0 0 ≤ i) :
    ∃ e, matmulDiagSparse d v = .error e := by
  have hall : ¬ v.indices.all (· < d.shape.getD 0 0) = true := by
    rw [List.all_eq_true]
    intro h'
    have := h' i hi
    simp only [decide_eq_true_eq] at this
    omega
  unfold matmulDiagSparse
  by_cases h1 : d.shape.length ≠ 1
  · rw [if_pos h1]; exact ⟨_, rfl⟩
  by_cases h2 : v.values.shape.length ≠ 2
  · rw [if_neg h1, if_pos h2]; exact ⟨_, rfl⟩
  rw [if_neg h1, if_neg h2, if_pos hall]
  exact ⟨_, rfl⟩

theorem sparse_eq {k p c : ℕ} (hc : c ≠ 0) {d m : Tensor ℝ} {ML : Matrix (Fin p) (Fin p) ℝ} {MR : Matrix (Fin c) (Fin c) ℝ}
    (hL : (LinOp.diag d).Is p ML) (hR : (LinOp.full m).Is c MR) (ids : Fin k → Fin p) (V : Matrix (Fin k) (Fin c) ℝ) (s : ℝ)
    (tl : Bool) :
    ∃ V' : Matrix (Fin k) (Fin c) ℝ, multiplyFactoredSparse (.diag d) (.full m) (slices ids V) s tl false = .ok (slices ids V') ∧
      multiplyFactored (.diag d) (.full m) (.weight (ofMat (densify ids V))) s tl false =
        .ok (.weight (ofMat (densify ids V'))) := by
  have hL' := hL
  obtain ⟨-, hs, hM⟩ := hL
  have hR' : m = ofMat MR := hR
  refine ⟨s • (Matrix.diagonal (fun e => d.get [(ids e).1]) * (V * MR)), ?_, ?_⟩
  · simp only [multiplyFactoredSparse, LinOp.matmulRightSparse, LinOp.matmulSparse, Bool.false_eq_true, if_false, hR',
      matmulSparseDense_slices, bind, Except.bind, matmulDiag_slices hs]
    by_cases h1 : s = 1
    · simp [h1, pure, Except.pure]
    · rw [if_pos h1]
      simp only [slices, scalarMul_ofMat]
      rfl
  · rw [multiply_weight hc hL' hR, densify_smul, densify_diag ids _ fun i => d.get [i.1], densify_mul, Matrix.mul_assoc]
    have ht : tr? tl ML = ML := by
      cases tl
      · rfl
      · rw [tr?, if_pos rfl, hM, Matrix.diagonal_transpose]
    rw [ht, hM]
    rfl

/-- The full claim is that every multiplication of a block by a sparse vector gives the sparse form of the result for the
dense vector. It holds for blocks with a diagonal input factor and a dense output factor (those of embeddings), for
`multiply`, `multiply_inverse`, and the Cholesky multiplications with `transpose=True`. -/
theorem C84_sparse_partial {k p c : ℕ} (hc : c ≠ 0) (b : KBlock) (hin : b.input.isDiag = true) (hout : b.output.isDiag = false)
    (hA : b.input.cov.WF ∧ b.input.cov.shape = [p]) (hG : b.output.cov.shape = [c, c])
    (MI MC MX : Matrix (Fin c) (Fin c) ℝ) (h1 : b.output.inverse = ofMat MI) (h2 : b.output.cholesky = ofMat MC)
    (h3 : b.output.choleskyInverse = ofMat MX) (ids : Fin k → Fin p) (V : Matrix (Fin k) (Fin c) ℝ) :
    (∃ V' : Matrix (Fin k) (Fin c) ℝ, b.multiplySparse (slices ids V) = .ok (slices ids V') ∧
      b.multiply (.weight (ofMat (densify ids V))) = .ok (.weight (ofMat (densify ids V')))) ∧
    (∃ V' : Matrix (Fin k) (Fin c) ℝ, b.multiplyInverseSparse (slices ids V) = .ok (slices ids V') ∧
      b.multiplyInverse (.weight (ofMat (densify ids V))) = .ok (.weight (ofMat (densify ids V')))) ∧
    (∃ V' : Matrix (Fin k) (Fin c) ℝ, b.multiplyCholeskySparse (slices ids V) true = .ok (slices ids V') ∧
      b.multiplyCholesky (.weight (ofMat (densify ids V))) true = .ok (.weight (ofMat (densify ids V')))) ∧
    (∃ V' : Matrix (Fin k) (Fin c) ℝ, b.multiplyCholeskyInverseSparse (slices ids V) true = .ok (slices ids V') ∧
      b.multiplyCholeskyInverse (.weight (ofMat (densify ids V))) true = .ok (.weight (ofMat (densify ids V')))) := by
  have hdim : b.output.dim = c := by simp [Factor.dim, hG]
  refine ⟨?_, ?_, ?_, ?_⟩
  · simp only [KBlock.multiplySparse, KBlock.multiply, Factor.matpowerOne, hin, hout, if_true, Bool.false_eq_true, if_false]
    have hR : (LinOp.full (ofMat (dampedCov b.output.dim b.output.cov b.dOut))).Is c (dampedCov c b.output.cov b.dOut) := by
      show ofMat _ = ofMat _
      rw [hdim]
    exact sparse_eq hc (diagIs hA.1 hA.2 _) hR ids V _ _
  · simp only [KBlock.multiplyInverseSparse, KBlock.multiplyInverse, Factor.matpowerInv, hin, hout, if_true, Bool.false_eq_true,
      if_false]
    exact sparse_eq hc (diagIs hA.1 hA.2 _) h1 ids V _ _
  · simp only [KBlock.multiplyCholeskySparse, KBlock.multiplyCholesky, Factor.choleskyOp, hin, hout, if_true, Bool.false_eq_true,
      if_false]
    exact sparse_eq hc (diagIs hA.1 hA.2 _) h2 ids V _ _
  · simp only [KBlock.multiplyCholeskyInverseSparse, KBlock.multiplyCholeskyInverse, Factor.choleskyInvOp, hin, hout, if_true,
      Bool.false_eq_true, if_false]
    exact sparse_eq hc (diagIs hA.1 hA.2 _) h3 ids V _ _

/-- The Cholesky multiplications of a sparse vector without `transpose` always fail, in every block, and so does every
multiplication if the input factor is dense or the output factor is diagonal; for dense vectors all of these are defined. -/
theorem C84_unsupported_counterexample :
    (∀ (b : KBlock) (v : Slices), (∃ e, b.multiplyCholeskySparse v false = .error e) ∧
      ∃ e, b.multiplyCholeskyInverseSparse v false = .error e) ∧
    (∀ (b : KBlock) (v : Slices), b.input.isDiag = false ∨ b.output.isDiag = true → (∃ e, b.multiplySparse v = .error e) ∧
      ∃ e, b.multiplyInverseSparse v = .error e) ∧
    ∃ (b : KBlock) (V : Matrix (Fin 1) (Fin 1) ℝ), b.input.isDiag = true ∧ b.output.isDiag = false ∧
      ∃ out, b.multiplyCholesky (.weight (ofMat (densify (p := 1) (fun _ => 0) V))) false = .ok out := by
  have hr : ∀ (R : LinOp) (v : Slices), ∃ e, R.matmulRightSparse v true = .error e := by
    intro R v
    cases R <;> exact ⟨_, rfl⟩
  have hl : ∀ (M : Tensor ℝ) (v : Slices) tl, ∃ e, (LinOp.full M).matmulSparse v tl = .error e := fun M v tl => ⟨_, rfl⟩
  have hd : ∀ (M : Tensor ℝ) (v : Slices) tl, ∃ e, (LinOp.diag M).matmulRightSparse v tl = .error e := fun M v tl => ⟨_, rfl⟩
  have fr : ∀ (L R : LinOp) v s tl, ∃ e, multiplyFactoredSparse L R v s tl true = .error e := by
    intro L R v s tl
    obtain ⟨e, he⟩ := hr R v
    exact ⟨e, by simp only [multiplyFactoredSparse, he, bind, Except.bind]⟩
  have fl : ∀ (M : Tensor ℝ) (R : LinOp) v s tl tr, ∃ e, multiplyFactoredSparse (.full M) R v s tl tr = .error e := by
    intro M R v s tl tr
    simp only [multiplyFactoredSparse, bind, Except.bind]
    cases R.matmulRightSparse v tr with
    | error e => exact ⟨e, rfl⟩
    | ok w => exact ⟨_, rfl⟩
  have fd : ∀ (L : LinOp) (M : Tensor ℝ) v s tl tr, ∃ e, multiplyFactoredSparse L (.diag M) v s tl tr = .error e := by
    intro L M v s tl tr
    exact ⟨_, rfl⟩
  refine ⟨fun b v => ⟨fr _ _ _ _ _, fr _ _ _ _ _⟩, fun b v h => ?_, ?_⟩
  · rcases h with h | h
    · simp only [KBlock.multiplySparse, KBlock.multiplyInverseSparse, Factor.matpowerOne, Factor.matpowerInv, h,
        Bool.false_eq_true, if_false]
      exact ⟨fl _ _ _ _ _ _, fl _ _ _ _ _ _⟩
    · constructor
      · simp only [KBlock.multiplySparse]
        rw [show b.output.matpowerOne b.dOut = .diag ⟨b.output.cov.shape, b.output.cov.data.map fun x => x + b.dOut⟩ by
          rw [Factor.matpowerOne, if_pos h]]
        exact fd _ _ _ _ _ _
      · simp only [KBlock.multiplyInverseSparse]
        rw [show b.output.matpowerInv b.dOut = .diag ⟨b.output.cov.shape, b.output.cov.data.map fun x => (x + b.dOut)⁻¹⟩ by
          rw [Factor.matpowerInv, if_pos h]]
        exact fd _ _ _ _ _ _
  · let M : Matrix (Fin 1) (Fin 1) ℝ := 1
    have hL : (Factor.choleskyOp ⟨true, ⟨[1], [1]⟩, ⟨[], []⟩, ⟨[], []⟩, ⟨[], []⟩⟩ 1).Is 1
        (Matrix.diagonal fun i : Fin 1 => ((⟨[1], [1]⟩ : Tensor ℝ).get [i.1] + 1) ^ (1 / 2 : ℝ)) := by
      rw [Factor.choleskyOp, if_pos rfl]
      exact diagIs (by simp [Tensor.WF]) rfl _
    have hR : (Factor.choleskyOp ⟨false, ofMat M, ofMat M, ofMat M, ofMat M⟩ 1).Is 1 M := rfl
    exact ⟨⟨⟨true, ⟨[1], [1]⟩, ⟨[], []⟩, ⟨[], []⟩, ⟨[], []⟩⟩, ⟨false, ofMat M, ofMat M, ofMat M, ofMat M⟩, 1, 1, 1⟩, 1, rfl, rfl,
      _, multiply_weight (p := 1) (c := 1) (by decide) hL hR _ _ _ _⟩

/-- With `transpose_a` the values are transposed but the indices are kept: for the matrix with a single 1 at row 1,
column 0, the product of the transposed matrix with the identity has its 1 in the wrong place. -/
theorem C84_transpose_a_counterexample :
    let ids : Fin 2 → Fin 2 := ![1, 0]
    let V : Matrix (Fin 2) (Fin 2) ℝ := !![1, 0; 0, 0]
    ∃ V' : Matrix (Fin 2) (Fin 2) ℝ, matmulSparseDense (slices ids V) (ofMat (1 : Matrix (Fin 2) (Fin 2) ℝ)) true false = .ok (slices ids V') ∧
      densify ids V' ≠ (densify ids V).transpose * 1 := by
  intro ids V
  refine ⟨V.transpose * 1, ?_, ?_⟩
  · have h1 : ¬ (slices ids V).values.shape.length ≠ 2 := by simp [slices]
    have h2 : ¬ (ofMat (1 : Matrix (Fin 2) (Fin 2) ℝ)).shape.length ≠ 2 := by simp
    rw [matmulSparseDense, if_neg h1, if_neg h2]
    show (do let new ← matmul2 (transpose2 (ofMat V)) (ofMat 1); pure _) = _
    rw [transpose2_ofMat, matmul2_ofMat]
    rfl
  · intro h
    have := congrFun (congrFun h 0) 1
    simp [densify, ids, V, Fin.sum_univ_two] at this

/-- A block of an embedding with three words and one output, a vector with two slices for the same word. -/
example : ∃ V' : Matrix (Fin 2) (Fin 1) ℝ,
    matmulDiagSparse ⟨[3], [1, 5, 2]⟩ (slices (p := 3) ![1, 1] !![3; 4]) = .ok (slices (p := 3) ![1, 1] V') ∧
    densify (p := 3) ![1, 1] V' 1 0 = 35 ∧ densify (p := 3) ![1, 1] V' 0 0 = 0 := by
  obtain ⟨V', h1, h2⟩ := C84_diag_sparse (p := 3) ⟨[3], [1, 5, 2]⟩ rfl ![1, 1] !![3; 4]
  refine ⟨V', h1, ?_, ?_⟩ <;> rw [h2, Matrix.diagonal_mul] <;>
    simp [densify, Fin.sum_univ_two, Tensor.get, ravel]
  norm_num

end Kfac.Block
