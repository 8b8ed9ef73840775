import Verif.Block.Model
import Verif.Params.Props
import Mathlib.LinearAlgebra.Matrix.Trace

/-! Helper definitions and lemmas for the Kronecker-block properties. -/

namespace Kfac.Block
open Kfac Kfac.Params Tensor

/-! ### Specification vocabulary -/

/-- The flattened parameter vector: weight entries in row-major order, then the bias. -/
def flat : LayerParams ℝ → List ℝ
  | .weight w => w.data
  | .weightBias w b => w.data ++ b.data

/-- The layer parameters have `p` rows (flattened input dimensions, plus one if there is a bias) and `c`
columns (output dimension). -/
def Fits (p c : Nat) : LayerParams ℝ → Prop
  | .weight w => w.WF ∧ w.shape.getLast? = some c ∧ c ≠ 0 ∧ w.shape.dropLast.prod = p
  | .weightBias w b => w.WF ∧ w.shape.getLast? = some c ∧ c ≠ 0 ∧ w.shape.dropLast.prod + 1 = p ∧
      b.WF ∧ b.shape = [c]

/-- Same structure (bias or not) and same shapes. -/
def SameShape : LayerParams ℝ → LayerParams ℝ → Prop
  | .weight w, .weight w' => w.shape = w'.shape
  | .weightBias w b, .weightBias w' b' => w.shape = w'.shape ∧ b.shape = b'.shape
  | _, _ => False

/-- The flattened vector arranged in rows of length `c`. -/
def grid (p c : Nat) (v : LayerParams ℝ) : Matrix (Fin p) (Fin c) ℝ :=
  fun i j => (flat v).getD (i * c + j) 0

/-! ### Matrices and tensors -/

theorem valid2 {m n i j : Nat} (h1 : i < m) (h2 : j < n) : Valid [m, n] [i, j] :=
  .cons h1 (.cons h2 .nil)

theorem valid2_inv {m n : Nat} {idx : List Nat} (hv : Valid [m, n] idx) :
    ∃ i j, idx = [i, j] ∧ i < m ∧ j < n := by
  unfold Valid at hv
  rcases hv with _ | ⟨h1, hv⟩
  rcases hv with _ | ⟨h2, hv⟩
  cases hv
  exact ⟨_, _, rfl, h1, h2⟩

theorem valid1_inv {m : Nat} {idx : List Nat} (hv : Valid [m] idx) : ∃ i, idx = [i] ∧ i < m := by
  unfold Valid at hv
  rcases hv with _ | ⟨h1, hv⟩
  cases hv
  exact ⟨_, rfl, h1⟩

@[simp] theorem ofMat_shape {m n : Nat} (a : Matrix (Fin m) (Fin n) ℝ) : (ofMat a).shape = [m, n] := rfl

theorem ofMat_wf {m n : Nat} (a : Matrix (Fin m) (Fin n) ℝ) : (ofMat a).WF := ofFn_wf _ _

theorem ofMat_get {m n : Nat} (a : Matrix (Fin m) (Fin n) ℝ) (i : Fin m) (j : Fin n) :
    (ofMat a).get [i, j] = a i j := by
  rw [ofMat, get_ofFn _ (valid2 i.2 j.2)]
  simp

theorem ofMat_get' {m n i j : Nat} (a : Matrix (Fin m) (Fin n) ℝ) (hi : i < m) (hj : j < n) :
    (ofMat a).get [i, j] = a ⟨i, hi⟩ ⟨j, hj⟩ := ofMat_get a ⟨i, hi⟩ ⟨j, hj⟩

@[simp] theorem toMat_ofMat {m n : Nat} (a : Matrix (Fin m) (Fin n) ℝ) : toMat m n (ofMat a) = a := by
  ext i j; exact ofMat_get a i j

theorem ofMat_toMat {m n : Nat} {t : Tensor ℝ} (ht : t.WF) (hs : t.shape = [m, n]) :
    ofMat (toMat m n t) = t := by
  refine ext_get (ofMat_wf _) ht hs.symm ?_
  intro idx hv
  obtain ⟨i, j, rfl, hi, hj⟩ := valid2_inv (m := m) (n := n) hv
  rw [ofMat_get' _ hi hj]; rfl

/-- A tensor of shape `[m,n]` is determined by its entries. -/
theorem eq_ofMat {m n : Nat} {t : Tensor ℝ} (ht : t.WF) (hs : t.shape = [m, n])
    (a : Matrix (Fin m) (Fin n) ℝ) (h : ∀ i j, t.get [(i : Fin m).1, (j : Fin n).1] = a i j) :
    t = ofMat a := by
  rw [← ofMat_toMat ht hs]
  congr 1
  ext i j; exact h i j

theorem transpose2_ofMat {m n : Nat} (a : Matrix (Fin m) (Fin n) ℝ) :
    transpose2 (ofMat a) = ofMat a.transpose := by
  apply eq_ofMat
  · exact ofFn_wf _ _
  · rfl
  · intro i j
    show (ofFn [n, m] fun idx => (ofMat a).get [idx.getD 1 0, idx.getD 0 0]).get [i, j] = _
    rw [get_ofFn _ (valid2 i.2 j.2)]
    exact ofMat_get a j i

theorem matmul2_ofMat {m k n : Nat} (a : Matrix (Fin m) (Fin k) ℝ) (b : Matrix (Fin k) (Fin n) ℝ) :
    matmul2 (ofMat a) (ofMat b) = .ok (ofMat (a * b)) := by
  simp only [matmul2, ofMat_shape, if_true]
  congr 1
  apply eq_ofMat (ofFn_wf _ _) rfl
  intro i j
  rw [get_ofFn _ (valid2 i.2 j.2), Matrix.mul_apply, Finset.sum_range]
  apply Finset.sum_congr rfl
  intro l _
  show (ofMat a).get [i, l] * (ofMat b).get [l, j] = _
  rw [ofMat_get, ofMat_get]

theorem scalarMul_ofMat {m n : Nat} (s : ℝ) (a : Matrix (Fin m) (Fin n) ℝ) :
    scalarMul s (ofMat a) = ofMat (s • a) := by
  apply eq_ofMat
  · show (List.map _ _).length = _
    rw [List.length_map]; exact ofMat_wf a
  · rfl
  · intro i j
    have h := ofMat_get a i j
    have hlt : ravel [m, n] [i.1, j.1] < (ofMat a).data.length := by
      rw [ofMat_wf a]; exact ravel_lt (valid2 i.2 j.2)
    simp only [Tensor.get, scalarMul, ofMat_shape, List.getD_eq_getElem?_getD, List.getElem?_map]
    simp only [Tensor.get, ofMat_shape, List.getD_eq_getElem?_getD] at h
    rw [List.getElem?_eq_getElem hlt] at h ⊢
    simp only [Option.getD_some, Option.map_some] at h ⊢
    rw [h]; rfl

/-- The matrix a linear operator stands for. -/
def LinOp.Is (n : Nat) (op : LinOp) (M : Matrix (Fin n) (Fin n) ℝ) : Prop :=
  match op with
  | .full t => t = ofMat M
  | .diag d => d.WF ∧ d.shape = [n] ∧ M = Matrix.diagonal fun i => d.get [i.1]

/-- The transposed matrix if asked for. -/
def tr? {n : Nat} (b : Bool) (M : Matrix (Fin n) (Fin n) ℝ) : Matrix (Fin n) (Fin n) ℝ :=
  if b then M.transpose else M

theorem LinOp.matmul_ofMat {p c : Nat} {op : LinOp} {M : Matrix (Fin p) (Fin p) ℝ} (h : op.Is p M)
    (X : Matrix (Fin p) (Fin c) ℝ) (adj : Bool) :
    op.matmul (ofMat X) adj = .ok (ofMat (tr? adj M * X)) := by
  cases op with
  | full t =>
    simp only [LinOp.Is] at h
    subst h
    cases adj
    · exact matmul2_ofMat M X
    · show matmul2 (transpose2 (ofMat M)) (ofMat X) = _
      rw [transpose2_ofMat, matmul2_ofMat]; rfl
  | diag d =>
    obtain ⟨_, hs, rfl⟩ := h
    simp only [LinOp.matmul, ofMat_shape, hs, if_true]
    congr 1
    apply eq_ofMat (ofFn_wf _ _) rfl
    intro i j
    rw [get_ofFn _ (valid2 i.2 j.2)]
    show d.get [i.1] * (ofMat X).get [i, j] = _
    rw [ofMat_get]
    cases adj <;> simp [tr?, Matrix.diagonal_transpose, Matrix.diagonal_mul]

theorem LinOp.matmulRight_ofMat {p c : Nat} {op : LinOp} {M : Matrix (Fin c) (Fin c) ℝ} (h : op.Is c M)
    (X : Matrix (Fin p) (Fin c) ℝ) (adj : Bool) :
    op.matmulRight (ofMat X) adj = .ok (ofMat (X * tr? adj M)) := by
  cases op with
  | full t =>
    simp only [LinOp.Is] at h
    subst h
    cases adj
    · exact matmul2_ofMat X M
    · show matmul2 (ofMat X) (transpose2 (ofMat M)) = _
      rw [transpose2_ofMat, matmul2_ofMat]; rfl
  | diag d =>
    obtain ⟨_, hs, rfl⟩ := h
    simp only [LinOp.matmulRight, ofMat_shape, hs, if_true]
    congr 1
    apply eq_ofMat (ofFn_wf _ _) rfl
    intro i j
    rw [get_ofFn _ (valid2 i.2 j.2)]
    show d.get [j.1] * (ofMat X).get [i, j] = _
    rw [ofMat_get]
    cases adj <;> simp [tr?, Matrix.diagonal_transpose, Matrix.mul_diagonal, mul_comm]

/-! ### Layer parameters as matrices -/

theorem Fits.length {p c : Nat} {v : LayerParams ℝ} (h : Fits p c v) : (flat v).length = p * c := by
  cases v with
  | weight w =>
    obtain ⟨h1, h2, _, h4⟩ := h
    show w.data.length = _
    rw [h1, prod_eq_of_getLast? h2, h4]
  | weightBias w b =>
    obtain ⟨h1, h2, _, h4, h5, h6⟩ := h
    have : b.data.length = c := by rw [h5, h6]; simp
    show (w.data ++ b.data).length = _
    rw [List.length_append, h1, prod_eq_of_getLast? h2, this, ← h4]; ring

theorem ofMat_grid {p c : Nat} {v : LayerParams ℝ} (h : Fits p c v) :
    ofMat (grid p c v) = ⟨[p, c], flat v⟩ := by
  symm
  apply eq_ofMat
  · show (flat v).length = _
    rw [h.length]; simp
  · rfl
  · intro i j
    simp [Tensor.get, ravel, grid]

theorem toMat2d {p c : Nat} {v : LayerParams ℝ} (h : Fits p c v) :
    layerParamsToMat2d v = .ok (ofMat (grid p c v)) := by
  rw [ofMat_grid h]
  cases v with
  | weight w =>
    obtain ⟨h1, h2, h3, h4⟩ := h
    rw [layerParamsToMat2d, reshapeTo2d_ok h1 h2 h3, h4]; rfl
  | weightBias w b =>
    obtain ⟨h1, h2, h3, h4, h5, h6⟩ := h
    have : b.data.length = c := by rw [h5, h6]; simp
    simp only [layerParamsToMat2d, reshapeTo2d_ok h1 h2 h3, bind, Except.bind, concatRows, this,
      if_true, h4, flat]

theorem ofMat2d {p c : Nat} {v : LayerParams ℝ} (h : Fits p c v) (M : Matrix (Fin p) (Fin c) ℝ) :
    ∃ out, mat2dToLayerParams v (ofMat M) = .ok out ∧ SameShape out v ∧ Fits p c out ∧
      grid p c out = M := by
  have key : ∀ l : List ℝ, l = (ofMat M).data →
      (fun (i : Fin p) (j : Fin c) => l.getD (i * c + j) 0) = M := by
    intro l hl
    subst hl
    ext i j
    rw [← ofMat_get M i j]
    simp [Tensor.get, ravel]
  cases v with
  | weight w =>
    obtain ⟨h1, h2, h3, h4⟩ := h
    have hlen : (ofMat M).data.length = w.shape.prod := by
      rw [ofMat_wf M, prod_eq_of_getLast? h2, h4]; simp
    refine ⟨.weight ⟨w.shape, (ofMat M).data⟩, ?_, rfl, ⟨hlen, h2, h3, h4⟩, key _ rfl⟩
    simp only [mat2dToLayerParams, Tensor.reshape, hlen, if_true, bind, Except.bind, pure, Except.pure]
  | weightBias w b =>
    obtain ⟨h1, h2, h3, h4, h5, h6⟩ := h
    have hl0 : (ofMat M).data.length = p * c := by rw [ofMat_wf M]; simp
    have hpc : p * c = (p - 1) * c + c := by
      rw [← h4]; simp; ring
    have hlen : ((ofMat M).data.take ((p - 1) * c)).length = w.shape.prod := by
      have hq : w.shape.dropLast.prod = p - 1 := by omega
      rw [prod_eq_of_getLast? h2, hq, List.length_take, hl0]
      apply Nat.min_eq_left
      omega
    have hlen2 : ((ofMat M).data.drop ((p - 1) * c)).length = c := by
      rw [List.length_drop, hl0]; omega
    refine ⟨.weightBias ⟨w.shape, (ofMat M).data.take ((p - 1) * c)⟩
      ⟨[c], (ofMat M).data.drop ((p - 1) * c)⟩, ?_, ⟨rfl, h6.symm⟩, ⟨hlen, h2, h3, h4, ?_, rfl⟩, ?_⟩
    · have hp : p ≠ 0 := by omega
      simp only [mat2dToLayerParams, splitLastRow, ofMat_shape, hp, if_false, Tensor.reshape,
        bind, Except.bind, pure, Except.pure]
      rw [if_pos hlen]
    · show List.length _ = _
      rw [hlen2]; simp
    · apply key
      show List.take _ _ ++ List.drop _ _ = _
      rw [List.take_append_drop]

theorem Fits.of_sameShape_eq {p c : Nat} {u v : LayerParams ℝ} (hu : Fits p c u) (hv : Fits p c v)
    (hs : SameShape u v) (hg : grid p c u = grid p c v) : u = v := by
  have hf : flat u = flat v := by
    have h1 := ofMat_grid hu
    rw [hg, ofMat_grid hv] at h1
    injection h1 with _ h2
    exact h2.symm
  cases u with
  | weight w =>
    cases v with
    | weight w' =>
      cases w; cases w'
      simp only [SameShape] at hs
      simp only [flat] at hf
      subst hs hf; rfl
    | weightBias w' b' => exact hs.elim
  | weightBias w b =>
    cases v with
    | weight w' => exact hs.elim
    | weightBias w' b' =>
      obtain ⟨hs1, hs2⟩ := hs
      have hl : w.data.length = w'.data.length := by
        rw [hu.1, hv.1, hs1]
      have := List.append_inj hf hl
      cases w; cases w'; cases b; cases b'
      simp only at hs1 hs2 this
      rw [hs1, hs2, this.1, this.2]

theorem SameShape.trans' {a b c : LayerParams ℝ} (h1 : SameShape a b) (h2 : SameShape b c) :
    SameShape a c := by
  cases a <;> cases b <;> cases c <;> simp_all [SameShape]

/-- Summing over the flattened layout is summing over rows and columns. -/
theorem sum_range_mul (p c : Nat) (g : Nat → ℝ) : ∑ s ∈ Finset.range (p * c), g s
    = ∑ i' : Fin p, ∑ o' : Fin c, g (i' * c + o') := by
  rw [Finset.sum_range, ← Equiv.sum_comp (finProdFinEquiv (m := p) (n := c)),
    Fintype.sum_prod_type]
  apply Finset.sum_congr rfl; intro i' _
  apply Finset.sum_congr rfl; intro o' _
  simp [finProdFinEquiv, Nat.mul_comm, Nat.add_comm]

/-- The central lemma: multiplication by a factored matrix, in the user's layout. -/
theorem multiplyFactored_spec {p c : Nat} {L R : LinOp} {ML : Matrix (Fin p) (Fin p) ℝ}
    {MR : Matrix (Fin c) (Fin c) ℝ} (hL : L.Is p ML) (hR : R.Is c MR) {v : LayerParams ℝ}
    (hv : Fits p c v) (s : ℝ) (tl tr : Bool) :
    ∃ out, multiplyFactored L R v s tl tr = .ok out ∧ SameShape out v ∧ Fits p c out ∧
      grid p c out = s • (tr? tl ML * grid p c v * tr? tr MR) := by
  have e : (if s ≠ 1 then scalarMul s (ofMat (tr? tl ML * (grid p c v * tr? tr MR)))
      else ofMat (tr? tl ML * (grid p c v * tr? tr MR)))
      = ofMat (s • (tr? tl ML * grid p c v * tr? tr MR)) := by
    by_cases hs : s = 1
    · simp [hs, Matrix.mul_assoc]
    · simp only [ne_eq, hs, not_false_eq_true, if_true, scalarMul_ofMat, Matrix.mul_assoc]
  obtain ⟨out, h1, h2, h3, h4⟩ := ofMat2d hv (s • (tr? tl ML * grid p c v * tr? tr MR))
  refine ⟨out, ?_, h2, h3, h4⟩
  simp only [multiplyFactored, toMat2d hv, bind, Except.bind, LinOp.matmulRight_ofMat hR,
    LinOp.matmul_ofMat hL]
  rw [e]; exact h1

end Kfac.Block
