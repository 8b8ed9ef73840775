import Verif.Block.Full
import Verif.Block.Props
import Verif.Factor.PropsDense
import Verif.Grad.PropsDiag
import Mathlib.Data.List.GetD
import Mathlib.Tactic.FieldSimp

/-! # C77: full and diagonal blocks -/

namespace Kfac.Block
open Kfac Kfac.Params Tensor

/-! ### Specification -/

/-- All entries of the vector, one tensor after the other. -/
def Vec.flat : Vec → List ℝ
  | .single t => t.data
  | .list ts => (ts.map Tensor.data).flatten

/-- The vector has `n` entries: its tensors are well formed, and there is at least one. -/
def Vec.Good (n : ℕ) (v : Vec) : Prop :=
  v.flat.length = n ∧ match v with
    | .single t => t.WF
    | .list ts => ts ≠ [] ∧ ∀ t ∈ ts, t.WF

/-- Same structure and shapes. -/
def Vec.SameShape : Vec → Vec → Prop
  | .single t, .single u => t.shape = u.shape
  | .list ts, .list us => ts.map Tensor.shape = us.map Tensor.shape
  | _, _ => False

/-- The entries as a vector. -/
def Vec.entries (n : ℕ) (v : Vec) : Fin n → ℝ := fun i => v.flat.getD i 0

/-! ### Multiplication by a matrix -/

/-- One column. -/
def colMat {n : ℕ} (y : Fin n → ℝ) : Matrix (Fin n) (Fin 1) ℝ := Matrix.of fun i _ => y i

theorem Vec.entries_list (n : ℕ) (v : Vec) (h : v.flat.length = n) :
    ofMat (colMat (v.entries n)) = ⟨[n, 1], v.flat⟩ := by
  symm
  apply eq_ofMat
  · show v.flat.length = _
    rw [h]; simp
  · rfl
  · intro i j
    simp [Tensor.get, ravel, Vec.entries, colMat]

theorem Vec.flat_eq {n : ℕ} {v w : Vec} (hv : v.flat.length = n) (hw : w.flat.length = n)
    (h : v.entries n = w.entries n) : v.flat = w.flat := by
  have h1 := Vec.entries_list n v hv
  rw [h, Vec.entries_list n w hw] at h1
  injection h1 with _ h2
  exact h2.symm

theorem flatten_inj : ∀ {ts us : List (Tensor ℝ)}, ts.map Tensor.shape = us.map Tensor.shape →
    (∀ t ∈ ts, t.WF) → (∀ t ∈ us, t.WF) → (ts.map Tensor.data).flatten = (us.map Tensor.data).flatten → ts = us
  | [], [], _, _, _, _ => rfl
  | [], _ :: _, h, _, _, _ => by simp at h
  | _ :: _, [], h, _, _, _ => by simp at h
  | t :: ts, u :: us, h, h1, h2, h3 => by
    simp only [List.map_cons, List.cons.injEq] at h
    simp only [List.map_cons, List.flatten_cons] at h3
    have hl : t.data.length = u.data.length := by
      rw [h1 t (by simp), h2 u (by simp), h.1]
    obtain ⟨e1, e2⟩ := List.append_inj h3 hl
    have := flatten_inj h.2 (fun t ht => h1 t (by simp [ht])) (fun t ht => h2 t (by simp [ht])) e2
    cases t; cases u
    simp_all

/-- A vector is determined by its shapes and its entries. -/
theorem Vec.ext {n : ℕ} {v w : Vec} (hv : v.Good n) (hw : w.Good n) (hs : v.SameShape w)
    (h : v.entries n = w.entries n) : v = w := by
  have hf := Vec.flat_eq hv.1 hw.1 h
  cases v with
  | single t =>
    cases w with
    | single u =>
      cases t; cases u
      simp only [Vec.SameShape] at hs
      simp only [Vec.flat] at hf
      subst hs hf; rfl
    | list us => exact hs.elim
  | list ts =>
    cases w with
    | single u => exact hs.elim
    | list us => rw [flatten_inj hs hv.2.2 hw.2.2 hf]

theorem Vec.toColumn_eq {n : ℕ} {v : Vec} (h : v.Good n) : v.toColumn = .ok v.flat := by
  cases v with
  | single t => rfl
  | list ts =>
    cases ts with
    | nil => exact absurd rfl h.2.1
    | cons t ts => rfl

theorem Vec.ofColumn_eq {n : ℕ} {v : Vec} (h : v.Good n) (col : List ℝ) (hc : col.length = n) :
    ∃ out, v.ofColumn col = .ok out ∧ out.SameShape v ∧ out.Good n ∧ out.flat = col := by
  cases v with
  | single t =>
    have hl : col.length = t.shape.prod := by rw [hc, ← h.1]; exact h.2
    refine ⟨.single ⟨t.shape, col⟩, ?_, rfl, ⟨hc, hl⟩, rfl⟩
    simp [Vec.ofColumn, columnToTensor, Tensor.reshape, hl, Except.map]
  | list ts =>
    have hsum : ∀ us : List (Tensor ℝ), (∀ t ∈ us, t.WF) →
        (us.map Tensor.data).flatten.length = ((us.map Tensor.shape).map List.prod).sum := by
      intro us hus
      induction us with
      | nil => rfl
      | cons u us ih =>
        simp only [List.map_cons, List.flatten_cons, List.length_append, List.sum_cons]
        rw [ih fun t ht => hus t (by simp [ht]), hus u (by simp)]
    have hl : col.length = ((ts.map Tensor.shape).map List.prod).sum := by
      rw [hc, ← h.1]; exact hsum ts h.2.2
    obtain ⟨us, h1, h2, h3, h4⟩ := C01_pack_unpack (ts.map Tensor.shape) (by simpa using h.2.1) col hl
    have hne : us ≠ [] := by
      rintro rfl
      have := h.2.1
      simp at h2
      exact this h2
    have hf : (us.map Tensor.data).flatten = col := by
      cases us with
      | nil => exact absurd rfl hne
      | cons u us =>
        simp only [tensorsToColumn, Except.ok.injEq] at h4
        exact h4
    refine ⟨.list us, ?_, h2, ⟨?_, hne, h3⟩, hf⟩
    · simp [Vec.ofColumn, h1, Except.map]
    · show (us.map Tensor.data).flatten.length = n
      rw [hf, hc]

theorem ofMat_column {n : ℕ} (y : Fin n → ℝ) : (ofMat (colMat y)).data.length = n ∧
    ∀ i : Fin n, (ofMat (colMat y)).data.getD i 0 = y i := by
  constructor
  · rw [ofMat_wf]; simp
  · intro i
    have := ofMat_get (colMat y) i 0
    rw [show y i = colMat y i 0 from rfl, ← this]
    simp [Tensor.get, ravel]

/-- Multiplication by an operator that stands for the matrix `M`. -/
theorem multiplyMatrix_spec {n : ℕ} {op : LinOp} {M : Matrix (Fin n) (Fin n) ℝ} (h : op.Is n M) {v : Vec}
    (hv : v.Good n) (tr : Bool) :
    ∃ out, multiplyMatrix op v tr = .ok out ∧ out.SameShape v ∧ out.Good n ∧
      out.entries n = (tr? tr M).mulVec (v.entries n) := by
  have hm := LinOp.matmul_ofMat h (colMat (v.entries n)) tr
  rw [Vec.entries_list n v hv.1] at hm
  have e : tr? tr M * colMat (v.entries n) = colMat ((tr? tr M).mulVec (v.entries n)) := by
    ext i j
    rfl
  rw [e] at hm
  obtain ⟨h1, h2⟩ := ofMat_column ((tr? tr M).mulVec (v.entries n))
  obtain ⟨out, h3, h4, h5, h6⟩ := Vec.ofColumn_eq hv _ h1
  refine ⟨out, ?_, h4, h5, ?_⟩
  · simp only [multiplyMatrix, Vec.toColumn_eq hv, bind, Except.bind, hv.1, hm]
    exact h3
  · funext i
    rw [← h2 i, ← h6]
    rfl

theorem Vec.SameShape.symm : ∀ {v w : Vec}, v.SameShape w → w.SameShape v
  | .single _, .single _, h => Eq.symm (α := List ℕ) h
  | .list _, .list _, h => Eq.symm (α := List (List ℕ)) h
  | .single _, .list _, h => h.elim
  | .list _, .single _, h => h.elim

theorem Vec.SameShape.trans : ∀ {v w u : Vec}, v.SameShape w → w.SameShape u → v.SameShape u
  | .single _, .single _, .single _, h, h' => Eq.trans (α := List ℕ) h h'
  | .list _, .list _, .list _, h, h' => Eq.trans (α := List (List ℕ)) h h'
  | .single _, .list _, _, h, _ => h.elim
  | .list _, .single _, _, h, _ => h.elim
  | .single _, .single _, .list _, _, h => h.elim
  | .list _, .list _, .single _, _, h => h.elim

/-! ### Full blocks -/

section Full
open Factor
variable {k : ℕ} {D Env : Type} [DecidableEq D]

/-- After any registrations with the block's and other blocks' damping functions, and after the inverses were computed
from positive semidefinite statistics with positive damping: multiplying by a registered power (or the block itself)
multiplies the entries of all tensors, taken as one vector, by that power of statistics plus damping. -/
theorem C77_full_power {la : Linalg k} (hla : la.Good) (c : Constants) (hclip : c.clipThreshold ≤ 0)
    (regs : List (Reg D Env))
    (agree : ∀ r ∈ regs, ∀ r' ∈ regs, ∀ d d', r.func = some d → r'.func = some d' → d.id = d'.id →
      d.value = d'.value)
    (flag : Bool) (hist : List (Env × Mat k)) (env : Env) (cov : Mat k) (hcov : Psd cov)
    (hpos : ∀ r ∈ regs, ∀ d, r.func = some d → 0 < d.value env) :
    ∃ f f', (Dense.after (k := k) regs).instantiate = .ok f ∧
      ({ f with eigendecomp := flag } : Dense k D Env).runs la c f (hist ++ [(env, cov)]) = .ok f' ∧
      (∀ exp d v, Reg.matpower exp d ∈ regs → v.Good k → ∃ out, fullMatpower f' env cov d v exp = .ok out ∧
        out.SameShape v ∧ out.Good k ∧
        ∃ X, IsPower (cov + d.value env • 1) exp X ∧ out.entries k = X.mulVec (v.entries k)) ∧
      (∀ d v, v.Good k → ∃ out, fullMatpower f' env cov d v 1 = .ok out ∧ out.SameShape v ∧ out.Good k ∧
        out.entries k = (cov + d.value env • 1).mulVec (v.entries k)) ∧
      (∀ d v, Reg.matpower (-1) d ∈ regs → v.Good k →
        (fullMatpower f' env cov d v 1).bind (fun u => fullMatpower f' env cov d u (-1)) = .ok v ∧
        (fullMatpower f' env cov d v (-1)).bind (fun u => fullMatpower f' env cov d u 1) = .ok v) := by
  obtain ⟨f, f', h1, h2, h3, -, -⟩ := C47_power hla c hclip regs agree flag hist env cov hcov hpos
  have hgen : ∀ exp (d : DampingFunc D Env) X, f'.getMatpower env cov exp d = .ok X → ∀ v : Vec, v.Good k →
      ∃ out, fullMatpower f' env cov d v exp = .ok out ∧ out.SameShape v ∧ out.Good k ∧
        out.entries k = X.mulVec (v.entries k) := by
    intro exp d X hX v hv
    obtain ⟨out, e1, e2, e3, e4⟩ := multiplyMatrix_spec (op := .full (ofMat X)) (M := X) rfl hv false
    exact ⟨out, by simp only [fullMatpower, hX, e1], e2, e3, e4⟩
  have hone : ∀ d : DampingFunc D Env, f'.getMatpower env cov 1 d = .ok (cov + d.value env • 1) := by
    intro d
    simp [Dense.getMatpower]
  have hinv : ∀ d, Reg.matpower (-1) d ∈ regs → ∃ X, f'.getMatpower env cov (-1) d = .ok X ∧
      X * (cov + d.value env • 1) = 1 ∧ (cov + d.value env • 1) * X = 1 := by
    intro d hd
    obtain ⟨X, e1, e2⟩ := h3 (-1) d hd
    have hp := hpos _ hd d rfl
    have hpd := hcov.add_damping hp
    have hu : IsUnit (cov + d.value env • 1).det := isUnit_iff_ne_zero.2 hpd.det_ne_zero
    have : X = (cov + d.value env • 1)⁻¹ := isPower_unique hpd.1 e2 (isPower_inv hpd)
    subst this
    exact ⟨_, e1, Matrix.nonsing_inv_mul _ hu, Matrix.mul_nonsing_inv _ hu⟩
  have hcomp : ∀ (d : DampingFunc D Env) a b X Y, f'.getMatpower env cov a d = .ok X →
      f'.getMatpower env cov b d = .ok Y → Y * X = 1 → ∀ v : Vec, v.Good k →
      (fullMatpower f' env cov d v a).bind (fun u => fullMatpower f' env cov d u b) = .ok v := by
    intro d a b X Y hX hY hXY v hv
    obtain ⟨u, u1, u2, u3, u4⟩ := hgen a d X hX v hv
    obtain ⟨w, w1, w2, w3, w4⟩ := hgen b d Y hY u u3
    rw [u1]
    show fullMatpower f' env cov d u b = _
    rw [w1]
    congr 1
    refine Vec.ext w3 hv (w2.trans u2) ?_
    rw [w4, u4, Matrix.mulVec_mulVec, hXY, Matrix.one_mulVec]
  refine ⟨f, f', h1, h2, ?_, ?_, ?_⟩
  · intro exp d v hr hv
    obtain ⟨X, e1, e2⟩ := h3 exp d hr
    obtain ⟨out, o1, o2, o3, o4⟩ := hgen exp d X e1 v hv
    exact ⟨out, o1, o2, o3, X, e2, o4⟩
  · exact fun d v hv => hgen 1 d _ (hone d) v hv
  · intro d v hr hv
    obtain ⟨X, e1, e2, e3⟩ := hinv d hr
    exact ⟨hcomp d 1 (-1) _ _ (hone d) e1 e2 v hv, hcomp d (-1) 1 _ _ e1 (hone d) e3 v hv⟩

/-- The Cholesky operations: multiplying by the transposed factor and then by the factor is multiplying by the block, and
the inverse factor undoes the factor, both transposed or both not. -/
theorem C77_full_cholesky {la : Linalg k} (hla : la.Good) (c : Constants) (hclip : c.clipThreshold ≤ 0)
    (regs : List (Reg D Env))
    (agree : ∀ r ∈ regs, ∀ r' ∈ regs, ∀ d d', r.func = some d → r'.func = some d' → d.id = d'.id →
      d.value = d'.value)
    (flag : Bool) (hist : List (Env × Mat k)) (env : Env) (cov : Mat k) (hcov : Psd cov)
    (hpos : ∀ r ∈ regs, ∀ d, r.func = some d → 0 < d.value env) :
    ∃ f f', (Dense.after (k := k) regs).instantiate = .ok f ∧
      ({ f with eigendecomp := flag } : Dense k D Env).runs la c f (hist ++ [(env, cov)]) = .ok f' ∧
      (∀ d v, Reg.cholesky d ∈ regs → v.Good k →
        (fullCholesky f' d v true).bind (fun u => fullCholesky f' d u false) = fullMatpower f' env cov d v 1) ∧
      (∀ d v tr, Reg.cholesky d ∈ regs → Reg.choleskyInverse d ∈ regs → v.Good k →
        (fullCholesky f' d v tr).bind (fun u => fullCholeskyInverse f' d u tr) = .ok v ∧
        (fullCholeskyInverse f' d v tr).bind (fun u => fullCholesky f' d u tr) = .ok v) := by
  obtain ⟨f, f', h1, h2, -, h4, h5⟩ := C47_power hla c hclip regs agree flag hist env cov hcov hpos
  refine ⟨f, f', h1, h2, ?_, ?_⟩
  · intro d v hd hv
    obtain ⟨L, e1, -, e3⟩ := h4 d hd
    obtain ⟨u, u1, u2, u3, u4⟩ := multiplyMatrix_spec (op := .full (ofMat L)) (M := L) rfl hv true
    obtain ⟨w, w1, w2, w3, w4⟩ := multiplyMatrix_spec (op := .full (ofMat L)) (M := L) rfl u3 false
    obtain ⟨o, o1, o2, o3, o4⟩ :=
      multiplyMatrix_spec (op := .full (ofMat (cov + d.value env • 1))) (M := cov + d.value env • 1) rfl hv false
    simp only [fullCholesky, e1, u1, fullMatpower, Dense.getMatpower, ne_eq, not_true_eq_false, if_false]
    show multiplyMatrix _ u false = _
    rw [w1, o1]
    congr 1
    refine Vec.ext w3 o3 ((w2.trans u2).trans o2.symm) ?_
    rw [w4, u4, o4, Matrix.mulVec_mulVec]
    simp only [tr?, if_true, Bool.false_eq_true, if_false, e3]
  · intro d v tr hd hd' hv
    obtain ⟨M, L, e1, e2, -, -, e5⟩ := h5 d hd'
    have e5 := e5 hd
    have e6 : L * M = 1 := mul_eq_one_comm.1 e2
    constructor
    · obtain ⟨u, u1, u2, u3, u4⟩ := multiplyMatrix_spec (op := .full (ofMat L)) (M := L) rfl hv tr
      obtain ⟨w, w1, w2, w3, w4⟩ := multiplyMatrix_spec (op := .full (ofMat M)) (M := M) rfl u3 tr
      simp only [fullCholesky, e5, u1, fullCholeskyInverse, e1]
      show multiplyMatrix _ u tr = _
      rw [w1]
      congr 1
      refine Vec.ext w3 hv (w2.trans u2) ?_
      rw [w4, u4, Matrix.mulVec_mulVec]
      cases tr
      · simp only [tr?, Bool.false_eq_true, if_false, e2, Matrix.one_mulVec]
      · simp only [tr?, if_true, ← Matrix.transpose_mul, e6, Matrix.transpose_one, Matrix.one_mulVec]
    · obtain ⟨u, u1, u2, u3, u4⟩ := multiplyMatrix_spec (op := .full (ofMat M)) (M := M) rfl hv tr
      obtain ⟨w, w1, w2, w3, w4⟩ := multiplyMatrix_spec (op := .full (ofMat L)) (M := L) rfl u3 tr
      simp only [fullCholesky, e5, u1, fullCholeskyInverse, e1]
      show multiplyMatrix _ u tr = _
      rw [w1]
      congr 1
      refine Vec.ext w3 hv (w2.trans u2) ?_
      rw [w4, u4, Matrix.mulVec_mulVec]
      cases tr
      · simp only [tr?, Bool.false_eq_true, if_false, e6, Matrix.one_mulVec]
      · simp only [tr?, if_true, ← Matrix.transpose_mul, e2, Matrix.transpose_one, Matrix.one_mulVec]

end Full

/-! ### Diagonal blocks -/

theorem diagPower_is {n : ℕ} (cov : Tensor ℝ) (hc : cov.data.length = n) (d exp : ℝ) :
    (diagPower cov d exp).Is n (Matrix.diagonal fun i => (cov.data.getD i 0 + d) ^ exp) := by
  subst hc
  refine ⟨?_, rfl, ?_⟩
  · show (List.map _ _).length = _
    simp
  · congr 1
    funext i
    simp only [Tensor.get, ravel, List.prod_nil, Nat.mul_one, Nat.add_zero, List.getD_eq_getElem?_getD, List.getElem?_map]
    rw [List.getElem?_eq_getElem i.2]
    rfl

theorem diag_entries {n : ℕ} (cov : Tensor ℝ) (hc : cov.data.length = n) (d exp : ℝ) {v : Vec} (hv : v.Good n) :
    ∃ out, multiplyMatrix (diagPower cov d exp) v false = .ok out ∧ out.SameShape v ∧ out.Good n ∧
      ∀ i : Fin n, out.entries n i = (cov.data.getD i 0 + d) ^ exp * v.entries n i := by
  obtain ⟨out, h1, h2, h3, h4⟩ := multiplyMatrix_spec (diagPower_is cov hc d exp) hv false
  refine ⟨out, h1, h2, h3, fun i => ?_⟩
  rw [h4]
  simp [tr?, Matrix.mulVec_diagonal]

/-- Statistics with one entry per parameter: multiplying by any power multiplies every entry of the vector by that power
of its own statistic plus damping; powers compose. -/
theorem C77_diagonal_power {n : ℕ} (cov : Tensor ℝ) (hc : cov.data.length = n) (hcov : ∀ x ∈ cov.data, 0 ≤ x) {d : ℝ}
    (hd : 0 < d) {v : Vec} (hv : v.Good n) :
    (∀ exp, ∃ out, diagMatpower cov d v exp = .ok out ∧ out.SameShape v ∧
      ∀ i : Fin n, out.entries n i = (cov.data.getD i 0 + d) ^ exp * v.entries n i) ∧
    (∀ a b, (diagMatpower cov d v a).bind (fun u => diagMatpower cov d u b) = diagMatpower cov d v (a + b)) ∧
    diagMatpower cov d v 0 = .ok v := by
  have hpos : ∀ i : Fin n, 0 < cov.data.getD i 0 + d := by
    intro i
    have hi : i.1 < cov.data.length := hc ▸ i.2
    rw [List.getD_eq_getElem?_getD, List.getElem?_eq_getElem hi, Option.getD_some]
    have := hcov _ (List.getElem_mem hi)
    positivity
  refine ⟨fun exp => ?_, fun a b => ?_, ?_⟩
  · obtain ⟨out, h1, h2, -, h4⟩ := diag_entries cov hc d exp hv
    exact ⟨out, h1, h2, h4⟩
  · obtain ⟨u, u1, u2, u3, u4⟩ := diag_entries cov hc d a hv
    obtain ⟨w, w1, w2, w3, w4⟩ := diag_entries cov hc d b u3
    obtain ⟨o, o1, o2, o3, o4⟩ := diag_entries cov hc d (a + b) hv
    simp only [diagMatpower, u1, o1]
    show multiplyMatrix _ u false = _
    rw [w1]
    congr 1
    refine Vec.ext w3 o3 ((w2.trans u2).trans o2.symm) ?_
    funext i
    rw [w4, u4, o4, Real.rpow_add (hpos i)]
    ring
  · obtain ⟨o, o1, o2, o3, o4⟩ := diag_entries cov hc d 0 hv
    simp only [diagMatpower, o1]
    congr 1
    refine Vec.ext o3 hv o2 ?_
    funext i
    rw [o4, Real.rpow_zero, one_mul]

/-- The Cholesky operations of diagonal blocks factor the block and its inverse, whatever `transpose` is. -/
theorem C77_diagonal_cholesky {n : ℕ} (cov : Tensor ℝ) (hc : cov.data.length = n) (hcov : ∀ x ∈ cov.data, 0 ≤ x) {d : ℝ}
    (hd : 0 < d) {v : Vec} (hv : v.Good n) (tr tr' : Bool) :
    (diagCholesky cov d v tr).bind (fun u => diagCholesky cov d u tr') = diagMatpower cov d v 1 ∧
    (diagCholeskyInverse cov d v tr).bind (fun u => diagCholeskyInverse cov d u tr') = diagMatpower cov d v (-1) ∧
    (diagCholesky cov d v tr).bind (fun u => diagCholeskyInverse cov d u tr') = .ok v ∧
    (diagMatpower cov d v 1).bind (fun u => diagMatpower cov d u (-1)) = .ok v := by
  obtain ⟨-, h2, h3⟩ := C77_diagonal_power cov hc hcov hd hv
  refine ⟨?_, ?_, ?_, ?_⟩
  · have := h2 (1 / 2) (1 / 2)
    rwa [show (1 / 2 + 1 / 2 : ℝ) = 1 by norm_num] at this
  · have := h2 (-(1 / 2)) (-(1 / 2))
    rwa [show (-(1 / 2) + -(1 / 2) : ℝ) = -1 by norm_num] at this
  · have := h2 (1 / 2) (-(1 / 2))
    rwa [show (1 / 2 + -(1 / 2) : ℝ) = 0 by norm_num, h3] at this
  · have := h2 1 (-1)
    rwa [show (1 + -1 : ℝ) = 0 by norm_num, h3] at this

/-- With the default `NORMALIZE_DAMPING_POWER` of 1 every diagonal block adds the damping itself; for convolutions the
powers in general. -/
theorem C77_diagonal_damping (kind : DiagKind) (hk : ∀ l, kind = .conv l → 0 < l) (d : ℝ) :
    kind.damping 1 d = d ∧
    ∀ p l, p ≠ 0 → kind = .conv l → kind.damping p d = d * (l : ℝ) ^ (1 - p) := by
  constructor
  · cases kind with
    | conv l =>
      have : (l : ℝ) ≠ 0 := by exact_mod_cast (hk l rfl).ne'
      simp only [DiagKind.damping, normalizeDamping, ne_eq, one_ne_zero, not_false_eq_true, if_true, Real.rpow_one]
      field_simp
    | _ => rfl
  · rintro p l hp rfl
    have : (0 : ℝ) < l := by exact_mod_cast hk l rfl
    simp only [DiagKind.damping, normalizeDamping, ne_eq, hp, not_false_eq_true, if_true]
    rw [Real.rpow_sub this, Real.rpow_one]
    field_simp

/-- Statistics in the layout of `layer_params_to_mat2d`, acting on a weight and a bias. -/
theorem diag_pair {P q : ℕ} (S : Matrix (Fin (P + 1)) (Fin q) ℝ) (w b : Tensor ℝ) (hw : w.WF) (hb : b.WF)
    (hwl : w.data.length = P * q) (hbl : b.data.length = q) (d exp : ℝ) :
    ∃ w' b', diagMatpower (ofMat S) d (.list [w, b]) exp = .ok (.list [w', b']) ∧ w'.shape = w.shape ∧
      b'.shape = b.shape ∧
      (∀ (i : Fin P) (j : Fin q), w'.data.getD (i * q + j) 0 = (S (Fin.castAdd 1 i) j + d) ^ exp *
        w.data.getD (i * q + j) 0) ∧
      ∀ j : Fin q, b'.data.getD j 0 = (S (Fin.natAdd P 0) j + d) ^ exp * b.data.getD j 0 := by
  have hn : (ofMat S).data.length = (P + 1) * q := by
    rw [ofMat_wf]; simp
  have hv : (Vec.list [w, b]).Good ((P + 1) * q) := by
    refine ⟨?_, by simp, by simp [hw, hb]⟩
    simp [Vec.flat, hwl, hbl]; ring
  obtain ⟨out, o1, o2, o3, o4⟩ := diag_entries _ hn d exp hv
  cases out with
  | single t => exact o2.elim
  | list ts =>
    simp only [Vec.SameShape, List.map_cons, List.map_nil] at o2
    obtain ⟨w', b', rfl⟩ := List.length_eq_two.1 (by simpa using congrArg List.length o2)
    simp only [List.map_cons, List.map_nil, List.cons.injEq, and_true] at o2
    have hw' : w'.data.length = P * q := by
      have h1 := o3.2.2 w' (by simp)
      have h2 : w.data.length = w.shape.prod := hw
      rw [h1, o2.1, ← h2, hwl]
    refine ⟨w', b', o1, o2.1, o2.2, ?_, ?_⟩
    · intro i j
      have hlt : i.1 * q + j.1 < P * q := by
        calc i.1 * q + j.1 < i.1 * q + q := by omega
          _ = (i.1 + 1) * q := by ring
          _ ≤ P * q := Nat.mul_le_mul_right _ i.2
      have hlt' : i.1 * q + j.1 < (P + 1) * q := hlt.trans_le (Nat.mul_le_mul_right _ (by omega))
      have := o4 ⟨i.1 * q + j.1, hlt'⟩
      have hc := ofMat_get S (Fin.castAdd 1 i) j
      simp only [Tensor.get, ofMat_shape, ravel, List.prod_cons, List.prod_nil, Nat.mul_one, Nat.add_zero,
        Fin.val_castAdd] at hc
      simp only [Vec.entries, Vec.flat, List.map_cons, List.map_nil, List.flatten_cons, List.flatten_nil,
        List.append_nil, hc] at this
      rwa [List.getD_append _ _ _ _ (by rw [hw']; exact hlt), List.getD_append _ _ _ _ (by rw [hwl]; exact hlt)] at this
    · intro j
      have hlt' : P * q + j.1 < (P + 1) * q := by
        have : (P + 1) * q = P * q + q := by ring
        omega
      have := o4 ⟨P * q + j.1, hlt'⟩
      have hc := ofMat_get S (Fin.natAdd P 0) j
      simp only [Tensor.get, ofMat_shape, ravel, List.prod_cons, List.prod_nil, Nat.mul_one, Nat.add_zero,
        Fin.val_natAdd, Fin.val_zero] at hc
      simp only [Vec.entries, Vec.flat, List.map_cons, List.map_nil, List.flatten_cons, List.flatten_nil,
        List.append_nil, hc] at this
      rwa [List.getD_append_right _ _ _ _ (by omega), List.getD_append_right _ _ _ _ (by omega), hw', hwl,
        Nat.add_sub_cancel_left] at this

/-- The whole path for a fully connected layer with a bias: multiplying the pair of a weight and a bias shaped tensor by
a power of the diagonal block multiplies each entry by that power of the mean square of the per-example gradients of the
corresponding parameter plus damping. -/
theorem C77_fully_connected {N p q : ℕ} (x : Fin N → Fin p → ℝ) (L : Fin N → (Fin q → ℝ) → ℝ)
    (θ : (Fin p × Fin q) ⊕ Fin q → ℝ) (ds : Fin N → Fin q → ℝ)
    (h : ∀ n, Grad.IsGrad (L n) (Grad.fcLayer true θ (x n)) (ds n)) (w b : Tensor ℝ) (hw : w.WF) (hb : b.WF)
    (hws : w.shape = [p, q]) (hbs : b.shape = [q]) (power d exp : ℝ) :
    ∃ g : Fin N → (Fin p × Fin q) ⊕ Fin q → ℝ,
      (∀ n, Grad.IsGrad (fun θ => L n (Grad.fcLayer true θ (x n))) θ (g n)) ∧
      ∃ w' b', diagMatpower (ofMat (Grad.fcDiagonal true x ds)) (DiagKind.fullyConnected.damping power d) (.list [w, b]) exp
          = .ok (.list [w', b']) ∧ w'.shape = [p, q] ∧ b'.shape = [q] ∧
        (∀ i j, w'.get [(i : Fin p).1, (j : Fin q).1] = (Grad.meanSquare g (.inl (i, j)) + d) ^ exp * w.get [i.1, j.1]) ∧
        ∀ j, b'.get [(j : Fin q).1] = (Grad.meanSquare g (.inr j) + d) ^ exp * b.get [j.1] := by
  obtain ⟨g, hg, h1, h2⟩ := Grad.C70_fully_connected true x L θ ds h
  refine ⟨g, hg, ?_⟩
  obtain ⟨w', b', o1, o2, o3, o4, o5⟩ := diag_pair (Grad.fcDiagonal true x ds) w b hw hb
    (by rw [hw, hws]; simp) (by rw [hb, hbs]; simp) d exp
  refine ⟨w', b', o1, o2.trans hws, o3.trans hbs, fun i j => ?_, fun j => ?_⟩
  · have := o4 i j
    rw [show Grad.fcDiagonal true x ds (Fin.castAdd 1 i) j = _ from h1 i j] at this
    simpa [Tensor.get, o2, hws, ravel] using this
  · have := o5 j
    rw [show Grad.fcDiagonal true x ds (Fin.natAdd p (0 : Fin 1)) j = _ from h2 (0 : Fin 1) j] at this
    simpa [Tensor.get, o3, hbs, ravel] using this

/-- The whole path for a convolution with a bias and without a mask, with the default normalisation of the damping. -/
theorem C77_convolution {N kh kw c o oh ow : ℕ} (stride rate pad : ℤ × ℤ)
    (x : Fin N → ℤ × ℤ → Fin c → ℝ) (L : Fin N → ((Fin oh × Fin ow) × Fin o → ℝ) → ℝ)
    (θ : (Fin kh × Fin kw × Fin c × Fin o) ⊕ Fin o → ℝ) (ds : Fin N → (Fin oh × Fin ow) × Fin o → ℝ)
    (h : ∀ n, Grad.IsGrad (L n) (Grad.convLayer true oh ow stride rate pad (fun _ _ _ => 1) θ (x n)) (ds n))
    (w b : Tensor ℝ) (hw : w.WF) (hb : b.WF) (hws : w.shape = [kh, kw, c, o]) (hbs : b.shape = [o])
    (numLocations : ℕ) (hl : 0 < numLocations) (d exp : ℝ) :
    ∃ patches, (∀ n, Grad.diagonalPatches (kh := kh) (kw := kw) true stride rate pad none (x n) = .ok (patches n)) ∧
    ∃ g : Fin N → (Fin kh × Fin kw × Fin c × Fin o) ⊕ Fin o → ℝ,
      (∀ n, Grad.IsGrad (fun θ => L n (Grad.convLayer true oh ow stride rate pad (fun _ _ _ => 1) θ (x n))) θ (g n)) ∧
      ∃ w' b', diagMatpower (ofMat (Grad.convDiagonal patches fun n i j l => ds n ((i, j), l)))
          ((DiagKind.conv numLocations).damping 1 d) (.list [w, b]) exp = .ok (.list [w', b']) ∧
        w'.shape = [kh, kw, c, o] ∧ b'.shape = [o] ∧
        (∀ (dh : Fin kh) (dw : Fin kw) (ch : Fin c) (l : Fin o), w'.get [dh.1, dw.1, ch.1, l.1] =
          (Grad.meanSquare g (.inl (dh, dw, ch, l)) + d) ^ exp * w.get [dh.1, dw.1, ch.1, l.1]) ∧
        ∀ l : Fin o, b'.get [l.1] = (Grad.meanSquare g (.inr l) + d) ^ exp * b.get [l.1] := by
  obtain ⟨patches, hp, g, hg, h1, h2⟩ := Grad.C70_convolution true stride rate pad x L θ ds h
  refine ⟨patches, hp, g, hg, ?_⟩
  rw [(C77_diagonal_damping (.conv numLocations) (by rintro l ⟨⟩; exact hl) d).1]
  obtain ⟨w', b', o1, o2, o3, o4, o5⟩ := diag_pair
    (Grad.convDiagonal patches fun n i j l => ds n ((i, j), l) : Matrix (Fin (kh * kw * c + 1)) (Fin o) ℝ) w b hw hb
    (by rw [hw, hws]; simp; ring) (by rw [hb, hbs]; simp) d exp
  refine ⟨w', b', o1, o2.trans hws, o3.trans hbs, fun dh dw ch l => ?_, fun l => ?_⟩
  · have := o4 (Conv.flat dh dw ch) l
    rw [show Grad.convDiagonal patches (fun n i j l => ds n ((i, j), l)) (Fin.castAdd 1 (Conv.flat dh dw ch)) l = _ from
      h1 dh dw ch l] at this
    have e : (Conv.flat dh dw ch).1 * o + l.1 = ravel [kh, kw, c, o] [dh.1, dw.1, ch.1, l.1] := by
      simp [Conv.flat, ravel, finProdFinEquiv_apply_val]; ring
    rw [e] at this
    simpa only [Tensor.get, o2, hws] using this
  · have := o5 l
    rw [show Grad.convDiagonal patches (fun n i j l => ds n ((i, j), l)) (Fin.natAdd _ (0 : Fin 1)) l = _ from
      h2 (0 : Fin 1) l] at this
    simpa [Tensor.get, o3, hbs, ravel] using this

/-! ### Concrete cases -/

/-- Two parameters in two tensors, statistics 3 and 8, damping 1. -/
example : ∃ out, diagMatpower ⟨[2], [3, 8]⟩ 1 (.list [⟨[1], [2]⟩, ⟨[], [5]⟩]) 1 = .ok out ∧
    out.entries 2 0 = 8 ∧ out.entries 2 1 = 45 := by
  obtain ⟨h, -, -⟩ := C77_diagonal_power (n := 2) (⟨[2], [3, 8]⟩ : Tensor ℝ) rfl
    (by intro x hx; simp at hx; rcases hx with rfl | rfl <;> norm_num) one_pos
    (v := .list [⟨[1], [2]⟩, ⟨[], [5]⟩]) ⟨rfl, by simp, by simp [Tensor.WF]⟩
  obtain ⟨out, h1, -, h3⟩ := h 1
  refine ⟨out, h1, ?_, ?_⟩
  · rw [h3]; simp [Vec.entries, Vec.flat]; norm_num
  · rw [h3]; simp [Vec.entries, Vec.flat]; norm_num

/-- The statistics ((2, 1), (1, 2)) with damping 1 meet the hypotheses for full blocks. -/
example (la : Factor.Linalg 2) (hla : la.Good) : ∃ f f',
    (Factor.Dense.after (k := 2) [.matpower (-1) Factor.demoFunc]).instantiate = .ok f ∧
    (fullMatpower f' () !![2, 1; 1, 2] Factor.demoFunc (.single ⟨[2, 1], [1, -1]⟩) 1).bind
      (fun u => fullMatpower f' () !![2, 1; 1, 2] Factor.demoFunc u (-1)) = .ok (.single ⟨[2, 1], [1, -1]⟩) := by
  obtain ⟨f, f', h1, -, -, -, h5⟩ := C77_full_power hla Factor.Constants.default le_rfl
    [Factor.Reg.matpower (-1) Factor.demoFunc]
    (by intro r hr r' hr' d d' hd hd' _
        simp only [List.mem_singleton] at hr hr'
        subst hr; subst hr'
        rw [hd] at hd'; cases hd'; rfl) false [] () !![2, 1; 1, 2] Factor.demo_psd
    (by intro r hr d hd
        simp only [List.mem_singleton] at hr
        subst hr
        cases hd
        simp [Factor.demoFunc])
  exact ⟨f, f', h1, (h5 Factor.demoFunc _ (by simp) ⟨rfl, by simp [Tensor.WF]⟩).1⟩

end Kfac.Block
