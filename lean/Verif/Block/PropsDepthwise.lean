import Verif.Block.Depthwise
import Verif.Block.PropsFull
import Mathlib.LinearAlgebra.Matrix.Notation
import Mathlib.Tactic.FinCases

/-! # C78: depthwise convolutions -/

namespace Kfac.Block
open Kfac Kfac.Params Tensor

/-! ### Specification -/

/-- `tf.nn.depthwise_conv2d`: output channel `(i, k)` combines input channel `i` only. -/
def depthwiseLayer {kh kw c m : ℕ} (oh ow : ℕ) (stride rate pad : ℤ × ℤ) (θ : Fin kh × Fin kw × Fin c × Fin m → ℝ)
    (x : ℤ × ℤ → Fin c → ℝ) (out : (Fin oh × Fin ow) × Fin (c * m)) : ℝ :=
  ∑ dh : Fin kh, ∑ dw : Fin kw,
    x ((out.1.1 : ℤ) * stride.1 + (dh : ℤ) * rate.1 - pad.1, (out.1.2 : ℤ) * stride.2 + (dw : ℤ) * rate.2 - pad.2)
      (finProdFinEquiv.symm out.2).1 * θ (dh, dw, (finProdFinEquiv.symm out.2).1, (finProdFinEquiv.symm out.2).2)

/-! ### The conversion back, entry by entry -/

theorem convToDepthwise_entries {g : Tensor ℝ} {h w c m : ℕ} (hg : g.WF) (hs : g.shape = [h, w, c, c * m]) (hc : 0 < c) :
    ∃ f, convToDepthwise g = .ok f ∧ f.WF ∧ f.shape = [h, w, c, m] ∧
      ∀ y x i k, y < h → x < w → i < c → k < m → f.get [y, x, i, k] = g.get [y, x, i, i * m + k] := by
  have hlen : g.data.length = [h, w, c, c, m].prod := by
    rw [hg, hs]; simp
  have hdiv : c * m / c = m := Nat.mul_div_cancel_left _ hc
  simp only [convToDepthwise, hs, Nat.mul_mod_right, ne_eq, not_true, if_false, hdiv,
    reshape, hlen, if_true, bind, Except.bind, Nat.ne_of_gt hc]
  rw [concat_ok (shape := [h, w, c, m]) (by simp; omega) (by
    intro t ht
    simp only [List.mem_map, List.mem_range] at ht
    obtain ⟨i, _, rfl⟩ := ht
    exact ⟨rfl, rfl⟩)]
  have htot : (List.map (fun u : Tensor ℝ => u.shape.getD 2 0) (List.map (fun i =>
      ofFn [h, w, 1, m] fun idx => (⟨[h, w, c, c, m], g.data⟩ : Tensor ℝ).get
        [idx.getD 0 0, idx.getD 1 0, i, i, idx.getD 3 0]) (List.range c))).sum = c := by
    have : (List.map (fun u : Tensor ℝ => u.shape.getD 2 0) (List.map (fun i =>
      ofFn [h, w, 1, m] fun idx => (⟨[h, w, c, c, m], g.data⟩ : Tensor ℝ).get
        [idx.getD 0 0, idx.getD 1 0, i, i, idx.getD 3 0]) (List.range c)))
        = List.replicate c 1 := by
      apply List.ext_getElem (by simp)
      intro n h1 h2
      simp
    rw [this]; simp
  rw [htot]
  refine ⟨_, rfl, ofFn_wf _ _, rfl, ?_⟩
  intro y x i k h1 h2 h3 h4
  show (ofFn [h, w, c, m] _).get _ = _
  rw [get_ofFn _ (valid4' h1 h2 h3 h4)]
  rw [concatGet_uniform 2 1 _ (by
      intro t ht
      simp only [List.mem_map, List.mem_range] at ht
      obtain ⟨i, _, rfl⟩ := ht
      rfl) _ (by simp) (by simpa using h3)]
  have e1 : [y, x, i, k].getD 2 0 = i := rfl
  have e2 : ∀ v, [y, x, i, k].set 2 v = [y, x, v, k] := fun _ => rfl
  rw [e1, e2, List.getD_eq_getElem?_getD, Nat.div_one, Nat.mod_one]
  simp only [List.getElem?_map, List.getElem?_range h3, Option.map_some, Option.getD_some]
  rw [get_ofFn _ (valid4' h1 h2 (by omega) h4)]
  simp only [Tensor.get, hs, ravel, List.getD_cons_zero, List.getD_cons_succ]
  congr 1
  simp [List.prod_cons]

/-- Multiplying a depthwise filter by a power of the block multiplies every entry by the power of one statistic plus
damping: that of input channel `i` and output channel `i * m + k`. -/
theorem depthwiseMatpower_entries {h w c m : ℕ} (hc : 0 < c) (S : Matrix (Fin (h * w * c)) (Fin (c * m)) ℝ) {v : Tensor ℝ}
    (hs : v.shape = [h, w, c, m]) (d exp : ℝ) :
    ∃ out, depthwiseMatpower (ofMat S) d v exp = .ok out ∧ out.WF ∧ out.shape = [h, w, c, m] ∧
      ∀ (y : Fin h) (x : Fin w) (i : Fin c) (k : Fin m), out.get [y.1, x.1, i.1, k.1] =
        (S (Conv.flat y x i) (finProdFinEquiv (i, k)) + d) ^ exp * v.get [y.1, x.1, i.1, k.1] := by
  obtain ⟨g, g1, g2, g3, g4⟩ := C03_conv_entries v h w c m hs hc
  have hlen : (ofMat S).data.length = h * w * c * (c * m) := by rw [ofMat_wf]; simp
  have hgl : g.data.length = h * w * c * (c * m) := by rw [g2, g3]; simp; ring
  obtain ⟨r, r1, r2, r3, r4⟩ := diag_entries (ofMat S) hlen d exp (v := .single g) ⟨hgl, g2⟩
  cases r with
  | list _ => exact r2.elim
  | single r =>
    have hrs : r.shape = [h, w, c, c * m] := Eq.trans (α := List ℕ) r2 g3
    obtain ⟨f, f1, f2, f3, f4⟩ := convToDepthwise_entries (m := m) r3.2 hrs hc
    refine ⟨f, ?_, f2, f3, fun y x i k => ?_⟩
    · simp only [depthwiseMatpower, depthwiseMatrix, g1, bind, Except.bind, r1]
      exact f1
    · have hik : i.1 * m + k.1 < c * m := by
        calc i.1 * m + k.1 < i.1 * m + m := by omega
          _ = (i.1 + 1) * m := by ring
          _ ≤ c * m := Nat.mul_le_mul_right _ i.2
      rw [f4 y x i k y.2 x.2 i.2 k.2]
      have hidx : ravel [h, w, c, c * m] [y.1, x.1, i.1, i.1 * m + k.1] < h * w * c * (c * m) := by
        have := ravel_lt (valid4' y.2 x.2 i.2 hik)
        simpa [mul_assoc] using this
      have := r4 ⟨_, hidx⟩
      simp only [Vec.entries, Vec.flat] at this
      have hg := g4 y x i (i.1 * m + k.1) y.2 x.2 i.2 hik
      have hm : 0 < m := k.pos
      rw [Nat.mul_comm i.1 m, Nat.mul_add_div hm, Nat.div_eq_of_lt k.2, Nat.add_zero, if_pos rfl,
        Nat.mul_add_mod, Nat.mod_eq_of_lt k.2, Nat.mul_comm m i.1] at hg
      rw [← hg]
      simp only [Tensor.get, hrs, g3]
      rw [this]
      congr 3
      have hS := ofMat_get S (Conv.flat y x i) (finProdFinEquiv (i, k))
      rw [← hS]
      simp only [Tensor.get, ofMat_shape]
      congr 1
      simp [ravel, Conv.flat, finProdFinEquiv_apply_val]
      ring

/-- The whole path of the diagonal block: multiplying by a power multiplies each entry of the filter by that power of the
mean square of the per-example gradients of the depthwise convolution by this entry, plus damping. -/
theorem C78_diagonal {N kh kw c m oh ow : ℕ} (hc : 0 < c) (stride rate pad : ℤ × ℤ)
    (x : Fin N → ℤ × ℤ → Fin c → ℝ) (L : Fin N → ((Fin oh × Fin ow) × Fin (c * m) → ℝ) → ℝ)
    (θ : Fin kh × Fin kw × Fin c × Fin m → ℝ) (ds : Fin N → (Fin oh × Fin ow) × Fin (c * m) → ℝ)
    (h : ∀ n, Grad.IsGrad (L n) (depthwiseLayer oh ow stride rate pad θ (x n)) (ds n))
    (v : Tensor ℝ) (hs : v.shape = [kh, kw, c, m]) (numLocations : ℕ) (hl : 0 < numLocations) (d exp : ℝ) :
    ∃ patches, (∀ n, Grad.diagonalPatches (kh := kh) (kw := kw) (oh := oh) (ow := ow) false stride rate pad none (x n) =
      .ok (patches n)) ∧
    ∃ g : Fin N → Fin kh × Fin kw × Fin c × Fin m → ℝ,
      (∀ n, Grad.IsGrad (fun θ => L n (depthwiseLayer oh ow stride rate pad θ (x n))) θ (g n)) ∧
      ∃ out, depthwiseMatpower (ofMat (Grad.convDiagonal patches fun n i j l => ds n ((i, j), l)))
          ((DiagKind.conv numLocations).damping 1 d) v exp = .ok out ∧ out.shape = [kh, kw, c, m] ∧
        ∀ (dh : Fin kh) (dw : Fin kw) (i : Fin c) (k : Fin m), out.get [dh.1, dw.1, i.1, k.1] =
          (Grad.meanSquare g (dh, dw, i, k) + d) ^ exp * v.get [dh.1, dw.1, i.1, k.1] := by
  refine ⟨fun n i j => Grad.appendHomog false (Grad.patchGrid kh kw oh ow stride rate pad (x n) i j), fun n => rfl,
    fun n k => ∑ i, ∑ j, Grad.patchGrid kh kw oh ow stride rate pad (x n) i j (Conv.flat k.1 k.2.1 k.2.2.1) *
      ds n ((i, j), finProdFinEquiv (k.2.2.1, k.2.2.2)), fun n => ?_, ?_⟩
  · have := Grad.IsGrad.affine (layer := fun θ => depthwiseLayer oh ow stride rate pad θ (x n))
      (fun k out => if (k.2.2.1, k.2.2.2) = finProdFinEquiv.symm out.2 then
          Grad.patchGrid kh kw oh ow stride rate pad (x n) out.1.1 out.1.2 (Conv.flat k.1 k.2.1 k.2.2.1) else 0)
      (fun _ => 0)
      (fun θ out => by
        simp only [depthwiseLayer, Fintype.sum_prod_type, mul_ite, mul_zero, add_zero, Grad.patchGrid,
          Grad.imagePatch_flat]
        refine Finset.sum_congr rfl fun dh _ => Finset.sum_congr rfl fun dw _ => ?_
        rw [Finset.sum_eq_single (finProdFinEquiv.symm out.2).1, Finset.sum_eq_single (finProdFinEquiv.symm out.2).2]
        · rw [if_pos rfl]; ring
        · intro k _ hk
          rw [if_neg]
          intro e
          exact hk (congrArg Prod.snd e)
        · simp
        · intro i _ hi
          refine Finset.sum_eq_zero fun k _ => ?_
          rw [if_neg]
          intro e
          exact hi (congrArg Prod.fst e)
        · simp) (h n)
    convert this using 1
    funext k
    simp only [Fintype.sum_prod_type, mul_ite, mul_zero]
    refine Finset.sum_congr rfl fun i _ => Finset.sum_congr rfl fun j _ => ?_
    rw [Finset.sum_eq_single (finProdFinEquiv (k.2.2.1, k.2.2.2))]
    · rw [Equiv.symm_apply_apply, if_pos rfl]; ring
    · intro l _ hl
      rw [if_neg]
      intro e
      exact hl (by rw [e, Equiv.apply_symm_apply])
    · simp
  · rw [(C77_diagonal_damping (.conv numLocations) (by rintro l ⟨⟩; exact hl) d).1]
    obtain ⟨out, o1, -, o3, o4⟩ := depthwiseMatpower_entries hc
      (Grad.convDiagonal (fun n i j => Grad.appendHomog false (Grad.patchGrid kh kw oh ow stride rate pad (x n) i j))
        fun n i j l => ds n ((i, j), l) : Matrix (Fin (kh * kw * c)) (Fin (c * m)) ℝ) hs d exp
    refine ⟨out, o1, o3, fun dh dw i k => ?_⟩
    rw [o4]
    congr 3
    simp only [Grad.convDiagonal, Grad.meanSquare, Grad.caseWise]
    congr 1
    refine Finset.sum_congr rfl fun n _ => ?_
    congr 1
    refine Finset.sum_congr rfl fun a _ => Finset.sum_congr rfl fun b _ => ?_
    congr 1
    exact Grad.appendHomog_left false (Grad.patchGrid kh kw oh ow stride rate pad (x n) a b) (Conv.flat dh dw i)

/-- For non-negative statistics and positive damping the powers of the diagonal block compose; in particular
`multiply_inverse` undoes `multiply`. -/
theorem C78_inverse {h w c m : ℕ} (hc : 0 < c) (S : Matrix (Fin (h * w * c)) (Fin (c * m)) ℝ) (hS : ∀ i j, 0 ≤ S i j)
    {v : Tensor ℝ} (hv : v.WF) (hs : v.shape = [h, w, c, m]) {d : ℝ} (hd : 0 < d) :
    (∀ a b, (depthwiseMatpower (ofMat S) d v a).bind (fun u => depthwiseMatpower (ofMat S) d u b) =
      depthwiseMatpower (ofMat S) d v (a + b)) ∧
    (depthwiseMatpower (ofMat S) d v 1).bind (fun u => depthwiseMatpower (ofMat S) d u (-1)) = .ok v := by
  have hext : ∀ {a b : Tensor ℝ}, a.WF → b.WF → a.shape = [h, w, c, m] → b.shape = [h, w, c, m] →
      (∀ (y : Fin h) (x : Fin w) (i : Fin c) (k : Fin m), a.get [y.1, x.1, i.1, k.1] = b.get [y.1, x.1, i.1, k.1]) →
      a = b := by
    intro a b ha hb has hbs hab
    refine ext_get ha hb (has.trans hbs.symm) fun idx hidx => ?_
    rw [has] at hidx
    obtain ⟨y, x, i, k, rfl, h1, h2, h3, h4⟩ := valid4 hidx
    exact hab ⟨y, h1⟩ ⟨x, h2⟩ ⟨i, h3⟩ ⟨k, h4⟩
  have hcomp : ∀ a b, (depthwiseMatpower (ofMat S) d v a).bind (fun u => depthwiseMatpower (ofMat S) d u b) =
      depthwiseMatpower (ofMat S) d v (a + b) := by
    intro a b
    obtain ⟨u, u1, u2, u3, u4⟩ := depthwiseMatpower_entries hc S hs d a
    obtain ⟨t, t1, t2, t3, t4⟩ := depthwiseMatpower_entries hc S u3 d b
    obtain ⟨o, o1, o2, o3, o4⟩ := depthwiseMatpower_entries hc S hs d (a + b)
    rw [u1, o1]
    show depthwiseMatpower _ d u b = _
    rw [t1]
    congr 1
    refine hext t2 o2 t3 o3 fun y x i k => ?_
    have : 0 < S (Conv.flat y x i) (finProdFinEquiv (i, k)) + d := add_pos_of_nonneg_of_pos (hS _ _) hd
    rw [t4, u4, o4, Real.rpow_add this]
    ring
  refine ⟨hcomp, ?_⟩
  rw [hcomp, show (1 + -1 : ℝ) = 0 by norm_num]
  obtain ⟨o, o1, o2, o3, o4⟩ := depthwiseMatpower_entries hc S hs d 0
  rw [o1]
  congr 1
  refine hext o2 hv o3 hs fun y x i k => ?_
  rw [o4, Real.rpow_zero, one_mul]

/-! ### The Kronecker-factored block (`DepthwiseConvKFCBasicFB`) -/

/-- A depthwise filter as the matrix of the equivalent convolution: zero where input and output channel belong to
different groups. -/
noncomputable def convMatrix (h w c m : ℕ) (v : Tensor ℝ) : Matrix (Fin (h * w * c)) (Fin (c * m)) ℝ :=
  Matrix.of fun a b =>
    if (finProdFinEquiv.symm a).2 = (finProdFinEquiv.symm b).1 then
      v.get [(finProdFinEquiv.symm (finProdFinEquiv.symm a).1).1.1, (finProdFinEquiv.symm (finProdFinEquiv.symm a).1).2.1,
        (finProdFinEquiv.symm a).2.1, (finProdFinEquiv.symm b).2.1]
    else 0

theorem convMatrix_apply {h w c m : ℕ} (v : Tensor ℝ) (y : Fin h) (x : Fin w) (i j : Fin c) (k : Fin m) :
    convMatrix h w c m v (Conv.flat y x i) (finProdFinEquiv (j, k)) =
      if i = j then v.get [y.1, x.1, i.1, k.1] else 0 := by
  simp only [convMatrix, Conv.flat, Matrix.of_apply, Equiv.symm_apply_apply]

theorem exists_flat {h w c : ℕ} (a : Fin (h * w * c)) : ∃ y x i, a = Conv.flat y x i :=
  ⟨(finProdFinEquiv.symm (finProdFinEquiv.symm a).1).1, (finProdFinEquiv.symm (finProdFinEquiv.symm a).1).2,
    (finProdFinEquiv.symm a).2, by
    rw [Conv.flat, Prod.mk.eta, Equiv.apply_symm_apply, Prod.mk.eta, Equiv.apply_symm_apply]⟩

theorem exists_pair {c m : ℕ} (b : Fin (c * m)) : ∃ i k, b = finProdFinEquiv (i, k) :=
  ⟨(finProdFinEquiv.symm b).1, (finProdFinEquiv.symm b).2, by rw [Prod.mk.eta, Equiv.apply_symm_apply]⟩

theorem depthwiseFactored_entries {h w c m : ℕ} (hc : 0 < c) (hm : 0 < m) {L R : LinOp}
    {ML : Matrix (Fin (h * w * c)) (Fin (h * w * c)) ℝ} {MR : Matrix (Fin (c * m)) (Fin (c * m)) ℝ}
    (hL : L.Is _ ML) (hR : R.Is _ MR) {v : Tensor ℝ} (hs : v.shape = [h, w, c, m]) (s : ℝ) :
    ∃ out, depthwiseFactored L R v s false false = .ok out ∧ out.WF ∧ out.shape = [h, w, c, m] ∧
      ∀ (y : Fin h) (x : Fin w) (i : Fin c) (k : Fin m), out.get [y.1, x.1, i.1, k.1] =
        s * (ML * convMatrix h w c m v * MR) (Conv.flat y x i) (finProdFinEquiv (i, k)) := by
  obtain ⟨g, g1, g2, g3, g4⟩ := C03_conv_entries v h w c m hs hc
  have hfit : Fits (h * w * c) (c * m) (.weight g) :=
    ⟨g2, by rw [g3]; rfl, (Nat.mul_pos hc hm).ne', by rw [g3]; simp; ring⟩
  have hlt : ∀ (j : Fin c) (k : Fin m), j.1 * m + k.1 < c * m := by
    intro j k
    calc j.1 * m + k.1 < j.1 * m + m := by omega
      _ = (j.1 + 1) * m := by ring
      _ ≤ c * m := Nat.mul_le_mul_right _ j.2
  have hget : ∀ (t : Tensor ℝ), t.shape = [h, w, c, c * m] → ∀ (y : Fin h) (x : Fin w) (i j : Fin c) (k : Fin m),
      grid (h * w * c) (c * m) (.weight t) (Conv.flat y x i) (finProdFinEquiv (j, k)) =
        t.get [y.1, x.1, i.1, j.1 * m + k.1] := by
    intro t ht y x i j k
    simp only [grid, flat, Tensor.get, ht]
    congr 1
    simp [ravel, Conv.flat, finProdFinEquiv_apply_val]
    ring
  have hgrid : grid (h * w * c) (c * m) (.weight g) = convMatrix h w c m v := by
    ext a b
    obtain ⟨y, x, i, rfl⟩ := exists_flat a
    obtain ⟨j, k, rfl⟩ := exists_pair b
    rw [convMatrix_apply, hget g g3]
    have := g4 y x i (j.1 * m + k.1) y.2 x.2 i.2 (hlt j k)
    rw [this, Nat.mul_comm j.1 m, Nat.mul_add_div hm, Nat.div_eq_of_lt k.2, Nat.add_zero, Nat.mul_add_mod,
      Nat.mod_eq_of_lt k.2]
    by_cases hij : i = j
    · subst hij; simp
    · rw [if_neg hij, if_neg]
      intro e
      exact hij (Fin.ext e.symm)
  obtain ⟨r, r1, r2, r3, r4⟩ := multiplyFactored_spec hL hR hfit s false false
  cases r with
  | weightBias _ _ => exact r2.elim
  | weight r =>
    have hrs : r.shape = [h, w, c, c * m] := Eq.trans (α := List ℕ) r2 g3
    obtain ⟨f, f1, f2, f3, f4⟩ := convToDepthwise_entries (m := m) r3.1 hrs hc
    refine ⟨f, ?_, f2, f3, fun y x i k => ?_⟩
    · simp only [depthwiseFactored, g1, bind, Except.bind, r1]
      exact f1
    · rw [f4 y x i k y.2 x.2 i.2 k.2, ← hget r hrs, r4, hgrid]
      simp [tr?]

/-- `multiply` of the Kronecker-factored block is multiplication by the block of `renorm · (A ⊗ G)` that belongs to the
parameters the depthwise filter has. -/
theorem C78_kfc_multiply {h w c m : ℕ} (hc : 0 < c) (hm : 0 < m) (b : KBlock) (hA : b.input.Good (h * w * c))
    (hG : b.output.Good (c * m)) {v : Tensor ℝ} (hs : v.shape = [h, w, c, m]) :
    ∃ out, b.depthwiseMultiply v = .ok out ∧ out.shape = [h, w, c, m] ∧
      ∀ (y : Fin h) (x : Fin w) (i : Fin c) (k : Fin m), out.get [y.1, x.1, i.1, k.1] =
        ∑ y' : Fin h, ∑ x' : Fin w, ∑ i' : Fin c, ∑ k' : Fin m, b.renorm *
          (b.input.damped _ b.dIn (Conv.flat y x i) (Conv.flat y' x' i') *
            b.output.damped _ b.dOut (finProdFinEquiv (i, k)) (finProdFinEquiv (i', k'))) *
          v.get [y'.1, x'.1, i'.1, k'.1] := by
  obtain ⟨out, o1, -, o3, o4⟩ := depthwiseFactored_entries hc hm (hA.matpowerOne_is b.dIn) (hG.matpowerOne_is b.dOut) hs
    (b.renorm ^ (1 : ℝ))
  refine ⟨out, o1, o3, fun y x i k => ?_⟩
  rw [o4, Real.rpow_one, Matrix.mul_apply, Finset.mul_sum,
    ← Equiv.sum_comp (finProdFinEquiv (m := c) (n := m)), Fintype.sum_prod_type]
  have hsum : ∀ f : Fin (h * w * c) → ℝ, ∑ a, f a = ∑ y : Fin h, ∑ x : Fin w, ∑ i : Fin c, f (Conv.flat y x i) := by
    intro f
    rw [← Equiv.sum_comp (finProdFinEquiv (m := h * w) (n := c)), Fintype.sum_prod_type,
      ← Equiv.sum_comp (finProdFinEquiv (m := h) (n := w)), Fintype.sum_prod_type]
    rfl
  have hsymm : ∀ a a', b.output.damped _ b.dOut a' a = b.output.damped _ b.dOut a a' := fun a a' =>
    congrFun (congrFun (hG.symm b.dOut) a) a'
  have : ∀ (i' : Fin c) (k' : Fin m), b.renorm * ((b.input.damped (h * w * c) b.dIn * convMatrix h w c m v)
      (Conv.flat y x i) (finProdFinEquiv (i', k')) *
      b.output.damped _ b.dOut (finProdFinEquiv (i', k')) (finProdFinEquiv (i, k))) =
      ∑ y' : Fin h, ∑ x' : Fin w, b.renorm *
          (b.input.damped _ b.dIn (Conv.flat y x i) (Conv.flat y' x' i') *
            b.output.damped _ b.dOut (finProdFinEquiv (i, k)) (finProdFinEquiv (i', k'))) *
          v.get [y'.1, x'.1, i'.1, k'.1] := by
    intro i' k'
    rw [Matrix.mul_apply, hsum, Finset.sum_mul, Finset.mul_sum]
    refine Finset.sum_congr rfl fun y' _ => ?_
    rw [Finset.sum_mul, Finset.mul_sum]
    refine Finset.sum_congr rfl fun x' _ => ?_
    rw [Finset.sum_eq_single i']
    · rw [convMatrix_apply, if_pos rfl, hsymm]; ring
    · intro j _ hj
      rw [convMatrix_apply, if_neg hj, mul_zero]
    · simp
  simp only [this]
  rw [Finset.sum_congr rfl fun i' _ => Finset.sum_comm, Finset.sum_comm]
  refine Finset.sum_congr rfl fun y' _ => ?_
  rw [Finset.sum_congr rfl fun i' _ => Finset.sum_comm, Finset.sum_comm]

/-- The factors do not couple different input channels. -/
def Channelwise {h w c m : ℕ} (A : Matrix (Fin (h * w * c)) (Fin (h * w * c)) ℝ)
    (G : Matrix (Fin (c * m)) (Fin (c * m)) ℝ) : Prop :=
  (∀ (y y' : Fin h) (x x' : Fin w) (i i' : Fin c), i ≠ i' → A (Conv.flat y x i) (Conv.flat y' x' i') = 0) ∧
    ∀ (i i' : Fin c) (k k' : Fin m), i ≠ i' → G (finProdFinEquiv (i, k)) (finProdFinEquiv (i', k')) = 0

/-- Full statement: `multiply_inverse` undoes `multiply`, for any factors. It holds for factors that do not couple
different channels; `C78_kfc_counterexample` shows that it is false otherwise. -/
theorem C78_kfc_inverse_partial {h w c m : ℕ} (hc : 0 < c) (hm : 0 < m) (b : KBlock) (hA : b.input.Good (h * w * c))
    (hG : b.output.Good (c * m)) (h1 : 0 < b.dIn) (h2 : 0 < b.dOut) (hr : 0 < b.renorm)
    (hch : Channelwise (b.input.damped (h * w * c) b.dIn) (b.output.damped (c * m) b.dOut))
    {v : Tensor ℝ} (hv : v.WF) (hs : v.shape = [h, w, c, m]) :
    (b.refreshed.depthwiseMultiply v).bind b.refreshed.depthwiseMultiplyInverse = .ok v := by
  have dA := (hA.posDef h1).isUnit
  have dG := (hG.posDef h2).isUnit
  rw [Matrix.isUnit_iff_isUnit_det] at dA dG
  have iA1 : (b.refreshed.input.matpowerOne b.dIn).Is _ (b.input.damped (h * w * c) b.dIn) := by
    show ((b.input.updateInverse b.dIn).matpowerOne b.dIn).Is _ _
    rw [updateInverse_matpowerOne]; exact hA.matpowerOne_is _
  have iG1 : (b.refreshed.output.matpowerOne b.dOut).Is _ (b.output.damped (c * m) b.dOut) := by
    show ((b.output.updateInverse b.dOut).matpowerOne b.dOut).Is _ _
    rw [updateInverse_matpowerOne]; exact hG.matpowerOne_is _
  have iA2 : (b.refreshed.input.matpowerInv b.dIn).Is (h * w * c) _ := hA.matpowerInv_is h1
  have iG2 : (b.refreshed.output.matpowerInv b.dOut).Is (c * m) _ := hG.matpowerInv_is h2
  have hr1 : b.renorm ^ (-1 : ℝ) * b.renorm ^ (1 : ℝ) = 1 := by
    rw [← Real.rpow_add hr]; norm_num
  obtain ⟨u, u1, u2, u3, u4⟩ := depthwiseFactored_entries hc hm iA1 iG1 hs (b.renorm ^ (1 : ℝ))
  obtain ⟨t, t1, t2, t3, t4⟩ := depthwiseFactored_entries hc hm iA2 iG2 u3 (b.renorm ^ (-1 : ℝ))
  have hU : convMatrix h w c m u = b.renorm ^ (1 : ℝ) •
      (b.input.damped (h * w * c) b.dIn * convMatrix h w c m v * b.output.damped (c * m) b.dOut) := by
    ext a e
    obtain ⟨y, x, i, rfl⟩ := exists_flat a
    obtain ⟨j, k, rfl⟩ := exists_pair e
    rw [convMatrix_apply, Matrix.smul_apply, smul_eq_mul]
    by_cases hij : i = j
    · subst hij
      rw [if_pos rfl, u4]
    · rw [if_neg hij, Matrix.mul_apply, Finset.sum_eq_zero, mul_zero]
      intro e _
      obtain ⟨j', k', rfl⟩ := exists_pair e
      by_cases hj : j' = j
      · subst hj
        rw [Matrix.mul_apply, Finset.sum_eq_zero, zero_mul]
        intro a _
        obtain ⟨y', x', i', rfl⟩ := exists_flat a
        rw [convMatrix_apply]
        by_cases hi : i' = j'
        · subst hi
          rw [hch.1 _ _ _ _ _ _ hij, zero_mul]
        · rw [if_neg hi, mul_zero]
      · rw [hch.2 _ _ _ _ hj, mul_zero]
  show (depthwiseFactored _ _ _ _ _ _).bind _ = _
  erw [u1]
  show depthwiseFactored _ _ _ _ _ _ = _
  erw [t1]
  congr 1
  refine ext_get t2 hv (t3.trans hs.symm) fun idx hidx => ?_
  rw [t3] at hidx
  obtain ⟨y, x, i, k, rfl, l1, l2, l3, l4⟩ := valid4 hidx
  have := t4 ⟨y, l1⟩ ⟨x, l2⟩ ⟨i, l3⟩ ⟨k, l4⟩
  simp only at this
  rw [this, hU, Matrix.mul_smul, Matrix.smul_mul, Matrix.smul_apply, smul_eq_mul, ← mul_assoc, hr1, one_mul,
    ← Matrix.mul_assoc, ← Matrix.mul_assoc, Matrix.nonsing_inv_mul _ dA, Matrix.one_mul, Matrix.mul_assoc,
    Matrix.mul_nonsing_inv _ dG, Matrix.mul_one, convMatrix_apply, if_pos rfl]

/-- Statistics of two perfectly correlated channels. -/
noncomputable def correlated : Factor :=
  { isDiag := false, cov := ofMat (Matrix.of fun _ _ : Fin 2 => (1 : ℝ)), inverse := ⟨[], []⟩, cholesky := ⟨[], []⟩,
    choleskyInverse := ⟨[], []⟩ }

theorem correlated_covMat : correlated.covMat 2 = Matrix.of fun _ _ : Fin 2 => (1 : ℝ) := by
  ext i j
  exact ofMat_get _ i j

theorem correlated_good : correlated.Good 2 := by
  refine ⟨ofMat_wf _, rfl, ?_⟩
  have : toMat 2 2 correlated.cov = Matrix.vecMulVec (fun _ => (1 : ℝ)) (star fun _ => (1 : ℝ)) := by
    rw [show toMat 2 2 correlated.cov = correlated.covMat 2 from rfl, correlated_covMat]
    ext i j
    simp [Matrix.vecMulVec]
  rw [this]
  exact Matrix.posSemidef_vecMulVec_self_star _

theorem correlated_damped : correlated.damped 2 1 = !![2, 1; 1, 2] := by
  rw [Factor.damped, correlated_covMat]
  ext i j
  fin_cases i <;> fin_cases j <;> simp <;> norm_num

theorem correlated_inverse : (correlated.damped 2 1)⁻¹ = !![2 / 3, -1 / 3; -1 / 3, 2 / 3] := by
  rw [correlated_damped]
  apply Matrix.inv_eq_left_inv
  ext i j
  fin_cases i <;> fin_cases j <;> simp [Matrix.mul_apply, Fin.sum_univ_two] <;> norm_num

/-- With statistics that couple two channels, `multiply_inverse` of the Kronecker-factored block does not undo
`multiply`: the conversion back to a depthwise filter drops the entries between different channels in both. -/
theorem C78_kfc_counterexample : ∃ (b : KBlock) (v : Tensor ℝ), b.input.Good (1 * 1 * 2) ∧ b.output.Good (2 * 1) ∧
    0 < b.dIn ∧ 0 < b.dOut ∧ 0 < b.renorm ∧ v.WF ∧ v.shape = [1, 1, 2, 1] ∧
    (b.refreshed.depthwiseMultiply v).bind b.refreshed.depthwiseMultiplyInverse ≠ .ok v := by
  let b : KBlock := ⟨correlated, correlated, 1, 1, 1⟩
  let v : Tensor ℝ := ⟨[1, 1, 2, 1], [1, 0]⟩
  refine ⟨b, v, correlated_good, correlated_good, one_pos, one_pos, one_pos, rfl, rfl, ?_⟩
  have hA : b.input.Good (1 * 1 * 2) := correlated_good
  have hG : b.output.Good (2 * 1) := correlated_good
  have iA1 : (b.refreshed.input.matpowerOne b.dIn).Is (1 * 1 * 2) (b.input.damped (1 * 1 * 2) b.dIn) := by
    show ((b.input.updateInverse b.dIn).matpowerOne b.dIn).Is _ _
    rw [updateInverse_matpowerOne]; exact hA.matpowerOne_is _
  have iG1 : (b.refreshed.output.matpowerOne b.dOut).Is (2 * 1) (b.output.damped (2 * 1) b.dOut) := by
    show ((b.output.updateInverse b.dOut).matpowerOne b.dOut).Is _ _
    rw [updateInverse_matpowerOne]; exact hG.matpowerOne_is _
  have iA2 : (b.refreshed.input.matpowerInv b.dIn).Is (1 * 1 * 2) _ := hA.matpowerInv_is one_pos
  have iG2 : (b.refreshed.output.matpowerInv b.dOut).Is (2 * 1) _ := hG.matpowerInv_is one_pos
  obtain ⟨u, u1, u2, u3, u4⟩ := depthwiseFactored_entries two_pos one_pos iA1 iG1 (v := v) rfl (b.renorm ^ (1 : ℝ))
  obtain ⟨t, t1, t2, t3, t4⟩ := depthwiseFactored_entries two_pos one_pos iA2 iG2 u3 (b.renorm ^ (-1 : ℝ))
  show (depthwiseFactored _ _ _ _ _ _).bind _ ≠ _
  erw [u1]
  show depthwiseFactored _ _ _ _ _ _ ≠ _
  erw [t1]
  intro e
  injection e with e
  have entry : ∀ (w : Tensor ℝ) (A B : Matrix (Fin 2) (Fin 2) ℝ) (i : Fin 2),
      (HMul.hMul (α := Matrix (Fin (1 * 1 * 2)) (Fin (2 * 1)) ℝ) (HMul.hMul (α := Matrix (Fin (1 * 1 * 2)) (Fin (1 * 1 * 2)) ℝ)
        A (convMatrix 1 1 2 1 w)) (B : Matrix (Fin (2 * 1)) (Fin (2 * 1)) ℝ) : Matrix (Fin (1 * 1 * 2)) (Fin (2 * 1)) ℝ)
        (Conv.flat (kh := 1) (kw := 1) (c := 2) 0 0 i) (finProdFinEquiv (m := 2) (n := 1) (i, 0)) =
      A i 0 * w.get [0, 0, 0, 0] * B 0 i + A i 1 * w.get [0, 0, 1, 0] * B 1 i := by
    intro w A B i
    have hM : ∀ i j : Fin 2, convMatrix 1 1 2 1 w i j = if i = j then w.get [0, 0, i.1, 0] else 0 := by
      intro i j
      have := convMatrix_apply (h := 1) (w := 1) (c := 2) (m := 1) w 0 0 i j 0
      fin_cases i <;> fin_cases j <;> exact this
    have e1 : (Conv.flat (kh := 1) (kw := 1) (c := 2) 0 0 i : Fin 2) = i := by fin_cases i <;> rfl
    have e2 : (finProdFinEquiv (m := 2) (n := 1) (i, 0) : Fin 2) = i := by fin_cases i <;> rfl
    show ((A * (show Matrix (Fin 2) (Fin 2) ℝ from convMatrix 1 1 2 1 w) * B : Matrix (Fin 2) (Fin 2) ℝ)) _ _ = _
    rw [show (Conv.flat (kh := 1) (kw := 1) (c := 2) 0 0 i) = (i : Fin 2) from e1,
      show (finProdFinEquiv (m := 2) (n := 1) (i, 0)) = (i : Fin 2) from e2]
    simp only [Matrix.mul_apply, Fin.sum_univ_two, hM]
    simp
  have hu0 := u4 0 0 0 0
  have hu1 := u4 0 0 1 0
  have ht0 := t4 0 0 0 0
  erw [entry v (correlated.damped 2 1) (correlated.damped 2 1) 0, correlated_damped] at hu0
  erw [entry v (correlated.damped 2 1) (correlated.damped 2 1) 1, correlated_damped] at hu1
  erw [entry u (correlated.damped 2 1)⁻¹ (correlated.damped 2 1)⁻¹ 0, correlated_inverse] at ht0
  have hv0 : v.get [0, 0, 0, 0] = 1 := rfl
  have hv1 : v.get [0, 0, 1, 0] = 0 := rfl
  have hr : b.renorm = 1 := rfl
  rw [hv0, hv1, hr] at hu0 hu1
  rw [e, hr] at ht0
  simp only [Fin.val_zero, Fin.val_one, Fin.isValue] at hu0 hu1 ht0
  rw [hu0, hu1, hv0] at ht0
  simp at ht0
  norm_num at ht0

/-- Two channels with two outputs each. -/
example : (depthwiseMatpower (ofMat (Matrix.of fun i j => ((i.1 + j.1 : ℕ) : ℝ) : Matrix (Fin (1 * 1 * 2)) (Fin (2 * 2)) ℝ)) 1
    ⟨[1, 1, 2, 2], [1, 2, 3, 4]⟩ 1).bind (fun u =>
      depthwiseMatpower (ofMat (Matrix.of fun i j => ((i.1 + j.1 : ℕ) : ℝ) : Matrix (Fin (1 * 1 * 2)) (Fin (2 * 2)) ℝ)) 1 u
        (-1)) = .ok ⟨[1, 1, 2, 2], [1, 2, 3, 4]⟩ :=
  (C78_inverse (h := 1) (w := 1) (c := 2) (m := 2) two_pos _ (fun i j => Nat.cast_nonneg (i.1 + j.1))
    (v := ⟨[1, 1, 2, 2], [1, 2, 3, 4]⟩) (by simp [Tensor.WF]) rfl one_pos).2

/-- A loss that reads one output of a 1 × 1 depthwise convolution of two channels with two outputs each. -/
example (stride rate pad : ℤ × ℤ) (x : Fin 3 → ℤ × ℤ → Fin 2 → ℝ) (θ : Fin 1 × Fin 1 × Fin 2 × Fin 2 → ℝ) :
    ∃ ds : Fin 3 → (Fin 2 × Fin 2) × Fin (2 * 2) → ℝ, ∀ n, Grad.IsGrad (fun s => s ((0, 1), 3))
      (depthwiseLayer 2 2 stride rate pad θ (x n)) (ds n) :=
  ⟨_, fun n => Grad.isGrad_coord _ _⟩

/-- Diagonal factors do not couple channels. -/
example (A : Fin (1 * 1 * 2) → ℝ) (G : Fin (2 * 2) → ℝ) :
    Channelwise (h := 1) (w := 1) (c := 2) (m := 2) (Matrix.diagonal A) (Matrix.diagonal G) := by
  constructor
  · intro y y' x x' i i' hi
    refine Matrix.diagonal_apply_ne _ fun e => hi ?_
    exact (Prod.ext_iff.1 (finProdFinEquiv.injective e)).2
  · intro i i' k k' hi
    refine Matrix.diagonal_apply_ne _ fun e => hi ?_
    exact (Prod.ext_iff.1 (finProdFinEquiv.injective e)).1

end Kfac.Block
