import Verif.Grad.Lemmas
import Mathlib.Analysis.Calculus.FDeriv.Mul
import Mathlib.Tactic.NormNum

/-! # C70: diagonal factors hold the mean squares of per-example gradients -/

namespace Kfac.Grad

open Kfac.Conv

/-! ### Specification: the layers, with the parameters `(weights, bias)` -/

/-- `x W + b`. -/
def fcLayer {p q : ℕ} (bias : Bool) (θ : (Fin p × Fin q) ⊕ Fin q → ℝ) (x : Fin p → ℝ) (j : Fin q) : ℝ :=
  ∑ i, x i * θ (.inl (i, j)) + if bias then θ (.inr j) else 0

/-- `conv(x, mask * W) + b` over the output positions. -/
def convLayer {kh kw c o : ℕ} (bias : Bool) (oh ow : ℕ) (stride rate pad : ℤ × ℤ)
    (mask : Fin kh → Fin kw → Fin c → ℝ) (θ : (Fin kh × Fin kw × Fin c × Fin o) ⊕ Fin o → ℝ)
    (x : ℤ × ℤ → Fin c → ℝ) (out : (Fin oh × Fin ow) × Fin o) : ℝ :=
  convolution stride rate pad x (fun dh dw ch o => mask dh dw ch * θ (.inl (dh, dw, ch, o)))
    ((out.1.1 : ℤ), (out.1.2 : ℤ)) out.2 + if bias then θ (.inr out.2) else 0

/-- The mean over the batch of the squares of coordinate `k`. -/
noncomputable def meanSquare {N : ℕ} {P : Type} (g : Fin N → P → ℝ) (k : P) : ℝ := (∑ n, g n k ^ 2) / N

/-! ### Fully connected layers -/

theorem appendHomog_left {p : ℕ} (bias : Bool) (x : Fin p → ℝ) (i : Fin p) :
    appendHomog bias x (Fin.castAdd _ i) = x i := by simp [appendHomog]

theorem appendHomog_right {p : ℕ} (bias : Bool) (x : Fin p → ℝ) (b : Fin bias.toNat) :
    appendHomog bias x (Fin.natAdd p b) = 1 := by simp [appendHomog]

theorem fcDiagonal_apply {N p q : ℕ} (bias : Bool) (x : Fin N → Fin p → ℝ) (ds : Fin N → Fin q → ℝ)
    (i : Fin (p + bias.toNat)) (j : Fin q) :
    fcDiagonal bias x ds i j = (∑ n, appendHomog bias (x n) i ^ 2 * ds n j ^ 2) / N := rfl

/-- For every batch and every loss of the outputs of the layer with derivatives `ds`, the factor holds the mean squares
of the gradients of the single examples' losses by the weights (rows below the number of inputs) and the bias (last
row). -/
theorem C70_fully_connected {N p q : ℕ} (bias : Bool) (x : Fin N → Fin p → ℝ) (L : Fin N → (Fin q → ℝ) → ℝ)
    (θ : (Fin p × Fin q) ⊕ Fin q → ℝ) (ds : Fin N → Fin q → ℝ)
    (h : ∀ n, IsGrad (L n) (fcLayer bias θ (x n)) (ds n)) :
    ∃ g : Fin N → (Fin p × Fin q) ⊕ Fin q → ℝ,
      (∀ n, IsGrad (fun θ => L n (fcLayer bias θ (x n))) θ (g n)) ∧
      (∀ i j, fcDiagonal bias x ds (Fin.castAdd _ i) j = meanSquare g (.inl (i, j))) ∧
      (∀ b j, fcDiagonal bias x ds (Fin.natAdd p b) j = meanSquare g (.inr j)) := by
  refine ⟨fun n k => match k with
    | .inl (i, j) => x n i * ds n j
    | .inr j => if bias then ds n j else 0, fun n => ?_, fun i j => ?_, fun b j => ?_⟩
  · have := IsGrad.affine (layer := fun θ => fcLayer bias θ (x n))
      (fun k o => match k with
        | .inl (i, j) => if j = o then x n i else 0
        | .inr j => if bias = true ∧ j = o then 1 else 0) (fun _ => 0)
      (fun θ o => by
        simp only [fcLayer, Fintype.sum_sum_type, Fintype.sum_prod_type, mul_ite, mul_zero, mul_one, add_zero]
        congr 1
        · refine Finset.sum_congr rfl fun i _ => ?_
          simp [mul_comm]
        · cases bias <;> simp) (h n)
    convert this using 1
    funext k
    rcases k with ⟨i, j⟩ | j
    · simp [mul_comm]
    · cases bias <;> simp
  · simp only [fcDiagonal_apply, meanSquare, appendHomog_left, mul_pow]
  · have hb : bias = true := by cases bias <;> [exact b.elim0; rfl]
    simp only [fcDiagonal_apply, meanSquare, appendHomog_right, one_pow, one_mul, hb,
      if_true]

/-! ### Convolutions -/

theorem imagePatch_flat {c : ℕ} (kh kw : ℕ) (stride rate pad : ℤ × ℤ) (x : ℤ × ℤ → Fin c → ℝ) (p : ℤ × ℤ)
    (dh : Fin kh) (dw : Fin kw) (ch : Fin c) :
    imagePatch kh kw stride rate pad x p (flat dh dw ch) =
      x (p.1 * stride.1 + (dh : ℤ) * rate.1 - pad.1, p.2 * stride.2 + (dw : ℤ) * rate.2 - pad.2) ch := by
  simp only [imagePatch, flat, Equiv.symm_apply_apply]

/-- The gradient of the loss of one example by the parameters of the convolution. -/
noncomputable def convGrad {kh kw c o : ℕ} (bias : Bool) (oh ow : ℕ) (stride rate pad : ℤ × ℤ)
    (mask : Fin kh → Fin kw → Fin c → ℝ) (x : ℤ × ℤ → Fin c → ℝ) (ds : (Fin oh × Fin ow) × Fin o → ℝ) :
    (Fin kh × Fin kw × Fin c × Fin o) ⊕ Fin o → ℝ
  | .inl (dh, dw, ch, l) => ∑ i, ∑ j, patchGrid kh kw oh ow stride rate pad x i j (flat dh dw ch) * mask dh dw ch *
      ds ((i, j), l)
  | .inr l => if bias then ∑ i, ∑ j, ds ((i, j), l) else 0

theorem convGrad_isGrad {kh kw c o : ℕ} (bias : Bool) (oh ow : ℕ) (stride rate pad : ℤ × ℤ)
    (mask : Fin kh → Fin kw → Fin c → ℝ) (x : ℤ × ℤ → Fin c → ℝ) (L : ((Fin oh × Fin ow) × Fin o → ℝ) → ℝ)
    (θ : (Fin kh × Fin kw × Fin c × Fin o) ⊕ Fin o → ℝ) (ds : (Fin oh × Fin ow) × Fin o → ℝ)
    (h : IsGrad L (convLayer bias oh ow stride rate pad mask θ x) ds) :
    IsGrad (fun θ => L (convLayer bias oh ow stride rate pad mask θ x)) θ
      (convGrad bias oh ow stride rate pad mask x ds) := by
  have := IsGrad.affine (layer := fun θ => convLayer bias oh ow stride rate pad mask θ x)
    (fun k out => match k with
      | .inl (dh, dw, ch, l) => if l = out.2 then
          patchGrid kh kw oh ow stride rate pad x out.1.1 out.1.2 (flat dh dw ch) * mask dh dw ch else 0
      | .inr l => if bias = true ∧ l = out.2 then 1 else 0) (fun _ => 0)
    (fun θ out => by
      simp only [convLayer, convolution, Fintype.sum_sum_type, Fintype.sum_prod_type, mul_ite, mul_zero, mul_one,
        add_zero, patchGrid, imagePatch_flat]
      congr 1
      · refine Finset.sum_congr rfl fun dh _ => Finset.sum_congr rfl fun dw _ => Finset.sum_congr rfl fun ch _ => ?_
        simp only [Finset.sum_ite_eq', Finset.mem_univ, if_true]
        ring
      · cases bias <;> simp) h
  convert this using 1
  funext k
  rcases k with ⟨dh, dw, ch, l⟩ | l
  · simp only [convGrad, Fintype.sum_prod_type, mul_ite, mul_zero, Finset.sum_ite_eq, Finset.mem_univ, if_true]
    exact Finset.sum_congr rfl fun i _ => Finset.sum_congr rfl fun j _ => mul_comm _ _
  · cases bias <;> simp [convGrad, Fintype.sum_prod_type]

/-- Convolutions without a mask: the factor is defined and holds the mean squares of the per-example gradients, entry
`(dh, dw, ch)` of the filter in row `flat dh dw ch`, the bias in the last row. -/
theorem C70_convolution {N kh kw c o oh ow : ℕ} (bias : Bool) (stride rate pad : ℤ × ℤ)
    (x : Fin N → ℤ × ℤ → Fin c → ℝ) (L : Fin N → ((Fin oh × Fin ow) × Fin o → ℝ) → ℝ)
    (θ : (Fin kh × Fin kw × Fin c × Fin o) ⊕ Fin o → ℝ) (ds : Fin N → (Fin oh × Fin ow) × Fin o → ℝ)
    (h : ∀ n, IsGrad (L n) (convLayer bias oh ow stride rate pad (fun _ _ _ => 1) θ (x n)) (ds n)) :
    ∃ patches, (∀ n, diagonalPatches (kh := kh) (kw := kw) bias stride rate pad none (x n) = .ok (patches n)) ∧
    ∃ g : Fin N → (Fin kh × Fin kw × Fin c × Fin o) ⊕ Fin o → ℝ,
      (∀ n, IsGrad (fun θ => L n (convLayer bias oh ow stride rate pad (fun _ _ _ => 1) θ (x n))) θ (g n)) ∧
      (∀ dh dw ch l, convDiagonal patches (fun n i j l => ds n ((i, j), l)) (Fin.castAdd _ (flat dh dw ch)) l =
        meanSquare g (.inl (dh, dw, ch, l))) ∧
      (∀ b l, convDiagonal patches (fun n i j l => ds n ((i, j), l)) (Fin.natAdd _ b) l = meanSquare g (.inr l)) := by
  refine ⟨fun n i j => appendHomog bias (patchGrid kh kw oh ow stride rate pad (x n) i j), fun n => rfl,
    fun n => convGrad bias oh ow stride rate pad (fun _ _ _ => 1) (x n) (ds n), fun n => ?_, fun dh dw ch l => ?_,
    fun b l => ?_⟩
  · exact convGrad_isGrad bias oh ow stride rate pad _ (x n) (L n) θ (ds n) (h n)
  · simp only [convDiagonal, meanSquare, caseWise, appendHomog_left, convGrad, mul_one]
  · have hb : bias = true := by cases bias <;> [exact b.elim0; rfl]
    simp only [convDiagonal, meanSquare, caseWise, appendHomog_right, convGrad, one_mul, hb, if_true]

/-- With a mask the full claim is that the factor holds the mean squares of the gradients of the masked convolution.
It holds for filters of one tap. -/
theorem C70_mask_partial {N c o oh ow : ℕ} (bias : Bool) (stride rate pad : ℤ × ℤ) (mask : Fin 1 → Fin 1 → Fin c → ℝ)
    (x : Fin N → ℤ × ℤ → Fin c → ℝ) (L : Fin N → ((Fin oh × Fin ow) × Fin o → ℝ) → ℝ)
    (θ : (Fin 1 × Fin 1 × Fin c × Fin o) ⊕ Fin o → ℝ) (ds : Fin N → (Fin oh × Fin ow) × Fin o → ℝ)
    (h : ∀ n, IsGrad (L n) (convLayer bias oh ow stride rate pad mask θ (x n)) (ds n)) :
    ∃ patches, (∀ n, diagonalPatches bias stride rate pad (some mask) (x n) = .ok (patches n)) ∧
    ∃ g : Fin N → (Fin 1 × Fin 1 × Fin c × Fin o) ⊕ Fin o → ℝ,
      (∀ n, IsGrad (fun θ => L n (convLayer bias oh ow stride rate pad mask θ (x n))) θ (g n)) ∧
      (∀ dh dw ch l, convDiagonal patches (fun n i j l => ds n ((i, j), l)) (Fin.castAdd _ (flat dh dw ch)) l =
        meanSquare g (.inl (dh, dw, ch, l))) ∧
      (∀ b l, convDiagonal patches (fun n i j l => ds n ((i, j), l)) (Fin.natAdd _ b) l = meanSquare g (.inr l)) := by
  have hc : (1 = oh ∨ 1 = 1) ∧ (1 = ow ∨ 1 = 1) ∧ (c = 1 * 1 * c ∨ c = 1) := by omega
  have hm : ∀ n, maskPositions mask (patchGrid 1 1 oh ow stride rate pad (x n)) = .ok fun i j k =>
      patchGrid 1 1 oh ow stride rate pad (x n) i j k * mask (bIndex hc.1 i) (bIndex hc.2.1 j) (bIndex hc.2.2 k) :=
    fun n => dif_pos hc
  refine ⟨fun n i j => appendHomog bias fun k => patchGrid 1 1 oh ow stride rate pad (x n) i j k *
      mask (bIndex hc.1 i) (bIndex hc.2.1 j) (bIndex hc.2.2 k), fun n => ?_,
    fun n => convGrad bias oh ow stride rate pad mask (x n) (ds n), fun n => ?_, fun dh dw ch l => ?_, fun b l => ?_⟩
  · simp only [diagonalPatches, hm]
  · exact convGrad_isGrad bias oh ow stride rate pad _ (x n) (L n) θ (ds n) (h n)
  · simp only [convDiagonal, meanSquare, caseWise, appendHomog_left, convGrad]
    have e : bIndex hc.2.2 (flat dh dw ch) = ch := by
      apply Fin.ext
      have h1 := dh.isLt
      have h2 := dw.isLt
      have h3 := ch.isLt
      simp only [bIndex, flat, finProdFinEquiv_apply_val]
      split
      · omega
      · have : (dh : ℕ) = 0 := by omega
        have : (dw : ℕ) = 0 := by omega
        simp [*]
    have e1 : ∀ i : Fin oh, bIndex hc.1 i = dh := fun i => Subsingleton.elim _ _
    have e2 : ∀ j : Fin ow, bIndex hc.2.1 j = dw := fun j => Subsingleton.elim _ _
    simp only [e, e1, e2]
  · have hb : bias = true := by cases bias <;> [exact b.elim0; rfl]
    simp only [convDiagonal, meanSquare, caseWise, appendHomog_right, convGrad, one_mul, hb, if_true]

/-- The loss that is one coordinate of the output. -/
theorem isGrad_coord {O : Type} [Fintype O] [DecidableEq O] (o : O) (s : O → ℝ) :
    IsGrad (fun s => s o) s fun o' => if o' = o then 1 else 0 := by
  refine HasFDerivAt.congr_fderiv (ContinuousLinearMap.proj (R := ℝ) (φ := fun _ : O => ℝ) o).hasFDerivAt ?_
  ext v
  simp [sum_apply]

/-- A filter of two taps over an output of two positions, where the mask removes the second tap from the convolution:
the code accepts the mask but applies it to the positions, and gives the removed tap a nonzero entry although its
gradient is zero. -/
theorem C70_mask_counterexample :
    let mask : Fin 2 → Fin 1 → Fin 1 → ℝ := fun dh _ _ => if dh = 0 then 1 else 0
    let x : Fin 1 → ℤ × ℤ → Fin 1 → ℝ := fun _ _ _ => 1
    let ds : Fin 1 → (Fin 2 × Fin 1) × Fin 1 → ℝ := fun _ o => if o = ((0, 0), 0) then 1 else 0
    (∀ θ n, IsGrad (fun s => s ((0, 0), 0)) (convLayer false 2 1 (1, 1) (1, 1) (0, 0) mask θ (x n)) (ds n)) ∧
    ∃ patches, (∀ n, diagonalPatches false (1, 1) (1, 1) (0, 0) (some mask) (x n) = .ok (patches n)) ∧
      ∀ θ, ∀ g : Fin 1 → (Fin 2 × Fin 1 × Fin 1 × Fin 1) ⊕ Fin 1 → ℝ,
        (∀ n, IsGrad (fun θ => (convLayer false 2 1 (1, 1) (1, 1) (0, 0) mask θ (x n)) ((0, 0), 0)) θ (g n)) →
        meanSquare g (.inl (1, 0, 0, 0)) = 0 ∧
        convDiagonal patches (fun n i j l => ds n ((i, j), l)) (Fin.castAdd _ (flat 1 0 0)) 0 = 1 := by
  intro mask x ds
  have hd : ∀ θ n, IsGrad (fun s => s ((0, 0), 0)) (convLayer false 2 1 (1, 1) (1, 1) (0, 0) mask θ (x n)) (ds n) :=
    fun θ n => isGrad_coord _ _
  refine ⟨hd, ?_⟩
  have hc : (2 = 2 ∨ 2 = 1) ∧ (1 = 1 ∨ 1 = 1) ∧ (1 = 2 * 1 * 1 ∨ 1 = 1) := by decide
  have hm : ∀ n, maskPositions mask (patchGrid 2 1 2 1 (1, 1) (1, 1) (0, 0) (x n)) = .ok fun i j k =>
      patchGrid 2 1 2 1 (1, 1) (1, 1) (0, 0) (x n) i j k *
        mask (bIndex hc.1 i) (bIndex hc.2.1 j) (bIndex hc.2.2 k) := fun n => dif_pos hc
  refine ⟨fun n i j => appendHomog false fun k => patchGrid 2 1 2 1 (1, 1) (1, 1) (0, 0) (x n) i j k *
      mask (bIndex hc.1 i) (bIndex hc.2.1 j) (bIndex hc.2.2 k), fun n => ?_, fun θ g hg => ⟨?_, ?_⟩⟩
  · simp only [diagonalPatches, hm]
  · have e : ∀ n, g n = convGrad false 2 1 (1, 1) (1, 1) (0, 0) mask (x n) (ds n) := fun n =>
      IsGrad.unique (hg n) (convGrad_isGrad _ _ _ _ _ _ _ _ _ θ _ (hd θ n))
    simp [meanSquare, e, convGrad, mask]
  · simp only [convDiagonal, caseWise, appendHomog_left, patchGrid, imagePatch_flat]
    simp [x, ds, mask, bIndex, Fin.sum_univ_two]

/-- Two examples of a layer with one input, one output and a bias, and the loss `3 s`: the weights' entry is the mean
of the squares of 3·1 and 3·2, the bias entry that of 3 and 3. -/
example : ∃ g : Fin 2 → (Fin 1 × Fin 1) ⊕ Fin 1 → ℝ,
    fcDiagonal (N := 2) true (fun n _ => (n : ℝ) + 1) (fun _ _ => 3) (Fin.castAdd _ (0 : Fin 1)) (0 : Fin 1) =
      meanSquare g (.inl (0, 0)) ∧ meanSquare g (.inl (0, 0)) = 45 / 2 := by
  obtain ⟨g, -, h2, -⟩ := C70_fully_connected (N := 2) (p := 1) (q := 1) true (fun n _ => (n : ℝ) + 1)
    (fun _ s => 3 * s 0) (fun _ => 0) (fun _ _ => 3) (fun n => by
      refine HasFDerivAt.congr_fderiv
        ((ContinuousLinearMap.proj (R := ℝ) (φ := fun _ : Fin 1 => ℝ) 0).hasFDerivAt.const_mul 3) ?_
      ext v
      simp)
  refine ⟨g, h2 0 0, ?_⟩
  rw [← h2 0 0, fcDiagonal_apply]
  simp only [appendHomog_left]
  norm_num [Fin.sum_univ_two]

end Kfac.Grad
