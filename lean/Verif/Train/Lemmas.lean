import Verif.Train.Model
import Verif.Block.Props
import Verif.Grad.PropsKfc
import Mathlib.Analysis.Calculus.FDeriv.Equiv
import Mathlib.LinearAlgebra.Matrix.ToLin
import Mathlib.Data.List.GetD

/-! # Lemmas on training -/

namespace Kfac.Train

open Kfac.Stats Kfac.Block Kfac.Grad Kfac.Params Matrix

theorem toParams_fits {n q : ℕ} (hq : q ≠ 0) (bias : Bool) (g : Fin (n + bias.toNat) → Fin q → ℝ) :
    Fits (n + bias.toNat) q (toParams bias g) := by
  cases bias with
  | false => exact ⟨ofMat_wf _, rfl, hq, by show [n].prod = n; simp⟩
  | true => exact ⟨ofMat_wf _, rfl, hq, by show [n].prod + 1 = n + 1; simp, Tensor.ofFn_wf _ _, rfl⟩

theorem toParams_grid {n q : ℕ} (bias : Bool) (g : Fin (n + bias.toNat) → Fin q → ℝ) :
    grid (n + bias.toNat) q (toParams bias g) = Matrix.of g := by
  have key : ∀ {m : ℕ} (a : Matrix (Fin m) (Fin q) ℝ) (i : Fin m) (j : Fin q),
      (ofMat a).data.getD (i * q + j) 0 = a i j := by
    intro m a i j
    have := ofMat_get a i j
    rw [Tensor.get] at this
    simpa [Tensor.ravel] using this
  cases bias with
  | false => funext i j; exact key (m := n) g i j
  | true =>
    funext i j
    have hl : (ofMat (m := n) (n := q) fun i j => g (Fin.castAdd true.toNat i) j).data.length = n * q := by
      have := ofMat_wf (m := n) (n := q) fun i j => g (Fin.castAdd true.toNat i) j
      rw [Tensor.WF] at this
      exact this.trans (by show [n, q].prod = n * q; simp)
    have hlt : ∀ i : Fin n, (i : ℕ) * q + j < n * q := fun i => by
      have := i.2; have := j.2
      calc (i : ℕ) * q + j < i * q + q := by omega
        _ = (i + 1) * q := by ring
        _ ≤ n * q := Nat.mul_le_mul_right _ (by omega)
    refine Fin.addCases (fun i => ?_) (fun b => ?_) i
    · show List.getD (_ ++ _) _ _ = _
      rw [List.getD_append _ _ _ _ (by rw [hl]; exact hlt i)]
      exact key (m := n) _ i j
    · have hb : b = ⟨0, by decide⟩ := Subsingleton.elim (α := Fin 1) _ _
      subst hb
      show List.getD (_ ++ _) _ _ = _
      rw [List.getD_append_right _ _ _ _ (by rw [hl]; simp), hl]
      have h1 : (Fin.natAdd n (⟨0, by decide⟩ : Fin true.toNat) : ℕ) * q + j - n * q = j := by simp
      rw [h1]
      have := Tensor.get_ofFn (shape := [q]) (f := fun idx : List ℕ => if h : idx.getD 0 0 < q then
        g (Fin.natAdd n ⟨0, by decide⟩) ⟨idx.getD 0 0, h⟩ else 0) (idx := [j.1]) (.cons j.2 .nil)
      rw [Tensor.get] at this
      simpa [Tensor.ravel] using this

/-- The preconditioned gradient of a layer: the stored inverses on both sides. -/
theorem precondition_eq {n q : ℕ} (hq : q ≠ 0) (bias : Bool) (l : Layer (n + bias.toNat) q)
    (g : Fin (n + bias.toNat) → Fin q → ℝ) :
    l.precondition bias g = .ok (l.input.inverse * Matrix.of g * l.output.inverse) := by
  obtain ⟨out, h1, -, h3, h4⟩ := multiplyFactored_spec (L := .full (ofMat l.input.inverse)) (R := .full (ofMat l.output.inverse))
    (ML := l.input.inverse) (MR := l.output.inverse) rfl rfl (toParams_fits hq bias g)
    (KronKind.fullyConnected.renorm ^ (-1 : ℝ)) false false
  have h5 : KBlock.multiplyInverse ⟨factorOf l.input, factorOf l.output, 0, 0, KronKind.fullyConnected.renorm⟩
      (toParams bias g) = .ok out := h1
  simp only [Layer.precondition, h5, bind, Except.bind, toMat2d h3, pure, Except.pure]
  congr 1
  funext i j
  show (ofMat _).get _ = _
  rw [ofMat_get, h4, toParams_grid]
  simp [tr?, KronKind.renorm]

theorem cov_one {n : ℕ} (rows : Rows n) : newCovOverReplicas computeCov [[[rows]]] = computeCov rows := by
  simp [newCovOverReplicas, allAverage, totalNewCov]

/-- Matrices that agree on inputs with the homogeneous coordinate are equal. -/
theorem eq_of_homog {n m : ℕ} (bias : Bool) {M M' : Matrix (Fin m) (Fin (n + bias.toNat)) ℝ}
    (h : ∀ x : Fin n → ℝ, M *ᵥ appendHomog bias x = M' *ᵥ appendHomog bias x) : M = M' := by
  have key : ∀ y : Fin (n + bias.toNat) → ℝ, M *ᵥ y = M' *ᵥ y := by
    intro y
    let x : Fin n → ℝ := fun i => y (Fin.castAdd _ i)
    cases bias with
    | false =>
      have : appendHomog false x = y := by
        funext r
        refine Fin.addCases (fun i => ?_) (fun b => b.elim0) r
        exact appendHomog_left false x i
      rw [← this]; exact h x
    | true =>
      let c := y (Fin.natAdd n ⟨0, by decide⟩)
      have e : y = appendHomog true x - appendHomog true (0 : Fin n → ℝ) + c • appendHomog true (0 : Fin n → ℝ) := by
        funext r
        refine Fin.addCases (fun i => ?_) (fun b => ?_) r
        · simp [appendHomog, x]
        · have hb : b = ⟨0, by decide⟩ := Subsingleton.elim (α := Fin 1) _ _
          subst hb
          simp [appendHomog, c]
      rw [e]
      simp only [Matrix.mulVec_add, Matrix.mulVec_sub, Matrix.mulVec_smul, h]
  exact Matrix.ext_of_mulVec_single fun i => key _

/-- The derivatives of functions that agree up to an invertible linear map. -/
theorem gradient_equiv {q : ℕ} {f f' : (Fin q → ℝ) → ℝ} {Φ : Matrix (Fin q) (Fin q) ℝ} (hΦ : IsUnit Φ.det)
    (h : ∀ s, f' (Φ *ᵥ s) = f s) (s : Fin q → ℝ) : gradient f s = Φᵀ *ᵥ gradient f' (Φ *ᵥ s) := by
  let e : (Fin q → ℝ) ≃L[ℝ] (Fin q → ℝ) := LinearEquiv.toContinuousLinearEquiv
    { Matrix.mulVecLin Φ with
      invFun := fun s => Φ⁻¹ *ᵥ s
      left_inv := fun s => by simp [Matrix.nonsing_inv_mul _ hΦ]
      right_inv := fun s => by simp [Matrix.mul_nonsing_inv _ hΦ] }
  have he : ∀ s, e s = Φ *ᵥ s := fun s => rfl
  have hf : f = f' ∘ e := by funext s; exact (h s).symm
  funext j
  have h1 : gradient f s j = fderiv ℝ f' (Φ *ᵥ s) (Φ *ᵥ Pi.single j 1) := by
    rw [gradient, hf, e.comp_right_fderiv]
    rfl
  have h2 : Φ *ᵥ (Pi.single j 1 : Fin q → ℝ) = ∑ k, Φ k j • Pi.single k (1 : ℝ) := by
    funext k
    simp [Finset.sum_apply, Pi.single_apply]
  rw [h1, h2, map_sum]
  simp only [map_smul, smul_eq_mul, Matrix.mulVec, dotProduct, Matrix.transpose_apply, gradient]

/-- The same for functions of matrices. -/
theorem matGradient_equiv {P q : ℕ} {f f' : (Fin P → Fin q → ℝ) → ℝ} {S S' : Matrix (Fin P) (Fin P) ℝ}
    {Φ Φ' : Matrix (Fin q) (Fin q) ℝ} (h1 : S' * S = 1) (h2 : Φ * Φ' = 1)
    (h : ∀ w : Matrix (Fin P) (Fin q) ℝ, f' (S * w * Φ) = f w) (w : Matrix (Fin P) (Fin q) ℝ) :
    Matrix.of (matGradient f w) = Sᵀ * Matrix.of (matGradient f' (S * w * Φ)) * Φᵀ := by
  have h1' := mul_eq_one_comm.1 h1
  have h2' := mul_eq_one_comm.1 h2
  let e : (Fin P → Fin q → ℝ) ≃L[ℝ] (Fin P → Fin q → ℝ) := LinearEquiv.toContinuousLinearEquiv
    { toFun := fun w => S * Matrix.of w * Φ
      map_add' := fun a b => by
        show S * (Matrix.of a + Matrix.of b) * Φ = _
        rw [Matrix.mul_add, Matrix.add_mul]; rfl
      map_smul' := fun c a => by
        show S * (c • Matrix.of a) * Φ = _
        rw [Matrix.mul_smul, Matrix.smul_mul]; rfl
      invFun := fun w => S' * Matrix.of w * Φ'
      left_inv := fun w => by
        show S' * (S * Matrix.of w * Φ) * Φ' = _
        rw [Matrix.mul_assoc, Matrix.mul_assoc, Matrix.mul_assoc, h2, Matrix.mul_one, ← Matrix.mul_assoc, h1, Matrix.one_mul]
        rfl
      right_inv := fun w => by
        show S * (S' * Matrix.of w * Φ') * Φ = _
        rw [Matrix.mul_assoc, Matrix.mul_assoc, Matrix.mul_assoc, h2', Matrix.mul_one, ← Matrix.mul_assoc, h1', Matrix.one_mul]
        rfl }
  have he : ∀ w, e w = S * Matrix.of w * Φ := fun w => rfl
  have hf : f = f' ∘ e := by funext w; exact (h w).symm
  ext r j
  have h3 : matGradient f w r j = fderiv ℝ f' (S * w * Φ) (e (Pi.single r (Pi.single j 1))) := by
    have h6 := e.comp_right_fderiv (f := f') (x := (w : Fin P → Fin q → ℝ))
    rw [← hf] at h6
    exact congrArg (fun d => d (Pi.single r (Pi.single j 1))) h6
  have h4 : e (Pi.single r (Pi.single j 1)) =
      ∑ a, ∑ b, (S a r * Φ j b) • (Pi.single a (Pi.single b (1 : ℝ)) : Fin P → Fin q → ℝ) := by
    rw [he]
    funext a b
    have h5 : (∑ a', ∑ b', (S a' r * Φ j b') • (Pi.single a' (Pi.single b' (1 : ℝ)) : Fin P → Fin q → ℝ)) a b =
        S a r * Φ j b := by
      simp only [Finset.sum_apply, Pi.smul_apply, smul_eq_mul]
      rw [Finset.sum_eq_single a, Finset.sum_eq_single b]
      · simp
      · intro b' _ hb; simp [hb.symm]
      · simp
      · intro a' _ ha; simp [ha.symm]
      · simp
    rw [h5, Matrix.mul_apply, Finset.sum_eq_single j, Matrix.mul_apply, Finset.sum_eq_single r]
    · simp
    · intro r' _ hr; simp [hr]
    · simp
    · intro j' _ hj
      rw [Matrix.mul_apply, Finset.sum_eq_zero, zero_mul]
      intro r' _
      by_cases hr : r' = r
      · subst hr; simp [hj]
      · simp [hr]
    · simp
  show matGradient f w r j = _
  rw [h3, h4, map_sum]
  simp only [map_sum, map_smul, smul_eq_mul, Matrix.mul_apply, Matrix.transpose_apply, Matrix.of_apply, Finset.sum_mul]
  rw [Finset.sum_comm]
  refine Finset.sum_congr rfl fun b _ => Finset.sum_congr rfl fun a _ => ?_
  show _ = S a r * fderiv ℝ f' (S * w * Φ) _ * Φ j b
  ring

/-- The covariance of linearly transformed rows. -/
theorem computeCov_map {n m N : ℕ} (T : Matrix (Fin m) (Fin n) ℝ) (y : Fin N → Fin n → ℝ) :
    computeCov (List.ofFn fun i => T *ᵥ y i) = T * computeCov (List.ofFn y) * Tᵀ := by
  have h : ∀ (y : Fin N → Fin n → ℝ), computeCov (List.ofFn y) = (N : ℝ)⁻¹ • ((Matrix.of y)ᵀ * Matrix.of y) := by
    intro y
    ext a b
    simp only [computeCov_apply, List.map_ofFn, List.sum_ofFn, List.length_ofFn, Function.comp_apply, Matrix.smul_apply,
      Matrix.mul_apply, Matrix.transpose_apply, Matrix.of_apply, smul_eq_mul]
    ring
  rw [h]
  ext a b
  simp only [computeCov_apply, List.map_ofFn, List.sum_ofFn, List.length_ofFn, Function.comp_apply]
  rw [Matrix.mul_smul, Matrix.smul_mul, Matrix.smul_apply, smul_eq_mul, ← Matrix.mul_assoc, Matrix.mul_assoc,
    show T * (Matrix.of y)ᵀ = (Matrix.of y * Tᵀ)ᵀ by rw [Matrix.transpose_mul, Matrix.transpose_transpose], Matrix.mul_apply,
    div_eq_inv_mul]
  congr 1
  refine Finset.sum_congr rfl fun i _ => ?_
  simp only [Matrix.transpose_apply, Matrix.mul_apply, Matrix.of_apply, Matrix.mulVec, dotProduct]
  simp only [mul_comm]

end Kfac.Train
