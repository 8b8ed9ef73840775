import Verif.Grad.PropsDiag
import Mathlib.Tactic.FinCases

/-! # C73: the Kronecker factors of convolutions -/

namespace Kfac.Grad

open Kfac.Conv Kfac.Stats

/-! ### Specification -/

/-- The input entry that tap `(dh, dw)` of the filter reads in channel `ch` for the output position `(i, j)`. -/
def reads {c kh kw oh ow : ℕ} (stride rate pad : ℤ × ℤ) (x : ℤ × ℤ → Fin c → ℝ) (i : Fin oh) (j : Fin ow) (dh : Fin kh)
    (dw : Fin kw) (ch : Fin c) : ℝ :=
  x ((i : ℤ) * stride.1 + (dh : ℤ) * rate.1 - pad.1, (j : ℤ) * stride.2 + (dw : ℤ) * rate.2 - pad.2) ch

/-- The mean over all examples and output positions. -/
noncomputable def meanAll {N oh ow : ℕ} (f : Fin N → Fin oh → Fin ow → ℝ) : ℝ :=
  (∑ n, ∑ i, ∑ j, f n i j) / (N * oh * ow)

/-! ### Lemmas -/

theorem sum_flatten {α : Type} (f : α → ℝ) : ∀ l : List (List α), (l.flatten.map f).sum = (l.map fun r => (r.map f).sum).sum
  | [] => rfl
  | r :: l => by simp only [List.flatten_cons, List.map_append, List.sum_append, List.map_cons, List.sum_cons, sum_flatten f l]

theorem sum_grid {α : Type} {oh ow : ℕ} (g : Fin oh → Fin ow → α) (f : α → ℝ) :
    (((List.ofFn fun i => List.ofFn fun j => g i j).flatten).map f).sum = ∑ i, ∑ j, f (g i j) := by
  rw [sum_flatten, List.map_ofFn, List.sum_ofFn]
  refine Finset.sum_congr rfl fun i _ => ?_
  simp only [Function.comp_def, List.map_ofFn, List.sum_ofFn]

theorem length_grid {α : Type} {oh ow : ℕ} (g : Fin oh → Fin ow → α) :
    ((List.ofFn fun i => List.ofFn fun j => g i j).flatten).length = oh * ow := by
  simp [List.length_flatten, List.map_ofFn, Function.comp_def]

theorem patchRows_sum {kh kw c N : ℕ} (oh ow : ℕ) (stride rate pad : ℤ × ℤ) (mask : Option (Fin kh → Fin kw → Fin c → ℝ))
    (x : Fin N → ℤ × ℤ → Fin c → ℝ) (f : (Fin (kh * kw * c) → ℝ) → ℝ) :
    ((patchRows oh ow stride rate pad mask (List.ofFn x)).map f).sum =
      ∑ n, ∑ i, ∑ j, f (maskTaps mask (patchGrid kh kw oh ow stride rate pad (x n) i j)) := by
  unfold patchRows
  rw [List.flatMap_def, sum_flatten, List.map_map, List.map_ofFn, List.sum_ofFn]
  refine Finset.sum_congr rfl fun n _ => ?_
  simp only [Function.comp_def, sum_grid]

theorem patchRows_length {kh kw c : ℕ} (oh ow : ℕ) (stride rate pad : ℤ × ℤ)
    (mask : Option (Fin kh → Fin kw → Fin c → ℝ)) (l : List (ℤ × ℤ → Fin c → ℝ)) :
    (patchRows oh ow stride rate pad mask l).length = l.length * (oh * ow) := by
  induction l with
  | nil => simp [patchRows]
  | cons x l ih =>
    simp only [patchRows, List.flatMap_cons, List.length_append, length_grid, List.length_cons] at ih ⊢
    rw [ih]
    ring

/-- The entry of the mask at a tap. -/
def maskAt {kh kw c : ℕ} (mask : Option (Fin kh → Fin kw → Fin c → ℝ)) (dh : Fin kh) (dw : Fin kw) (ch : Fin c) : ℝ :=
  match mask with
  | none => 1
  | some m => m dh dw ch

theorem maskTaps_flat {kh kw c oh ow : ℕ} (stride rate pad : ℤ × ℤ) (mask : Option (Fin kh → Fin kw → Fin c → ℝ))
    (x : ℤ × ℤ → Fin c → ℝ) (i : Fin oh) (j : Fin ow) (dh : Fin kh) (dw : Fin kw) (ch : Fin c) :
    maskTaps mask (patchGrid kh kw oh ow stride rate pad x i j) (flat dh dw ch) =
      maskAt mask dh dw ch * reads stride rate pad x i j dh dw ch := by
  cases mask with
  | none => simp [maskTaps, maskAt, patchGrid, imagePatch_flat, reads]
  | some m =>
    have h := imagePatch_flat kh kw stride rate pad x ((i : ℤ), (j : ℤ)) dh dw ch
    simp only [flat] at h
    simp only [maskTaps, maskAt, patchGrid, reads, flat, Equiv.symm_apply_apply, h]
    exact mul_comm _ _

theorem convInputCov_apply {kh kw c N : ℕ} (bias : Bool) (oh ow : ℕ) (stride rate pad : ℤ × ℤ)
    (mask : Option (Fin kh → Fin kw → Fin c → ℝ)) (x : Fin N → ℤ × ℤ → Fin c → ℝ)
    (k l : Fin (kh * kw * c + bias.toNat)) :
    convInputCov bias oh ow stride rate pad mask (List.ofFn x) k l = meanAll fun n i j =>
      appendHomog bias (maskTaps mask (patchGrid kh kw oh ow stride rate pad (x n) i j)) k *
      appendHomog bias (maskTaps mask (patchGrid kh kw oh ow stride rate pad (x n) i j)) l := by
  unfold convInputCov homogCov meanAll
  rw [computeCov_apply, List.map_map, List.length_map, patchRows_length, List.length_ofFn,
    show (fun y : Fin (kh * kw * c + bias.toNat) → ℝ => y k * y l) ∘ appendHomog bias =
      fun r => appendHomog bias r k * appendHomog bias r l from rfl, patchRows_sum]
  push_cast
  rw [mul_assoc (N : ℝ)]

/-- The input factor, entries for two filter taps: the mean over examples and positions of the product of the (masked)
inputs the taps read. -/
theorem C73_input_taps {kh kw c N : ℕ} (bias : Bool) (oh ow : ℕ) (stride rate pad : ℤ × ℤ)
    (mask : Option (Fin kh → Fin kw → Fin c → ℝ)) (x : Fin N → ℤ × ℤ → Fin c → ℝ) (dh dh' : Fin kh) (dw dw' : Fin kw)
    (ch ch' : Fin c) :
    convInputCov bias oh ow stride rate pad mask (List.ofFn x) (Fin.castAdd _ (flat dh dw ch))
        (Fin.castAdd _ (flat dh' dw' ch')) =
      meanAll fun n (i : Fin oh) (j : Fin ow) => maskAt mask dh dw ch * reads stride rate pad (x n) i j dh dw ch *
        (maskAt mask dh' dw' ch' * reads stride rate pad (x n) i j dh' dw' ch') := by
  rw [convInputCov_apply]
  simp only [appendHomog_left, maskTaps_flat]

/-- The input factor, entries for a tap and the bias: the mean of the input read. -/
theorem C73_input_bias {kh kw c N : ℕ} (bias : Bool) (oh ow : ℕ) (stride rate pad : ℤ × ℤ)
    (mask : Option (Fin kh → Fin kw → Fin c → ℝ)) (x : Fin N → ℤ × ℤ → Fin c → ℝ) (dh : Fin kh) (dw : Fin kw)
    (ch : Fin c) (b : Fin bias.toNat) :
    convInputCov bias oh ow stride rate pad mask (List.ofFn x) (Fin.castAdd _ (flat dh dw ch)) (Fin.natAdd _ b) =
      meanAll fun n (i : Fin oh) (j : Fin ow) => maskAt mask dh dw ch * reads stride rate pad (x n) i j dh dw ch := by
  rw [convInputCov_apply]
  simp only [appendHomog_left, appendHomog_right, maskTaps_flat, mul_one]

/-- The input factor, entry for the bias. -/
theorem C73_bias_bias {kh kw c N oh ow : ℕ} (bias : Bool) (stride rate pad : ℤ × ℤ)
    (mask : Option (Fin kh → Fin kw → Fin c → ℝ)) (x : Fin N → ℤ × ℤ → Fin c → ℝ) (b b' : Fin bias.toNat)
    (h : 0 < N * oh * ow) :
    convInputCov bias oh ow stride rate pad mask (List.ofFn x) (Fin.natAdd _ b) (Fin.natAdd _ b') = 1 := by
  rw [convInputCov_apply]
  simp only [appendHomog_right, mul_one, meanAll, Finset.sum_const, Finset.card_univ, Fintype.card_fin, nsmul_eq_mul]
  have h1 : (0 : ℝ) < (N : ℝ) * oh * ow := by exact_mod_cast h
  rw [← mul_assoc]
  exact div_self h1.ne'

/-- The output factor: the mean over examples and positions of products of the output derivatives. -/
theorem C73_output {N oh ow o : ℕ} (ds : Fin N → Fin oh → Fin ow → Fin o → ℝ) (k l : Fin o) :
    convOutputCov ds k l = meanAll fun n i j => ds n i j k * ds n i j l := by
  unfold convOutputCov meanAll
  rw [computeCov_apply, sum_flatten, List.map_ofFn, List.sum_ofFn, List.length_flatten, List.map_ofFn]
  simp only [Function.comp_def, sum_grid, length_grid, List.sum_ofFn, Finset.sum_const, Finset.card_univ,
    Fintype.card_fin, smul_eq_mul]
  push_cast
  rw [mul_assoc]

/-- The mean over the batch. -/
noncomputable def batchMean {N : ℕ} (f : Fin N → ℝ) : ℝ := (∑ n, f n) / N

theorem meanAll_eq {N oh ow : ℕ} (f : Fin N → Fin oh → Fin ow → ℝ) (v : ℝ) (h : 0 < oh * ow)
    (hv : ∀ t : Fin oh × Fin ow, batchMean (fun n => f n t.1 t.2) = v) : meanAll f = v := by
  have h1 : (0 : ℝ) < (oh : ℝ) * ow := by exact_mod_cast h
  have h2 : ∑ t : Fin oh × Fin ow, batchMean (fun n => f n t.1 t.2) = (oh * ow) * v := by
    simp only [hv, Finset.sum_const, Finset.card_univ, Fintype.card_prod, Fintype.card_fin, nsmul_eq_mul]
    push_cast
    ring
  have h3 : ∑ t : Fin oh × Fin ow, batchMean (fun n => f n t.1 t.2) = (∑ n, ∑ i, ∑ j, f n i j) / N := by
    simp only [batchMean, ← Finset.sum_div]
    rw [Finset.sum_comm]
    simp only [Fintype.sum_prod_type]
  rw [h3] at h2
  unfold meanAll
  rw [mul_assoc (N : ℝ), ← div_div, h2, mul_div_cancel_left₀ _ h1.ne']

/-- Where the assumptions of KFC hold on the batch, the number of positions times the Kronecker product of the two factors
is the mean outer product of the true per-example gradients by the filter. The assumptions: products of inputs and
products of output derivatives are uncorrelated; both have the same second moments at all positions (`Ω` and `Γ`);
the derivatives at different positions are uncorrelated. -/
theorem C73_exact {N kh kw c o oh ow : ℕ} (bias : Bool) (stride rate pad : ℤ × ℤ)
    (x : Fin N → ℤ × ℤ → Fin c → ℝ) (L : Fin N → ((Fin oh × Fin ow) × Fin o → ℝ) → ℝ)
    (θ : (Fin kh × Fin kw × Fin c × Fin o) ⊕ Fin o → ℝ) (ds : Fin N → (Fin oh × Fin ow) × Fin o → ℝ)
    (h : ∀ n, IsGrad (L n) (convLayer bias oh ow stride rate pad (fun _ _ _ => 1) θ (x n)) (ds n))
    (a : Fin N → Fin oh × Fin ow → Fin kh × Fin kw × Fin c → ℝ)
    (ha : a = fun n t k => reads stride rate pad (x n) t.1 t.2 k.1 k.2.1 k.2.2)
    (Ω : Fin kh × Fin kw × Fin c → Fin kh × Fin kw × Fin c → ℝ) (Γ : Fin o → Fin o → ℝ)
    (uncorrelated : ∀ t t' k k' l l', batchMean (fun n => a n t k * a n t' k' * (ds n (t, l) * ds n (t', l'))) =
      batchMean (fun n => a n t k * a n t' k') * batchMean (fun n => ds n (t, l) * ds n (t', l')))
    (homogeneous : ∀ t k k', batchMean (fun n => a n t k * a n t k') = Ω k k')
    (homogeneous' : ∀ t l l', batchMean (fun n => ds n (t, l) * ds n (t, l')) = Γ l l')
    (spatial : ∀ t t' l l', t ≠ t' → batchMean (fun n => ds n (t, l) * ds n (t', l')) = 0) :
    ∃ g : Fin N → (Fin kh × Fin kw × Fin c × Fin o) ⊕ Fin o → ℝ,
      (∀ n, IsGrad (fun θ => L n (convLayer bias oh ow stride rate pad (fun _ _ _ => 1) θ (x n))) θ (g n)) ∧
      ∀ dh dw ch l dh' dw' ch' l',
        batchMean (fun n => g n (.inl (dh, dw, ch, l)) * g n (.inl (dh', dw', ch', l'))) =
          (oh * ow : ℕ) * (convInputCov bias oh ow stride rate pad none (List.ofFn x) (Fin.castAdd _ (flat dh dw ch))
            (Fin.castAdd _ (flat dh' dw' ch')) * convOutputCov (fun n i j l => ds n ((i, j), l)) l l') := by
  refine ⟨fun n => convGrad bias oh ow stride rate pad (fun _ _ _ => 1) (x n) (ds n),
    fun n => convGrad_isGrad bias oh ow stride rate pad _ (x n) (L n) θ (ds n) (h n),
    fun dh dw ch l dh' dw' ch' l' => ?_⟩
  have e : ∀ n (dh : Fin kh) (dw : Fin kw) ch l,
      convGrad bias oh ow stride rate pad (fun _ _ _ => 1) (x n) (ds n) (.inl (dh, dw, ch, l)) =
      ∑ t : Fin oh × Fin ow, a n t (dh, dw, ch) * ds n (t, l) := by
    intro n dh dw ch l
    simp only [convGrad, patchGrid, imagePatch_flat, mul_one, ha, reads, Fintype.sum_prod_type]
  have key : batchMean (fun n => (∑ t : Fin oh × Fin ow, a n t (dh, dw, ch) * ds n (t, l)) *
      ∑ t : Fin oh × Fin ow, a n t (dh', dw', ch') * ds n (t, l')) =
      (oh * ow : ℕ) * (Ω (dh, dw, ch) (dh', dw', ch') * Γ l l') := by
    have h1 : batchMean (fun n => (∑ t : Fin oh × Fin ow, a n t (dh, dw, ch) * ds n (t, l)) *
        ∑ t : Fin oh × Fin ow, a n t (dh', dw', ch') * ds n (t, l')) =
        ∑ t : Fin oh × Fin ow, ∑ t' : Fin oh × Fin ow,
          batchMean (fun n => a n t (dh, dw, ch) * a n t' (dh', dw', ch') * (ds n (t, l) * ds n (t', l'))) := by
      simp only [batchMean, ← Finset.sum_div, Finset.sum_mul_sum]
      rw [Finset.sum_comm]
      congr 1
      refine Finset.sum_congr rfl fun t _ => ?_
      rw [Finset.sum_comm]
      refine Finset.sum_congr rfl fun t' _ => Finset.sum_congr rfl fun n _ => ?_
      ring
    have h2 : ∀ t t', batchMean (fun n => a n t (dh, dw, ch) * a n t' (dh', dw', ch') * (ds n (t, l) * ds n (t', l'))) =
        if t = t' then Ω (dh, dw, ch) (dh', dw', ch') * Γ l l' else 0 := by
      intro t t'
      rw [uncorrelated]
      split
      · rename_i ht
        rw [← ht, homogeneous, homogeneous']
      · rename_i ht
        rw [spatial t t' l l' ht, mul_zero]
    rw [h1]
    simp only [h2, Finset.sum_ite_eq, Finset.mem_univ, if_true, Finset.sum_const, Finset.card_univ, Fintype.card_prod,
      Fintype.card_fin, nsmul_eq_mul]
  simp only [e]
  rw [key]
  rcases Nat.eq_zero_or_pos (oh * ow) with h0 | h0
  · simp [h0]
  · rw [C73_input_taps, C73_output, meanAll_eq _ (Ω (dh, dw, ch) (dh', dw', ch')) h0, meanAll_eq _ (Γ l l') h0]
    · exact fun t => homogeneous' t l l'
    · intro t
      have := homogeneous t (dh, dw, ch) (dh', dw', ch')
      simpa only [maskAt, one_mul, ha] using this

/-- The assumptions hold on a batch of two examples with constant inputs and two positions with the derivatives `(1, 1)`
and `(1, -1)`: the gradients are 2 and 0, their mean square is 2, the number of positions. -/
example : ∃ g : Fin 2 → (Fin 1 × Fin 1 × Fin 1 × Fin 1) ⊕ Fin 1 → ℝ,
    batchMean (fun n => g n (.inl (0, 0, 0, 0)) * g n (.inl (0, 0, 0, 0))) = 2 ∧
    (convInputCov false 2 1 (1, 1) (1, 1) (0, 0) none (List.ofFn fun _ : Fin 2 => fun _ (_ : Fin 1) => (1 : ℝ)))
      (Fin.castAdd _ (flat (0 : Fin 1) (0 : Fin 1) 0)) (Fin.castAdd _ (flat (0 : Fin 1) (0 : Fin 1) 0)) = 1 := by
  let ds : Fin 2 → (Fin 2 × Fin 1) × Fin 1 → ℝ := fun n o => if n = 1 ∧ o.1.1 = 1 then -1 else 1
  obtain ⟨g, -, h⟩ := C73_exact (N := 2) (kh := 1) (kw := 1) (c := 1) (o := 1) (oh := 2) (ow := 1) false (1, 1) (1, 1)
    (0, 0) (fun _ _ _ => 1) (fun n s => ∑ o, ds n o * s o) (fun _ => 0) ds
    (fun n => by
      refine HasFDerivAt.congr_fderiv (HasFDerivAt.fun_sum fun o _ =>
        ((ContinuousLinearMap.proj (R := ℝ) (φ := fun _ : (Fin 2 × Fin 1) × Fin 1 => ℝ) o).hasFDerivAt.const_mul
          (ds n o))) rfl)
    _ rfl (fun _ _ => 1) (fun _ _ => 1)
    (by
      intro t t' k k' l l'
      simp [reads, batchMean])
    (by
      intro t k k'
      simp [reads, batchMean])
    (by
      intro t l l'
      simp only [batchMean, ds, Fin.sum_univ_two]
      by_cases ht : t.1 = 1 <;> simp [ht])
    (by
      rintro ⟨i, j⟩ ⟨i', j'⟩ l l' ht
      have : i ≠ i' := fun e => ht (by rw [e, Subsingleton.elim j j'])
      simp only [batchMean, ds, Fin.sum_univ_two]
      fin_cases i <;> fin_cases i' <;> simp at this ⊢)
  have h1 : convInputCov false 2 1 (1, 1) (1, 1) (0, 0) none (List.ofFn fun _ : Fin 2 => fun _ (_ : Fin 1) => (1 : ℝ))
      (Fin.castAdd _ (flat (0 : Fin 1) (0 : Fin 1) 0)) (Fin.castAdd _ (flat (0 : Fin 1) (0 : Fin 1) 0)) = 1 := by
    rw [C73_input_taps]
    simp [meanAll, maskAt, reads]
  refine ⟨g, ?_, h1⟩
  rw [h 0 0 0 0 0 0 0 0, h1, C73_output]
  simp [meanAll, ds, Fin.sum_univ_two]
  norm_num

end Kfac.Grad
