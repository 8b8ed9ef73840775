import Verif.Grad.PropsKfc
import Mathlib.Data.Fintype.Perm
import Mathlib.Data.List.Perm.Subperm

/-! # C74: subsampling of inputs and patches -/

namespace Kfac.Grad

open Kfac.Conv Kfac.Stats

/-- The mean over all shuffles: the expectation for a uniformly random shuffle. -/
noncomputable def expectation {n : ℕ} (f : Equiv.Perm (Fin n) → ℝ) : ℝ := (∑ σ, f σ) / (n.factorial : ℝ)

theorem sum_perm {n : ℕ} (f : Fin n → ℝ) (i j : Fin n) :
    ∑ σ : Equiv.Perm (Fin n), f (σ i) = ∑ σ : Equiv.Perm (Fin n), f (σ j) := by
  refine Fintype.sum_equiv (Equiv.mulRight (Equiv.swap i j)) _ _ fun σ => ?_
  simp

/-- A fixed position of a random shuffle is uniformly distributed. -/
theorem expectation_apply {n : ℕ} (f : Fin n → ℝ) (i : Fin n) : expectation (fun σ => f (σ i)) = (∑ k, f k) / n := by
  have hn : (n : ℝ) ≠ 0 := by
    have := i.isLt
    exact_mod_cast (by omega : n ≠ 0)
  have hf : (n.factorial : ℝ) ≠ 0 := by exact_mod_cast n.factorial_ne_zero
  have h1 : ∑ j, ∑ σ : Equiv.Perm (Fin n), f (σ j) = n * ∑ σ : Equiv.Perm (Fin n), f (σ i) := by
    rw [Finset.sum_congr rfl fun j _ => sum_perm f j i]
    simp
  have h2 : ∑ j, ∑ σ : Equiv.Perm (Fin n), f (σ j) = n.factorial * ∑ k, f k := by
    rw [Finset.sum_comm, Finset.sum_congr rfl fun σ _ => Equiv.sum_comp σ f]
    simp [Fintype.card_perm]
  unfold expectation
  rw [div_eq_div_iff hf hn]
  rw [h1] at h2
  linarith

theorem randomGather_length {α : Type} (l : List α) (σ : Equiv.Perm (Fin l.length)) (num : ℕ) :
    (randomGather l σ num).length = min num l.length := by simp [randomGather]

theorem sum_take_ofFn : ∀ {n : ℕ} (f : Fin n → ℝ) (m : ℕ),
    ((List.ofFn f).take m).sum = ∑ i : Fin n, if (i : ℕ) < m then f i else 0
  | 0, f, m => by simp
  | n + 1, f, 0 => by simp
  | n + 1, f, m + 1 => by
    rw [List.ofFn_succ, List.take_succ_cons, List.sum_cons, sum_take_ofFn, Fin.sum_univ_succ]
    simp

theorem randomGather_sum {α : Type} (l : List α) (σ : Equiv.Perm (Fin l.length)) (num : ℕ) (f : α → ℝ) :
    ((randomGather l σ num).map f).sum = ∑ i : Fin l.length, if (i : ℕ) < num then f l[σ i] else 0 := by
  unfold randomGather
  rw [List.map_map, List.map_take, List.map_ofFn, sum_take_ofFn]
  rfl

theorem expectation_div {n : ℕ} (f : Equiv.Perm (Fin n) → ℝ) (c : ℝ) :
    expectation (fun σ => f σ / c) = expectation f / c := by
  unfold expectation
  rw [← Finset.sum_div, div_right_comm]

theorem expectation_sum {n : ℕ} {ι : Type} (s : Finset ι) (f : ι → Equiv.Perm (Fin n) → ℝ) :
    expectation (fun σ => ∑ i ∈ s, f i σ) = ∑ i ∈ s, expectation (f i) := by
  unfold expectation
  rw [Finset.sum_comm, Finset.sum_div]

theorem expectation_const {n : ℕ} (c : ℝ) : expectation (fun _ : Equiv.Perm (Fin n) => c) = c := by
  have hf : (n.factorial : ℝ) ≠ 0 := by exact_mod_cast n.factorial_ne_zero
  simp only [expectation, Finset.sum_const, Finset.card_univ, Fintype.card_perm, Fintype.card_fin, nsmul_eq_mul]
  exact mul_div_cancel_left₀ c hf

theorem sum_map_getElem {α : Type} (l : List α) (f : α → ℝ) : ∑ i : Fin l.length, f l[i] = (l.map f).sum := by
  rw [← List.sum_ofFn]
  congr 1
  apply List.ext_getElem <;> simp

theorem card_lt_min (n m : ℕ) : (∑ i : Fin n, if (i : ℕ) < m then (1 : ℝ) else 0) = (min m n : ℕ) := by
  have := sum_take_ofFn (n := n) (fun _ => (1 : ℝ)) m
  rw [← this, List.ofFn_const, List.take_replicate, List.sum_replicate]
  simp

/-- The sample consists of different entries of the data and has the size asked for, or all the data if that is less. -/
theorem C74_sample {α : Type} (l : List α) (σ : Equiv.Perm (Fin l.length)) (num : ℕ) :
    (randomGather l σ num).Subperm l ∧ (randomGather l σ num).length = min num l.length := by
  refine ⟨?_, randomGather_length l σ num⟩
  have h1 : (randomGather l σ num).Sublist ((List.ofFn σ).map fun i => l[i]) :=
    (List.take_sublist num _).map _
  have h2 : ((List.ofFn σ).map fun i => l[i]).Perm l := by
    have h3 : (List.ofFn σ).Perm (List.finRange l.length) := by
      rw [List.perm_ext_iff_of_nodup (List.nodup_ofFn_ofInjective σ.injective) (List.nodup_finRange _)]
      intro a
      simp only [List.mem_ofFn, List.mem_finRange, iff_true]
      exact σ.surjective a
    refine (h3.map _).trans ?_
    rw [show (List.finRange l.length).map (fun i => l[i]) = l by
      apply List.ext_getElem <;> simp]
  exact h1.subperm.trans h2.subperm

/-- The mean of any quantity over a random sample of at least one entry is unbiased. -/
theorem C74_gather {α : Type} (l : List α) (num : ℕ) (hn : 0 < num) (hl : l ≠ []) (f : α → ℝ) :
    expectation (fun σ => ((randomGather l σ num).map f).sum / ((randomGather l σ num).length : ℝ)) =
      (l.map f).sum / (l.length : ℝ) := by
  have hlen : 0 < l.length := List.length_pos_iff.2 hl
  have hm : ((min num l.length : ℕ) : ℝ) ≠ 0 := by exact_mod_cast (by omega : min num l.length ≠ 0)
  simp only [randomGather_length, randomGather_sum]
  rw [expectation_div, expectation_sum]
  have h1 : ∀ i : Fin l.length, expectation (fun σ : Equiv.Perm (Fin l.length) =>
      if (i : ℕ) < num then f l[σ i] else 0) = (if (i : ℕ) < num then 1 else 0) * ((l.map f).sum / l.length) := by
    intro i
    split
    · rw [expectation_apply (fun k => f l[k]) i, sum_map_getElem, one_mul]
    · rw [expectation_const, zero_mul]
  rw [Finset.sum_congr rfl fun i _ => h1 i, ← Finset.sum_mul, card_lt_min, mul_comm, mul_div_assoc, div_self hm, mul_one]

theorem homogCov_apply {K : ℕ} (bias : Bool) (rows : Rows K) (k l : Fin (K + bias.toNat)) :
    homogCov bias rows k l =
      (rows.map fun r => appendHomog bias r k * appendHomog bias r l).sum / (rows.length : ℝ) := by
  unfold homogCov
  rw [computeCov_apply, List.map_map, List.length_map]
  rfl

/-- With `sub_sample_patches` the factor is an unbiased estimate of the factor of all patches, whatever the positive
limits on the number of patches. -/
theorem C74_patches {kh kw c : ℕ} (bias : Bool) (oh ow : ℕ) (stride rate pad : ℤ × ℤ)
    (mask : Option (Fin kh → Fin kw → Fin c → ℝ)) (maxNum : ℕ) (perDim : ℝ) (hmax : 0 < maxNum) (hper : 0 < perDim)
    (hK : 0 < kh * kw * c) (inputs : List (ℤ × ℤ → Fin c → ℝ)) (k l : Fin (kh * kw * c + bias.toNat)) :
    expectation (fun σ => convInputCovPatches bias oh ow stride rate pad mask maxNum perDim inputs σ k l) =
      convInputCov bias oh ow stride rate pad mask inputs k l := by
  have hnum : 0 < numPatches maxNum perDim (kh * kw * c) := by
    have : (0 : ℝ) < ((kh * kw * c : ℕ) : ℝ) := by exact_mod_cast hK
    exact lt_min hmax (Nat.ceil_pos.2 (mul_pos hper this))
  unfold convInputCovPatches convInputCov subsample
  split
  · rename_i h
    simp only [homogCov_apply]
    exact C74_gather _ _ hnum (List.length_pos_iff.1 (by omega)) _
  · exact expectation_const _

/-- If there are not more patches than the limit, nothing is left out. -/
theorem C74_all_patches {kh kw c : ℕ} (bias : Bool) (oh ow : ℕ) (stride rate pad : ℤ × ℤ)
    (mask : Option (Fin kh → Fin kw → Fin c → ℝ)) (maxNum : ℕ) (perDim : ℝ) (inputs : List (ℤ × ℤ → Fin c → ℝ))
    (h : inputs.length * (oh * ow) ≤ maxNum ∧ (inputs.length * (oh * ow) : ℕ) ≤ perDim * (kh * kw * c : ℕ)) (σ) :
    convInputCovPatches bias oh ow stride rate pad mask maxNum perDim inputs σ =
      convInputCov bias oh ow stride rate pad mask inputs := by
  unfold convInputCovPatches convInputCov subsample
  rw [if_neg]
  rw [patchRows_length, not_lt]
  refine le_min h.1 ?_
  have := h.2.trans (Nat.le_ceil _)
  exact_mod_cast this

/-- With `sub_sample_inputs` the factor of the examples kept is an unbiased estimate of the factor of all examples. -/
theorem C74_inputs {kh kw c : ℕ} (bias : Bool) (oh ow : ℕ) (stride rate pad : ℤ × ℤ)
    (mask : Option (Fin kh → Fin kw → Fin c → ℝ)) (factor : ℝ) (hf : 0 < factor) (inputs : List (ℤ × ℤ → Fin c → ℝ))
    (k l : Fin (kh * kw * c + bias.toNat)) :
    expectation (fun σ => convInputCov bias oh ow stride rate pad mask (subsampleInputs factor inputs σ) k l) =
      convInputCov bias oh ow stride rate pad mask inputs k l := by
  by_cases hi : inputs = []
  · subst hi
    have h0 : ∀ σ, subsampleInputs factor ([] : List (ℤ × ℤ → Fin c → ℝ)) σ = [] := fun σ => by
      have := randomGather_length ([] : List (ℤ × ℤ → Fin c → ℝ)) σ ⌈(([] : List (ℤ × ℤ → Fin c → ℝ)).length : ℝ) * factor⌉₊
      exact List.length_eq_zero_iff.1 (by rw [subsampleInputs, this]; simp)
    simp only [h0, expectation_const]
  · have hlen : 0 < inputs.length := List.length_pos_iff.2 hi
    have hnum : 0 < ⌈(inputs.length : ℝ) * factor⌉₊ := Nat.ceil_pos.2 (mul_pos (by exact_mod_cast hlen) hf)
    have key : ∀ I : List (ℤ × ℤ → Fin c → ℝ), convInputCov bias oh ow stride rate pad mask I k l =
        ((I.map fun x => ∑ i : Fin oh, ∑ j : Fin ow,
          appendHomog bias (maskTaps mask (patchGrid kh kw oh ow stride rate pad x i j)) k *
          appendHomog bias (maskTaps mask (patchGrid kh kw oh ow stride rate pad x i j)) l).sum / (I.length : ℝ)) /
            ((oh * ow : ℕ) : ℝ) := by
      intro I
      have hI : I = List.ofFn fun i : Fin I.length => I[i] := by
        apply List.ext_getElem <;> simp
      unfold convInputCov
      rw [homogCov_apply, patchRows_length]
      conv_lhs => rw [hI]
      rw [patchRows_sum, div_div, ← sum_map_getElem]
      push_cast
      simp
    simp only [key]
    rw [expectation_div]
    unfold subsampleInputs
    rw [C74_gather inputs _ hnum hi]

/-- Both kinds of subsampling together are unbiased. -/
theorem C74_both {kh kw c : ℕ} (bias : Bool) (oh ow : ℕ) (stride rate pad : ℤ × ℤ)
    (mask : Option (Fin kh → Fin kw → Fin c → ℝ)) (maxNum : ℕ) (perDim factor : ℝ) (hmax : 0 < maxNum)
    (hper : 0 < perDim) (hf : 0 < factor) (hK : 0 < kh * kw * c) (inputs : List (ℤ × ℤ → Fin c → ℝ))
    (k l : Fin (kh * kw * c + bias.toNat)) :
    expectation (fun σ => expectation fun τ =>
      convInputCovPatches bias oh ow stride rate pad mask maxNum perDim (subsampleInputs factor inputs σ) τ k l) =
      convInputCov bias oh ow stride rate pad mask inputs k l := by
  simp only [C74_patches bias oh ow stride rate pad mask maxNum perDim hmax hper hK]
  exact C74_inputs bias oh ow stride rate pad mask factor hf inputs k l

/-- Three numbers, samples of two. -/
example : expectation (fun σ => ((randomGather [(1 : ℝ), 2, 6] σ 2).map id).sum /
    ((randomGather [(1 : ℝ), 2, 6] σ 2).length : ℝ)) = 3 := by
  rw [C74_gather _ 2 (by norm_num) (by simp)]
  norm_num

end Kfac.Grad
