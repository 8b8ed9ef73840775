import Verif.Conv.Model
import Mathlib.Algebra.BigOperators.Ring.Finset
import Mathlib.Tactic.Linarith
import Mathlib.Tactic.Ring
import Mathlib.Data.Nat.Cast.Order.Basic

/-! # C62, C68: locations and patches of convolutions -/

namespace Kfac.Conv

/-- The positions of the output in one dimension of an image of size `n`, with a filter of size `k`, stride `s` and
dilation `d`: without padding those where the dilated filter lies in the image; with padding those where its centre
does, which TensorFlow defines to be every `s`-th pixel. -/
def positions (valid : Bool) (n k s d : ℕ) : Finset ℕ :=
  (Finset.range n).filter fun i => if valid then i * s + (k - 1) * d < n else i * s < n

/-- The bound `i < n` in `positions` excludes nothing. -/
theorem mem_positions {valid : Bool} {n k s d : ℕ} (hs : 0 < s) (i : ℕ) :
    i ∈ positions valid n k s d ↔ if valid then i * s + (k - 1) * d < n else i * s < n := by
  simp only [positions, Finset.mem_filter, Finset.mem_range, and_iff_right_iff_imp]
  have : i ≤ i * s := Nat.le_mul_of_pos_right i hs
  cases valid <;> simp <;> omega

theorem ceilDiv_eq (m s : ℕ) (hs : 0 < s) : ceilDiv m s = ((m + s - 1) / s : ℕ) := by
  unfold ceilDiv
  have hs' : (0 : ℤ) < s := by exact_mod_cast hs
  rw [Int.fdiv_eq_ediv_of_nonneg _ hs'.le]
  have h1 := Nat.div_add_mod (m + s - 1) s
  have h2 := Nat.mod_lt (m + s - 1) hs
  generalize (m + s - 1) / s = q at h1
  generalize (m + s - 1) % s = r at h1 h2
  have : (-(m : ℤ)) / s = -(q : ℤ) := by
    have e : (-(m : ℤ)) = (s - 1 - r : ℤ) + s * (-(q : ℤ)) := by
      have : ((m + s - 1 : ℕ) : ℤ) = m + s - 1 := by omega
      have h1' : (s * q + r : ℤ) = m + s - 1 := by rw [← this]; exact_mod_cast h1
      linarith
    rw [e, Int.add_mul_ediv_left _ _ (by omega), Int.ediv_eq_zero_of_lt (by omega) (by omega)]
    ring
  rw [this]; ring

/-- The number of multiples of `s` below `m`. -/
theorem card_multiples (m s : ℕ) (hs : 0 < s) (N : ℕ) (hN : m ≤ N) :
    ((Finset.range N).filter fun i => i * s < m).card = (m + s - 1) / s := by
  have : (Finset.range N).filter (fun i => i * s < m) = Finset.range ((m + s - 1) / s) := by
    ext i
    simp only [Finset.mem_filter, Finset.mem_range]
    have h1 : i < (m + s - 1) / s ↔ (i + 1) * s ≤ m + s - 1 := by
      rw [← Nat.succ_le_iff, Nat.le_div_iff_mul_le hs]
    rw [h1, Nat.add_mul, Nat.one_mul]
    have : i ≤ i * s := Nat.le_mul_of_pos_right i hs
    omega
  rw [this, Finset.card_range]

theorem outSize_same (n k s : ℕ) (hs : 0 < s) :
    outSize false n k s = .ok ((positions false n k s 1).card : ℤ) := by
  unfold outSize
  rw [if_neg (by omega)]
  simp only [positions, Bool.false_eq_true, if_false, card_multiples n s hs n (Nat.le_refl _), ceilDiv_eq n s hs]

theorem outSize_valid (n k s : ℕ) (hs : 0 < s) (hk : 0 < k) (hn : k ≤ n) :
    outSize true n k s = .ok ((positions true n k s 1).card : ℤ) := by
  unfold outSize
  rw [if_neg (by omega)]
  have e : ((n : ℤ) - k + 1) = ((n - k + 1 : ℕ) : ℤ) := by omega
  have : positions true n k s 1 = (Finset.range n).filter fun i => i * s < n - k + 1 := by
    unfold positions
    apply Finset.filter_congr
    intro i _
    simp only [if_true, Nat.mul_one]
    omega
  simp only [if_true, e, ceilDiv_eq _ s hs, this, card_multiples (n - k + 1) s hs n (by omega)]

/-- C62, with strides in the format `[1, .., 1]` (or absent), no dilation and a filter that fits into the image: for one
and two spatial dimensions the result is the number of output positions. Missing: dilated convolutions, strides
without batch and channel entries, and larger filters, where it is false. -/
theorem C62_locations_partial (valid : Bool) (b h w c kh kw o sh sw s0 s3 : ℕ) (hkh : 0 < kh) (hkw : 0 < kw)
    (hsh : 0 < sh) (hsw : 0 < sw) (hh : kh ≤ h) (hw : kw ≤ w) :
    numConvLocations [b, h, w, c] [kh, kw, c, o] (some [s0, sh, sw, s3]) valid =
      .ok ((positions valid h kh sh 1 ×ˢ positions valid w kw sw 1).card : ℕ) ∧
    numConvLocations [b, h, c] [kh, c, o] (some [s0, sh, s3]) valid = .ok ((positions valid h kh sh 1).card : ℕ) ∧
    numConvLocations [b, h, w, c] [kh, kw, c, o] none valid =
      .ok ((positions valid h kh 1 1 ×ˢ positions valid w kw 1 1).card : ℕ) ∧
    numConvLocations [b, h, c] [kh, c, o] none valid = .ok ((positions valid h kh 1 1).card : ℕ) := by
  have key : ∀ n k s : ℕ, 0 < k → 0 < s → k ≤ n →
      outSize valid n k s = .ok ((positions valid n k s 1).card : ℤ) := by
    intro n k s hk hs hn
    cases valid
    · exact outSize_same n k s hs
    · exact outSize_valid n k s hs hk hn
  have k1 : ∀ n k : ℕ, 0 < k → k ≤ n → outSize valid n k 1 = .ok ((positions valid n k 1 1).card : ℤ) := by
    intro n k hk hn
    have := key n k 1 hk Nat.one_pos hn
    simpa using this
  refine ⟨?_, ?_, ?_, ?_⟩
  · simp [numConvLocations, get, key h kh sh hkh hsh hh, key w kw sw hkw hsw hw, bind, Except.bind, pure, Except.pure]
  · simp [numConvLocations, get, key h kh sh hkh hsh hh, bind, Except.bind]
  · simp [numConvLocations, get, k1 h kh hkh hh, k1 w kw hkw hw, bind, Except.bind, pure, Except.pure,
      List.replicate]
  · simp [numConvLocations, get, k1 h kh hkh hh, bind, Except.bind, List.replicate]

/-- C62, violated for dilated convolutions: the dilation is not passed to the function. For every filter with at least
two taps and every dilation of at least two there is an image in which the result is wrong. -/
theorem C62_dilation_counterexample (k d b c o : ℕ) (hk : 2 ≤ k) (hd : 2 ≤ d) :
    ∃ n : ℕ, (positions true n k 1 d).Nonempty ∧
      numConvLocations [b, n, c] [k, c, o] none true ≠ .ok ((positions true n k 1 d).card : ℕ) := by
  refine ⟨(k - 1) * d + 1, ⟨0, by simp [positions]⟩, ?_⟩
  have h2 : k - 1 < (k - 1) * d := by
    obtain ⟨j, rfl⟩ : ∃ j, k = j + 2 := ⟨k - 2, by omega⟩
    have : (j + 1) * 2 ≤ (j + 1) * d := Nat.mul_le_mul_left _ hd
    simp only [show j + 2 - 1 = j + 1 by omega]
    omega
  have h1 := (C62_locations_partial true b ((k - 1) * d + 1) ((k - 1) * d + 1) c k k o 1 1 1 1 (by omega) (by omega)
    (by omega) (by omega) (by omega) (by omega)).2.2.2
  rw [h1]
  have hc1 : (positions true ((k - 1) * d + 1) k 1 d).card = 1 := by
    have : positions true ((k - 1) * d + 1) k 1 d = {0} := by
      ext i
      rw [mem_positions Nat.one_pos, Finset.mem_singleton]
      simp only [if_true]
      omega
    rw [this, Finset.card_singleton]
  have hc2 : 1 < (positions true ((k - 1) * d + 1) k 1 1).card := by
    refine Finset.one_lt_card.2 ⟨0, ?_, 1, ?_, by decide⟩ <;> rw [mem_positions Nat.one_pos] <;> simp <;> omega
  rw [hc1]
  intro h
  simp only [Except.ok.injEq] at h
  omega

/-- C62, violated for strides along the spatial dimensions only, which is how the argument is documented here and in
`register_convolution`: in two dimensions the function raises. -/
theorem C62_spatial_strides_counterexample (valid : Bool) (b h w c kh kw o sh sw : ℤ) (hsw : sw ≠ 0) :
    numConvLocations [b, h, w, c] [kh, kw, c, o] (some [sh, sw]) valid = .error "IndexError" ∧
    numConvLocations [b, h, c] [kh, c, o] (some [sh]) valid = .error "IndexError" := by
  constructor
  · simp [numConvLocations, get, outSize, hsw, bind, Except.bind]
  · simp [numConvLocations, get, bind, Except.bind]

/-- C62, violated for filters larger than the image: without padding there is no position, but the result is positive
in two dimensions, and negative in one. -/
theorem C62_large_filter_counterexample (b n k c o : ℕ) (hk : n + 2 ≤ k) :
    positions true n k 1 1 = ∅ ∧
    (∃ m, numConvLocations [b, n, n, c] [k, k, c, o] none true = .ok m ∧ 0 < m) ∧
    ∃ m, numConvLocations [b, n, c] [k, c, o] none true = .ok m ∧ m < 0 := by
  have hc : ∀ a : ℤ, ceilDiv a 1 = a := by intro a; simp [ceilDiv]
  refine ⟨?_, ⟨((n : ℤ) - k + 1) * (n - k + 1), ?_, ?_⟩, ⟨(n : ℤ) - k + 1, ?_, ?_⟩⟩
  · ext i
    rw [mem_positions Nat.one_pos]
    simp only [if_true, Finset.notMem_empty, iff_false]
    omega
  · simp [numConvLocations, get, outSize, hc, bind, Except.bind, pure, Except.pure, List.replicate]
  · have : (n : ℤ) - k + 1 < 0 := by omega
    exact mul_pos_of_neg_of_neg this this
  · simp [numConvLocations, get, outSize, hc, bind, Except.bind, List.replicate]
  · omega

/-- A 7x5 image, a 3x2 filter and strides 2 and 3: 3 times 2 positions. -/
example : numConvLocations [8, 7, 5, 3] [3, 2, 3, 16] (some [1, 2, 3, 1]) true = .ok 6 ∧
    (positions true 7 3 2 1).card = 3 ∧ (positions true 5 2 3 1).card = 2 := by decide

/-! ### Patches -/

variable {R : Type} [CommRing R]

theorem flat_injective {kh kw c : ℕ} {dh dh' : Fin kh} {dw dw' : Fin kw} {ch ch' : Fin c} :
    flat dh dw ch = flat dh' dw' ch' ↔ dh = dh' ∧ dw = dw' ∧ ch = ch' := by
  simp [flat, Prod.ext_iff, and_assoc]

/-- C68: the patch at an output position holds, for each filter position and channel, the input pixel which the
convolution combines with that filter entry (zero outside the image). -/
theorem C68_patches {c : ℕ} (kh kw : ℕ) (stride rate pad : ℤ × ℤ) (x : ℤ × ℤ → Fin c → R) (p : ℤ × ℤ)
    (dh : Fin kh) (dw : Fin kw) (ch : Fin c) :
    extractPatches kh kw stride rate pad x p dh dw ch =
      x (p.1 * stride.1 + dh * rate.1 - pad.1, p.2 * stride.2 + dw * rate.2 - pad.2) ch := by
  unfold extractPatches convolution identityFilter
  simp only [flat_injective, mul_ite, mul_one, mul_zero]
  rw [Finset.sum_eq_single dh, Finset.sum_eq_single dw, Finset.sum_eq_single ch]
  · simp
  · intro ch' _ h; simp [h]
  · simp
  · intro dw' _ h; simp [h]
  · simp
  · intro dh' _ h; simp [h]
  · simp

/-- C68: every convolution with the same geometry is the product of the patches with its flattened filter. -/
theorem C68_product {c o : ℕ} (kh kw : ℕ) (stride rate pad : ℤ × ℤ) (x : ℤ × ℤ → Fin c → R)
    (f : Fin kh → Fin kw → Fin c → Fin o → R) (p : ℤ × ℤ) (out : Fin o) :
    convolution stride rate pad x f p out =
      ∑ r : Fin (kh * kw * c),
        (fun r => let d := finProdFinEquiv.symm (finProdFinEquiv.symm r).1
          extractPatches kh kw stride rate pad x p d.1 d.2 (finProdFinEquiv.symm r).2) r *
        (fun r => let d := finProdFinEquiv.symm (finProdFinEquiv.symm r).1
          f d.1 d.2 (finProdFinEquiv.symm r).2 out) r := by
  rw [← finProdFinEquiv.sum_comp, Fintype.sum_prod_type, ← finProdFinEquiv.sum_comp, Fintype.sum_prod_type]
  simp only [Equiv.symm_apply_apply, C68_patches, convolution]

/-- C68: strides and rates may be given with or without the batch and channel entries. -/
theorem C68_strides (a b s t : ℤ) :
    spatial 4 (some [a, s, t, b]) = some [s, t] ∧ spatial 4 (some [s, t]) = some [s, t] ∧
    spatial 3 (some [a, s, b]) = some [s] ∧ spatial 3 (some [s]) = some [s] ∧ ∀ n, spatial n none = none := by
  refine ⟨by simp [spatial], by simp [spatial], by simp [spatial], by simp [spatial], fun n => rfl⟩

/-- A 2x2 patch at position (1, 0) with stride 2 of the image `x(i, j) = 10 i + j`. -/
example : extractPatches (c := 1) 2 2 (2, 2) (1, 1) (0, 0) (fun q _ => 10 * q.1 + q.2) (1, 0) 1 1 0 = (31 : ℤ) := by
  rw [C68_patches]; decide

end Kfac.Conv
