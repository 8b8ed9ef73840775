import Verif.Grad.ExtractLemmas
import Mathlib.Tactic.NormNum
import Mathlib.Tactic.Positivity

/-! # C112: the statistics of a convolution do not depend on how patches are extracted -/

namespace Kfac.Grad

open Kfac.Conv Kfac.Stats

/-! ### Specification -/

/-- The extractor can be used for the geometry: the pointwise one needs a filter of size 1×1 (whose output has the size of
the image and is not padded), stride 1, and a batch of known size. -/
def Usable (fn : Option String) (static : Bool) (kh kw : ℕ) (g : ConvGeo) : Prop :=
  fn = none ∨ fn = some "extract_convolution_patches" ∨ fn = some "extract_image_patches" ∨
    fn = some "extract_pointwise_conv2d_patches" ∧ static = true ∧ kh = 1 ∧ kw = 1 ∧ g.stride = (1, 1) ∧ g.oh = g.h ∧
      g.ow = g.w ∧ g.pad = (0, 0)

/-- The factor holds the second moments of the masked inputs read by the taps, and of 1 for the bias. -/
def HoldsMoments {N kh kw c : ℕ} (bias : Bool) (g : ConvGeo) (mask : Option (Fin kh → Fin kw → Fin c → ℝ))
    (x : Fin N → ℤ × ℤ → Fin c → ℝ)
    (C : Matrix (Fin (kh * kw * c + bias.toNat)) (Fin (kh * kw * c + bias.toNat)) ℝ) : Prop :=
  (∀ dh dw ch dh' dw' ch', C (Fin.castAdd _ (flat dh dw ch)) (Fin.castAdd _ (flat dh' dw' ch')) =
    meanAll fun n (i : Fin g.oh) (j : Fin g.ow) =>
      maskAt mask dh dw ch * reads g.stride g.rate g.pad (x n) i j dh dw ch *
        (maskAt mask dh' dw' ch' * reads g.stride g.rate g.pad (x n) i j dh' dw' ch')) ∧
  (∀ dh dw ch b, C (Fin.castAdd _ (flat dh dw ch)) (Fin.natAdd _ b) =
    meanAll fun n (i : Fin g.oh) (j : Fin g.ow) =>
      maskAt mask dh dw ch * reads g.stride g.rate g.pad (x n) i j dh dw ch) ∧
  (∀ b b', 0 < N * g.oh * g.ow → C (Fin.natAdd _ b) (Fin.natAdd _ b') = 1) ∧ C.IsSymm

/-! ### Lemmas -/

theorem imagePatch_pointwise {c : ℕ} (stride rate rate' pad : ℤ × ℤ) (x : ℤ × ℤ → Fin c → ℝ) (p : ℤ × ℤ)
    (k : Fin (1 * 1 * c)) : imagePatch 1 1 stride rate pad x p k = imagePatch 1 1 stride rate' pad x p k := by
  obtain ⟨dh, dw, ch, rfl⟩ := exists_flat k
  rw [imagePatch_flat, imagePatch_flat]
  have h1 : dh = 0 := Subsingleton.elim _ _
  have h2 : dw = 0 := Subsingleton.elim _ _
  subst h1 h2
  simp

/-- Every usable extractor returns the same numbers, in one of two shapes. -/
theorem extract_data {N c : ℕ} {fn : Option String} {static : Bool} {kh kw : ℕ} {g : ConvGeo}
    (hu : Usable fn static kh kw g) (x : Fin N → ℤ × ℤ → Fin c → ℝ) : ∃ t : Tensor ℝ,
    extract fn static kh kw g x = .ok t ∧ t.WF ∧
    t.data = (imageTensor kh kw g.oh g.ow g.stride g.rate g.pad x).data ∧
    t.shape = if fn = some "extract_image_patches" then [N, g.oh, g.ow] ++ [kh * kw * c]
      else [N, g.oh, g.ow, kh, kw] ++ [c] := by
  rcases hu with rfl | rfl | rfl | ⟨rfl, rfl, rfl, rfl, hs, hh, hw, hp⟩
  · refine ⟨⟨[N, g.oh, g.ow, kh, kw, c], (imageTensor kh kw g.oh g.ow g.stride g.rate g.pad x).data⟩,
      by rw [extract, if_pos (by simp), convolutionTensor_eq], ?_, rfl, rfl⟩
    rw [Tensor.WF, imageTensor_length]
    simp
    ring
  · refine ⟨⟨[N, g.oh, g.ow, kh, kw, c], (imageTensor kh kw g.oh g.ow g.stride g.rate g.pad x).data⟩,
      by rw [extract, if_pos (by simp), convolutionTensor_eq], ?_, rfl, rfl⟩
    rw [Tensor.WF, imageTensor_length]
    simp
    ring
  · exact ⟨imageTensor kh kw g.oh g.ow g.stride g.rate g.pad x, by rw [extract, if_neg (by decide), if_pos rfl],
      Tensor.ofFn_wf _ _, rfl, rfl⟩
  · refine ⟨⟨[N, g.h, g.w, 1, 1, c], (imageTensor 1 1 g.h g.w (1, 1) (1, 1) (0, 0) x).data⟩,
      by rw [extract, if_neg (by decide), if_neg (by decide), if_pos rfl, if_neg (by simp [hs]),
      if_neg (by simp), pointwiseTensor_eq], ?_, ?_, by rw [hh, hw]; rfl⟩
    · rw [Tensor.WF, imageTensor_length]
      simp
      ring
    · simp only [hh, hw, hs, hp]
      refine congrArg (fun f => (Tensor.ofFn [N, g.h, g.w, 1 * 1 * c] (at4 f)).data) ?_
      funext n p k
      exact imagePatch_pointwise _ _ _ _ _ _ _

theorem extractCov_eq {N c : ℕ} {fn : Option String} {static : Bool} (bias : Bool) {kh kw : ℕ} {g : ConvGeo}
    (hu : Usable fn static kh kw g) (hk : 0 < kh * kw * c) (mask : Option (Tensor ℝ))
    (hm : ∀ m ∈ mask, m.WF ∧ m.shape = [kh, kw, c])
    (hf : mask = none ∨ fn = some "extract_image_patches" ∨ kh = 1 ∧ kw = 1) (x : Fin N → ℤ × ℤ → Fin c → ℝ) :
    extractCov fn static bias kh kw g mask x =
      .ok (convInputCov bias g.oh g.ow g.stride g.rate g.pad (mask.map maskFun) (List.ofFn x)) := by
  obtain ⟨t, ht, hwf, hd, hs⟩ := extract_data hu x
  have hlen : t.data.length = N * g.oh * g.ow * (kh * kw * c) := by rw [hd, imageTensor_length]
  simp only [extractCov, ht, convInputCov, patchRows_eq]
  cases mask with
  | none =>
    have h := patchesFlat_ok hk t (fun n i j => patchGrid kh kw g.oh g.ow g.stride g.rate g.pad (x n) i j) hlen
      fun n i j k => by rw [hd]; exact imageTensor_data _ _ _ _ _ _ _ _ _ _ _ _
    simp only [maskPatches, Bind.bind, Except.bind, h]
    rfl
  | some m =>
    obtain ⟨hmw, hms⟩ := hm m rfl
    have hml : m.data.length = kh * kw * c := by
      rw [show m.data.length = m.shape.prod from hmw, hms]
      simp [mul_assoc]
    obtain ⟨s, hs'⟩ : ∃ s, t.shape = s ++ [kh * kw * c] := by
      by_cases hi : fn = some "extract_image_patches"
      · exact ⟨_, by rw [hs, if_pos hi]⟩
      · rcases hf with hf | hf | ⟨rfl, rfl⟩
        · cases hf
        · exact absurd hf hi
        · exact ⟨_, by rw [hs, if_neg hi, one_mul, one_mul]⟩
    obtain ⟨u, hu1, hu2, hu3⟩ := mulBroadcast_last s _ t hwf hs' m.data
    have h := patchesFlat_ok hk ⟨s ++ [kh * kw * c], u⟩
      (fun n i j => maskTaps (some (maskFun m)) (patchGrid kh kw g.oh g.ow g.stride g.rate g.pad (x n) i j))
      (hu2.trans hlen) fun n i j k => by
        rw [hu3 _ _ k.2, hd, maskTaps_eq m hms]
        congr 1
        exact imageTensor_data _ _ _ _ _ _ _ _ _ _ _ _
    simp only [maskPatches, hms, ne_eq, not_true_eq_false, if_false, hml, hu1, Bind.bind, Except.bind, h]
    rfl

/-- Whichever usable extractor is chosen, the factor holds the second moments of what the convolution reads; with a mask,
for `extract_image_patches` or filters of size 1×1. Missing are masks with the default extractor and larger filters. -/
theorem C112_moments_partial {N c : ℕ} {fn : Option String} {static : Bool} (bias : Bool) {kh kw : ℕ} {g : ConvGeo}
    (hu : Usable fn static kh kw g) (hk : 0 < kh * kw * c) (mask : Option (Tensor ℝ))
    (hm : ∀ m ∈ mask, m.WF ∧ m.shape = [kh, kw, c])
    (hf : mask = none ∨ fn = some "extract_image_patches" ∨ kh = 1 ∧ kw = 1) (x : Fin N → ℤ × ℤ → Fin c → ℝ) :
    ∃ C, extractCov fn static bias kh kw g mask x = .ok C ∧ HoldsMoments bias g (mask.map maskFun) x C := by
  refine ⟨_, extractCov_eq bias hu hk mask hm hf x, ?_, ?_, ?_, ?_⟩
  · intro dh dw ch dh' dw' ch'
    exact C73_input_taps _ _ _ _ _ _ _ _ _ _ _ _ _ _
  · intro dh dw ch b
    exact C73_input_bias _ _ _ _ _ _ _ _ _ _ _ _
  · intro b b' h
    exact C73_bias_bias _ _ _ _ _ _ _ _ h
  · ext k l
    rw [Matrix.transpose_apply, convInputCov_apply, convInputCov_apply]
    simp only [mul_comm]

/-- Without a mask, all usable extractors give the same statistics. -/
theorem C112_agree {N c : ℕ} {fn fn' : Option String} {static static' : Bool} (bias : Bool) {kh kw : ℕ} {g : ConvGeo}
    (hu : Usable fn static kh kw g) (hu' : Usable fn' static' kh kw g) (hk : 0 < kh * kw * c)
    (x : Fin N → ℤ × ℤ → Fin c → ℝ) :
    extractCov fn static bias kh kw g none x = extractCov fn' static' bias kh kw g none x ∧
      (extractCov fn static bias kh kw g none x).isOk := by
  rw [extractCov_eq bias hu hk none (by simp) (Or.inl rfl) x, extractCov_eq bias hu' hk none (by simp) (Or.inl rfl) x]
  exact ⟨rfl, rfl⟩

/-! ### Masks with the default extractor -/

theorem sum_taps {kh kw : ℕ} (f : Fin (kh * kw * 1) → ℝ) : ∑ q, f q = ∑ dh : Fin kh, ∑ dw : Fin kw, f (flat dh dw 0) := by
  rw [← finProdFinEquiv.sum_comp, Fintype.sum_prod_type, ← finProdFinEquiv.sum_comp, Fintype.sum_prod_type]
  simp [flat]

/-- With one input channel, a mask and the default extractor, patches and mask are multiplied to an outer product without
any complaint: every entry of the factor for two taps is the same mean square of everything that is read (times the entries
of the mask), in place of the second moment of the two taps. -/
theorem C112_silent_counterexample {N : ℕ} (static : Bool) {kh kw : ℕ} (g : ConvGeo) (hk : 2 ≤ kh * kw) (m : Tensor ℝ)
    (hmw : m.WF) (hms : m.shape = [kh, kw, 1]) (x : Fin N → ℤ × ℤ → Fin 1 → ℝ) :
    ∃ C, extractCov none static false kh kw g (some m) x = .ok C ∧ ∀ dh dw dh' dw',
      C (Fin.castAdd _ (flat dh dw 0)) (Fin.castAdd _ (flat dh' dw' 0)) =
        maskFun m dh dw (0 : Fin 1) * maskFun m dh' dw' (0 : Fin 1) * meanAll fun n (i : Fin g.oh) (j : Fin g.ow) =>
          (∑ a : Fin kh, ∑ b : Fin kw, reads g.stride g.rate g.pad (x n) i j a b 0 ^ 2) / (kh * kw) := by
  obtain ⟨t, ht, hwf, hd, hs⟩ := extract_data (fn := none) (static := static) (kh := kh) (kw := kw) (g := g) (Or.inl rfl) x
  have hlen : t.data.length = N * g.oh * g.ow * (kh * kw * 1) := by rw [hd, imageTensor_length]
  have hml : m.data.length = kh * kw * 1 := by
    rw [show m.data.length = m.shape.prod from hmw, hms]
    simp
  obtain ⟨u, hu1, hu2, hu3⟩ := mulBroadcast_one [N, g.oh, g.ow, kh, kw] (kh * kw * 1) t hwf
    (by rw [hs, if_neg (by simp)]) m.data
  have h := patchesFlat_ok (N := N) (oh := g.oh) (ow := g.ow * (kh * kw * 1)) (K := kh * kw * 1) (by omega)
    ⟨[N, g.oh, g.ow, kh, kw] ++ [kh * kw * 1], u⟩
    (fun n i j k => patchGrid kh kw g.oh g.ow g.stride g.rate g.pad (x n) i (finProdFinEquiv.symm j).1
      (finProdFinEquiv.symm j).2 * m.data.getD k 0)
    (by rw [hu2, hlen]; ring) fun n i j k => by
      obtain ⟨⟨j, q⟩, rfl⟩ := finProdFinEquiv.surjective j
      have e : ((n : ℕ) * g.oh + i) * (g.ow * (kh * kw * 1)) + (finProdFinEquiv (j, q) : Fin _) =
          ((n * g.oh + i) * g.ow + j) * (kh * kw * 1) + q := by
        simp only [finProdFinEquiv_apply_val]
        ring
      have hr : ((n : ℕ) * g.oh + i) * g.ow + j < N * g.oh * g.ow := by
        have h1 := n.2
        have h2 := i.2
        have h3 := j.2
        have h4 : (n : ℕ) * g.oh + i < N * g.oh := by nlinarith
        nlinarith
      rw [e]
      rw [hu3 _ _ k.2 (by rw [hlen]; have := q.2; nlinarith), Equiv.symm_apply_apply, hd]
      congr 1
      exact imageTensor_data _ _ _ _ _ _ _ _ _ _ _ _
  refine ⟨_, by simp only [extractCov, ht, maskPatches, hms, ne_eq, not_true_eq_false, if_false, hml, hu1, Bind.bind,
    Except.bind, h]; rfl, ?_⟩
  intro dh dw dh' dw'
  rw [homogCov, computeCov_apply, List.map_map, List.length_map, rowsOf, sum_flatten, List.map_ofFn, List.sum_ofFn,
    List.length_flatten, List.map_ofFn]
  simp only [Function.comp_def, sum_grid, length_grid, List.sum_ofFn, Finset.sum_const, Finset.card_univ,
    Fintype.card_fin, smul_eq_mul, appendHomog_left, maskFun_data m hms, meanAll]
  have h2 : (kh * kw : ℝ) ≠ 0 := by
    have : (2 : ℝ) ≤ kh * kw := by exact_mod_cast hk
    positivity
  have key : ∀ (n : Fin N) (i : Fin g.oh), (∑ j, patchGrid kh kw g.oh g.ow g.stride g.rate g.pad (x n) i
      (finProdFinEquiv.symm j).1 (finProdFinEquiv.symm j).2 * maskFun m dh dw (0 : Fin 1) *
      (patchGrid kh kw g.oh g.ow g.stride g.rate g.pad (x n) i (finProdFinEquiv.symm j).1 (finProdFinEquiv.symm j).2 *
        maskFun m dh' dw' (0 : Fin 1))) =
      maskFun m dh dw (0 : Fin 1) * maskFun m dh' dw' (0 : Fin 1) * ∑ j : Fin g.ow, ∑ a : Fin kh, ∑ b : Fin kw,
        reads g.stride g.rate g.pad (x n) i j a b 0 ^ 2 := by
    intro n i
    rw [← finProdFinEquiv.sum_comp, Fintype.sum_prod_type, Finset.mul_sum]
    refine Finset.sum_congr rfl fun j _ => ?_
    simp only [Equiv.symm_apply_apply]
    rw [sum_taps, Finset.mul_sum]
    refine Finset.sum_congr rfl fun a _ => ?_
    rw [Finset.mul_sum]
    refine Finset.sum_congr rfl fun b _ => ?_
    rw [patchGrid, imagePatch_flat, reads]
    ring
  simp only [key, ← Finset.mul_sum, ← Finset.sum_div]
  push_cast
  rw [div_div, mul_div_assoc]
  congr 2
  ring

/-- With more channels the update fails. -/
theorem C112_fails_counterexample {N c : ℕ} (static bias : Bool) {kh kw : ℕ} (g : ConvGeo) (hk : 2 ≤ kh * kw) (hc : 2 ≤ c)
    (m : Tensor ℝ) (hmw : m.WF) (hms : m.shape = [kh, kw, c]) (x : Fin N → ℤ × ℤ → Fin c → ℝ) :
    ∃ e, extractCov none static bias kh kw g (some m) x = .error e := by
  obtain ⟨t, ht, hwf, hd, hs⟩ := extract_data (fn := none) (static := static) (kh := kh) (kw := kw) (g := g) (Or.inl rfl) x
  have hml : m.data.length = kh * kw * c := by
    rw [show m.data.length = m.shape.prod from hmw, hms]
    simp [mul_assoc]
  obtain ⟨e, he⟩ := mulBroadcast_error [N, g.oh, g.ow, kh, kw] c (kh * kw * c) t (by rw [hs, if_neg (by simp)]) m.data
    (by omega) (by nlinarith) (by nlinarith)
  refine ⟨e, ?_⟩
  simp only [extractCov, ht, maskPatches, hms, ne_eq, not_true_eq_false, if_false, hml, he, Bind.bind, Except.bind]

/-- The pointwise extractor does not work for batches of unknown size, with which the other two do. -/
theorem C112_unknown_counterexample {N c : ℕ} (bias : Bool) (kh kw : ℕ) (g : ConvGeo) (mask : Option (Tensor ℝ))
    (x : Fin N → ℤ × ℤ → Fin c → ℝ) :
    ∃ e, extractCov (some "extract_pointwise_conv2d_patches") false bias kh kw g mask x = .error e := by
  have h : ∃ e, extract (some "extract_pointwise_conv2d_patches") false kh kw g x = .error e := by
    rw [extract, if_neg (by decide), if_neg (by decide), if_pos rfl]
    split_ifs
    all_goals first | exact ⟨_, rfl⟩ | skip
    simp only [pointwiseTensor, Bool.not_false, if_true]
    split_ifs <;> exact ⟨_, rfl⟩
  obtain ⟨e, he⟩ := h
  exact ⟨e, by simp only [extractCov, he, Bind.bind, Except.bind]⟩

/-- A filter with two taps on an image with pixels 1 and 0, and a mask of ones: the moment of the second tap is 0, but the
factor has 1/2. -/
example : ∃ (g : ConvGeo) (x : Fin 1 → ℤ × ℤ → Fin 1 → ℝ) (C : Matrix (Fin (1 * 2 * 1 + 0)) (Fin (1 * 2 * 1 + 0)) ℝ),
    extractCov none true false 1 2 g (some ⟨[1, 2, 1], [1, 1]⟩) x = .ok C ∧
    C (Fin.castAdd 0 (flat (0 : Fin 1) (1 : Fin 2) (0 : Fin 1))) (Fin.castAdd 0 (flat (0 : Fin 1) (1 : Fin 2) (0 : Fin 1))) =
      1 / 2 ∧
    ¬HoldsMoments false g (some fun _ _ _ => 1) x C := by
  obtain ⟨C, h1, h2⟩ := C112_silent_counterexample true (kh := 1) (kw := 2) ⟨1, 2, 1, 1, (1, 1), (1, 1), (0, 0)⟩ (by norm_num)
    ⟨[1, 2, 1], [1, 1]⟩ (by simp [Tensor.WF]) rfl (fun (_ : Fin 1) p _ => if p = (0, 0) then 1 else 0)
  have h3 := h2 0 1 0 1
  have h4 : maskFun (⟨[1, 2, 1], [1, 1]⟩ : Tensor ℝ) (0 : Fin 1) (1 : Fin 2) (0 : Fin 1) = 1 := by
    simp [maskFun, Tensor.get, Tensor.ravel]
  rw [h4] at h3
  simp [meanAll, reads] at h3
  refine ⟨_, _, C, h1, by simpa using h3, fun hm => ?_⟩
  have h5 := hm.1 0 1 0 0 1 0
  simp [meanAll, reads, maskAt] at h5
  have h6 := h3.symm.trans h5
  norm_num at h6

/-- All extractors can be used for a filter of size 1×1 and stride 1. -/
example (fn : Option String) (hf : fn ∈ [none, some "extract_convolution_patches", some "extract_image_patches",
    some "extract_pointwise_conv2d_patches"]) : Usable fn true 1 1 ⟨5, 7, 5, 7, (1, 1), (2, 2), (0, 0)⟩ := by
  simp only [List.mem_cons, List.not_mem_nil, or_false] at hf
  rcases hf with rfl | rfl | rfl | rfl <;> simp [Usable]

end Kfac.Grad
