import Verif.Conv.Register
import Verif.Conv.Props
import Mathlib.Tactic.FinCases

/-! # C90: the statistics of a registered convolution are taken at the places the convolution reads

The geometry of a call of TensorFlow is given by its strides and dilations along the spatial dimensions and its padding;
`conv2d` and `conv1d` take them as lists that begin and end with one, `convolution` without these, and `depthwise_conv2d` the
strides with and the dilations without. -/

namespace Kfac.Conv

/-- The argument `dilations` of `tf.nn.conv2d` for dilations along height and width. -/
def dilations2 : Option (ℤ × ℤ) → Option (List ℤ) := Option.map fun d => [1, d.1, d.2, 1]

/-- Without the argument there is no dilation. -/
def rates2 (d : Option (ℕ × ℕ)) : ℕ × ℕ := d.getD (1, 1)

/-- Dilations as integers. -/
def ints (d : Option (ℕ × ℕ)) : Option (ℤ × ℤ) := d.map fun d => ((d.1 : ℤ), (d.2 : ℤ))

/-- The two paddings of TensorFlow. -/
def Padding (p : String) : Prop := p = "SAME" ∨ p = "VALID"

/-- One dimension in which the number of locations is computed correctly: padded, or else the filter fits and is not
dilated. -/
def Countable (padding : String) (n k d : ℕ) : Prop := padding = "VALID" → k ≤ n ∧ d = 1

/-- A block whose statistics are taken over the patches of the convolution with these strides, dilations and padding of
images of `h` by `w` pixels, and which knows the number of its positions. -/
def Follows (b : ConvBlock) (padding : String) (N h w c kh kw sh sw dh dw : ℕ) : Prop :=
  b.reads 4 = some (.ok ⟨[sh, sw], [dh, dw], padding⟩) ∧
  b.numLocations [N, h, w, c] = .ok
    ((positions (padding = "VALID") h kh sh dh ×ˢ positions (padding = "VALID") w kw sw dw).card : ℕ)

theorem isValid_padding {p : String} (hp : Padding p) : isValid p = decide (p = "VALID") := by
  rcases hp with rfl | rfl <;> decide

theorem outSize_of {p : String} (n k s d : ℕ) (hs : 0 < s) (hk : 0 < k) (hc : Countable p n k d) :
    outSize (decide (p = "VALID")) n k s = .ok ((positions (p = "VALID") n k s d).card : ℤ) := by
  by_cases hp : p = "VALID"
  · obtain ⟨h1, rfl⟩ := hc hp
    simp only [hp, decide_true]
    exact outSize_valid n k s hs hk h1
  · have : positions (decide (p = "VALID")) n k s d = positions false n k s 1 := by simp [positions, hp]
    rw [this]
    simp only [hp, decide_false]
    exact outSize_same n k s hs

theorem locations_of {p : String} (hp : Padding p) (N h w c kh kw o sh sw dh dw s0 s3 : ℕ) (hsh : 0 < sh) (hsw : 0 < sw)
    (hkh : 0 < kh) (hkw : 0 < kw) (hh : Countable p h kh dh) (hw : Countable p w kw dw) :
    numConvLocations [N, h, w, c] [kh, kw, c, o] (some [s0, sh, sw, s3]) (isValid p) =
      .ok ((positions (p = "VALID") h kh sh dh ×ˢ positions (p = "VALID") w kw sw dw).card : ℕ) := by
  rw [isValid_padding hp]
  simp [numConvLocations, get, outSize_of h kh sh dh hsh hkh hh, outSize_of w kw sw dw hsw hkw hw, bind, Except.bind,
    pure, Except.pure]

/-- A `conv2d` layer registered with the approximation "kron" or "diagonal", or with several uses: the statistics are taken
over the patches the convolution reads. Missing: "kron_sua" (`C90_sua_counterexample`), and the number of positions without padding
for dilated filters (`C90_dilation_counterexample`). -/
theorem C90_conv2d_partial {p : String} (hp : Padding p) (fmt : Option String) (hf : fmt = none ∨ fmt = some "NHWC")
    (N h w c kh kw o sh sw : ℕ) (d : Option (ℕ × ℕ)) (hsh : 0 < sh) (hsw : 0 < sw) (hkh : 0 < kh) (hkw : 0 < kw)
    (hh : Countable p h kh (rates2 d).1) (hw : Countable p w kw (rates2 d).2) :
    (∀ approx ∈ ["kron", "diagonal"], ∃ b,
      registerConv2d [kh, kw, c, o] [1, sh, sw, 1] p fmt (dilations2 (ints d)) approx = .ok b ∧
      Follows b p N h w c kh kw sh sw (rates2 d).1 (rates2 d).2) ∧
    ∃ b, registerConv2dMulti [kh, kw, c, o] [1, sh, sw, 1] p fmt (dilations2 (ints d)) "kron_indep" = .ok b ∧
      Follows b p N h w c kh kw sh sw (rates2 d).1 (rates2 d).2 := by
  have hfa : ¬ (fmt ≠ none ∧ fmt ≠ some "NHWC") := by rcases hf with rfl | rfl <;> simp
  have hcl : channelLast fmt = true := by rcases hf with rfl | rfl <;> decide
  have hl := locations_of hp N h w c kh kw o sh sw (rates2 d).1 (rates2 d).2 1 1 hsh hsw hkh hkw hh hw
  refine ⟨?_, ?_⟩
  · intro approx ha
    fin_cases ha
    · refine ⟨.kfc ⟨[kh, kw, c, o], p, some [1, sh, sw, 1], dilations2 (ints d), fmt, some "extract_image_patches", false⟩,
        by simp only [registerConv2d, if_neg hfa]; rfl, ?_, hl⟩
      cases d <;> simp [ConvBlock.reads, KfcBlock.reads, imageGeo, dilations2, ints, rates2]
    · have : diagBlock [kh, kw, c, o] [1, sh, sw, 1] p fmt (dilations2 (ints d)) =
          .ok ⟨[kh, kw, c, o], p, [1, sh, sw, 1], [1, (rates2 d).1, (rates2 d).2, 1], fmt⟩ := by
        cases d <;> simp [diagBlock, hcl, dilations2, ints, rates2]
      exact ⟨.diagonal ⟨[kh, kw, c, o], p, [1, sh, sw, 1], [1, (rates2 d).1, (rates2 d).2, 1], fmt⟩,
        by simp [registerConv2d, if_neg hfa, this, Except.map], rfl, hl⟩
  · refine ⟨.kfcMulti ⟨[kh, kw, c, o], p, some [1, sh, sw, 1], dilations2 (ints d), fmt, some "extract_image_patches", false⟩,
      by simp only [registerConv2dMulti, if_neg hfa]; rfl, ?_, hl⟩
    cases d <;> simp [ConvBlock.reads, KfcBlock.reads, imageGeo, dilations2, ints, rates2]

/-- A `depthwise_conv2d` layer; see `C90_conv2d_partial` for dilated filters without padding. -/
theorem C90_depthwise_partial {p : String} (hp : Padding p) (fmt approx : Option String)
    (hf : fmt = none ∨ fmt = some "NHWC") (ha : approx = none ∨ approx = some "diagonal")
    (N h w c kh kw m sh sw : ℕ) (d : Option (ℕ × ℕ)) (hsh : 0 < sh) (hsw : 0 < sw) (hkh : 0 < kh) (hkw : 0 < kw)
    (hh : Countable p h kh (rates2 d).1) (hw : Countable p w kw (rates2 d).2) :
    ∃ b, registerDepthwise [kh, kw, c, m] [1, sh, sw, 1] p (d.map fun d => [(d.1 : ℤ), (d.2 : ℤ)]) fmt approx = .ok b ∧
      Follows b p N h w c kh kw sh sw (rates2 d).1 (rates2 d).2 := by
  have hfa : ¬ (fmt ≠ none ∧ fmt ≠ some "NHWC") := by rcases hf with rfl | rfl <;> simp
  have haa : ¬ (approx ≠ none ∧ approx ≠ some "diagonal") := by rcases ha with rfl | rfl <;> simp
  have hcl : channelLast fmt = true := by rcases hf with rfl | rfl <;> decide
  have hl := locations_of hp N h w c kh kw (c * m) sh sw (rates2 d).1 (rates2 d).2 1 1 hsh hsw hkh hkw hh hw
  push_cast at hl
  refine ⟨.depthwise ⟨[kh, kw, c, c * m], p, [1, sh, sw, 1], [1, (rates2 d).1, (rates2 d).2, 1], fmt⟩, ?_, rfl, hl⟩
  cases d <;> simp [registerDepthwise, if_neg hfa, if_neg haa, depthwiseRate, diagBlock, hcl, depthwiseShape, rates2, Except.map]

/-- A `separable_conv2d` layer: the depthwise convolution as above, then a convolution of single pixels. -/
theorem C90_separable_partial {p : String} (hp : Padding p) (fmt : Option String)
    (hf : fmt = none ∨ fmt = some "NHWC") (approx : String) (ha : approx ∈ ["kron", "diagonal"])
    (N h w c kh kw m o sh sw h' w' : ℕ) (d : Option (ℕ × ℕ)) (hsh : 0 < sh) (hsw : 0 < sw) (hkh : 0 < kh) (hkw : 0 < kw)
    (hh : Countable p h kh (rates2 d).1) (hw : Countable p w kw (rates2 d).2) (hh' : 0 < h') (hw' : 0 < w') :
    ∃ b b', registerSeparable [kh, kw, c, m] [1, 1, (c * m : ℕ), o] [1, sh, sw, 1] p (d.map fun d => [(d.1 : ℤ), (d.2 : ℤ)])
        fmt approx = .ok (b, b') ∧
      Follows b p N h w c kh kw sh sw (rates2 d).1 (rates2 d).2 ∧ Follows b' "VALID" N h' w' (c * m) 1 1 1 1 1 1 := by
  obtain ⟨b, hb, hb'⟩ := C90_depthwise_partial hp fmt (some "diagonal") hf (.inr rfl) N h w c kh kw m sh sw d hsh hsw hkh hkw hh hw
  obtain ⟨b2, h2, h2'⟩ := (C90_conv2d_partial (p := "VALID") (.inr rfl) fmt hf N h' w' (c * m) 1 1 o 1 1 none
    Nat.one_pos Nat.one_pos Nat.one_pos Nat.one_pos (fun _ => ⟨hh', rfl⟩) (fun _ => ⟨hw', rfl⟩)).1 approx ha
  refine ⟨b, b2, ?_, hb', h2'⟩
  have h2 : registerConv2d [1, 1, (c * m : ℕ), o] [1, 1, 1, 1] "VALID" fmt none approx = .ok b2 := h2
  simp only [registerSeparable, hb, h2, Except.map]

/-- A `conv1d` layer that is not both strided and dilated; see `C90_conv1d_counterexample` for those. -/
theorem C90_conv1d_partial {p : String} (hp : Padding p) (approx : Option String) (ha : approx = none ∨ approx = some "kron")
    (N n c k o s : ℕ) (d : Option ℕ) (hs : 0 < s) (hk : 0 < k) (hsd : s = 1 ∨ d.getD 1 ≤ 1)
    (hn : Countable p n k (d.getD 1)) :
    ∃ b, registerConv1d [k, c, o] [1, s, 1] p (d.map fun d => [1, (d : ℤ), 1]) approx = .ok b ∧
      b.reads 3 = some (.ok ⟨[s], [((d.getD 1 : ℕ) : ℤ)], p⟩) ∧
      b.numLocations [N, n, c] = .ok ((positions (p = "VALID") n k s (d.getD 1)).card : ℕ) := by
  have haa : ¬ (approx ≠ none ∧ approx ≠ some "kron") := by rcases ha with rfl | rfl <;> simp
  refine ⟨_, by simp only [registerConv1d, if_neg haa]; rfl, ?_, ?_⟩
  · have hcl : channelLast (some "NWC") = true := by decide
    cases d with
    | none => simp [ConvBlock.reads, KfcBlock.reads, hcl, convolutionGeo, spatial]
    | some d =>
      have : ¬ (1 < s ∧ 1 < d) := by
        simp only [Option.getD_some] at hsd
        omega
      simp [ConvBlock.reads, KfcBlock.reads, hcl, convolutionGeo, spatial]
      omega
  · simp only [ConvBlock.numLocations]
    rw [isValid_padding hp]
    simp [numConvLocations, get, outSize_of n k s (d.getD 1) hs hk hn, bind, Except.bind]

/-- A call of `tf.nn.convolution` without strides; with strides see `C90_convolution_counterexample`. -/
theorem C90_convolution_partial {p : String} (hp : Padding p) (fmt approx : Option String) (hf : channelLast fmt)
    (ha : approx = none ∨ approx = some "kron") (N h w c kh kw o : ℕ) (d : Option (ℕ × ℕ)) (hkh : 0 < kh) (hkw : 0 < kw)
    (hh : Countable p h kh (rates2 d).1) (hw : Countable p w kw (rates2 d).2) :
    ∃ b, registerConvolution [kh, kw, c, o] p none (d.map fun d => [(d.1 : ℤ), (d.2 : ℤ)]) fmt approx = .ok b ∧
      Follows b p N h w c kh kw 1 1 (rates2 d).1 (rates2 d).2 := by
  have haa : ¬ (approx ≠ none ∧ approx ≠ some "kron") := by rcases ha with rfl | rfl <;> simp
  refine ⟨_, by simp only [registerConvolution, if_neg haa]; rfl, ?_, ?_⟩
  · cases d <;> simp [ConvBlock.reads, KfcBlock.reads, hf, convolutionGeo, spatial, List.replicate, rates2]
  · exact locations_of hp N h w c kh kw o 1 1 (rates2 d).1 (rates2 d).2 1 1 Nat.one_pos Nat.one_pos hkh hkw hh hw

/-- C90, what this means: whatever amounts of padding TensorFlow adds for given strides, dilations and padding, the output of the
layer at any position is the product of the patch at that position with the filter. -/
theorem C90_product {R : Type} [CommRing R] {b : ConvBlock} {p : String} {N h w c kh kw o sh sw dh dw : ℕ}
    (hb : Follows b p N h w c kh kw sh sw dh dw) (pad : PatchGeo → ℤ × ℤ) :
    ∃ g : PatchGeo, b.reads 4 = some (.ok g) ∧ ∀ (x : ℤ × ℤ → Fin c → R) (f : Fin kh → Fin kw → Fin c → Fin o → R)
      (q : ℤ × ℤ) (out : Fin o),
      convolution (sh, sw) (dh, dw) (pad ⟨[sh, sw], [dh, dw], p⟩) x f q out =
        ∑ i : Fin kh, ∑ j : Fin kw, ∑ l : Fin c,
          extractPatches kh kw (g.strides.getD 0 1, g.strides.getD 1 1) (g.rates.getD 0 1, g.rates.getD 1 1) (pad g) x q i j l *
            f i j l out := by
  refine ⟨_, hb.1, fun x f q out => ?_⟩
  simp only [C68_patches, convolution]
  rfl

/-- C90: data formats other than channels last are rejected when the layer is registered; for `register_convolution` when
the statistics are built. -/
theorem C90_format (F strides : List ℤ) (p : String) (d rate : Option (List ℤ)) (s : Option (List ℤ)) (fmt : String)
    (hf : channelLast (some fmt) = false) :
    (∀ approx, ∃ e, registerConv2d F strides p (some fmt) d approx = .error e) ∧
    (∀ approx, ∃ e, registerConv2dMulti F strides p (some fmt) d approx = .error e) ∧
    (∀ approx, ∃ e, registerDepthwise F strides p rate (some fmt) approx = .error e) ∧
    ∀ approx b rank, registerConvolution F p s d (some fmt) approx = .ok b → ∃ e, b.reads rank = some (.error e) := by
  have hne : fmt ≠ "NHWC" := by rintro rfl; exact absurd hf (by decide)
  have hfa : some fmt ≠ none ∧ some fmt ≠ some "NHWC" := ⟨by simp, by simpa using hne⟩
  refine ⟨fun a => ⟨_, by rw [registerConv2d, if_pos hfa]⟩, fun a => ⟨_, by rw [registerConv2dMulti, if_pos hfa]⟩, fun a => ?_, ?_⟩
  · rw [registerDepthwise]
    by_cases ha : a ≠ none ∧ a ≠ some "diagonal"
    · exact ⟨_, by rw [if_pos ha]⟩
    · exact ⟨_, by rw [if_neg ha, if_pos hfa]⟩
  · intro a b rank h
    rw [registerConvolution] at h
    split at h
    · cases h
    · cases h
      exact ⟨_, by simp [ConvBlock.reads, KfcBlock.reads, hf]; rfl⟩

/-! ### Violations -/

/-- C90 is violated by the approximation "kron_sua": strides are dropped, and the number of positions is that of a convolution without
strides. -/
theorem C90_sua_counterexample (N c o : ℕ) : ∃ b,
    registerConv2d [1, 1, c, o] [1, 2, 2, 1] "SAME" none none "kron_sua" = .ok b ∧
    (positions ("SAME" = "VALID") 4 1 2 1 ×ˢ positions ("SAME" = "VALID") 4 1 2 1).card = 4 ∧
    b.numLocations [N, (4 : ℕ), (4 : ℕ), c] = .ok 16 := by
  refine ⟨_, rfl, by decide, ?_⟩
  simp [ConvBlock.numLocations, numConvLocations, get, outSize, ceilDiv, isValid, bind, Except.bind, pure, Except.pure,
    List.replicate]

/-- C90 is violated for dilated filters without padding: the patches are right, the number of positions is not. -/
theorem C90_dilation_counterexample (N c o : ℕ) : ∃ b,
    registerConv2d [2, 2, c, o] [1, 1, 1, 1] "VALID" none (some [1, 2, 2, 1]) "kron" = .ok b ∧
    b.reads 4 = some (.ok ⟨[1, 1], [2, 2], "VALID"⟩) ∧
    (positions ("VALID" = "VALID") 3 2 1 2 ×ˢ positions ("VALID" = "VALID") 3 2 1 2).card = 1 ∧
    b.numLocations [N, (3 : ℕ), (3 : ℕ), c] = .ok 4 := by
  refine ⟨_, rfl, rfl, by decide, ?_⟩
  simp [ConvBlock.numLocations, numConvLocations, get, outSize, ceilDiv, isValid, bind, Except.bind, pure, Except.pure]

/-- C90 is violated for `register_convolution` with strides, which are documented to be those along the spatial dimensions: the number of positions
cannot be computed. -/
theorem C90_convolution_counterexample (N h w c kh kw o sh sw : ℕ) (p : String) (hsw : 0 < sw) : ∃ b,
    registerConvolution [kh, kw, c, o] p (some [sh, sw]) none none none = .ok b ∧
    b.reads 4 = some (.ok ⟨[sh, sw], [1, 1], p⟩) ∧
    b.numLocations [N, h, w, c] = .error "IndexError" := by
  refine ⟨_, rfl, ?_, ?_⟩
  · simp [ConvBlock.reads, KfcBlock.reads, channelLast, convolutionGeo, spatial, List.replicate]
  · exact (C62_spatial_strides_counterexample _ N h w c kh kw o sh sw (by exact_mod_cast hsw.ne')).1

/-- C90 is violated for one-dimensional convolutions with strides and dilations, which `tf.nn.conv1d` supports: the
statistics cannot be built. -/
theorem C90_conv1d_counterexample (c k o s d : ℕ) (p : String) (hs : 1 < s) (hd : 1 < d) : ∃ b e,
    registerConv1d [k, c, o] [1, s, 1] p (some [1, d, 1]) none = .ok b ∧ b.reads 3 = some (.error e) := by
  have hcl : channelLast (some "NWC") = true := by decide
  refine ⟨_, "ValueError: strides > 1 not supported in conjunction with dilation_rate > 1", rfl, ?_⟩
  simp [ConvBlock.reads, KfcBlock.reads, hcl, convolutionGeo, spatial, hs, hd]

/-- C90 is violated if a layer is registered again with `reuse`: for the second convolution the strides of the first are
used, without an error. -/
theorem C90_reuse_counterexample (c o : ℕ) : ∃ b b' r,
    registerConv2d [3, 3, c, o] [1, 1, 1, 1] "SAME" none none "kron" = .ok b ∧
    registerConv2d [3, 3, c, o] [1, 2, 2, 1] "SAME" none none "kron" = .ok b' ∧
    reuseBlock b b' = .ok r ∧ r.reads 4 = some (.ok ⟨[1, 1], [1, 1], "SAME"⟩) := by
  exact ⟨_, _, _, rfl, rfl, rfl, rfl⟩

/-- Those of `C90_conv2d_partial` for a strided 3x3 convolution of 7x5 images without padding. -/
example : Padding "VALID" ∧ Countable "VALID" 7 3 (rates2 none).1 ∧ Countable "VALID" 5 3 (rates2 none).2 :=
  ⟨.inr rfl, fun _ => ⟨by decide, rfl⟩, fun _ => ⟨by decide, rfl⟩⟩

/-- Those of `C90_conv2d_partial` for a dilated convolution with padding. -/
example : Padding "SAME" ∧ Countable "SAME" 7 9 (rates2 (some (2, 3))).1 := ⟨.inl rfl, fun h => absurd h (by decide)⟩

end Kfac.Conv
