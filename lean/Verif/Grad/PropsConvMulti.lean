import Verif.Grad.ConvMulti
import Verif.Grad.PropsFc
import Verif.Grad.PropsSample

/-! # C83: convolutions used several times -/

namespace Kfac.Grad

open Kfac.Conv Kfac.Stats Kfac.Factor

/-! ### Specification -/

/-- A convolution used on `T` images per example. -/
def convUsed {kh kw c o T : ℕ} (bias : Bool) (oh ow : ℕ) (stride rate pad : ℤ × ℤ)
    (θ : (Fin kh × Fin kw × Fin c × Fin o) ⊕ Fin o → ℝ) (x : Fin T → ℤ × ℤ → Fin c → ℝ)
    (out : (Fin T × Fin oh × Fin ow) × Fin o) : ℝ :=
  convLayer bias oh ow stride rate pad (fun _ _ _ => 1) θ (x out.1.1) (out.1.2, out.2)

/-- A row of the matrix of parameters: a filter tap or the bias. -/
abbrev TapRow (bias : Bool) (kh kw c : ℕ) := (Fin kh × Fin kw × Fin c) ⊕ Fin bias.toNat

/-- The position of a row in the factor. -/
def rowAt {bias : Bool} {kh kw c : ℕ} : TapRow bias kh kw c → Fin (kh * kw * c + bias.toNat)
  | .inl (dh, dw, ch) => Fin.castAdd _ (flat dh dw ch)
  | .inr b => Fin.natAdd _ b

/-- The parameter of a row and an output channel. -/
def paramOf {bias : Bool} {kh kw c o : ℕ} (k : TapRow bias kh kw c) (l : Fin o) :
    (Fin kh × Fin kw × Fin c × Fin o) ⊕ Fin o :=
  match k with
  | .inl (dh, dw, ch) => .inl (dh, dw, ch, l)
  | .inr _ => .inr l

/-- What the parameters of a row are multiplied with at an output position: the input entry read, or 1 for the bias. -/
def rowReads {bias : Bool} {kh kw c oh ow : ℕ} (stride rate pad : ℤ × ℤ) (x : ℤ × ℤ → Fin c → ℝ) (i : Fin oh) (j : Fin ow)
    (k : TapRow bias kh kw c) : ℝ :=
  match k with
  | .inl (dh, dw, ch) => reads stride rate pad x i j dh dw ch
  | .inr _ => 1

/-- The mean over all uses, examples and output positions. -/
noncomputable def meanUses {N T oh ow : ℕ} (f : Fin N → Fin T → Fin oh → Fin ow → ℝ) : ℝ :=
  (∑ n, ∑ t, ∑ i, ∑ j, f n t i j) / (T * N * (oh * ow))

/-- The images of all uses of all examples, use by use. -/
def allUses {N T : ℕ} {α : Type} (x : Fin N → Fin T → α) : List α := (List.ofFn fun t => List.ofFn fun n => x n t).flatten

/-! ### Lemmas -/

theorem convInputCov_list {kh kw c : ℕ} (bias : Bool) (oh ow : ℕ) (stride rate pad : ℤ × ℤ)
    (l : List (ℤ × ℤ → Fin c → ℝ)) (k k' : TapRow bias kh kw c) :
    convInputCov bias oh ow stride rate pad none l (rowAt k) (rowAt k') =
      (l.map fun x => ∑ i : Fin oh, ∑ j : Fin ow, rowReads stride rate pad x i j k * rowReads stride rate pad x i j k').sum /
        (l.length * (oh * ow)) := by
  have e : ∀ (x : ℤ × ℤ → Fin c → ℝ) (i : Fin oh) (j : Fin ow) (k : TapRow bias kh kw c),
      appendHomog bias (maskTaps none (patchGrid kh kw oh ow stride rate pad x i j)) (rowAt k) =
        rowReads stride rate pad x i j k := by
    rintro x i j (⟨dh, dw, ch⟩ | b)
    · simp only [rowAt, appendHomog_left, maskTaps_flat, maskAt, one_mul, rowReads]
    · simp only [rowAt, appendHomog_right, rowReads]
  have := convInputCov_apply bias oh ow stride rate pad none (fun i : Fin l.length => l[i]) (rowAt k) (rowAt k')
  rw [show List.ofFn (fun i : Fin l.length => l[i]) = l by apply List.ext_getElem <;> simp] at this
  rw [this, meanAll]
  simp only [e]
  rw [sum_map_getElem l fun x => ∑ i : Fin oh, ∑ j : Fin ow, rowReads stride rate pad x i j k * rowReads stride rate pad x i j k',
    mul_assoc]

theorem sum_allUses {N T : ℕ} {α : Type} (x : Fin N → Fin T → α) (f : α → ℝ) :
    ((allUses x).map f).sum = ∑ n, ∑ t, f (x n t) := by
  rw [allUses, sum_grid, Finset.sum_comm]

theorem length_allUses {N T : ℕ} {α : Type} (x : Fin N → Fin T → α) : (allUses x).length = T * N := length_grid _

/-- The gradient of one example. -/
theorem convUsed_grad {kh kw c o T oh ow : ℕ} (bias : Bool) (stride rate pad : ℤ × ℤ) (x : Fin T → ℤ × ℤ → Fin c → ℝ)
    (L : ((Fin T × Fin oh × Fin ow) × Fin o → ℝ) → ℝ) (θ : (Fin kh × Fin kw × Fin c × Fin o) ⊕ Fin o → ℝ)
    (ds : (Fin T × Fin oh × Fin ow) × Fin o → ℝ) (h : IsGrad L (convUsed bias oh ow stride rate pad θ x) ds) :
    ∃ g, IsGrad (fun θ => L (convUsed bias oh ow stride rate pad θ x)) θ g ∧
      ∀ (k : TapRow bias kh kw c) l, g (paramOf k l) =
        ∑ s : Fin T × Fin oh × Fin ow, rowReads stride rate pad (x s.1) s.2.1 s.2.2 k * ds (s, l) := by
  have := IsGrad.affine (layer := fun θ => convUsed bias oh ow stride rate pad θ x)
    (fun k out => match k with
      | .inl (dh, dw, ch, l) => if l = out.2 then
          patchGrid kh kw oh ow stride rate pad (x out.1.1) out.1.2.1 out.1.2.2 (flat dh dw ch) else 0
      | .inr l => if bias = true ∧ l = out.2 then 1 else 0) (fun _ => 0)
    (fun θ out => by
      simp only [convUsed, convLayer, convolution, Fintype.sum_sum_type, Fintype.sum_prod_type, mul_ite, mul_zero, mul_one,
        add_zero, patchGrid, imagePatch_flat, one_mul]
      congr 1
      · refine Finset.sum_congr rfl fun dh _ => Finset.sum_congr rfl fun dw _ => Finset.sum_congr rfl fun ch _ => ?_
        simp only [Finset.sum_ite_eq', Finset.mem_univ, if_true]
        ring
      · cases bias <;> simp) h
  refine ⟨_, this, ?_⟩
  rintro (⟨dh, dw, ch⟩ | b) l
  · simp only [paramOf, rowReads, reads, patchGrid, imagePatch_flat]
    rw [Fintype.sum_prod_type]
    refine Finset.sum_congr rfl fun s _ => ?_
    simp [mul_comm]
  · have hb : bias = true := by cases bias <;> [exact b.elim0; rfl]
    simp only [paramOf, rowReads]
    rw [Fintype.sum_prod_type]
    refine Finset.sum_congr rfl fun s _ => ?_
    simp [hb]

/-- The approximation with one term per element of `S`. -/
theorem kron_exact {N : ℕ} {S K J : Type} [Fintype S] [DecidableEq S] (a : Fin N → S → K → ℝ) (ds : Fin N → S → J → ℝ)
    (uncorrelated : ∀ s s' k k' l l', batchMean (fun n => a n s k * a n s' k' * (ds n s l * ds n s' l')) =
      batchMean (fun n => a n s k * a n s' k') * batchMean (fun n => ds n s l * ds n s' l'))
    (separate : ∀ s s' l l', s ≠ s' → batchMean (fun n => ds n s l * ds n s' l') = 0)
    (homogeneous : (∃ Ω : K → K → ℝ, ∀ s k k', batchMean (fun n => a n s k * a n s k') = Ω k k') ∨
      ∃ Γ : J → J → ℝ, ∀ s l l', batchMean (fun n => ds n s l * ds n s l') = Γ l l') (k k' : K) (l l' : J) :
    batchMean (fun n => (∑ s, a n s k * ds n s l) * ∑ s, a n s k' * ds n s l') =
      Fintype.card S * ((∑ s, batchMean fun n => a n s k * a n s k') / Fintype.card S *
        ((∑ s, batchMean fun n => ds n s l * ds n s l') / Fintype.card S)) := by
  have h1 : batchMean (fun n => (∑ s, a n s k * ds n s l) * ∑ s, a n s k' * ds n s l') =
      ∑ s, ∑ s', batchMean (fun n => a n s k * a n s' k' * (ds n s l * ds n s' l')) := by
    simp only [batchMean, ← Finset.sum_div, Finset.sum_mul_sum]
    rw [Finset.sum_comm]
    congr 1
    refine Finset.sum_congr rfl fun t _ => ?_
    rw [Finset.sum_comm]
    refine Finset.sum_congr rfl fun t' _ => Finset.sum_congr rfl fun n _ => ?_
    ring
  have h2 : ∀ s, ∑ s', batchMean (fun n => a n s k * a n s' k' * (ds n s l * ds n s' l')) =
      batchMean (fun n => a n s k * a n s k') * batchMean (fun n => ds n s l * ds n s l') := by
    intro s
    rw [Finset.sum_eq_single s]
    · exact uncorrelated _ _ _ _ _ _
    · intro s' _ hs
      rw [uncorrelated, separate s s' l l' (Ne.symm hs), mul_zero]
    · simp
  rw [h1]
  simp only [h2]
  rcases Nat.eq_zero_or_pos (Fintype.card S) with h0 | h0
  · have : IsEmpty S := Fintype.card_eq_zero_iff.1 h0
    simp
  have hT' : (Fintype.card S : ℝ) ≠ 0 := by exact_mod_cast h0.ne'
  rcases homogeneous with ⟨Ω, hΩ⟩ | ⟨Γ, hΓ⟩
  · simp only [hΩ, ← Finset.mul_sum, Finset.sum_const, Finset.card_univ, nsmul_eq_mul]
    field_simp
  · simp only [hΓ, ← Finset.sum_mul, Finset.sum_const, Finset.card_univ, nsmul_eq_mul]
    field_simp

theorem meanUses_eq {N T oh ow : ℕ} (f : Fin N → Fin T → Fin oh → Fin ow → ℝ) :
    meanUses f = (∑ s : Fin T × Fin oh × Fin ow, batchMean fun n => f n s.1 s.2.1 s.2.2) /
      Fintype.card (Fin T × Fin oh × Fin ow) := by
  simp only [meanUses, batchMean, ← Finset.sum_div, Fintype.card_prod, Fintype.card_fin]
  rw [eq_comm, Finset.sum_comm, div_div]
  simp only [Fintype.sum_prod_type]
  push_cast
  rw [show (N : ℝ) * (T * (oh * ow)) = T * N * (oh * ow) by ring]

/-! ### The theorems -/

/-- The factors of the block get all uses of all examples, in both formats and under both tower strategies, and the
batch size they report is the number of examples. -/
theorem C83_factors_data {N T : ℕ} {α β : Type} (hT : 0 < T) (strategy : String)
    (hs : strategy = "concat" ∨ strategy = "separate") (lists : Bool) (x : Fin N → Fin T → α) (ds : Fin N → Fin T → β) :
    processUses strategy (some T) [if lists then useList x else useTensor x] [[if lists then useList ds else useTensor ds]] =
      .ok ([allUses x], [[allUses ds]], T) ∧
    multiPartialBatchSize T (allUses x) = N ∧ multiPartialBatchSize T (allUses ds) = N := by
  refine ⟨C82_factors_data hT strategy hs lists x ds, ?_, ?_⟩ <;>
    rw [multiPartialBatchSize, length_allUses, Nat.mul_div_cancel_left _ hT]

/-- The output factor is the mean over all uses, examples and positions of the products of the output derivatives. -/
theorem C83_output {N T oh ow o : ℕ} (ds : Fin N → Fin T → Fin oh → Fin ow → Fin o → ℝ) (l l' : Fin o) :
    convOutputMulti (allUses ds) l l' = meanUses fun n t i j => ds n t i j l * ds n t i j l' := by
  unfold convOutputMulti meanUses
  rw [computeCov_apply, List.flatMap_def, sum_flatten, List.map_map,
    show ((fun r : List (Fin o → ℝ) => (r.map fun y => y l * y l').sum) ∘
      fun d : Fin oh → Fin ow → Fin o → ℝ => (List.ofFn fun i => List.ofFn fun j => d i j).flatten) =
      fun d => ∑ i, ∑ j, d i j l * d i j l' from funext fun d => sum_grid _ _, sum_allUses]
  congr 1
  have : ∀ m : List (Fin oh → Fin ow → Fin o → ℝ), ((m.map fun d => (List.ofFn fun i => List.ofFn fun j => d i j).flatten).flatten).length =
      m.length * (oh * ow) := by
    intro m
    induction m with
    | nil => simp
    | cons d m ih => simp only [List.map_cons, List.flatten_cons, List.length_append, length_grid, ih, List.length_cons]; ring
  rw [this, length_allUses]
  push_cast
  ring

/-- The full claim is that with subsampling of inputs off (the default) the input factor is the mean over all uses,
examples and positions of the products of the entries read. The block always subsamples the inputs; what holds is that the
expectation over the random shuffle is this mean. -/
theorem C83_input_partial {N T kh kw c oh ow : ℕ} (cfg : InputSampling) (hf : 0 < cfg.factor) (numUses : ℕ) (bias : Bool)
    (stride rate pad : ℤ × ℤ) (x : Fin N → Fin T → ℤ × ℤ → Fin c → ℝ) (k k' : TapRow bias kh kw c) :
    expectation (fun σ => blockInputFactor cfg numUses bias oh ow stride rate pad (allUses x) σ (rowAt k) (rowAt k')) =
      meanUses fun n t i j => rowReads stride rate pad (x n t) (oh := oh) (ow := ow) i j k * rowReads stride rate pad (x n t) i j k' := by
  have h0 : convInputCov bias oh ow stride rate pad none (allUses x) (rowAt k) (rowAt k') =
      meanUses fun n t (i : Fin oh) (j : Fin ow) => rowReads stride rate pad (x n t) i j k *
        rowReads stride rate pad (x n t) i j k' := by
    rw [convInputCov_list, sum_allUses, length_allUses, meanUses]
    push_cast
    rfl
  rw [← h0]
  unfold blockInputFactor convInputMulti
  by_cases h : samplesInputs cfg (some numUses) = true
  · simp only [h, if_true]
    exact C74_inputs bias oh ow stride rate pad none cfg.factor hf (allUses x) _ _
  · simp only [h]
    exact expectation_const _

/-- Used as its parameters are named, `ConvInputMultiKF` does what the full claim says: without the argument
`sub_sample_inputs` and with subsampling off, the factor is the mean over all uses, examples and positions. -/
theorem C83_input_named {N T kh kw c oh ow : ℕ} (cfg : InputSampling) (hoff : cfg.on = false) (bias : Bool)
    (stride rate pad : ℤ × ℤ) (x : Fin N → Fin T → ℤ × ℤ → Fin c → ℝ) (σ) (k k' : TapRow bias kh kw c) :
    convInputMulti cfg none bias oh ow stride rate pad (allUses x) σ (rowAt k) (rowAt k') =
      meanUses fun n t i j => rowReads stride rate pad (x n t) (oh := oh) (ow := ow) i j k * rowReads stride rate pad (x n t) i j k' := by
  rw [convInputMulti, samplesInputs, hoff, if_neg (by simp), convInputCov_list, sum_allUses, length_allUses, meanUses]
  push_cast
  rfl

/-- Where the assumptions of the approximation hold on the batch, the coefficient of the block times the Kronecker product
of the expected input factor and the output factor is the mean outer product of the true per-example gradients. -/
theorem C83_exact_partial {N T kh kw c o oh ow : ℕ} (cfg : InputSampling) (hf : 0 < cfg.factor) (bias : Bool)
    (stride rate pad : ℤ × ℤ)
    (x : Fin N → Fin T → ℤ × ℤ → Fin c → ℝ) (L : Fin N → ((Fin T × Fin oh × Fin ow) × Fin o → ℝ) → ℝ)
    (θ : (Fin kh × Fin kw × Fin c × Fin o) ⊕ Fin o → ℝ) (ds : Fin N → (Fin T × Fin oh × Fin ow) × Fin o → ℝ)
    (h : ∀ n, IsGrad (L n) (convUsed bias oh ow stride rate pad θ (x n)) (ds n))
    (a : Fin N → Fin T × Fin oh × Fin ow → TapRow bias kh kw c → ℝ)
    (ha : a = fun n s k => rowReads stride rate pad (x n s.1) s.2.1 s.2.2 k)
    (uncorrelated : ∀ s s' k k' l l', batchMean (fun n => a n s k * a n s' k' * (ds n (s, l) * ds n (s', l'))) =
      batchMean (fun n => a n s k * a n s' k') * batchMean (fun n => ds n (s, l) * ds n (s', l')))
    (separate : ∀ s s' l l', s ≠ s' → batchMean (fun n => ds n (s, l) * ds n (s', l')) = 0)
    (homogeneous : (∃ Ω : TapRow bias kh kw c → TapRow bias kh kw c → ℝ, ∀ s k k',
        batchMean (fun n => a n s k * a n s k') = Ω k k') ∨
      ∃ Γ : Fin o → Fin o → ℝ, ∀ s l l', batchMean (fun n => ds n (s, l) * ds n (s, l')) = Γ l l') :
    ∃ g : Fin N → (Fin kh × Fin kw × Fin c × Fin o) ⊕ Fin o → ℝ,
      (∀ n, IsGrad (fun θ => L n (convUsed bias oh ow stride rate pad θ (x n))) θ (g n)) ∧
      ∀ (k : TapRow bias kh kw c) l k' l', batchMean (fun n => g n (paramOf k l) * g n (paramOf k' l')) =
        multiRenorm (oh * ow) T *
          (expectation (fun σ => blockInputFactor cfg T bias oh ow stride rate pad (allUses x) σ (rowAt k) (rowAt k')) *
            convOutputMulti (allUses fun n t i j l => ds n ((t, i, j), l)) l l') := by
  choose g hg hgk using fun n => convUsed_grad bias stride rate pad (x n) (L n) θ (ds n) (h n)
  refine ⟨g, hg, fun k l k' l' => ?_⟩
  have key := kron_exact a (fun n s l => ds n (s, l)) uncorrelated separate homogeneous k k' l l'
  rw [C83_input_partial cfg hf, C83_output, meanUses_eq, meanUses_eq]
  simp only [hgk]
  simp only [ha] at key
  rw [key]
  congr 1
  simp only [multiRenorm, Fintype.card_prod, Fintype.card_fin]
  push_cast
  ring

/-- With the default settings (no subsampling) and two uses of one example with the images 1 and 3, the input factor is 1
or 9, depending on the shuffle; the mean is 5. -/
theorem C83_input_counterexample :
    let x : Fin 1 → Fin 2 → ℤ × ℤ → Fin 1 → ℝ := fun _ t _ _ => if t = 0 then 1 else 3
    let k : TapRow false 1 1 1 := .inl (0, 0, 0)
    (meanUses fun n t (i : Fin 1) (j : Fin 1) => rowReads (1, 1) (1, 1) (0, 0) (x n t) i j k *
      rowReads (1, 1) (1, 1) (0, 0) (x n t) i j k) = 5 ∧
    defaultSampling.on = false ∧
    ∀ σ, blockInputFactor defaultSampling 2 false 1 1 (1, 1) (1, 1) (0, 0) (allUses x) σ (rowAt k) (rowAt k) ≠ 5 := by
  intro x k
  refine ⟨?_, rfl, fun σ => ?_⟩
  · simp [meanUses, rowReads, reads, x, k, Fin.sum_univ_two]
    norm_num
  · have hl : (allUses x).length = 2 := by rw [length_allUses]
    have hr : ∃ v ∈ allUses x, subsampleInputs defaultSampling.factor (allUses x) σ = [v] := by
      have h1 : (subsampleInputs defaultSampling.factor (allUses x) σ).length = 1 := by
        rw [subsampleInputs, randomGather_length, hl]
        have : ⌈((2 : ℕ) : ℝ) * defaultSampling.factor⌉₊ = 1 := by
          rw [Nat.ceil_eq_iff (by norm_num)]
          norm_num [defaultSampling]
        rw [this]
        rfl
      obtain ⟨v, hv⟩ := List.length_eq_one_iff.1 h1
      refine ⟨v, ?_, hv⟩
      have := (C74_sample (allUses x) σ ⌈((allUses x).length : ℝ) * defaultSampling.factor⌉₊).1.subset
      exact this (by rw [subsampleInputs] at hv; rw [hv]; simp)
    obtain ⟨v, hv, he⟩ := hr
    rw [blockInputFactor, convInputMulti, if_pos (by decide), he, convInputCov_list]
    have hv' : v = (fun _ _ => 1) ∨ v = (fun _ _ => 3) := by
      simpa [allUses, x] using hv
    rcases hv' with rfl | rfl <;> simp [rowReads, reads, k] <;> norm_num

/-- Two uses of one example with derivatives 1 and -1 in the outputs. -/
example : convOutputMulti (allUses fun (_ : Fin 1) (t : Fin 2) (_ _ : Fin 1) (_ : Fin 1) => if t = 0 then (1 : ℝ) else 2) 0 0 =
    5 / 2 := by
  rw [C83_output]
  simp [meanUses, Fin.sum_univ_two]
  norm_num

end Kfac.Grad
