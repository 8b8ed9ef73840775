import Verif.Keras.RegLoss
import Verif.Keras.PropsRegLayer
import Verif.Loss.PropsGauss
import Mathlib.Analysis.Complex.ExponentialBounds

/-! # C89: the loss registered for a Keras output is the loss the model is trained with -/

namespace Kfac.Keras.RegLayer

open Kfac.Match (TFGraph IdentityOp)
open Kfac.Loss (Batch softmax sigmoid Categorical MultiBernoulli NormalMean normalLogProb)

variable {B n : ℕ}

/-! ### The losses of Keras, averaged over the batch -/

/-- Mean squared error: averaged over the components as well. -/
noncomputable def kerasMSE (y : Batch B n) (t : Fin B × Fin n → ℝ) : ℝ :=
  1 / B * ∑ b, 1 / n * ∑ i, (y b i - t (b, i)) ^ 2

/-- Categorical cross entropy with the number of the true class; with probabilities, they are normalised first. (For
one-hot labels the loss is the same.) -/
noncomputable def kerasCCE (fromLogits : Bool) (y : Batch B n) (t : Fin B → Fin n) : ℝ :=
  1 / B * ∑ b, -Real.log (if fromLogits then softmax (y b) (t b) else y b (t b) / ∑ j, y b j)

/-- Binary cross entropy: averaged over the components as well. -/
noncomputable def kerasBCE (fromLogits : Bool) (y : Batch B n) (t : Fin B × Fin n → Bool) : ℝ :=
  1 / B * ∑ b, 1 / n * ∑ i,
    -Real.log (let p := if fromLogits then sigmoid (y b i) else y b i; if t (b, i) then p else 1 - p)

/-- The names of the losses that are supported, as Keras spells them: as functions, as classes, and abbreviated. -/
def mseNames : List String := ["mean_squared_error", "MeanSquaredError", "mse", "MSE"]
/-- Likewise. -/
def cceNames : List String :=
  ["sparse_categorical_crossentropy", "SparseCategoricalCrossentropy", "categorical_crossentropy", "CategoricalCrossentropy"]
/-- Likewise. -/
def bceNames : List String := ["binary_crossentropy", "BinaryCrossentropy"]

/-- Names and functions have the default, which is probabilities. -/
def LossArg.fromLogits : LossArg → Bool
  | .obj _ b => b
  | _ => false

theorem registerLoss_cce {C : Type} {g : TFGraph} {l : KLayer} {loss : LossArg} {c : C} {z : ℕ}
    (hn : loss.name ∈ cceNames) (hz : preActivation g l = .ok (.one z)) :
    registerLoss g l loss c = .ok (.softmaxCrossEntropy z c) := by
  have h1 : ∀ s ∈ cceNames, ¬ (normName s = "meansquarederror" ∨ normName s = "mse") ∧
      (normName s = "sparsecategoricalcrossentropy" ∨ normName s = "categoricalcrossentropy") := by decide
  simp only [registerLoss, hz, if_neg (h1 _ hn).1, if_pos (h1 _ hn).2, single]

theorem registerLoss_bce {C : Type} {g : TFGraph} {l : KLayer} {loss : LossArg} {c : C} {z : ℕ}
    (hn : loss.name ∈ bceNames) (hz : preActivation g l = .ok (.one z)) :
    registerLoss g l loss c = .ok (.sigmoidCrossEntropy z c) := by
  have h1 : ∀ s ∈ bceNames, ¬ (normName s = "meansquarederror" ∨ normName s = "mse") ∧
      ¬ (normName s = "sparsecategoricalcrossentropy" ∨ normName s = "categoricalcrossentropy") ∧
      normName s = "binarycrossentropy" := by decide
  simp only [registerLoss, hz, if_neg (h1 _ hn).1, if_neg (h1 _ hn).2.1, if_pos (h1 _ hn).2.2, single]

theorem registerLoss_mse {C : Type} {g : TFGraph} {l : KLayer} {loss : LossArg} {c : C} {z : Tensors} {o : ℕ}
    (hn : loss.name ∈ mseNames) (hz : preActivation g l = .ok z) (ho : l.output = .one o) :
    registerLoss g l loss c = .ok (.squaredError o c) := by
  have h1 : ∀ s ∈ mseNames, normName s = "meansquarederror" ∨ normName s = "mse" := by decide
  simp only [registerLoss, hz, if_pos (h1 _ hn), single, ho]

theorem softmax_sum (x : Fin n → ℝ) (i : Fin n) : ∑ j, softmax x j = 1 := by
  have : 0 < ∑ j, Real.exp (x j) := Finset.sum_pos (fun j _ => Real.exp_pos _) ⟨i, Finset.mem_univ _⟩
  simp only [softmax]
  rw [← Finset.sum_div, div_self this.ne']

/-- C89 for categorical cross entropies: with a softmax as the activation of the output, or with logits as output, the
loss registered, averaged over the batch, is the Keras loss with its weight. Missing: other ways to make the
probabilities, see `C89_softmax_layer_counterexample`. -/
theorem C89_categorical_partial {g : TFGraph} {tens : ℕ → Batch B n} (hg : g.WellFormed) (hk : KeepsIdentity g tens)
    {l : KLayer} {loss : LossArg} {coeff : ℝ} {y o : ℕ} (hn : loss.name ∈ cceNames) (ho : l.last.outputs = .one o)
    (ha : Activates g l y o)
    (hp : (l.activation = some "softmax" ∧ loss.fromLogits = false ∧ ∀ b, tens o b = softmax (tens y b)) ∨
      ((l.activation = none ∨ l.activation = some "linear") ∧ loss.fromLogits = true)) :
    ∃ z, registerLoss g l loss coeff = .ok (.softmaxCrossEntropy z coeff) ∧
      ∀ t, coeff * kerasCCE loss.fromLogits (tens o) t = coeff * (1 / B * Categorical.evaluate ⟨tens z⟩ t) := by
  obtain ⟨z, hz, hzy⟩ := preActivation_of ho ha
  have hval : tens z = tens y := by
    rcases hzy with rfl | rfl
    · rfl
    · exact tens_reduce hg hk y
  refine ⟨z, registerLoss_cce hn hz, fun t => ?_⟩
  have : kerasCCE loss.fromLogits (tens o) t = 1 / B * Categorical.evaluate ⟨tens z⟩ t := by
    unfold kerasCCE Categorical.evaluate
    rw [← Finset.sum_neg_distrib, hval]
    congr 1
    apply Finset.sum_congr rfl
    intro b _
    rcases hp with ⟨-, hl, hp⟩ | ⟨hl, hf⟩
    · rw [hl, hp b]
      simp [softmax_sum _ (t b)]
    · rcases ha with ⟨-, rfl⟩ | ⟨⟨a, ha, hne⟩, -⟩
      · rw [hf]; rfl
      · rcases hl with hl | hl <;> rw [hl] at ha
        · cases ha
        · exact absurd (Option.some.inj ha).symm hne
  rw [this]

/-- C89 for binary cross entropies with one component: with a sigmoid as the activation of the output, or with logits
as output, the loss registered, averaged over the batch, is the Keras loss with its weight. In general it is the Keras loss times the
number of components: see `C89_binary_counterexample`. -/
theorem C89_binary_partial {g : TFGraph} {tens : ℕ → Batch B n} (hg : g.WellFormed) (hk : KeepsIdentity g tens)
    {l : KLayer} {loss : LossArg} {coeff : ℝ} {y o : ℕ} (hn : loss.name ∈ bceNames) (ho : l.last.outputs = .one o)
    (ha : Activates g l y o) (hpos : 0 < n)
    (hp : (l.activation = some "sigmoid" ∧ loss.fromLogits = false ∧ ∀ b i, tens o b i = sigmoid (tens y b i)) ∨
      ((l.activation = none ∨ l.activation = some "linear") ∧ loss.fromLogits = true)) :
    ∃ z, registerLoss g l loss coeff = .ok (.sigmoidCrossEntropy z coeff) ∧
      ∀ t, n * (coeff * kerasBCE loss.fromLogits (tens o) t) = coeff * (1 / B * MultiBernoulli.evaluate ⟨tens z⟩ t) := by
  obtain ⟨z, hz, hzy⟩ := preActivation_of ho ha
  have hval : tens z = tens y := by
    rcases hzy with rfl | rfl
    · rfl
    · exact tens_reduce hg hk y
  refine ⟨z, registerLoss_bce hn hz, fun t => ?_⟩
  have hn0 : (n : ℝ) ≠ 0 := by exact_mod_cast hpos.ne'
  have : n * kerasBCE loss.fromLogits (tens o) t = 1 / B * MultiBernoulli.evaluate ⟨tens z⟩ t := by
    unfold kerasBCE MultiBernoulli.evaluate
    rw [← Finset.sum_neg_distrib, hval, Fintype.sum_prod_type, mul_left_comm, Finset.mul_sum]
    congr 1
    apply Finset.sum_congr rfl
    intro b _
    rw [← mul_assoc, mul_one_div_cancel hn0, one_mul]
    apply Finset.sum_congr rfl
    intro i _
    rcases hp with ⟨-, hl, hp⟩ | ⟨hl, hf⟩
    · simp only [hl, hp b i, Bool.false_eq_true, if_false]
    · rcases ha with ⟨-, rfl⟩ | ⟨⟨a, ha, hne⟩, -⟩
      · simp only [hf, if_true]
      · rcases hl with hl | hl <;> rw [hl] at ha
        · cases ha
        · exact absurd (Option.some.inj ha).symm hne
  rw [mul_left_comm, this]

/-- The negative log-density of the normal distribution with variance 1/2 is the square plus a constant. -/
theorem evaluate_half (y : Batch B n) (t : Fin B × Fin n → ℝ) :
    NormalMean.evaluate ⟨y, 1 / 2⟩ t = ∑ b, ∑ i, (y b i - t (b, i)) ^ 2 +
      B * n * (1 / 2 * Real.log (2 * Real.pi) + Real.log (Real.sqrt (1 / 2))) := by
  unfold NormalMean.evaluate
  have h : ∀ c : Fin B × Fin n, -normalLogProb (y c.1 c.2) (Real.sqrt (1 / 2)) (t c) =
      (y c.1 c.2 - t c) ^ 2 + (1 / 2 * Real.log (2 * Real.pi) + Real.log (Real.sqrt (1 / 2))) := by
    intro c
    unfold normalLogProb
    rw [div_pow, Real.sq_sqrt (by norm_num)]
    ring
  rw [← Finset.sum_neg_distrib, Finset.sum_congr rfl fun c _ => h c, Finset.sum_add_distrib, Fintype.sum_prod_type]
  simp
  ring

/-- C89 for the squared error of a model that was called once: the loss registered, averaged over the batch, is up to a
constant the Keras loss with its weight times the number of components. With more than one component that is not the
Keras loss: see `C89_mse_counterexample`; for models called again see `C89_output_counterexample`. -/
theorem C89_mse_partial {g : TFGraph} {tens : ℕ → Batch B n} {l : KLayer} {loss : LossArg} {coeff : ℝ} {o y : ℕ}
    (hn : loss.name ∈ mseNames) (ho : l.last.outputs = .one o) (he : l.earlier = []) (ha : Activates g l y o)
    (hpos : 0 < n) (hB : 0 < B) :
    registerLoss g l loss coeff = .ok (.squaredError o coeff) ∧
      ∃ const : ℝ, ∀ t, n * (coeff * kerasMSE (tens o) t) =
        coeff * (1 / B * NormalMean.evaluate ⟨tens o, 1 / 2⟩ t) + const := by
  obtain ⟨z, hz, -⟩ := preActivation_of ho ha
  refine ⟨registerLoss_mse hn hz (by simp [KLayer.output, he, ho]),
    -(coeff * n * (1 / 2 * Real.log (2 * Real.pi) + Real.log (Real.sqrt (1 / 2)))), fun t => ?_⟩
  have hn0 : (n : ℝ) ≠ 0 := by exact_mod_cast hpos.ne'
  have hB0 : (B : ℝ) ≠ 0 := by exact_mod_cast hB.ne'
  rw [evaluate_half, kerasMSE, ← Finset.mul_sum]
  generalize ∑ b, ∑ i, (tens o b i - t (b, i)) ^ 2 = s
  generalize 1 / 2 * Real.log (2 * Real.pi) + Real.log (Real.sqrt (1 / 2)) = c
  field_simp
  ring

/-- C89: any loss whose name, apart from case and underscores, is none of these is rejected. -/
theorem C89_rejects {C : Type} (g : TFGraph) (l : KLayer) (loss : LossArg) (coeff : C)
    (h : ∀ s ∈ mseNames ++ cceNames ++ bceNames, normName loss.name ≠ normName s) :
    ∃ e, registerLoss g l loss coeff = .error e := by
  unfold registerLoss
  split
  · exact ⟨_, rfl⟩
  · have e1 : normName "mean_squared_error" = "meansquarederror" := by decide
    have e2 : normName "mse" = "mse" := by decide
    have e3 : normName "sparse_categorical_crossentropy" = "sparsecategoricalcrossentropy" := by decide
    have e4 : normName "categorical_crossentropy" = "categoricalcrossentropy" := by decide
    have e5 : normName "binary_crossentropy" = "binarycrossentropy" := by decide
    have h1 := h "mean_squared_error" (by decide)
    have h2 := h "mse" (by decide)
    have h3 := h "sparse_categorical_crossentropy" (by decide)
    have h4 := h "categorical_crossentropy" (by decide)
    have h5 := h "binary_crossentropy" (by decide)
    rw [e1] at h1; rw [e2] at h2; rw [e3] at h3; rw [e4] at h4; rw [e5] at h5
    simp [h1, h2, h3, h4, h5]

/-! ### Violations -/

/-- C89: an output layer without activation that was called once and has several outputs is rejected, whatever the
loss. -/
theorem C89_several {C : Type} (g : TFGraph) (l : KLayer) (loss : LossArg) (coeff : C) {ts : List ℕ}
    (ho : l.last.outputs = .many ts) (he : l.earlier = []) (ha : l.activation = none ∨ l.activation = some "linear") :
    ∃ e, registerLoss g l loss coeff = .error e := by
  unfold registerLoss
  split
  · exact ⟨_, rfl⟩
  · rename_i pre hp
    have hn : nonlinear l = false := by rcases ha with ha | ha <;> simp [nonlinear, ha]
    obtain rfl : Tensors.many ts = pre := by simpa [preActivation, hn, ho] using hp
    have h1 : l.output = .many ts := by simp [KLayer.output, he, ho]
    rw [h1]
    simp only [single]
    split
    · exact ⟨_, rfl⟩
    · split
      · exact ⟨_, rfl⟩
      · split <;> exact ⟨_, rfl⟩

/-- A layer that splits its input into two outputs. -/
example (g : TFGraph) : registerLoss (C := ℝ) g { mk .other none 0 0 [] with last := ⟨.one 0, .many [1, 2]⟩ }
    (.str "mse") 1 = .error "TypeError" := by
  simp [registerLoss, preActivation, nonlinear, mk, KLayer.output, single, LossArg.name, show normName "mse" = "mse" by decide]

/-- C89 is violated if the probabilities are made by a `Softmax` layer, which has no activation (or if a linear output is
trained with the default `from_logits=False`): they are registered as logits, and the losses differ. -/
theorem C89_softmax_layer_counterexample (g : TFGraph) (x o : ℕ) : ∃ y : Batch 1 2,
    (∃ z : Batch 1 2, ∀ b, y b = softmax (z b)) ∧
    registerLoss g (mk .other none x o []) (.str "categorical_crossentropy") (1 : ℝ) =
      .ok (.softmaxCrossEntropy o 1) ∧
    kerasCCE false y (fun _ => 0) ≠ 1 / (1 : ℕ) * Categorical.evaluate ⟨y⟩ (fun _ => 0) := by
  refine ⟨fun _ i => if i = 0 then 1 / 4 else 3 / 4, ⟨fun _ i => if i = 0 then 0 else Real.log 3, ?_⟩,
    registerLoss_cce (by decide) rfl, ?_⟩
  · intro b
    funext i
    have h3 : Real.exp (Real.log 3) = 3 := Real.exp_log (by norm_num)
    fin_cases i <;> simp [softmax, Fin.sum_univ_two, h3] <;> norm_num
  · have hh : Real.exp (3 / 4) = Real.exp (1 / 4) * Real.exp (1 / 2) := by rw [← Real.exp_add]; norm_num
    have hs : Real.exp (1 / 2) ^ 2 = Real.exp 1 := by rw [← Real.exp_nat_mul]; norm_num
    have he := Real.exp_one_lt_d9
    have hp := Real.exp_pos (1 / 2 : ℝ)
    have hq := Real.exp_pos (1 / 4 : ℝ)
    intro h
    simp only [kerasCCE, Categorical.evaluate, softmax, Finset.univ_unique, Finset.sum_singleton, Fin.sum_univ_two,
      Fin.isValue, if_true, Bool.false_eq_true, if_false] at h
    norm_num at h
    have h1 : Real.exp (1 / 4) / (Real.exp (1 / 4) + Real.exp (3 / 4)) = 1 / (1 + Real.exp (1 / 2)) := by
      rw [hh]; field_simp
    rw [h1] at h
    have h2 := congrArg Real.exp h
    rw [Real.exp_log (by norm_num), Real.exp_log (by positivity)] at h2
    have h4 : Real.exp (1 / 2) = 3 := by
      field_simp at h2
      linarith
    rw [h4] at hs
    linarith

/-- C89 is violated for the squared error of several components: with two, changing the predictions changes the loss
registered twice as much as the loss trained with. -/
theorem C89_mse_counterexample (g : TFGraph) (x o : ℕ) :
    registerLoss g (mk .dense none x o []) (.str "mse") (1 : ℝ) = .ok (.squaredError o 1) ∧
    ∃ (y y' : Batch 1 2) (t : Fin 1 × Fin 2 → ℝ), kerasMSE y' t - kerasMSE y t = 1 ∧
      1 / (1 : ℕ) * NormalMean.evaluate ⟨y', 1 / 2⟩ t - 1 / (1 : ℕ) * NormalMean.evaluate ⟨y, 1 / 2⟩ t = 2 := by
  refine ⟨registerLoss_mse (by decide) rfl rfl, fun _ _ => 0, fun _ _ => 1, fun _ => 0, ?_, ?_⟩
  · simp [kerasMSE]
  · rw [evaluate_half, evaluate_half]
    simp

/-- C89 is violated for binary cross entropies with several components: with two, the loss registered is twice the loss
trained with. -/
theorem C89_binary_counterexample (g : TFGraph) (x o : ℕ) :
    registerLoss g (mk .dense none x o []) (.obj "BinaryCrossentropy" true) (1 : ℝ) = .ok (.sigmoidCrossEntropy o 1) ∧
    ∃ (y : Batch 1 2) (t : Fin 1 × Fin 2 → Bool), kerasBCE true y t = Real.log 2 ∧
      1 / (1 : ℕ) * MultiBernoulli.evaluate ⟨y⟩ t = 2 * Real.log 2 := by
  have hs : sigmoid 0 = 1 / 2 := by norm_num [sigmoid]
  refine ⟨registerLoss_bce (by decide) rfl, fun _ _ => 0, fun _ => true, ?_, ?_⟩
  · simp [kerasBCE, hs]
  · simp [MultiBernoulli.evaluate, hs]

/-- C89 is violated for models that are called again, with the squared error: the layers are registered for the last
call, the loss for the first. -/
theorem C89_output_counterexample (g : TFGraph) (phase : Phase) (x o x' o' w b : ℕ) :
    let l := { mk .dense none x' o' [w, b] with earlier := [⟨.one x, .one o⟩] }
    registerLoss g l (.str "mse") (1 : ℝ) = .ok (.squaredError o 1) ∧
    registerLayer g phase l none = .ok [.fullyConnected (.list [w, b]) x' o' true none] := by
  refine ⟨registerLoss_mse (by decide) rfl rfl, ?_⟩
  simp [registerLayer, preActivation, nonlinear, paramsOf, dispatch, isInstance, Cls.bases, mk]

/-- A softmax output and cross entropy: the logits are registered. -/
example : registerLoss (Kfac.Match.listGraph [("Placeholder", [], [2, 3]), ("MatMul", [0, 0], [2, 3]),
      ("Softmax", [1], [2, 3])] fun _ => {}) (mk .dense (some "softmax") 0 2 []) (.obj "SparseCategoricalCrossentropy" false)
      (3 : ℕ) = .ok (.softmaxCrossEntropy 1 3) := rfl

end Kfac.Keras.RegLayer
