import Verif.Est.Lemmas
import Mathlib.Probability.Independence.Integration

/-! Moments of the gradients of the losses under targets drawn from the model. -/

namespace Kfac.Est
open Kfac.Loss MeasureTheory ProbabilityTheory

variable {N n T K : ℕ} {q : Fin T → ℕ}

theorem integral_discrete {α : Type} [Fintype α] [MeasurableSpace α] [DiscreteMeasurableSpace α] (w : α → ℝ)
    (hw : ∀ y, 0 ≤ w y) (f : α → ℝ) :
    Integrable f (discrete w) ∧ ∫ y, f y ∂discrete w = ∑ y, w y * f y := by
  have hi : ∀ y ∈ Finset.univ, Integrable f (ENNReal.ofReal (w y) • Measure.dirac y) := by
    intro y _
    apply Integrable.smul_measure _ ENNReal.ofReal_ne_top
    exact integrable_dirac (by finiteness)
  refine ⟨?_, ?_⟩
  · unfold discrete
    exact integrable_finset_sum_measure.2 hi
  · unfold discrete
    rw [integral_finset_sum_measure hi]
    refine Finset.sum_congr rfl fun y _ => ?_
    rw [integral_smul_measure, integral_dirac, ENNReal.toReal_ofReal (hw y), smul_eq_mul]

theorem discrete_prob {α : Type} [Fintype α] [MeasurableSpace α] (w : α → ℝ) (hw : ∀ y, 0 ≤ w y) (h1 : ∑ y, w y = 1) :
    IsProbabilityMeasure (discrete w) := by
  constructor
  unfold discrete
  rw [Measure.finset_sum_apply]
  simp only [Measure.smul_apply, measure_univ, smul_eq_mul, mul_one]
  rw [← ENNReal.ofReal_sum_of_nonneg fun y _ => hw y, h1, ENNReal.ofReal_one]

theorem sum_prod_one {ι κ : Type} [Fintype ι] [DecidableEq ι] [Fintype κ] (p : ι → κ → ℝ) (hp : ∀ i, ∑ k, p i k = 1) :
    ∑ y : ι → κ, ∏ i, p i (y i) = 1 := by
  rw [← Fintype.prod_sum]; simp [hp]

theorem sigmoid_nonneg (x : ℝ) (s : Bool) : 0 ≤ if s then sigmoid x else 1 - sigmoid x := by
  cases s
  · simpa using (sigmoid_lt_one x).le
  · simpa using (sigmoid_pos x).le

theorem law_prob (l : AnyLoss N n) (hv : Valid l) : IsProbabilityMeasure (law l) := by
  cases l with
  | normalMean l =>
    show IsProbabilityMeasure (normalTargets l.mean fun _ _ => l.var)
    unfold normalTargets; infer_instance
  | normalMeanVar l =>
    show IsProbabilityMeasure (normalTargets l.mean l.variance)
    unfold normalTargets; infer_instance
  | categorical l =>
    refine discrete_prob (α := Fin N → Fin n) _ (fun y => Finset.prod_nonneg fun b _ => (softmax_pos _ _).le) ?_
    exact sum_prod_one (fun b k => softmax (l.logits b) k) fun b => softmax_sum _ ⟨0, hv⟩
  | multiBernoulli l =>
    refine discrete_prob (α := Fin N × Fin n → Bool) _ (fun y => Finset.prod_nonneg fun b _ => sigmoid_nonneg _ _) ?_
    exact sum_prod_one (fun (c : Fin N × Fin n) (k : Bool) => if k then sigmoid (l.logits c.1 c.2) else 1 - sigmoid (l.logits c.1 c.2))
      fun b => by simp

/-- A unit vector. -/
def unitB (b : Fin N) (i : Fin n) : Batch N n := fun b' i' => if b' = b ∧ i' = i then 1 else 0

theorem sum_unit (f : Fin N → Fin n → ℝ) (b : Fin N) (i : Fin n) :
    ∑ b', ∑ i', f b' i' * unitB b i b' i' = f b i := by
  rw [Finset.sum_eq_single b]
  · rw [Finset.sum_eq_single i]
    · simp [unitB]
    · intro j _ hj; simp [unitB, hj]
    · simp
  · intro c _ hc; simp [unitB, hc]
  · simp

theorem sum_unit' (f : Fin N → Fin n → ℝ) (b : Fin N) (i : Fin n) :
    ∑ c : Fin N × Fin n, f c.1 c.2 * unitB b i c.1 c.2 = f b i := by
  rw [Fintype.sum_prod_type, sum_unit]

theorem pi_one {ι : Type} [Fintype ι] {α : ι → Type} [∀ i, MeasurableSpace (α i)] (μ : (i : ι) → Measure (α i))
    [∀ i, IsProbabilityMeasure (μ i)] (i : ι) (f : α i → ℝ) (hf : Integrable f (μ i)) :
    Integrable (fun y : (i : ι) → α i => f (y i)) (Measure.pi μ) ∧ ∫ y, f (y i) ∂Measure.pi μ = ∫ t, f t ∂μ i := by
  have h := measurePreserving_eval μ i
  refine ⟨h.integrable_comp_of_integrable hf, ?_⟩
  have hm := hf.aestronglyMeasurable
  rw [← h.map_eq] at hm
  have h2 := integral_map h.measurable.aemeasurable hm
  rw [h.map_eq] at h2
  exact h2.symm

theorem pi_two {ι : Type} [Fintype ι] {α : ι → Type} [∀ i, MeasurableSpace (α i)] (μ : (i : ι) → Measure (α i))
    [∀ i, IsProbabilityMeasure (μ i)] (i j : ι) (hij : i ≠ j) (f : α i → ℝ) (g : α j → ℝ) (hf : Integrable f (μ i))
    (hg : Integrable g (μ j)) :
    Integrable (fun y : (i : ι) → α i => f (y i) * g (y j)) (Measure.pi μ) ∧
      ∫ y, f (y i) * g (y j) ∂Measure.pi μ = (∫ t, f t ∂μ i) * ∫ t, g t ∂μ j := by
  have hi := (iIndepFun_pi (μ := μ) (X := fun i (x : α i) => x) fun i => aemeasurable_id).indepFun hij
  have e1 := (measurePreserving_eval μ i)
  have e2 := (measurePreserving_eval μ j)
  have h1 := pi_one μ i f hf
  have h2 := pi_one μ j g hg
  have hc := hi.comp₀ (φ := f) (ψ := g) e1.measurable.aemeasurable e2.measurable.aemeasurable
    (by have := hf.aestronglyMeasurable.aemeasurable; rw [← e1.map_eq] at this; exact this)
    (by have := hg.aestronglyMeasurable.aemeasurable; rw [← e2.map_eq] at this; exact this)
  refine ⟨hc.integrable_mul h1.1 h2.1, ?_⟩
  rw [← h1.2, ← h2.2]
  exact hc.integral_fun_mul_eq_mul_integral h1.1.aestronglyMeasurable h2.1.aestronglyMeasurable

theorem score_mean (l : AnyLoss N n) (hv : Valid l) (b : Fin N) (a : Bool × Fin n) :
    Integrable (fun y => Val.at (lossGrad l y) b a) (law l) ∧ ∫ y, Val.at (lossGrad l y) b a ∂law l = 0 := by
  obtain ⟨s, i⟩ := a
  cases l with
  | normalMean l =>
    cases s
    · have e : (fun y => Val.at (lossGrad (.normalMean l) y) b (false, i))
          = fun y : Fin N × Fin n → ℝ => -((y (b, i) - l.mean b i) / l.var) := by
        funext y; exact l.score_eq hv y b i
      have h := pi_one (fun c : Fin N × Fin n => gaussianReal (l.mean c.1 c.2) (Real.toNNReal l.var)) (b, i) _
        (integrable_mean_score (l.mean b i) (Real.toNNReal l.var) l.var)
      rw [mean_score_mean] at h
      rw [e]
      exact h
    · simp [lossGrad, Val.at]
  | normalMeanVar l =>
    cases s
    · have e : (fun y => Val.at (lossGrad (.normalMeanVar l) y) b (false, i))
          = fun y : Fin N × Fin n → ℝ => -((y (b, i) - l.mean b i) / l.variance b i) := by
        funext y; exact l.scoreMean_eq hv y b i
      have h := pi_one (fun c : Fin N × Fin n => gaussianReal (l.mean c.1 c.2) (Real.toNNReal (l.variance c.1 c.2))) (b, i) _
        (integrable_mean_score (l.mean b i) (Real.toNNReal (l.variance b i)) (l.variance b i))
      rw [mean_score_mean] at h
      rw [e]
      exact h
    · have e : (fun y => Val.at (lossGrad (.normalMeanVar l) y) b (true, i))
          = fun y : Fin N × Fin n → ℝ => -((y (b, i) - l.mean b i) ^ 2 / (2 * l.variance b i ^ 2)
            - 1 / (2 * l.variance b i)) := by
        funext y; exact l.scoreVar_eq hv y b i
      have h := pi_one (fun c : Fin N × Fin n => gaussianReal (l.mean c.1 c.2) (Real.toNNReal (l.variance c.1 c.2))) (b, i) _
        (integrable_var_score (l.mean b i) (Real.toNNReal (l.variance b i)) (2 * l.variance b i ^ 2)
          (1 / (2 * l.variance b i)))
      rw [var_score_mean _ _ (hv b i)] at h
      rw [e]
      exact h
  | categorical l =>
    have h := integral_discrete (α := Fin N → Fin n) (fun y => ∏ b, softmax (l.logits b) (y b))
      (fun y => Finset.prod_nonneg fun b _ => (softmax_pos _ _).le)
    cases s
    · exact ⟨(h _).1, (h _).2.trans (C14_score_mean_zero l b i)⟩
    · simp [lossGrad, Val.at]
  | multiBernoulli l =>
    let p := fun (c : Fin N × Fin n) (k : Bool) => if k then sigmoid (l.logits c.1 c.2) else 1 - sigmoid (l.logits c.1 c.2)
    have h := integral_discrete (α := Fin N × Fin n → Bool)
      (fun y => ∏ c, if y c then sigmoid (l.logits c.1 c.2) else 1 - sigmoid (l.logits c.1 c.2))
      (fun y => Finset.prod_nonneg fun b _ => sigmoid_nonneg _ _)
    cases s
    · refine ⟨(h _).1, (h _).2.trans ?_⟩
      have h2 := expect_pair p (fun c => by simp [p]) (b, i) (b, i)
        (fun k => sigmoid (l.logits b i) - if k then 1 else 0) (fun _ => 1)
      simp only [mul_one, if_true, Fintype.sum_bool, p] at h2
      simp only [lossGrad, Val.at, Bool.false_eq_true, if_false, MultiBernoulli.score_eq]
      rw [h2]
      simp only [if_true, Bool.false_eq_true, if_false]
      ring
    · simp [lossGrad, Val.at]

theorem score_pair (l : AnyLoss N n) (hv : Valid l) (b b' : Fin N) (a a' : Bool × Fin n) :
    Integrable (fun y => Val.at (lossGrad l y) b a * Val.at (lossGrad l y) b' a') (law l) ∧
      ∫ y, Val.at (lossGrad l y) b a * Val.at (lossGrad l y) b' a' ∂law l
        = if b = b' then fisherMatrix l b a a' else 0 := by
  obtain ⟨s, i⟩ := a
  obtain ⟨s', i'⟩ := a'
  cases l with
  | normalMean l =>
    cases s <;> cases s'
    · have h := C14_normal_mean l hv (unitB b' i') b i
      simp only [fun y => sum_unit' (l.score y) b' i'] at h
      refine ⟨h.1, h.2.symm.trans ?_⟩
      by_cases hb : b = b' <;> by_cases hi : i = i' <;> simp [NormalMean.multiplyFisher, unitB, fisherMatrix, hb, hi]
    all_goals simp [lossGrad, Val.at, fisherMatrix]
  | normalMeanVar l =>
    have h1 := C14_normal_mean_variance l hv (unitB b' i', fun _ _ => 0) b i
    have h2 := C14_normal_mean_variance l hv (fun _ _ => 0, unitB b' i') b i
    simp only [mul_zero, add_zero, zero_add, fun y => sum_unit' (l.scoreMean y) b' i',
      fun y => sum_unit' (l.scoreVar y) b' i'] at h1 h2
    cases s <;> cases s'
    · refine ⟨h1.1, h1.2.1.symm.trans ?_⟩
      by_cases hb : b = b' <;> by_cases hi : i = i' <;>
        simp [NormalMeanVar.multiplyFisher, NormalMeanVar.fisherMean, unitB, fisherMatrix, hb, hi]
    · refine ⟨h2.1, h2.2.1.symm.trans ?_⟩
      simp [NormalMeanVar.multiplyFisher, NormalMeanVar.fisherMean, fisherMatrix]
    · refine ⟨h1.2.2.1, h1.2.2.2.symm.trans ?_⟩
      simp [NormalMeanVar.multiplyFisher, NormalMeanVar.fisherVar, fisherMatrix]
    · refine ⟨h2.2.2.1, h2.2.2.2.symm.trans ?_⟩
      by_cases hb : b = b' <;> by_cases hi : i = i' <;>
        simp [NormalMeanVar.multiplyFisher, NormalMeanVar.fisherVar, unitB, fisherMatrix, hb, hi]
  | categorical l =>
    have h := integral_discrete (α := Fin N → Fin n) (fun y => ∏ b, softmax (l.logits b) (y b))
      (fun y => Finset.prod_nonneg fun b _ => (softmax_pos _ _).le)
    cases s <;> cases s'
    · have h2 := C14_categorical l (unitB b' i') b i
      simp only [fun y => sum_unit (l.score y) b' i'] at h2
      refine ⟨(h _).1, (h _).2.trans (h2.symm.trans ?_)⟩
      by_cases hb : b = b'
      · subst hb
        by_cases hi : i = i'
        · subst hi
          simp [Categorical.multiplyFisher, Categorical.probs, unitB, fisherMatrix]
        · simp [Categorical.multiplyFisher, Categorical.probs, unitB, fisherMatrix, hi]
      · simp [Categorical.multiplyFisher, unitB, hb]
    all_goals simp [lossGrad, Val.at, fisherMatrix]
  | multiBernoulli l =>
    have h := integral_discrete (α := Fin N × Fin n → Bool)
      (fun y => ∏ c, if y c then sigmoid (l.logits c.1 c.2) else 1 - sigmoid (l.logits c.1 c.2))
      (fun y => Finset.prod_nonneg fun b _ => sigmoid_nonneg _ _)
    cases s <;> cases s'
    · have h2 := C14_multi_bernoulli l (unitB b' i') b i
      simp only [fun y => sum_unit (l.score y) b' i'] at h2
      refine ⟨(h _).1, (h _).2.trans (h2.symm.trans ?_)⟩
      by_cases hb : b = b' <;> by_cases hi : i = i' <;>
        simp [MultiBernoulli.multiplyFisher, MultiBernoulli.probs, unitB, fisherMatrix, hb, hi]
    all_goals simp [lossGrad, Val.at, fisherMatrix]

/-- Joint second moments over all losses. -/
theorem joint_pair (ls : Losses N q K) (hv : ∀ k, Valid (ls k).loss) (k k' : Fin K) (b b' : Fin N)
    (a : Bool × Fin (ls k).n) (a' : Bool × Fin (ls k').n) :
    Integrable (fun y => Val.at (lossGrad (ls k).loss (y k)) b a * Val.at (lossGrad (ls k').loss (y k')) b' a') (jointLaw ls) ∧
      ∫ y, Val.at (lossGrad (ls k).loss (y k)) b a * Val.at (lossGrad (ls k').loss (y k')) b' a' ∂jointLaw ls
        = if h : k = k' then if b = b' then fisherMatrix (ls k).loss b a (h ▸ a') else 0 else 0 := by
  haveI : ∀ k, IsProbabilityMeasure (law (ls k).loss) := fun k => law_prob _ (hv k)
  by_cases h : k = k'
  · subst h
    have h1 := score_pair (ls k).loss (hv k) b b' a a'
    have h2 := pi_one (fun k => law (ls k).loss) k
      (fun y => Val.at (lossGrad (ls k).loss y) b a * Val.at (lossGrad (ls k).loss y) b' a') h1.1
    simp only [dif_pos]
    exact ⟨h2.1, h2.2.trans h1.2⟩
  · rw [dif_neg h]
    have h1 := score_mean (ls k).loss (hv k) b a
    have h2 := score_mean (ls k').loss (hv k') b' a'
    have h3 := pi_two (fun k => law (ls k).loss) k k' h (fun y => Val.at (lossGrad (ls k).loss y) b a)
      (fun y => Val.at (lossGrad (ls k').loss y) b' a') h1.1 h2.1
    rw [h1.2, zero_mul] at h3
    exact h3

end Kfac.Est
