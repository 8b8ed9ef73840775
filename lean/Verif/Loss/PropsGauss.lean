import Verif.Loss.Gauss
import Verif.Loss.PropsScore

/-!
# C14 (Gaussian losses): the Fisher product is the expected score product
-/

namespace Kfac.Loss
open MeasureTheory ProbabilityTheory Real
open scoped NNReal
variable {B n : Nat}

/-! ### Model: `_evaluate` with TFP's normal distribution -/

/-- `tfp.distributions.Normal(loc, scale).log_prob(x)`, as TFP computes it. -/
noncomputable def normalLogProb (loc scale x : ℝ) : ℝ :=
  -(1 / 2) * ((x - loc) / scale) ^ 2 - (1 / 2 * Real.log (2 * π) + Real.log scale)

/-- `_evaluate` (loss_functions.py 363-364) with the distribution of 395-397. -/
noncomputable def NormalMean.evaluate (l : NormalMean B n) (targets : Fin B × Fin n → ℝ) : ℝ :=
  -∑ c, normalLogProb (l.mean c.1 c.2) (Real.sqrt l.var) (targets c)

/-- `_evaluate` (loss_functions.py 363-364) with the distribution of 460-463. -/
noncomputable def NormalMeanVar.evaluate (l : NormalMeanVar B n) (targets : Fin B × Fin n → ℝ) : ℝ :=
  -∑ c, normalLogProb (l.mean c.1 c.2) (Real.sqrt (l.variance c.1 c.2)) (targets c)

/-! ### Specification -/

/-- The gradient of the loss with respect to the mean. -/
noncomputable def NormalMean.score (l : NormalMean B n) (targets : Fin B × Fin n → ℝ) : Batch B n :=
  fun b i => deriv (fun t => NormalMean.evaluate ⟨setEntry l.mean b i t, l.var⟩ targets) (l.mean b i)

/-- The gradients of the loss with respect to the mean and to the variance. -/
noncomputable def NormalMeanVar.scoreMean (l : NormalMeanVar B n) (targets : Fin B × Fin n → ℝ) :
    Batch B n :=
  fun b i => deriv (fun t => NormalMeanVar.evaluate ⟨setEntry l.mean b i t, l.variance⟩ targets)
    (l.mean b i)
noncomputable def NormalMeanVar.scoreVar (l : NormalMeanVar B n) (targets : Fin B × Fin n → ℝ) :
    Batch B n :=
  fun b i => deriv (fun t => NormalMeanVar.evaluate ⟨l.mean, setEntry l.variance b i t⟩ targets)
    (l.variance b i)

/-- Targets drawn from the model: independent Gaussians with the given means and variances. -/
noncomputable def normalTargets (mean variance : Batch B n) : Measure (Fin B × Fin n → ℝ) :=
  Measure.pi fun c => gaussianReal (mean c.1 c.2) (Real.toNNReal (variance c.1 c.2))

/-- The log-probability is the logarithm of the density that `normalTargets` is built from. -/
theorem normalLogProb_eq_log_density (m v x : ℝ) (hv : 0 < v) :
    normalLogProb m (Real.sqrt v) x = Real.log (gaussianPDFReal m (Real.toNNReal v) x) := by
  have h2 : (0 : ℝ) < 2 * π := by positivity
  rw [gaussianPDFReal, Real.coe_toNNReal v hv.le, Real.log_mul (by positivity) (Real.exp_pos _).ne',
    Real.log_inv, Real.log_exp, normalLogProb, Real.sqrt_mul h2.le,
    Real.log_mul (Real.sqrt_pos.2 h2).ne' (Real.sqrt_pos.2 hv).ne', Real.log_sqrt h2.le, div_pow,
    Real.sq_sqrt hv.le]
  field_simp
  ring

/-! ### Derivatives -/

theorem setEntry_apply (x : Batch B n) (b : Fin B) (i : Fin n) (t : ℝ) (c : Fin B × Fin n) :
    setEntry x b i t c.1 c.2 = if c = (b, i) then t else x c.1 c.2 := by
  unfold setEntry
  by_cases h1 : c.1 = b
  · by_cases h2 : c.2 = i
    · rw [if_pos (Prod.ext h1 h2)]
      subst h1; subst h2; simp
    · rw [if_neg (fun h => h2 (by rw [h]))]
      subst h1; simp [Function.update_of_ne h2]
  · rw [if_neg (fun h => h1 (by rw [h]))]
    simp [Function.update_of_ne h1]

theorem deriv_sum_entry {ι : Type} [Fintype ι] [DecidableEq ι] (k : ι) (F : ι → ℝ → ℝ) (x : ι → ℝ)
    (d : ℝ) (h : HasDerivAt (F k) d (x k)) :
    deriv (fun t => -∑ c, F c (if c = k then t else x c)) (x k) = -d := by
  have h' : ∀ c, HasDerivAt (fun t => F c (if c = k then t else x c)) (if c = k then d else 0) (x k) := by
    intro c
    by_cases hc : c = k
    · subst hc; simpa using h
    · simp only [if_neg hc]; exact hasDerivAt_const _ _
  have h2 := (HasDerivAt.fun_sum fun c (_ : c ∈ Finset.univ) => h' c).neg
  simpa using h2.deriv

theorem hasDerivAt_mean (m s x : ℝ) :
    HasDerivAt (fun t => normalLogProb t s x) ((x - m) / s ^ 2) m := by
  have h1 := ((((hasDerivAt_id' m).const_sub x).div_const s).pow 2).const_mul (-(1 / 2 : ℝ))
  have h2 := h1.sub_const (1 / 2 * Real.log (2 * π) + Real.log s)
  refine h2.congr_deriv ?_
  norm_num
  ring

theorem hasDerivAt_var (m v x : ℝ) (hv : 0 < v) :
    HasDerivAt (fun t => normalLogProb m (Real.sqrt t) x)
      ((x - m) ^ 2 / (2 * v ^ 2) - 1 / (2 * v)) v := by
  have e : (fun t => -(1 / 2) * ((x - m) ^ 2 * t⁻¹) - (1 / 2 * Real.log (2 * π) + Real.log t / 2))
      =ᶠ[nhds v] fun t => normalLogProb m (Real.sqrt t) x := by
    filter_upwards [lt_mem_nhds hv] with t ht
    rw [normalLogProb, div_pow, Real.sq_sqrt ht.le, Real.log_sqrt ht.le, div_eq_mul_inv ((x - m) ^ 2)]
  have h1 := ((hasDerivAt_inv hv.ne').const_mul ((x - m) ^ 2)).const_mul (-(1 / 2 : ℝ))
  have h2 := (((Real.hasDerivAt_log hv.ne').div_const 2).const_add (1 / 2 * Real.log (2 * π)))
  refine ((h1.sub h2).congr_of_eventuallyEq e.symm).congr_deriv ?_
  field_simp

theorem NormalMean.score_eq (l : NormalMean B n) (hv : 0 < l.var) (y : Fin B × Fin n → ℝ) (b : Fin B)
    (i : Fin n) : l.score y b i = -((y (b, i) - l.mean b i) / l.var) := by
  have h := deriv_sum_entry (b, i) (fun c t => normalLogProb t (Real.sqrt l.var) (y c))
    (fun c => l.mean c.1 c.2) _ (hasDerivAt_mean _ _ _)
  rw [Real.sq_sqrt hv.le] at h
  simpa only [NormalMean.score, NormalMean.evaluate, setEntry_apply] using h

theorem NormalMeanVar.scoreMean_eq (l : NormalMeanVar B n) (hv : ∀ b i, 0 < l.variance b i)
    (y : Fin B × Fin n → ℝ) (b : Fin B) (i : Fin n) :
    l.scoreMean y b i = -((y (b, i) - l.mean b i) / l.variance b i) := by
  have h := deriv_sum_entry (b, i) (fun c t => normalLogProb t (Real.sqrt (l.variance c.1 c.2)) (y c))
    (fun c => l.mean c.1 c.2) _ (hasDerivAt_mean _ _ _)
  rw [Real.sq_sqrt (hv b i).le] at h
  simpa only [NormalMeanVar.scoreMean, NormalMeanVar.evaluate, setEntry_apply] using h

theorem NormalMeanVar.scoreVar_eq (l : NormalMeanVar B n) (hv : ∀ b i, 0 < l.variance b i)
    (y : Fin B × Fin n → ℝ) (b : Fin B) (i : Fin n) :
    l.scoreVar y b i = -((y (b, i) - l.mean b i) ^ 2 / (2 * l.variance b i ^ 2)
      - 1 / (2 * l.variance b i)) := by
  have h := deriv_sum_entry (b, i) (fun c t => normalLogProb (l.mean c.1 c.2) (Real.sqrt t) (y c))
    (fun c => l.variance c.1 c.2) _ (hasDerivAt_var _ _ _ (hv b i))
  simpa only [NormalMeanVar.scoreVar, NormalMeanVar.evaluate, setEntry_apply] using h

/-! ### Expectations -/

/-- Expectation of `f(y_b) · Σ_k w_k g_k(y_{c_k})` when all `g_k` have mean zero. -/
theorem expect_inner {ι κ : Type} [Fintype ι] [DecidableEq ι] [Fintype κ] (μ : ι → Measure ℝ)
    [∀ i, IsProbabilityMeasure (μ i)] (b : ι) (f : ℝ → ℝ) (c : κ → ι) (g : κ → ℝ → ℝ) (w : κ → ℝ)
    (hf : Integrable f (μ b)) (hg : ∀ k, Integrable (g k) (μ (c k)))
    (hfg : ∀ k, b = c k → Integrable (fun t => f t * g k t) (μ b))
    (h0 : ∀ k, ∫ t, g k t ∂μ (c k) = 0) :
    Integrable (fun y : ι → ℝ => f (y b) * ∑ k, g k (y (c k)) * w k) (Measure.pi μ) ∧
    ∫ y, f (y b) * ∑ k, g k (y (c k)) * w k ∂Measure.pi μ
      = ∑ k, w k * if b = c k then ∫ t, f t * g k t ∂μ b else 0 := by
  have e : (fun y : ι → ℝ => f (y b) * ∑ k, g k (y (c k)) * w k)
      = fun y => ∑ k, w k * (f (y b) * g k (y (c k))) := by
    funext y
    rw [Finset.mul_sum]
    exact Finset.sum_congr rfl fun _ _ => by ring
  have hi : ∀ k, Integrable (fun y : ι → ℝ => w k * (f (y b) * g k (y (c k)))) (Measure.pi μ) :=
    fun k => (integrable_pair μ b (c k) f (g k) hf (hg k) (hfg k)).const_mul _
  rw [e]
  refine ⟨integrable_finsetSum _ fun k _ => hi k, ?_⟩
  rw [integral_finsetSum _ fun k _ => hi k]
  refine Finset.sum_congr rfl fun k _ => ?_
  rw [integral_const_mul, integral_pair, h0, mul_zero]

theorem integrable_mean_score (m : ℝ) (v : ℝ≥0) (w : ℝ) :
    Integrable (fun t => -((t - m) / w)) (gaussianReal m v) := by
  have := (integrable_central m v 1).div_const w
  simpa using this.neg

theorem integrable_var_score (m : ℝ) (v : ℝ≥0) (w u : ℝ) :
    Integrable (fun t => -((t - m) ^ 2 / w - u)) (gaussianReal m v) :=
  (((integrable_central m v 2).div_const w).sub (integrable_const u)).neg

theorem mean_score_mean (m : ℝ) (v : ℝ≥0) (w : ℝ) :
    ∫ t, -((t - m) / w) ∂gaussianReal m v = 0 := by
  rw [integral_neg, integral_div, central1]; simp

theorem var_score_mean (m v : ℝ) (hv : 0 < v) :
    ∫ t, -((t - m) ^ 2 / (2 * v ^ 2) - 1 / (2 * v)) ∂gaussianReal m (Real.toNNReal v) = 0 := by
  rw [integral_neg, integral_sub ((integrable_central m _ 2).div_const _) (integrable_const _),
    integral_div, central2, Real.coe_toNNReal v hv.le]
  simp only [integral_const, probReal_univ, smul_eq_mul, one_mul]
  field_simp
  ring

theorem mean_mean (m v : ℝ) (hv : 0 < v) :
    Integrable (fun t => -((t - m) / v) * -((t - m) / v)) (gaussianReal m (Real.toNNReal v)) ∧
    ∫ t, -((t - m) / v) * -((t - m) / v) ∂gaussianReal m (Real.toNNReal v) = 1 / v := by
  have e : (fun t => -((t - m) / v) * -((t - m) / v)) = fun t => (t - m) ^ 2 / v ^ 2 := by
    funext t; ring
  rw [e]
  refine ⟨(integrable_central m _ 2).div_const _, ?_⟩
  rw [integral_div, central2, Real.coe_toNNReal v hv.le]
  field_simp

theorem mean_var (m v : ℝ) :
    Integrable (fun t => -((t - m) / v) * -((t - m) ^ 2 / (2 * v ^ 2) - 1 / (2 * v)))
      (gaussianReal m (Real.toNNReal v)) ∧
    ∫ t, -((t - m) / v) * -((t - m) ^ 2 / (2 * v ^ 2) - 1 / (2 * v)) ∂gaussianReal m (Real.toNNReal v)
      = 0 := by
  have e : (fun t => -((t - m) / v) * -((t - m) ^ 2 / (2 * v ^ 2) - 1 / (2 * v)))
      = fun t => (t - m) ^ 3 * (1 / v * (1 / (2 * v ^ 2))) - (t - m) ^ 1 * (1 / v * (1 / (2 * v))) := by
    funext t; ring
  rw [e]
  have h3 := (integrable_central m (Real.toNNReal v) 3).mul_const (1 / v * (1 / (2 * v ^ 2)))
  have h1 := (integrable_central m (Real.toNNReal v) 1).mul_const (1 / v * (1 / (2 * v)))
  refine ⟨h3.sub h1, ?_⟩
  rw [integral_sub h3 h1, integral_mul_const, integral_mul_const, central3]
  simp only [pow_one, central1]
  ring

theorem var_var (m v : ℝ) (hv : 0 < v) :
    Integrable (fun t => -((t - m) ^ 2 / (2 * v ^ 2) - 1 / (2 * v)) *
      -((t - m) ^ 2 / (2 * v ^ 2) - 1 / (2 * v))) (gaussianReal m (Real.toNNReal v)) ∧
    ∫ t, -((t - m) ^ 2 / (2 * v ^ 2) - 1 / (2 * v)) * -((t - m) ^ 2 / (2 * v ^ 2) - 1 / (2 * v))
      ∂gaussianReal m (Real.toNNReal v) = 1 / (2 * v ^ 2) := by
  have e : (fun t => -((t - m) ^ 2 / (2 * v ^ 2) - 1 / (2 * v)) *
      -((t - m) ^ 2 / (2 * v ^ 2) - 1 / (2 * v)))
      = fun t => (t - m) ^ 4 * (1 / (2 * v ^ 2)) ^ 2 - (t - m) ^ 2 * (2 * (1 / (2 * v ^ 2)) * (1 / (2 * v)))
          + (1 / (2 * v)) ^ 2 := by
    funext t; ring
  rw [e]
  have h4 := (integrable_central m (Real.toNNReal v) 4).mul_const ((1 / (2 * v ^ 2)) ^ 2)
  have h2 := (integrable_central m (Real.toNNReal v) 2).mul_const (2 * (1 / (2 * v ^ 2)) * (1 / (2 * v)))
  refine ⟨(h4.sub h2).add (integrable_const _), ?_⟩
  have h6 := integral_add (h4.sub h2) (integrable_const (μ := gaussianReal m (Real.toNNReal v))
    ((1 / (2 * v)) ^ 2))
  simp only [Pi.sub_apply] at h6
  rw [h6]
  have h5 : ∫ t, ((t - m) ^ 4 * (1 / (2 * v ^ 2)) ^ 2
      - (t - m) ^ 2 * (2 * (1 / (2 * v ^ 2)) * (1 / (2 * v)))) ∂gaussianReal m (Real.toNNReal v)
      = 3 * v ^ 2 * (1 / (2 * v ^ 2)) ^ 2 - v * (2 * (1 / (2 * v ^ 2)) * (1 / (2 * v))) := by
    rw [integral_sub h4 h2, integral_mul_const, integral_mul_const, central4, central2,
      Real.coe_toNNReal v hv.le]
  rw [h5]
  simp only [integral_const, probReal_univ, smul_eq_mul, one_mul]
  field_simp
  norm_num

/-! ### The theorems -/

/-- Gaussian with fixed variance: with targets drawn from the model, the expectation of
`score · ⟨score, v⟩` exists and is `multiply_fisher(v)`. -/
theorem C14_normal_mean (l : NormalMean B n) (hv : 0 < l.var) (v : Batch B n) (b : Fin B) (i : Fin n) :
    Integrable (fun y => l.score y b i * ∑ c : Fin B × Fin n, l.score y c.1 c.2 * v c.1 c.2)
      (normalTargets l.mean fun _ _ => l.var) ∧
    l.multiplyFisher v b i = ∫ y, l.score y b i * ∑ c : Fin B × Fin n, l.score y c.1 c.2 * v c.1 c.2
      ∂normalTargets l.mean fun _ _ => l.var := by
  simp only [l.score_eq hv, normalTargets]
  have h := expect_inner (fun c : Fin B × Fin n => gaussianReal (l.mean c.1 c.2) (Real.toNNReal l.var))
    (b, i) (fun t => -((t - l.mean b i) / l.var)) id (fun c t => -((t - l.mean c.1 c.2) / l.var))
    (fun c => v c.1 c.2) (integrable_mean_score _ _ _) (fun c => integrable_mean_score _ _ _)
    (fun c hc => by simp only [id] at hc; subst hc; exact (mean_mean _ _ hv).1)
    (fun c => mean_score_mean _ _ _)
  refine ⟨h.1, ?_⟩
  refine Eq.trans ?_ h.2.symm
  rw [Finset.sum_eq_single (b, i)]
  · simp only [id, if_true, (mean_mean (l.mean b i) l.var hv).2, NormalMean.multiplyFisher]
    ring
  · intro c _ hc
    simp only [id, if_neg (Ne.symm hc), mul_zero]
  · simp

/-- Gaussian with mean and variance: the parameters are the pair `(mean, variance)`, and both components
of `multiply_fisher((v₁, v₂))` are the expectations of the respective score times
`⟨score_mean, v₁⟩ + ⟨score_variance, v₂⟩`. -/
theorem C14_normal_mean_variance (l : NormalMeanVar B n) (hv : ∀ b i, 0 < l.variance b i)
    (v : Batch B n × Batch B n) (b : Fin B) (i : Fin n) :
    let inner := fun y => ∑ c : Fin B × Fin n,
      (l.scoreMean y c.1 c.2 * v.1 c.1 c.2 + l.scoreVar y c.1 c.2 * v.2 c.1 c.2)
    Integrable (fun y => l.scoreMean y b i * inner y) (normalTargets l.mean l.variance) ∧
    (l.multiplyFisher v).1 b i = ∫ y, l.scoreMean y b i * inner y ∂normalTargets l.mean l.variance ∧
    Integrable (fun y => l.scoreVar y b i * inner y) (normalTargets l.mean l.variance) ∧
    (l.multiplyFisher v).2 b i = ∫ y, l.scoreVar y b i * inner y ∂normalTargets l.mean l.variance := by
  simp only [l.scoreMean_eq hv, l.scoreVar_eq hv, normalTargets]
  let g : (Fin B × Fin n) × Bool → ℝ → ℝ := fun k t =>
    if k.2 then -((t - l.mean k.1.1 k.1.2) ^ 2 / (2 * l.variance k.1.1 k.1.2 ^ 2)
      - 1 / (2 * l.variance k.1.1 k.1.2)) else -((t - l.mean k.1.1 k.1.2) / l.variance k.1.1 k.1.2)
  let w : (Fin B × Fin n) × Bool → ℝ := fun k => if k.2 then v.2 k.1.1 k.1.2 else v.1 k.1.1 k.1.2
  let μ := fun c : Fin B × Fin n => gaussianReal (l.mean c.1 c.2) (Real.toNNReal (l.variance c.1 c.2))
  have hsum : ∀ y : Fin B × Fin n → ℝ, ∑ c : Fin B × Fin n,
      (-((y (c.1, c.2) - l.mean c.1 c.2) / l.variance c.1 c.2) * v.1 c.1 c.2
        + -((y (c.1, c.2) - l.mean c.1 c.2) ^ 2 / (2 * l.variance c.1 c.2 ^ 2)
      - 1 / (2 * l.variance c.1 c.2)) * v.2 c.1 c.2) = ∑ k, g k (y k.1) * w k := by
    intro y
    rw [Fintype.sum_prod_type (f := fun k => g k (y k.1) * w k)]
    refine Finset.sum_congr rfl fun c _ => ?_
    simp only [Fintype.sum_bool, g, w, if_true, Bool.false_eq_true, if_false]
    ring
  have hg : ∀ k, Integrable (g k) (μ k.1) := by
    rintro ⟨c, s⟩
    cases s
    · exact integrable_mean_score _ _ _
    · exact integrable_var_score _ _ _ _
  have h0 : ∀ k, ∫ t, g k t ∂μ k.1 = 0 := by
    rintro ⟨c, s⟩
    cases s
    · exact mean_score_mean _ _ _
    · exact var_score_mean _ _ (hv _ _)
  have hvm : ∀ c : Fin B × Fin n, (fun t => g (c, true) t * g (c, false) t)
      = fun t => g (c, false) t * g (c, true) t := fun c => by funext t; ring
  have hprod : ∀ (s : Bool) k, (b, i) = k.1 → Integrable (fun t => g ((b, i), s) t * g k t) (μ (b, i)) := by
    rintro s ⟨c, s'⟩ hc
    simp only at hc
    subst hc
    cases s <;> cases s'
    · exact (mean_mean _ _ (hv b i)).1
    · exact (mean_var _ _).1
    · rw [hvm]; exact (mean_var _ _).1
    · exact (var_var _ _ (hv b i)).1
  have key : ∀ s, ∑ k, w k * (if (b, i) = k.1 then ∫ t, g ((b, i), s) t * g k t ∂μ (b, i) else 0)
      = if s then (l.multiplyFisher v).2 b i else (l.multiplyFisher v).1 b i := by
    intro s
    rw [Fintype.sum_prod_type, Finset.sum_eq_single (b, i)]
    · have e1 := (mean_mean (l.mean b i) _ (hv b i)).2
      have e2 := (mean_var (l.mean b i) (l.variance b i)).2
      have e3 := (var_var (l.mean b i) _ (hv b i)).2
      have i1 : ∫ t, g ((b, i), false) t * g ((b, i), false) t ∂μ (b, i) = _ := e1
      have i2 : ∫ t, g ((b, i), false) t * g ((b, i), true) t ∂μ (b, i) = _ := e2
      have i3 : ∫ t, g ((b, i), true) t * g ((b, i), true) t ∂μ (b, i) = _ := e3
      have i4 : ∫ t, g ((b, i), true) t * g ((b, i), false) t ∂μ (b, i) = 0 := by rw [hvm]; exact i2
      cases s
      · simp only [Fintype.sum_bool, if_true, i1, i2, w]
        simp [NormalMeanVar.multiplyFisher, NormalMeanVar.fisherMean, mul_comm]
      · simp only [Fintype.sum_bool, if_true, i3, i4, w]
        simp [NormalMeanVar.multiplyFisher, NormalMeanVar.fisherVar, mul_comm]
    · intro c _ hc
      simp [Ne.symm hc]
    · simp
  have hm := expect_inner μ (b, i) (g ((b, i), false)) (fun k => k.1) g w (hg ((b, i), false)) hg
    (hprod false) h0
  have hvv := expect_inner μ (b, i) (g ((b, i), true)) (fun k => k.1) g w (hg ((b, i), true)) hg
    (hprod true) h0
  simp only [hsum]
  rw [key] at hm hvv
  exact ⟨hm.1, hm.2.symm, hvv.1, hvv.2.symm⟩

/-- A case with two outputs of different variances meets the hypothesis. -/
example : ∀ b i, 0 < (NormalMeanVar.mk (B := 1) (n := 2) (fun _ _ => 0) fun _ i => if i = 0 then 1 else 3).variance b i := by
  intro b i
  show (0 : ℝ) < if i = 0 then 1 else 3
  split <;> norm_num

end Kfac.Loss
