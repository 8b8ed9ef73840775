import Verif.Loss.Lemmas
import Mathlib.Probability.Distributions.Gaussian.Real
import Mathlib.MeasureTheory.Integral.Pi
import Mathlib.Analysis.SpecialFunctions.Sqrt

/-! Moments of Gaussians and expectations over independent Gaussian coordinates. -/

namespace Kfac.Loss
open MeasureTheory ProbabilityTheory Real
open scoped NNReal

/-- The central moments of a Gaussian are the raw moments of the centred one. -/
theorem central_eq (μ : ℝ) (v : ℝ≥0) (k : ℕ) :
    ∫ x, (x - μ) ^ k ∂gaussianReal μ v = iteratedDeriv k (fun t => rexp (v * t ^ 2 / 2)) 0 := by
  calc ∫ ω, (ω - μ) ^ k ∂gaussianReal μ v
  _ = ∫ ω, ω ^ k ∂(gaussianReal μ v).map (fun x ↦ x - μ) := by
    rw [integral_map (by fun_prop) (by fun_prop)]
  _ = ∫ ω, ω ^ k ∂(gaussianReal 0 v) := by simp [gaussianReal_map_sub_const]
  _ = iteratedDeriv k (mgf (fun x ↦ x) (gaussianReal 0 v)) 0 := by
    rw [iteratedDeriv_mgf_zero] <;> simp
  _ = _ := by
    rw [mgf_fun_id_gaussianReal]
    simp only [zero_mul, zero_add]

theorem deriv_poly_exp (v : ℝ) (p p' : ℝ → ℝ) (hp : ∀ t, HasDerivAt p (p' t) t) :
    deriv (fun t => p t * rexp (v * t ^ 2 / 2)) = fun t => (p' t + p t * (v * t)) * rexp (v * t ^ 2 / 2) := by
  funext t
  have h1 : HasDerivAt (fun t => v * t ^ 2 / 2) (v * t) t := by
    have := ((hasDerivAt_pow 2 t).const_mul v).div_const 2
    refine this.congr_deriv ?_
    norm_num
    ring
  have := ((hp t).mul h1.exp).deriv
  rw [show (fun t => p t * rexp (v * t ^ 2 / 2)) = (p * fun t => rexp (v * t ^ 2 / 2)) from rfl, this]
  ring

theorem deriv1 (v : ℝ) : deriv (fun t => rexp (v * t ^ 2 / 2)) = fun t => (v * t) * rexp (v * t ^ 2 / 2) := by
  have := deriv_poly_exp v (fun _ => 1) (fun _ => 0) (fun t => hasDerivAt_const t 1)
  simpa using this

theorem deriv2 (v : ℝ) : deriv (fun t => (v * t) * rexp (v * t ^ 2 / 2))
    = fun t => (v + v ^ 2 * t ^ 2) * rexp (v * t ^ 2 / 2) := by
  rw [deriv_poly_exp v (fun t => v * t) (fun _ => v)
    (fun t => by simpa using (hasDerivAt_id' t).const_mul v)]
  funext t; ring

theorem deriv3 (v : ℝ) : deriv (fun t => (v + v ^ 2 * t ^ 2) * rexp (v * t ^ 2 / 2))
    = fun t => (3 * v ^ 2 * t + v ^ 3 * t ^ 3) * rexp (v * t ^ 2 / 2) := by
  rw [deriv_poly_exp v (fun t => v + v ^ 2 * t ^ 2) (fun t => v ^ 2 * (2 * t))
    (fun t => by simpa using ((hasDerivAt_pow 2 t).const_mul (v ^ 2)).const_add v)]
  funext t; ring

theorem deriv4 (v : ℝ) : deriv (fun t => (3 * v ^ 2 * t + v ^ 3 * t ^ 3) * rexp (v * t ^ 2 / 2))
    = fun t => (3 * v ^ 2 + 6 * v ^ 3 * t ^ 2 + v ^ 4 * t ^ 4) * rexp (v * t ^ 2 / 2) := by
  rw [deriv_poly_exp v (fun t => 3 * v ^ 2 * t + v ^ 3 * t ^ 3) (fun t => 3 * v ^ 2 + v ^ 3 * (3 * t ^ 2))
    (fun t => by
      have h1 := (hasDerivAt_id' t).const_mul (3 * v ^ 2)
      have h2 := (hasDerivAt_pow 3 t).const_mul (v ^ 3)
      have h3 := h1.add h2
      simp only [mul_one, Nat.cast_ofNat, Nat.add_one_sub_one] at h3
      exact h3)]
  funext t; ring

theorem central1 (μ : ℝ) (v : ℝ≥0) : ∫ x, (x - μ) ∂gaussianReal μ v = 0 := by
  have := central_eq μ v 1
  simp only [pow_one] at this
  rw [this, iteratedDeriv_one, deriv1]; simp

theorem central2 (μ : ℝ) (v : ℝ≥0) : ∫ x, (x - μ) ^ 2 ∂gaussianReal μ v = v := by
  rw [central_eq, iteratedDeriv_succ, iteratedDeriv_one, deriv1, deriv2]; simp

theorem central3 (μ : ℝ) (v : ℝ≥0) : ∫ x, (x - μ) ^ 3 ∂gaussianReal μ v = 0 := by
  rw [central_eq, iteratedDeriv_succ, iteratedDeriv_succ, iteratedDeriv_one, deriv1, deriv2, deriv3]
  simp

theorem central4 (μ : ℝ) (v : ℝ≥0) : ∫ x, (x - μ) ^ 4 ∂gaussianReal μ v = 3 * v ^ 2 := by
  rw [central_eq, iteratedDeriv_succ, iteratedDeriv_succ, iteratedDeriv_succ, iteratedDeriv_one, deriv1,
    deriv2, deriv3, deriv4]
  simp

theorem integrable_central (μ : ℝ) (v : ℝ≥0) (k : ℕ) :
    Integrable (fun x => (x - μ) ^ k) (gaussianReal μ v) := by
  have h1 : MemLp (fun x => x - μ) (k : ℝ≥0) (gaussianReal μ v) :=
    (memLp_id_gaussianReal (μ := μ) (v := v) k).sub (memLp_const μ)
  have h := h1.integrable_norm_pow'
  rw [← integrable_norm_iff (by fun_prop)]
  simpa using h

/-! ### Independent coordinates -/

/-- Expectation of a product of functions of two independent coordinates. -/
theorem integral_pair {ι : Type} [Fintype ι] [DecidableEq ι] (μ : ι → Measure ℝ)
    [∀ i, IsProbabilityMeasure (μ i)] (b b' : ι) (f g : ℝ → ℝ) :
    ∫ x, f (x b) * g (x b') ∂Measure.pi μ
      = if b = b' then ∫ t, f t * g t ∂μ b else (∫ t, f t ∂μ b) * ∫ t, g t ∂μ b' := by
  have h1 : ∀ x : ι → ℝ, f (x b) * g (x b')
      = ∏ i, ((if i = b then f (x i) else 1) * (if i = b' then g (x i) else 1)) := by
    intro x
    rw [Finset.prod_mul_distrib, Finset.prod_ite_eq' , Finset.prod_ite_eq']
    simp
  have h2 := integral_fintype_prod_eq_prod (𝕜 := ℝ) (μ := μ)
    (fun i (t : ℝ) => (if i = b then f t else 1) * (if i = b' then g t else 1))
  simp only [h1]
  rw [h2]
  have hone : ∀ i, i ≠ b → i ≠ b' →
      ∫ t, (if i = b then f t else 1) * (if i = b' then g t else 1) ∂μ i = 1 := by
    intro i hi hi'
    simp [hi, hi']
  by_cases hb : b = b'
  · subst hb
    rw [Finset.prod_eq_single b (fun i _ hi => hone i hi hi) (by simp)]
    simp
  · rw [Finset.prod_eq_mul b b' hb (fun i _ hi => hone i hi.1 hi.2) (by simp) (by simp)]
    simp only [if_true, if_neg hb, if_neg (Ne.symm hb), mul_one, one_mul]

theorem integrable_pair {ι : Type} [Fintype ι] [DecidableEq ι] (μ : ι → Measure ℝ)
    [∀ i, IsProbabilityMeasure (μ i)] (b b' : ι) (f g : ℝ → ℝ) (hf : Integrable f (μ b))
    (hg : Integrable g (μ b')) (hfg : b = b' → Integrable (fun t => f t * g t) (μ b)) :
    Integrable (fun x : ι → ℝ => f (x b) * g (x b')) (Measure.pi μ) := by
  have h1 : (fun x : ι → ℝ => f (x b) * g (x b'))
      = fun x => ∏ i, ((if i = b then f (x i) else 1) * (if i = b' then g (x i) else 1)) := by
    funext x
    rw [Finset.prod_mul_distrib, Finset.prod_ite_eq' , Finset.prod_ite_eq']
    simp
  rw [h1]
  apply Integrable.fintype_prod (f := fun i (t : ℝ) =>
    (if i = b then f t else 1) * (if i = b' then g t else 1))
  intro i
  by_cases h : i = b
  · subst h
    by_cases h' : i = b'
    · subst h'
      simpa using hfg rfl
    · simpa [h'] using hf
  · by_cases h' : i = b'
    · subst h'
      simpa [h] using hg
    · simp [h, h']

end Kfac.Loss
