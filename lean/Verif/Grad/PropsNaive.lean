import Verif.Grad.Model
import Mathlib.Probability.Independence.Integration
import Mathlib.MeasureTheory.Function.L2Space
import Mathlib.MeasureTheory.Integral.Prod
import Mathlib.MeasureTheory.Function.LpSeminorm.Prod
import Mathlib.Tactic.FinCases

/-! # C76: the naive factors -/

namespace Kfac.Grad

open MeasureTheory ProbabilityTheory

/-- `v n` is the gradient of the loss of example `n` for randomly drawn targets. For independent targets with mean zero
gradients, the "square the sum" estimate has the expectation of the mean outer product of the per-example gradients, when
the registered batch sizes add up to the number of examples. -/
theorem C76_full {Ω P : Type} [MeasurableSpace Ω] (μ : Measure Ω) [IsProbabilityMeasure μ] {N : ℕ}
    (v : Fin N → Ω → P → ℝ) (towers : List ℕ) (ht : towers.sum = N)
    (hsq : ∀ n i, MemLp (fun ω => v n ω i) 2 μ)
    (hind : ∀ n m, n ≠ m → ∀ i j, IndepFun (fun ω => v n ω i) (fun ω => v m ω j) μ)
    (hmean : ∀ n i, ∫ ω, v n ω i ∂μ = 0) (i j : P) :
    ∫ ω, naiveFull (naiveBatchSize towers) (fun k => ∑ n, v n ω k) i j ∂μ =
      ∫ ω, (∑ n, v n ω i * v n ω j) / N ∂μ := by
  have hint : ∀ n m, Integrable (fun ω => v n ω i * v m ω j) μ := fun n m => (hsq n i).integrable_mul (hsq m j)
  simp only [naiveFull, naiveBatchSize, ht]
  rw [integral_div, integral_div]
  congr 1
  simp only [Finset.sum_mul_sum]
  rw [integral_finsetSum _ (fun n _ => integrable_finsetSum _ fun m _ => hint n m),
    integral_finsetSum _ (fun n _ => hint n n)]
  refine Finset.sum_congr rfl fun n _ => ?_
  rw [integral_finsetSum _ (fun m _ => hint n m), Finset.sum_eq_single n]
  · intro m _ hm
    rw [(hind n m (Ne.symm hm) i j).integral_fun_mul_eq_mul_integral (hsq n i).aestronglyMeasurable
      (hsq m j).aestronglyMeasurable, hmean n i, zero_mul]
  · intro h
    exact absurd (Finset.mem_univ n) h

/-- The diagonal factor likewise has the expectation of the mean squares. -/
theorem C76_diagonal {Ω P : Type} [MeasurableSpace Ω] (μ : Measure Ω) [IsProbabilityMeasure μ] {N : ℕ}
    (v : Fin N → Ω → P → ℝ) (towers : List ℕ) (ht : towers.sum = N)
    (hsq : ∀ n i, MemLp (fun ω => v n ω i) 2 μ)
    (hind : ∀ n m, n ≠ m → ∀ i j, IndepFun (fun ω => v n ω i) (fun ω => v m ω j) μ)
    (hmean : ∀ n i, ∫ ω, v n ω i ∂μ = 0) (i : P) :
    ∫ ω, naiveDiagonal (naiveBatchSize towers) (fun k => ∑ n, v n ω k) i ∂μ =
      ∫ ω, (∑ n, v n ω i ^ 2) / N ∂μ := by
  have := C76_full μ v towers ht hsq hind hmean i i
  simpa only [naiveFull, naiveDiagonal, pow_two] using this

/-- Two examples whose targets are drawn independently from the same distribution `ν`, with any measurable, square
integrable gradient `X` of mean zero: the estimate `(X y₁ + X y₂)² / 2` has expectation `E X²`. -/
example {Y : Type} [MeasurableSpace Y] (ν : Measure Y) [IsProbabilityMeasure ν] (X : Y → ℝ) (hX : Measurable X)
    (h2 : MemLp X 2 ν) (h0 : ∫ y, X y ∂ν = 0) :
    ∫ ω, naiveDiagonal (naiveBatchSize [1, 1]) (fun _ : Unit => X ω.1 + X ω.2) () ∂(ν.prod ν) = ∫ y, X y ^ 2 ∂ν := by
  have h := C76_diagonal (ν.prod ν) (N := 2) (P := Unit) (fun n ω _ => if n = 0 then X ω.1 else X ω.2) [1, 1] rfl
    (fun n _ => by
      fin_cases n
      · simpa using h2.comp_fst ν
      · simpa using h2.comp_snd ν)
    (fun n m hnm _ _ => by
      fin_cases n <;> fin_cases m <;> simp at hnm ⊢
      · exact indepFun_prod hX hX
      · exact (indepFun_prod hX hX).symm)
    (fun n _ => by
      fin_cases n
      · simpa [integral_fun_fst] using h0
      · simpa [integral_fun_snd] using h0) ()
  simp only [Fin.sum_univ_two] at h
  have h1 : Integrable (fun ω : Y × Y => X ω.1 ^ 2) (ν.prod ν) := (h2.comp_fst ν).integrable_sq
  have h1' : Integrable (fun ω : Y × Y => X ω.2 ^ 2) (ν.prod ν) := (h2.comp_snd ν).integrable_sq
  have e : ∫ ω : Y × Y, (X ω.1 ^ 2 + X ω.2 ^ 2) / (2 : ℕ) ∂(ν.prod ν) = ∫ y, X y ^ 2 ∂ν := by
    rw [integral_div, integral_add h1 h1', integral_fun_fst (fun y => X y ^ 2), integral_fun_snd (fun y => X y ^ 2)]
    simp
  rw [← e]
  simpa using h

end Kfac.Grad
