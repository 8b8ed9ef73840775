import Verif.Grad.PropsSample

/-! # C75: diagonal input factors -/

namespace Kfac.Grad

open Kfac.Stats

theorem oneHot_sq {V : ℕ} (id : ℤ) (v : Fin V) : oneHot (V := V) id v ^ 2 = oneHot id v := by
  unfold oneHot
  split <;> simp

/-- The factor of sparse inputs is that of the dense one-hot inputs. -/
theorem C75_dense {V : ℕ} (bias : Bool) (ids : List ℤ) :
    sparseDiagonal (V := V) bias ids = denseDiagonal bias (ids.map oneHot) := by
  unfold sparseDiagonal denseDiagonal
  congr 1
  funext v
  simp only [computeDiagCov, List.map_map, List.length_map, Function.comp_def, oneHot_sq]

/-- It holds the relative frequencies of the indices. -/
theorem C75_frequency {V : ℕ} (bias : Bool) (ids : List ℤ) (v : Fin V) :
    sparseDiagonal bias ids (Fin.castAdd _ v) = (ids.count (v : ℤ) : ℝ) / (ids.length : ℝ) := by
  simp only [sparseDiagonal, appendHomog_left]
  congr 1
  induction ids with
  | nil => simp
  | cons id ids ih =>
    rw [List.map_cons, List.sum_cons, ih, List.count_cons]
    by_cases h : id = (v : ℤ)
    · simp [oneHot, h, add_comm]
    · simp [oneHot, h]

/-- Without a bias, the full second moment of one-hot inputs is diagonal, so the factor is exact. -/
theorem C75_exact {V : ℕ} (ids : List ℤ) :
    homogCov false (ids.map (oneHot (V := V))) = Matrix.diagonal (sparseDiagonal false ids) := by
  ext k l
  rw [homogCov_apply, List.map_map, List.length_map]
  have hk : ∀ (r : Fin V → ℝ) (k : Fin (V + false.toNat)), appendHomog false r k = r k := fun r k =>
    appendHomog_left false r k
  by_cases h : k = l
  · subst h
    rw [Matrix.diagonal_apply_eq]
    simp only [Function.comp_def, hk, sparseDiagonal, ← pow_two, oneHot_sq]
  · rw [Matrix.diagonal_apply_ne _ h]
    have : ∀ id : ℤ, appendHomog false (oneHot (V := V) id) k * appendHomog false (oneHot (V := V) id) l = 0 := by
      intro id
      simp only [hk, oneHot]
      by_cases h1 : id = ((k : ℕ) : ℤ)
      · have h2 : ¬ id = ((l : ℕ) : ℤ) := fun h2 => h (Fin.ext (by exact_mod_cast h1.symm.trans h2))
        rw [if_neg h2, mul_zero]
      · rw [if_neg h1, zero_mul]
    simp only [Function.comp_def, this]
    simp

/-- In general the diagonal factor is the diagonal of the full factor, also for the bias. -/
theorem C75_diagonal {V : ℕ} (bias : Bool) (rows : Rows V) (h : rows ≠ []) (k : Fin (V + bias.toNat)) :
    denseDiagonal bias rows k = homogCov bias rows k k := by
  have hn : (rows.length : ℝ) ≠ 0 := by
    have := List.length_pos_iff.2 h
    exact_mod_cast this.ne'
  rw [homogCov_apply]
  unfold denseDiagonal
  refine Fin.addCases (fun k => ?_) (fun k => ?_) k
  · simp only [appendHomog_left, computeDiagCov, pow_two]
  · simp only [appendHomog_right, mul_one]
    simp [hn]

/-- Two occurrences of index 1 among three. -/
example : sparseDiagonal (V := 2) false [1, 0, 1] (Fin.castAdd _ (1 : Fin 2)) = 2 / 3 := by
  rw [C75_frequency]
  simp

end Kfac.Grad
