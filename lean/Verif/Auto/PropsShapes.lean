import Verif.Auto.Model
import Verif.Grad.PropsScale

/-! # C71 for automatic registration: shapes with unknown dimensions -/

namespace Kfac.Auto

open Kfac.Reg Kfac.Grad

/-! ### Specification -/

/-- A parameter of shape `p` is accepted for data of which only some dimensions are known: aligned at the end, every known
dimension other than the batch meets an entry that is 1 or at least as large, and for the shift not larger either. -/
def FitsKnown (strict : Bool) (p : List ℕ) (s : List (Option ℕ)) : Prop :=
  p.length ≤ s.length ∧ (p.length = s.length → p.head? = some 1) ∧
  ∀ j < p.length, ∀ d, s[s.length - p.length + j]? = some (some d) → 1 ≤ s.length - p.length + j →
    (p.getD j 0 = 1 ∨ d ≤ p.getD j 0) ∧ (strict = true → p.getD j 0 ≤ d)

/-! ### Lemmas -/

theorem dimsLoop_exists {strict : Bool} {p d : List ℕ} {start : ℕ} : ∀ {is : List ℕ},
    (∀ i ∈ is, (p.getD (i - start) 0 < d.getD i 0 → p.getD (i - start) 0 = 1) ∧
      (strict = true → p.getD (i - start) 0 ≤ d.getD i 0)) → ∃ axes, dimsLoop strict p d start is = .ok axes
  | [], _ => ⟨[], rfl⟩
  | i :: is, h => by
    obtain ⟨axes, ha⟩ := dimsLoop_exists (fun j hj => h j (List.mem_cons_of_mem _ hj))
    have hi := h i List.mem_cons_self
    unfold dimsLoop
    by_cases h1 : p.getD (i - start) 0 < d.getD i 0
    · exact ⟨i :: axes, by simp only [if_pos h1, if_pos (hi.1 h1), ha, bind, Except.bind, pure, Except.pure]⟩
    · have h2 : ¬ (strict && decide (p.getD (i - start) 0 > d.getD i 0)) = true := by
        simp only [Bool.and_eq_true, decide_eq_true_eq]
        intro h2
        have := hi.2 h2.1
        omega
      exact ⟨axes, by simp only [if_neg h1, if_neg h2, ha]⟩

theorem broadcastDims_iff {strict : Bool} {p d : List ℕ} : (∃ axes, broadcastDims strict p d = .ok axes) ↔
    p.length ≤ d.length ∧ (p.length = d.length → p.head? = some 1) ∧
    ∀ i, max (d.length - p.length) 1 ≤ i → i < d.length →
      (p.getD (i - (d.length - p.length)) 0 < d.getD i 0 → p.getD (i - (d.length - p.length)) 0 = 1) ∧
        (strict = true → p.getD (i - (d.length - p.length)) 0 ≤ d.getD i 0) := by
  constructor
  · rintro ⟨axes, h⟩
    obtain ⟨h1, h2, -, h4⟩ := broadcastDims_ok h
    exact ⟨h1, h2, h4⟩
  · rintro ⟨h1, h2, h3⟩
    unfold broadcastDims
    have a1 : ¬ d.length < p.length := by omega
    have a2 : ¬ (d.length - p.length = 0 ∧ p.head? = none) := fun h => by
      rw [h2 (by omega)] at h
      exact absurd h.2 (by simp)
    have a3 : ¬ (d.length - p.length = 0 ∧ p.head? ≠ some 1) := fun h => h.2 (h2 (by omega))
    obtain ⟨axes, ha⟩ := dimsLoop_exists (strict := strict) (p := p) (d := d) (start := d.length - p.length)
      (is := (List.range d.length).filter fun i => max (d.length - p.length) 1 ≤ i) (fun i hi => by
        simp only [List.mem_filter, List.mem_range, decide_eq_true_eq] at hi
        exact h3 i hi.2 hi.1)
    exact ⟨(List.range (d.length - p.length)).filter (1 ≤ ·) ++ axes,
      by simp only [if_neg a1, if_neg a2, if_neg a3, ha, bind, Except.bind, pure, Except.pure]⟩

theorem fillShape_length (p : List ℕ) (s : List (Option ℕ)) : (fillShape p s).length = s.length := by
  simp [fillShape]

theorem fillShape_getD (p : List ℕ) (s : List (Option ℕ)) {i : ℕ} (hi : i < s.length) :
    (fillShape p s).getD i 0 = (s[i]).getD (p.getD (i - (s.length - p.length)) 0) := by
  have : i < (fillShape p s).length := by rwa [fillShape_length]
  rw [List.getD_eq_getElem?_getD, List.getElem?_eq_getElem this, Option.getD_some]
  simp [fillShape]

theorem broadcastDims_fill {strict : Bool} {p : List ℕ} {s : List (Option ℕ)} :
    (∃ axes, broadcastDims strict p (fillShape p s) = .ok axes) ↔ FitsKnown strict p s := by
  rw [broadcastDims_iff, fillShape_length]
  refine and_congr Iff.rfl (and_congr_right fun h1 => ?_)
  constructor
  · intro h j hj d hd h1
    have h2 : s.length - p.length + j < s.length := by
      by_contra h2
      rw [List.getElem?_eq_none (by omega)] at hd
      cases hd
    have h3 := h (s.length - p.length + j) (by omega) h2
    rw [fillShape_getD p s h2, Nat.add_sub_cancel_left] at h3
    rw [List.getElem?_eq_getElem h2, Option.some.injEq] at hd
    rw [hd, Option.getD_some] at h3
    exact ⟨by omega, h3.2⟩
  · intro h i h2 h3
    rw [fillShape_getD p s h3]
    rcases hs : s[i] with _ | d
    · rw [Option.getD_none]
      exact ⟨fun h => absurd h (lt_irrefl _), fun _ => le_refl _⟩
    · rw [Option.getD_some]
      by_cases hp : p.length ≤ s.length
      · have h4 := h (i - (s.length - p.length)) (by omega) d (by
          rw [show s.length - p.length + (i - (s.length - p.length)) = i by omega, List.getElem?_eq_getElem h3, hs]) (by omega)
        exact ⟨by omega, h4.2⟩
      · have h4 := h (i - (s.length - p.length)) (by omega) d (by
          rw [show s.length - p.length + (i - (s.length - p.length)) = i by omega, List.getElem?_eq_getElem h3, hs]) (by omega)
        exact ⟨by omega, h4.2⟩

/-! ### Theorem -/

/-- Automatic registration accepts the shapes of a detected scale and shift exactly if the known dimensions do not rule out
that they broadcast; nothing is asked of unknown dimensions. (As with known shapes, a scale that is too large passes.) -/
theorem C71_unknown_dimensions (scale shift : Var) (inShape outShape : List (Option ℕ)) :
    scaleShiftCheck (.seq [scale, shift]) (fillShape scale.shape inShape) (fillShape shift.shape outShape) = .ok () ↔
      FitsKnown false scale.shape inShape ∧ FitsKnown true shift.shape outShape := by
  rw [← broadcastDims_fill, ← broadcastDims_fill]
  simp only [scaleShiftCheck, bind, Except.bind, pure, Except.pure]
  cases h1 : broadcastDims true shift.shape (fillShape shift.shape outShape) <;>
    cases h2 : broadcastDims false scale.shape (fillShape scale.shape inShape) <;> simp

/-- Inputs of unknown batch size and width: a scale per channel fits, one of the wrong length does not. -/
example : scaleShiftCheck (.seq [⟨0, [3]⟩, ⟨1, [1, 3]⟩])
      (fillShape [3] [none, none, some 3]) (fillShape [1, 3] [none, none, some 3]) = .ok () ∧
    scaleShiftCheck (.seq [⟨0, [3]⟩, ⟨1, [2, 3]⟩])
      (fillShape [3] [none, none, some 3]) (fillShape [2, 3] [none, some 4, some 3]) ≠ .ok () := by
  refine ⟨(C71_unknown_dimensions ⟨0, [3]⟩ ⟨1, [1, 3]⟩ _ _).2 ⟨⟨by simp, by simp, ?_⟩, ⟨by simp, by simp, ?_⟩⟩,
    fun h => ?_⟩
  · intro j hj d hd _
    have : j = 0 := by simpa using hj
    subst this
    simp at hd
    simp [← hd]
  · intro j hj d hd _
    have : j = 0 ∨ j = 1 := by simp at hj; omega
    rcases this with rfl | rfl <;> simp at hd
    simp [← hd]
  · have := ((C71_unknown_dimensions ⟨0, [3]⟩ ⟨1, [2, 3]⟩ _ _).1 h).2.2.2 0 (by simp) 4 (by simp) (by simp)
    simp at this

end Kfac.Auto
