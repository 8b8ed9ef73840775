import Verif.Grad.Scale
import Verif.Grad.Lemmas
import Verif.Reg.Model
import Mathlib.Analysis.Calculus.FDeriv.Mul
import Mathlib.Data.List.GetD

/-! # C71, C72: scale and shift layers -/

namespace Kfac.Grad

open Kfac.Reg Kfac.Stats

/-! ### Specification -/

/-- A parameter of shape `p` broadcasts to shape `d` without changing `d`. -/
def Fits (p d : List ℕ) : Prop :=
  p.length ≤ d.length ∧ ∀ i < p.length, p.getD i 0 = 1 ∨ p.getD i 0 = d.getD (i + (d.length - p.length)) 0

/-- The entry of a parameter of shape `p` that meets the entry `idx` of the data. -/
def bcast (p idx : List ℕ) : List ℕ :=
  List.zipWith (fun s i => if s = 1 then 0 else i) p (idx.drop (idx.length - p.length))

/-! ### Registration -/

theorem dimsLoop_ok {strict : Bool} {p d : List ℕ} {start : ℕ} : ∀ {is rest : List ℕ},
    dimsLoop strict p d start is = .ok rest →
      rest = is.filter (fun i => p.getD (i - start) 0 < d.getD i 0) ∧
      ∀ i ∈ is, (p.getD (i - start) 0 < d.getD i 0 → p.getD (i - start) 0 = 1) ∧
        (strict = true → p.getD (i - start) 0 ≤ d.getD i 0)
  | [], rest, h => by
    simp only [dimsLoop, Except.ok.injEq] at h
    simp [← h]
  | i :: is, rest, h => by
    unfold dimsLoop at h
    by_cases h1 : p.getD (i - start) 0 < d.getD i 0
    · by_cases h2 : p.getD (i - start) 0 = 1
      · simp only [if_pos h1, if_pos h2, bind, Except.bind] at h
        cases h3 : dimsLoop strict p d start is with
        | error e => simp [h3] at h
        | ok r =>
          simp only [h3, pure, Except.pure, Except.ok.injEq] at h
          obtain ⟨h4, h5⟩ := dimsLoop_ok h3
          refine ⟨by rw [← h, h4, List.filter_cons_of_pos (by simpa using h1)], fun j hj => ?_⟩
          rcases List.mem_cons.1 hj with rfl | hj
          · exact ⟨fun _ => h2, fun _ => h1.le⟩
          · exact h5 j hj
      · simp only [if_pos h1, if_neg h2, reduceCtorEq] at h
    · simp only [if_neg h1] at h
      by_cases h2 : (strict && decide (p.getD (i - start) 0 > d.getD i 0)) = true
      · simp only [if_pos h2, reduceCtorEq] at h
      · rw [if_neg h2] at h
        obtain ⟨h4, h5⟩ := dimsLoop_ok h
        refine ⟨by rw [h4, List.filter_cons_of_neg (by simpa using h1)], fun j hj => ?_⟩
        rcases List.mem_cons.1 hj with rfl | hj
        · refine ⟨fun h => absurd h h1, fun hs => ?_⟩
          simp only [hs, Bool.true_and, decide_eq_true_eq] at h2
          omega
        · exact h5 j hj

theorem dimsLoop_of {strict : Bool} {p d : List ℕ} {start : ℕ} : ∀ {is : List ℕ},
    (∀ i ∈ is, (p.getD (i - start) 0 < d.getD i 0 → p.getD (i - start) 0 = 1) ∧ p.getD (i - start) 0 ≤ d.getD i 0) →
      dimsLoop strict p d start is = .ok (is.filter (fun i => p.getD (i - start) 0 < d.getD i 0))
  | [], _ => rfl
  | i :: is, h => by
    have ih := dimsLoop_of (strict := strict) (fun j hj => h j (List.mem_cons_of_mem _ hj))
    have hi := h i List.mem_cons_self
    unfold dimsLoop
    by_cases h1 : p.getD (i - start) 0 < d.getD i 0
    · simp only [if_pos h1, if_pos (hi.1 h1), ih, bind, Except.bind, pure, Except.pure]
      rw [List.filter_cons_of_pos (by simpa using h1)]
    · have h2 : ¬ (strict && decide (p.getD (i - start) 0 > d.getD i 0)) = true := by
        simp only [Bool.and_eq_true, decide_eq_true_eq]
        omega
      simp only [if_neg h1, if_neg h2, ih]
      rw [List.filter_cons_of_neg (by simpa using h1)]

/-- The dimensions the code sums over. -/
theorem broadcastDims_ok {strict : Bool} {p d axes : List ℕ} (h : broadcastDims strict p d = .ok axes) :
    p.length ≤ d.length ∧ (p.length = d.length → p.head? = some 1) ∧
    axes = ((List.range (d.length - p.length)).filter fun i => 1 ≤ i) ++
      ((List.range d.length).filter fun i => max (d.length - p.length) 1 ≤ i).filter
        (fun i => p.getD (i - (d.length - p.length)) 0 < d.getD i 0) ∧
    ∀ i, max (d.length - p.length) 1 ≤ i → i < d.length →
      (p.getD (i - (d.length - p.length)) 0 < d.getD i 0 → p.getD (i - (d.length - p.length)) 0 = 1) ∧
        (strict = true → p.getD (i - (d.length - p.length)) 0 ≤ d.getD i 0) := by
  unfold broadcastDims at h
  by_cases h1 : d.length < p.length
  · simp only [if_pos h1, reduceCtorEq] at h
  · by_cases h2 : d.length - p.length = 0 ∧ p.head? = none
    · simp only [if_neg h1, if_pos h2, reduceCtorEq] at h
    · by_cases h3 : d.length - p.length = 0 ∧ p.head? ≠ some 1
      · simp only [if_neg h1, if_neg h2, if_pos h3, reduceCtorEq] at h
      · simp only [if_neg h1, if_neg h2, if_neg h3, bind, Except.bind, pure, Except.pure] at h
        cases h4 : dimsLoop strict p d (d.length - p.length)
            ((List.range d.length).filter fun i => max (d.length - p.length) 1 ≤ i) with
        | error e => simp only [h4, reduceCtorEq] at h
        | ok r =>
          simp only [h4, Except.ok.injEq] at h
          obtain ⟨h5, h6⟩ := dimsLoop_ok h4
          refine ⟨by omega, fun e => ?_, by rw [← h, h5], fun i hi1 hi2 => h6 i ?_⟩
          · by_contra h7
            exact h3 ⟨by omega, h7⟩
          · simp only [List.mem_filter, List.mem_range, decide_eq_true_eq]
            exact ⟨hi2, hi1⟩

theorem broadcastDims_of {strict : Bool} {p d : List ℕ} (h1 : p.length ≤ d.length)
    (h2 : p.length = d.length → p.head? = some 1)
    (h3 : ∀ i, max (d.length - p.length) 1 ≤ i → i < d.length →
      (p.getD (i - (d.length - p.length)) 0 < d.getD i 0 → p.getD (i - (d.length - p.length)) 0 = 1) ∧
        p.getD (i - (d.length - p.length)) 0 ≤ d.getD i 0) :
    broadcastDims strict p d = .ok (((List.range (d.length - p.length)).filter fun i => 1 ≤ i) ++
      ((List.range d.length).filter fun i => max (d.length - p.length) 1 ≤ i).filter
        (fun i => p.getD (i - (d.length - p.length)) 0 < d.getD i 0)) := by
  unfold broadcastDims
  have a1 : ¬ d.length < p.length := by omega
  have a2 : ¬ (d.length - p.length = 0 ∧ p.head? = none) := fun h => by
    rw [h2 (by omega)] at h
    exact absurd h.2 (by simp)
  have a3 : ¬ (d.length - p.length = 0 ∧ p.head? ≠ some 1) := fun h => h.2 (h2 (by omega))
  have a4 := dimsLoop_of (strict := strict) (p := p) (d := d) (start := d.length - p.length)
    (is := (List.range d.length).filter fun i => max (d.length - p.length) 1 ≤ i) (fun i hi => by
      simp only [List.mem_filter, List.mem_range, decide_eq_true_eq] at hi
      exact h3 i hi.2 hi.1)
  simp only [if_neg a1, if_neg a2, if_neg a3, a4, bind, Except.bind, pure, Except.pure]

/-- What `Fits` says in the index convention of the code. -/
theorem Fits.at {p d : List ℕ} (h : Fits p d) (hd : ∀ a ∈ d, 0 < a) {i : ℕ} (h1 : d.length - p.length ≤ i)
    (h2 : i < d.length) : (p.getD (i - (d.length - p.length)) 0 < d.getD i 0 →
      p.getD (i - (d.length - p.length)) 0 = 1) ∧ p.getD (i - (d.length - p.length)) 0 ≤ d.getD i 0 := by
  have h3 := h.1
  have h4 := h.2 (i - (d.length - p.length)) (by omega)
  rw [show i - (d.length - p.length) + (d.length - p.length) = i by omega] at h4
  have h5 : 0 < d.getD i 0 := by
    rw [List.getD_eq_getElem?_getD, List.getElem?_eq_getElem h2, Option.getD_some]
    exact hd _ (List.getElem_mem h2)
  omega

/-- The shift: for data without empty dimensions, the shapes accepted are those that broadcast to the outputs and
do not have a batch dimension larger than 1. -/
theorem C71_shift_accepted {p d : List ℕ} (hd : ∀ a ∈ d, 0 < a) :
    (∃ axes, broadcastDims true p d = .ok axes) ↔ Fits p d ∧ (p.length = d.length → p.head? = some 1) := by
  constructor
  · rintro ⟨axes, h⟩
    obtain ⟨h1, h2, -, h3⟩ := broadcastDims_ok h
    refine ⟨⟨h1, fun i hi => ?_⟩, h2⟩
    by_cases h0 : i + (d.length - p.length) = 0
    · left
      have h4 := h2 (by omega)
      rw [show i = 0 by omega]
      cases p with
      | nil => simp at h4
      | cons a p => simpa using h4
    · have h4 := h3 (i + (d.length - p.length)) (by omega) (by omega)
      rw [Nat.add_sub_cancel] at h4
      have h5 := h4.2 rfl
      omega
  · rintro ⟨h1, h2⟩
    exact ⟨_, broadcastDims_of h1.1 h2 fun i hi1 hi2 => h1.at hd (by omega) hi2⟩

/-- The dimensions summed over for the shift are the non-batch dimensions along which the outputs have more than one
entry or the parameter has no dimension, and the parameter does not vary. -/
theorem C71_shift_dims {p d axes : List ℕ} (h : broadcastDims true p d = .ok axes) (i : ℕ) :
    i ∈ axes ↔ 1 ≤ i ∧ i < d.length ∧ (i < d.length - p.length ∨
      d.length - p.length ≤ i ∧ p.getD (i - (d.length - p.length)) 0 = 1 ∧ 1 < d.getD i 0) := by
  obtain ⟨h1, h2, h3, h4⟩ := broadcastDims_ok h
  subst h3
  simp only [List.mem_append, List.mem_filter, List.mem_range, decide_eq_true_eq]
  constructor
  · rintro (h5 | ⟨⟨h5, h6⟩, h7⟩)
    · exact ⟨h5.2, by omega, Or.inl h5.1⟩
    · have h8 := (h4 i h6 h5).1 h7
      exact ⟨by omega, h5, Or.inr ⟨by omega, h8, by omega⟩⟩
  · rintro ⟨h5, h6, h7 | ⟨h7, h8, h9⟩⟩
    · exact Or.inl ⟨h7, h5⟩
    · exact Or.inr ⟨⟨h6, by omega⟩, by omega⟩

/-- The scale: if it broadcasts to the inputs, it is treated like the shift. The full claim would be that other shapes are
rejected. -/
theorem C71_scale_partial {p d : List ℕ} (hd : ∀ a ∈ d, 0 < a) (h : Fits p d) :
    broadcastDims false p d = broadcastDims true p d := by
  by_cases h2 : p.length = d.length → p.head? = some 1
  · rw [broadcastDims_of h.1 h2 fun i hi1 hi2 => h.at hd (by omega) hi2,
      broadcastDims_of h.1 h2 fun i hi1 hi2 => h.at hd (by omega) hi2]
  · have h3 : p.length = d.length := by
      by_contra h3
      exact h2 fun h => absurd h h3
    have h4 : p.head? ≠ some 1 := fun h4 => h2 fun _ => h4
    unfold broadcastDims
    have a1 : ¬ d.length < p.length := by omega
    by_cases a2 : d.length - p.length = 0 ∧ p.head? = none
    · simp only [if_neg a1, if_pos a2]
    · simp only [if_neg a1, if_neg a2, if_pos (show d.length - p.length = 0 ∧ p.head? ≠ some 1 from ⟨by omega, h4⟩)]

/-- A scale with three entries for inputs with one column is accepted although it does not broadcast to the inputs, and
the gradients then have three entries where the statistics have room for one. -/
theorem C71_scale_counterexample (N : ℕ) :
    broadcastDims false [3] [N + 1, 1] = .ok [] ∧ ¬ Fits [3] [N + 1, 1] ∧ covSize [1] [] = 1 ∧ covSize [3] [] = 3 := by
  refine ⟨by simp [broadcastDims, dimsLoop, List.range_succ, bind, Except.bind, pure, Except.pure], fun h => ?_,
    by simp [covSize, keepDims], by simp [covSize, keepDims]⟩
  have := h.2 0 (by simp)
  simp at this

/-- What the two checks mean for the registration of a scale with a shift. -/
theorem C71_registration {scale shift : Var} {d e : List ℕ} (hd : ∀ a ∈ d, 0 < a) (he : ∀ a ∈ e, 0 < a)
    (hs : Fits scale.shape d) :
    scaleShiftCheck (.seq [scale, shift]) d e = .ok () ↔
      (scale.shape.length = d.length → scale.shape.head? = some 1) ∧ Fits shift.shape e ∧
        (shift.shape.length = e.length → shift.shape.head? = some 1) := by
  have h1 := C71_shift_accepted (p := scale.shape) hd
  have h2 := C71_shift_accepted (p := shift.shape) he
  unfold scaleShiftCheck
  simp only [bind, Except.bind, pure, Except.pure, C71_scale_partial hd hs]
  cases a : broadcastDims true shift.shape e with
  | error m =>
    simp only [reduceCtorEq, false_iff]
    rintro ⟨-, h3⟩
    obtain ⟨x, hx⟩ := h2.2 h3
    simp [a] at hx
  | ok x =>
    cases b : broadcastDims true scale.shape d with
    | error m =>
      simp only [reduceCtorEq, false_iff]
      rintro ⟨h3, -⟩
      obtain ⟨y, hy⟩ := h1.2 ⟨hs, h3⟩
      simp [b] at hy
    | ok y => simp only [true_iff]; exact ⟨(h1.1 ⟨y, b⟩).2, h2.1 ⟨x, a⟩⟩

/-- A layer normalisation: inputs of shape [2, 4, 3], scale of shape [3] and shift of shape [1, 1, 3]. -/
example : broadcastDims false [3] [2, 4, 3] = .ok [1] ∧ broadcastDims true [1, 1, 3] [2, 4, 3] = .ok [1] := by
  constructor <;> simp [broadcastDims, dimsLoop, List.range_succ, bind, Except.bind, pure, Except.pure]

/-! ### Statistics -/

open Kfac.Tensor

theorem keepDims_valid (axes : List ℕ) : ∀ (k : ℕ) {d idx : List ℕ}, Valid d idx →
    Valid (keepDims axes k d) (keepDims axes k idx)
  | _, _, _, .nil => .nil
  | k, _, _, .cons h t => by
    have ih := keepDims_valid axes (k + 1) t
    unfold keepDims
    split
    · exact ih
    · exact .cons h ih

/-- Leaving out dimensions and broadcasting lead to the same row-major position. -/
theorem ravel_keepDims (axes : List ℕ) : ∀ (k : ℕ) {q d : List ℕ}, q.length = d.length →
    (∀ i < d.length, (k + i ∈ axes → q.getD i 0 = 1) ∧ (k + i ∉ axes → q.getD i 0 = d.getD i 0)) →
    (keepDims axes k d).prod = q.prod ∧ ∀ idx, Valid d idx → ravel (keepDims axes k d) (keepDims axes k idx) =
      ravel q (List.zipWith (fun s i => if s = 1 then 0 else i) q idx)
  | k, [], [], _, _ => ⟨rfl, fun idx h => by cases h; rfl⟩
  | k, [], _ :: _, h, _ => by simp at h
  | k, _ :: _, [], h, _ => by simp at h
  | k, s :: q, a :: d, h, hq => by
    obtain ⟨ih1, ih2⟩ := ravel_keepDims axes (k + 1) (q := q) (d := d) (by simpa using h) (fun i hi => by
      have := hq (i + 1) (by simpa using hi)
      simpa [show k + (i + 1) = k + 1 + i by omega] using this)
    have h0 := hq 0 (by simp)
    simp only [Nat.add_zero, List.getD_cons_zero] at h0
    by_cases hk : k ∈ axes
    · have hs : s = 1 := h0.1 hk
      subst hs
      refine ⟨by simp [keepDims, hk, ih1], fun idx hv => ?_⟩
      cases hv with
      | cons h1 h2 => simp [keepDims, hk, ravel, ih2 _ h2]
    · have hs : s = a := h0.2 hk
      subst hs
      refine ⟨by simp [keepDims, hk, ih1], fun idx hv => ?_⟩
      cases hv with
      | @cons i _ is _ h1 h2 =>
        simp only [keepDims, hk, if_false, ravel, List.zipWith_cons_cons, ih1, ih2 _ h2]
        split
        · have : i = 0 := by omega
          simp [this]
        · rfl

theorem ravel_ones : ∀ (a : ℕ) (p idx : List ℕ),
    ravel (List.replicate a 1 ++ p) (List.replicate a 0 ++ idx) = ravel p idx
  | 0, _, _ => rfl
  | a + 1, p, idx => by
    simp only [List.replicate_succ, List.cons_append, ravel, Nat.zero_mul, Nat.zero_add]
    exact ravel_ones a p idx

theorem zipWith_replicate_ones : ∀ (a : ℕ) (p idx : List ℕ), a ≤ idx.length →
    List.zipWith (fun s i => if s = 1 then 0 else i) (List.replicate a 1 ++ p) idx =
      List.replicate a 0 ++ List.zipWith (fun s i => if s = 1 then 0 else i) p (idx.drop a)
  | 0, _, _, _ => rfl
  | a + 1, p, [], h => by simp at h
  | a + 1, p, i :: idx, h => by
    simp [List.replicate_succ, zipWith_replicate_ones a p idx (by simpa using h)]

/-- The dimensions found at registration fit the broadcasting. -/
theorem broadcastDims_ravel {strict : Bool} {N : ℕ} {p d axes : List ℕ}
    (h : broadcastDims strict p (N :: d) = .ok axes) (hp : Fits p (N :: d)) (hd : ∀ a ∈ N :: d, 0 < a) :
    (keepDims axes 1 d).prod = p.prod ∧ ∀ n idx, Valid d idx →
      ravel (keepDims axes 1 d) (keepDims axes 1 idx) = ravel p (bcast p (n :: idx)) := by
  obtain ⟨h1, h2, h3, -⟩ := broadcastDims_ok h
  have hmem : ∀ i, i ∈ axes ↔ (i < (N :: d).length - p.length ∧ 1 ≤ i) ∨ (i < (N :: d).length ∧
      max ((N :: d).length - p.length) 1 ≤ i) ∧
        p.getD (i - ((N :: d).length - p.length)) 0 < (N :: d).getD i 0 := fun i => by
    rw [h3]
    simp only [List.mem_append, List.mem_filter, List.mem_range, decide_eq_true_eq]
  simp only [List.length_cons] at h1 h2 hmem
  by_cases hs : p.length = d.length + 1
  · cases p with
    | nil => simp at hs
    | cons a q =>
      have ha : a = 1 := by simpa using h2 hs
      subst ha
      simp only [List.length_cons, Nat.add_right_cancel_iff] at hs
      obtain ⟨e1, e2⟩ := ravel_keepDims axes 1 (q := q) (d := d) hs (fun i hi => by
        have h4 := hp.at hd (i := i + 1) (by simp; omega) (by simpa using hi)
        have h5 := hmem (1 + i)
        simp only [List.length_cons, hs, Nat.sub_self, Nat.sub_zero, List.getD_cons_succ] at h4
        rw [show 1 + i = i + 1 by omega] at h5 ⊢
        simp only [List.length_cons, hs, Nat.sub_self, Nat.sub_zero, List.getD_cons_succ] at h5
        rw [h5]
        constructor
        · rintro (h6 | h6)
          · omega
          · exact h4.1 h6.2
        · intro h6
          have : ¬ q.getD i 0 < d.getD i 0 := fun h7 => h6 (Or.inr ⟨by omega, h7⟩)
          omega)
      refine ⟨by simp [e1], fun n idx hv => ?_⟩
      rw [e2 idx hv]
      have hl : idx.length = d.length := hv.length_eq
      simp [bcast, hl, hs, ravel]
  · have hlt : p.length ≤ d.length := by omega
    have hlen : (List.replicate (d.length - p.length) 1 ++ p).length = d.length := by simp; omega
    obtain ⟨e1, e2⟩ := ravel_keepDims axes 1 (q := List.replicate (d.length - p.length) 1 ++ p) (d := d) hlen
      (fun i hi => by
        have h5 := hmem (1 + i)
        by_cases h6 : i < d.length - p.length
        · have h7 : (List.replicate (d.length - p.length) 1 ++ p).getD i 0 = 1 := by
            rw [List.getD_append _ _ _ _ (by simpa using h6)]
            simp [h6]
          refine ⟨fun _ => h7, fun h8 => absurd (h5.2 (Or.inl (by omega))) h8⟩
        · have h7 : (List.replicate (d.length - p.length) 1 ++ p).getD i 0 = p.getD (i - (d.length - p.length)) 0 := by
            rw [List.getD_append_right _ _ _ _ (by simpa using h6)]
            simp
          have h4 := hp.at hd (i := i + 1) (by simp; omega) (by simpa using hi)
          simp only [List.length_cons, List.getD_cons_succ] at h4
          rw [show i + 1 - (d.length + 1 - p.length) = i - (d.length - p.length) by omega] at h4
          rw [show 1 + i = i + 1 by omega] at h5 ⊢
          rw [show i + 1 - (d.length + 1 - p.length) = i - (d.length - p.length) by omega, List.getD_cons_succ] at h5
          rw [h7, h5]
          constructor
          · rintro (h8 | h8)
            · omega
            · exact h4.1 h8.2
          · intro h8
            have : ¬ p.getD (i - (d.length - p.length)) 0 < d.getD i 0 := fun h9 => h8 (Or.inr ⟨by omega, h9⟩)
            omega)
    refine ⟨by simp [e1], fun n idx hv => ?_⟩
    have hl : idx.length = d.length := hv.length_eq
    rw [e2 idx hv, zipWith_replicate_ones _ _ _ (by omega), ravel_ones, bcast]
    congr 2
    rw [show (n :: idx).length - p.length = (d.length - p.length) + 1 by simp; omega, List.drop_succ_cons]

/-- The entry of a parameter of shape `p` (in row-major order) that meets the entry `idx` of the data. -/
def paramAt (p : List ℕ) (θ : Fin p.prod → ℝ) (idx : List ℕ) : ℝ :=
  if h : ravel p (bcast p idx) < p.prod then θ ⟨ravel p (bcast p idx), h⟩ else 0

/-- `scale * x + shift` for example `n`, in row-major order. -/
def scaleShiftLayer {N : ℕ} (d s h : List ℕ) (n : Fin N) (x : List ℕ → ℝ) (θ : Fin s.prod ⊕ Fin h.prod → ℝ)
    (o : Fin d.prod) : ℝ :=
  paramAt s (fun k => θ (.inl k)) (n :: unravel d o) * x (unravel d o) +
    paramAt h (fun k => θ (.inr k)) (n :: unravel d o)

/-- `scale * x` for example `n`. -/
def scaleLayer {N : ℕ} (d s : List ℕ) (n : Fin N) (x : List ℕ → ℝ) (θ : Fin s.prod → ℝ) (o : Fin d.prod) : ℝ :=
  paramAt s θ (n :: unravel d o) * x (unravel d o)

theorem paramAt_eq_sum (p : List ℕ) (θ : Fin p.prod → ℝ) (idx : List ℕ) :
    paramAt p θ idx = ∑ k, θ k * if ravel p (bcast p idx) = k then 1 else 0 := by
  unfold paramAt
  split
  · rename_i h
    rw [Finset.sum_eq_single ⟨_, h⟩]
    · simp
    · intro k _ hk
      rw [if_neg fun e => hk (Fin.ext e.symm), mul_zero]
    · simp
  · rename_i h
    rw [Finset.sum_eq_zero]
    intro k _
    rw [if_neg fun e => h (by rw [e]; exact k.isLt), mul_zero]

theorem reduceRow_eq {strict : Bool} {N : ℕ} {p d axes : List ℕ}
    (h : broadcastDims strict p (N :: d) = .ok axes) (hp : Fits p (N :: d)) (hd : ∀ a ∈ N :: d, 0 < a)
    (n : ℕ) (t : List ℕ → ℝ) (k : Fin (keepDims axes 1 d).prod) :
    reduceRow d axes t k = ∑ o : Fin d.prod,
      t (unravel d o) * if ravel p (bcast p (n :: unravel d o)) = k then 1 else 0 := by
  unfold reduceRow
  refine Finset.sum_congr rfl fun o _ => ?_
  have hv := unravel_valid (shape := d) o.isLt
  have e := (broadcastDims_ravel h hp hd).2 n _ hv
  rw [← e]
  have hiff : keepDims axes 1 (unravel d o) = unravel (keepDims axes 1 d) k ↔
      ravel (keepDims axes 1 d) (keepDims axes 1 (unravel d o)) = k := by
    constructor
    · intro h1
      rw [h1, ravel_unravel k.isLt]
    · intro h1
      rw [← h1, unravel_ravel (keepDims_valid axes 1 hv)]
  by_cases hc : ravel (keepDims axes 1 d) (keepDims axes 1 (unravel d o)) = k
  · rw [if_pos (hiff.2 hc), if_pos hc, mul_one]
  · rw [if_neg (fun h1 => hc (hiff.1 h1)), if_neg hc, mul_zero]

theorem fullCov_apply {N M : ℕ} (rows : Fin N → Fin M → ℝ) (i j : Fin M) :
    fullCov rows i j = (∑ n, rows n i * rows n j) / N := by
  simp only [fullCov, computeCov_apply, List.map_ofFn, List.sum_ofFn, List.length_ofFn, Function.comp_def]

theorem diagonalCov_apply {N M : ℕ} (rows : Fin N → Fin M → ℝ) (i : Fin M) :
    diagonalCov rows i = (∑ n, rows n i ^ 2) / N := by
  simp only [diagonalCov, List.map_ofFn, List.sum_ofFn, Function.comp_def]

/-- For every batch, every loss of the outputs with derivatives `ds`, and a scale and a shift whose shapes broadcast to
that of the data, the rows the statistics are computed from are the gradients of the single examples' losses by the scale
and the shift, in the order of the flattened parameters. So the full factor holds the mean of their outer products and
the diagonal factor the mean of their squares. -/
theorem C72_scale_and_shift {N : ℕ} {d s h scaleAxes shiftAxes : List ℕ} (hd : ∀ a ∈ N :: d, 0 < a)
    (hs : Fits s (N :: d)) (hs' : broadcastDims false s (N :: d) = .ok scaleAxes)
    (hh : broadcastDims true h (N :: d) = .ok shiftAxes) (x ds : Fin N → List ℕ → ℝ)
    (L : Fin N → (Fin d.prod → ℝ) → ℝ) (θ : Fin s.prod ⊕ Fin h.prod → ℝ)
    (hL : ∀ n, IsGrad (L n) (scaleShiftLayer d s h n (x n) θ) fun o => ds n (unravel d o)) :
    ∃ (es : (keepDims scaleAxes 1 d).prod = s.prod) (eh : (keepDims shiftAxes 1 d).prod = h.prod)
      (g : Fin N → Fin s.prod ⊕ Fin h.prod → ℝ),
      (∀ n, IsGrad (fun θ => L n (scaleShiftLayer d s h n (x n) θ)) θ (g n)) ∧
      ∀ G, (G = fun n => Fin.append (fun i => g n (.inl (Fin.cast es i))) (fun i => g n (.inr (Fin.cast eh i)))) →
        (∀ i j, fullCov (scaleShiftGrads d scaleAxes shiftAxes x ds) i j = (∑ n, G n i * G n j) / N) ∧
        (∀ i, diagonalCov (scaleShiftGrads d scaleAxes shiftAxes x ds) i = (∑ n, G n i ^ 2) / N) := by
  have hf := (C71_shift_accepted hd).1 ⟨_, hh⟩
  have es := (broadcastDims_ravel hs' hs hd).1
  have eh := (broadcastDims_ravel hh hf.1 hd).1
  refine ⟨es, eh, fun n k => match k with
    | .inl k => ∑ o : Fin d.prod, ds n (unravel d o) *
        (x n (unravel d o) * if ravel s (bcast s (n :: unravel d o)) = k then 1 else 0)
    | .inr k => ∑ o : Fin d.prod, ds n (unravel d o) * if ravel h (bcast h (n :: unravel d o)) = k then 1 else 0,
    fun n => ?_, ?_⟩
  · have := IsGrad.affine (layer := fun θ => scaleShiftLayer d s h n (x n) θ)
      (fun k o => match k with
        | .inl k => x n (unravel d o) * if ravel s (bcast s (n :: unravel d o)) = k then 1 else 0
        | .inr k => if ravel h (bcast h (n :: unravel d o)) = k then 1 else 0) (fun _ => 0)
      (fun θ o => by
        simp only [scaleShiftLayer, paramAt_eq_sum, Fintype.sum_sum_type, add_zero, Finset.sum_mul]
        congr 1
        refine Finset.sum_congr rfl fun k _ => ?_
        ring) (hL n)
    convert this using 1
    funext k
    rcases k with k | k <;> rfl
  · intro G hG
    have e : scaleShiftGrads d scaleAxes shiftAxes x ds = G := by
      funext n i
      rw [hG]
      refine Fin.addCases (fun i => ?_) (fun i => ?_) i
      · simp only [scaleShiftGrads, Fin.append_left, scaleGrads, Fin.val_cast,
          reduceRow_eq hs' hs hd n (fun i => x n i * ds n i)]
        exact Finset.sum_congr rfl fun o _ => by ring
      · simp only [scaleShiftGrads, Fin.append_right, Fin.val_cast, reduceRow_eq hh hf.1 hd n (ds n)]
    rw [e]
    exact ⟨fun i j => fullCov_apply G i j, fun i => diagonalCov_apply G i⟩

/-- The same without a shift. -/
theorem C72_scale_only {N : ℕ} {d s scaleAxes : List ℕ} (hd : ∀ a ∈ N :: d, 0 < a)
    (hs : Fits s (N :: d)) (hs' : broadcastDims false s (N :: d) = .ok scaleAxes) (x ds : Fin N → List ℕ → ℝ)
    (L : Fin N → (Fin d.prod → ℝ) → ℝ) (θ : Fin s.prod → ℝ)
    (hL : ∀ n, IsGrad (L n) (scaleLayer d s n (x n) θ) fun o => ds n (unravel d o)) :
    ∃ (es : (keepDims scaleAxes 1 d).prod = s.prod) (g : Fin N → Fin s.prod → ℝ),
      (∀ n, IsGrad (fun θ => L n (scaleLayer d s n (x n) θ)) θ (g n)) ∧
      (∀ i j, fullCov (scaleGrads d scaleAxes x ds) i j = (∑ n, g n (Fin.cast es i) * g n (Fin.cast es j)) / N) ∧
      (∀ i, diagonalCov (scaleGrads d scaleAxes x ds) i = (∑ n, g n (Fin.cast es i) ^ 2) / N) := by
  have es := (broadcastDims_ravel hs' hs hd).1
  refine ⟨es, fun n k => ∑ o : Fin d.prod, ds n (unravel d o) *
        (x n (unravel d o) * if ravel s (bcast s (n :: unravel d o)) = k then 1 else 0), fun n => ?_, ?_⟩
  · exact IsGrad.affine (layer := fun θ => scaleLayer d s n (x n) θ)
      (fun k o => x n (unravel d o) * if ravel s (bcast s (n :: unravel d o)) = k then 1 else 0) (fun _ => 0)
      (fun θ o => by
        simp only [scaleLayer, paramAt_eq_sum, add_zero, Finset.sum_mul]
        refine Finset.sum_congr rfl fun k _ => ?_
        ring) (hL n)
  · have e : ∀ n i, scaleGrads d scaleAxes x ds n i = ∑ o : Fin d.prod, ds n (unravel d o) *
        (x n (unravel d o) * if ravel s (bcast s (n :: unravel d o)) = (Fin.cast es i : Fin s.prod) then 1 else 0) := by
      intro n i
      simp only [scaleGrads, Fin.val_cast, reduceRow_eq hs' hs hd n (fun i => x n i * ds n i)]
      exact Finset.sum_congr rfl fun o _ => by ring
    exact ⟨fun i j => by rw [fullCov_apply]; simp only [e], fun i => by rw [diagonalCov_apply]; simp only [e]⟩

/-- Two examples with two entries each, one scale for all entries, and the sum of the outputs as loss: both gradients are
`1 + 1`, and the factor holds their mean square 4. -/
example : ∃ (es : (keepDims [1] 1 [2]).prod = [1].prod) (g : Fin 2 → Fin [1].prod → ℝ),
    (∀ n, IsGrad (fun θ => ∑ o, scaleLayer (N := 2) [2] [1] n (fun _ => 1) θ o) 0 (g n)) ∧
    ∀ k, diagonalCov (scaleGrads (N := 2) [2] [1] (fun _ _ => 1) (fun _ _ => 1)) k =
      (∑ n, g n (Fin.cast es k) ^ 2) / (2 : ℕ) ∧ (∑ n, g n (Fin.cast es k) ^ 2) / (2 : ℕ) = 4 := by
  obtain ⟨es, g, h1, -, h3⟩ := C72_scale_only (N := 2) (d := [2]) (s := [1]) (scaleAxes := [1]) (by simp)
    ⟨by simp, by simp⟩ (by simp [broadcastDims, dimsLoop, List.range_succ, bind, Except.bind, pure, Except.pure])
    (fun _ _ => 1) (fun _ _ => 1) (fun _ s => ∑ o, s o) 0 (fun n => by
      refine HasFDerivAt.congr_fderiv (HasFDerivAt.fun_sum fun o _ =>
        (ContinuousLinearMap.proj (R := ℝ) (φ := fun _ : Fin [2].prod => ℝ) o).hasFDerivAt) ?_
      exact Finset.sum_congr rfl fun o _ => (one_smul ℝ _).symm)
  refine ⟨es, g, h1, fun k => ⟨h3 k, ?_⟩⟩
  rw [← h3 k, diagonalCov_apply]
  have h5 : ∀ n, scaleGrads (N := 2) [2] [1] (fun _ _ => (1 : ℝ)) (fun _ _ => 1) n k = 2 := by
    intro n
    have : ∀ a b : ℕ, keepDims [1] 1 (unravel [2] b) = unravel (keepDims [1] 1 [2]) a := by
      intro a b
      simp [keepDims, unravel]
    simp only [scaleGrads, reduceRow]
    rw [Finset.sum_congr rfl fun (o : Fin [2].prod) _ => if_pos (this k o), Finset.sum_const, Finset.card_univ,
      Fintype.card_fin]
    norm_num
  simp only [h5]
  norm_num

/-- The size of the statistics is the number of parameters. -/
theorem C72_size {N : ℕ} {d s h scaleAxes shiftAxes : List ℕ} (hd : ∀ a ∈ N :: d, 0 < a)
    (hs : Fits s (N :: d)) (hs' : broadcastDims false s (N :: d) = .ok scaleAxes)
    (hh : broadcastDims true h (N :: d) = .ok shiftAxes) :
    covSize d scaleAxes = s.prod ∧ covSize d shiftAxes = h.prod :=
  ⟨(broadcastDims_ravel hs' hs hd).1, (broadcastDims_ravel hh ((C71_shift_accepted hd).1 ⟨_, hh⟩).1 hd).1⟩

end Kfac.Grad
