import Verif.Examples.Rnn
import Mathlib.Analysis.SpecialFunctions.Trigonometric.DerivHyp
import Mathlib.Analysis.Calculus.Deriv.Pi
import Mathlib.Analysis.Calculus.Deriv.Prod
import Mathlib.Analysis.Calculus.Deriv.Comp
import Mathlib.Analysis.Calculus.Deriv.Mul
import Mathlib.Analysis.Calculus.Deriv.Inv
import Mathlib.Analysis.Calculus.Deriv.Add
import Mathlib.Tactic.Linarith
import Mathlib.Tactic.Ring
import Mathlib.Tactic.FieldSimp

/-! # C122: the recurrent example registers the right tensors -/

namespace Kfac.Examples

/-- `g` is the gradient of `f`. -/
def IsGradient {h : ℕ} (f : Vec h → ℝ) (g : Vec h → Vec h) : Prop :=
  ∀ a, HasFDerivAt f (∑ j, g a j • (ContinuousLinearMap.proj j : Vec h →L[ℝ] ℝ)) a

/-- The program adds nothing to the tensors. -/
def plainStep {m : ℕ} (h : ℕ) (x : Vec m) : Step m h := ⟨x, 0, 0, 0⟩

/-- `t` times the additions. -/
def Step.scale {m h : ℕ} (t : ℝ) (e : Step m h) : Step m h :=
  ⟨e.x, fun j => t * e.dIn j, fun j => t * e.dRec j, fun j => t * e.dS j⟩

/-- The variables moved by `t` in the direction `d`. -/
def Rnn.move {m h : ℕ} (p d : Rnn m h) (t : ℝ) : Rnn m h where
  wIn := fun i j => p.wIn i j + t * d.wIn i j
  bIn := fun j => p.bIn j + t * d.bIn j
  wRec := fun i j => p.wRec i j + t * d.wRec i j
  bRec := fun j => p.bRec j + t * d.bRec j

/-- The direction that leaves the variables alone. -/
def Rnn.still (m h : ℕ) : Rnn m h := ⟨0, 0, 0, 0⟩

theorem hasDerivAt_tanh (x : ℝ) : HasDerivAt Real.tanh (1 - Real.tanh x ^ 2) x := by
  have hc : Real.cosh x ≠ 0 := (Real.cosh_pos x).ne'
  have h := (Real.hasDerivAt_sinh x).div (Real.hasDerivAt_cosh x) hc
  have hf : Real.tanh = fun y => Real.sinh y / Real.cosh y := by
    funext y; exact Real.tanh_eq_sinh_div_cosh y
  have he : 1 - Real.tanh x ^ 2 = (Real.cosh x * Real.cosh x - Real.sinh x * Real.sinh x) / Real.cosh x ^ 2 := by
    rw [Real.tanh_eq_sinh_div_cosh]
    field_simp
  rw [he, hf]
  exact h

theorem move_zero {m h : ℕ} (p d : Rnn m h) : p.move d 0 = p := by
  cases p; simp [Rnn.move]

theorem scale_zero {m h : ℕ} (e : Step m h) : e.scale 0 = plainStep h e.x := by
  simp only [Step.scale, plainStep, zero_mul]; rfl

theorem move_still {m h : ℕ} (p : Rnn m h) (t : ℝ) : p.move (Rnn.still m h) t = p := by
  cases p; simp [Rnn.move, Rnn.still]

/-- How the loss reacts to the additions and the movement at one step. -/
noncomputable def stepResponse {m h : ℕ} (d : Rnn m h) (e : Step m h) (a : Vec h) (g : StepGrads h) : ℝ :=
  ∑ j, (g.gIn j * (e.dIn j + ∑ i, e.x i * d.wIn i j + d.bIn j) +
    g.gRec j * (e.dRec j + ∑ i, a i * d.wRec i j + d.bRec j) + g.gS j * e.dS j)

theorem hasDerivAt_pre {m h : ℕ} (p d : Rnn m h) (e : Step m h) (a : ℝ → Vec h) (a' : Vec h)
    (ha : ∀ j, HasDerivAt (fun t => a t j) (a' j) 0) (j : Fin h) :
    HasDerivAt (fun t => (p.move d t).pre (e.scale t) (a t) j)
      ((∑ i, e.x i * d.wIn i j + d.bIn j + e.dIn j) +
        (∑ i, (a' i * p.wRec i j + a 0 i * d.wRec i j) + d.bRec j + e.dRec j) + e.dS j) 0 := by
  have lin : ∀ c k : ℝ, HasDerivAt (fun t : ℝ => c + t * k) k 0 := fun c k => by
    simpa using ((hasDerivAt_id (0 : ℝ)).mul_const k).const_add c
  have lin0 : ∀ k : ℝ, HasDerivAt (fun t : ℝ => t * k) k 0 := fun k => by
    simpa using (hasDerivAt_id (0 : ℝ)).mul_const k
  have h1 : HasDerivAt (fun t : ℝ => ∑ i, e.x i * (p.wIn i j + t * d.wIn i j)) (∑ i, e.x i * d.wIn i j) 0 :=
    HasDerivAt.fun_sum fun i _ => (lin _ _).const_mul _
  have h2 : HasDerivAt (fun t : ℝ => ∑ i, a t i * (p.wRec i j + t * d.wRec i j))
      (∑ i, (a' i * p.wRec i j + a 0 i * d.wRec i j)) 0 :=
    HasDerivAt.fun_sum fun i _ => by simpa using (ha i).fun_mul (lin (p.wRec i j) (d.wRec i j))
  exact (((h1.fun_add (lin _ _)).fun_add (lin0 _)).fun_add ((h2.fun_add (lin _ _)).fun_add (lin0 _))).fun_add (lin0 _)

theorem gradient_curve {h : ℕ} {f : Vec h → ℝ} {g : Vec h → Vec h} (hf : IsGradient f g) (a : ℝ → Vec h) (a' : Vec h)
    (ha : ∀ j, HasDerivAt (fun t => a t j) (a' j) 0) : HasDerivAt (fun t => f (a t)) (∑ j, g (a 0) j * a' j) 0 := by
  have h1 : HasDerivAt a a' 0 := hasDerivAt_pi.mpr ha
  have h2 := (hf (a 0)).comp_hasDerivAt 0 h1
  have h3 : (∑ j, g (a 0) j • (ContinuousLinearMap.proj j : Vec h →L[ℝ] ℝ)) a' = ∑ j, g (a 0) j * a' j := by simp
  rw [← h3]
  exact h2

theorem backward_spec {m h : ℕ} (p d : Rnn m h) {f : Vec h → ℝ} {gOut : Vec h → Vec h} (hf : IsGradient f gOut)
    (es : List (Step m h)) : ∀ (a : ℝ → Vec h) (a' : Vec h), (∀ j, HasDerivAt (fun t => a t j) (a' j) 0) →
    HasDerivAt (fun t => f ((p.move d t).output (es.map (Step.scale t)) (a t)))
      (∑ j, (p.backward gOut (es.map fun e => plainStep h e.x) (a 0)).1 j * a' j +
        ((es.zip ((p.activations (es.map fun e => plainStep h e.x) (a 0)).zip
          (p.backward gOut (es.map fun e => plainStep h e.x) (a 0)).2)).map
            fun q => stepResponse d q.1 q.2.1 q.2.2).sum) 0 := by
  induction es with
  | nil =>
    intro a a' ha
    simpa [Rnn.output, Rnn.backward] using gradient_curve hf a a' ha
  | cons e es ih =>
    intro a a' ha
    have hp := hasDerivAt_pre p d e a a' ha
    have h0 : ∀ j, (p.move d 0).pre (e.scale 0) (a 0) j = p.pre (plainStep h e.x) (a 0) j := fun j => by
      rw [move_zero, scale_zero]
    have hb := ih (fun t j => Real.tanh ((p.move d t).pre (e.scale t) (a t) j))
      (fun j => (1 - Real.tanh (p.pre (plainStep h e.x) (a 0) j) ^ 2) *
        ((∑ i, e.x i * d.wIn i j + d.bIn j + e.dIn j) +
        (∑ i, (a' i * p.wRec i j + a 0 i * d.wRec i j) + d.bRec j + e.dRec j) + e.dS j))
      (fun j => by
        have h1 := (hasDerivAt_tanh ((p.move d 0).pre (e.scale 0) (a 0) j)).comp (0 : ℝ) (hp j)
        rw [h0] at h1
        exact h1)
    simp only [h0] at hb
    simp only [List.map_cons, Rnn.output, Rnn.backward, Rnn.activations, List.zip_cons_cons, List.sum_cons]
    convert hb using 1
    rw [← add_assoc]
    congr 1
    simp only [stepResponse, Finset.sum_mul]
    rw [Finset.sum_comm, ← Finset.sum_add_distrib]
    refine Finset.sum_congr rfl fun j _ => ?_
    have hs : ∑ i, p.wRec i j * ((p.backward gOut (es.map fun e => plainStep h e.x)
        fun j => Real.tanh (p.pre (plainStep h e.x) (a 0) j)).1 j * (1 - Real.tanh (p.pre (plainStep h e.x) (a 0) j) ^ 2)) * a' i =
        ((p.backward gOut (es.map fun e => plainStep h e.x)
        fun j => Real.tanh (p.pre (plainStep h e.x) (a 0) j)).1 j * (1 - Real.tanh (p.pre (plainStep h e.x) (a 0) j) ^ 2)) *
          ∑ i, a' i * p.wRec i j := by
      rw [Finset.mul_sum]; exact Finset.sum_congr rfl fun i _ => by ring
    rw [hs, Finset.sum_add_distrib]
    ring

theorem backward_length {m h : ℕ} (p : Rnn m h) (gOut : Vec h → Vec h) (es : List (Step m h)) :
    ∀ a, (p.backward gOut es a).2.length = es.length ∧ (p.activations es a).length = es.length := by
  induction es with
  | nil => intro a; simp [Rnn.backward, Rnn.activations]
  | cons e es ih => intro a; simp [Rnn.backward, Rnn.activations, ih]

theorem backward_same {m h : ℕ} (p : Rnn m h) (gOut : Vec h → Vec h) (es : List (Step m h)) :
    ∀ a, ∀ g ∈ (p.backward gOut es a).2, g.gIn = g.gS ∧ g.gRec = g.gS := by
  induction es with
  | nil => intro a; simp [Rnn.backward]
  | cons e es ih =>
    intro a g hg
    simp only [Rnn.backward, List.mem_cons] at hg
    rcases hg with rfl | hg
    · exact ⟨rfl, rfl⟩
    · exact ih _ g hg

/-- C122, the tensors: whatever is added to the tensors of the three kinds at all time steps, the loss changes at the rate
given by the gradients the program computes for them; and these are the same for `s_in`, `s_rec` and `s`. -/
theorem C122_gradients {m h : ℕ} (p : Rnn m h) {f : Vec h → ℝ} {gOut : Vec h → Vec h} (hf : IsGradient f gOut)
    (es : List (Step m h)) (a : Vec h) :
    ∃ gs : List (StepGrads h), (p.backward gOut (es.map fun e => plainStep h e.x) a).2 = gs ∧ gs.length = es.length ∧
      (∀ g ∈ gs, g.gIn = g.gS ∧ g.gRec = g.gS) ∧
      HasDerivAt (fun t => f (p.output (es.map (Step.scale t)) a))
        ((es.zip gs).map fun q => ∑ j, (q.2.gIn j * q.1.dIn j + q.2.gRec j * q.1.dRec j + q.2.gS j * q.1.dS j)).sum 0 := by
  refine ⟨_, rfl, ?_, backward_same p gOut _ a, ?_⟩
  · rw [(backward_length p gOut _ a).1, List.length_map]
  · have h1 := backward_spec p (Rnn.still m h) hf es (fun _ => a) 0 (fun j => hasDerivAt_const _ _)
    simp only [move_still] at h1
    convert h1 using 1
    simp only [Pi.zero_apply, mul_zero, Finset.sum_const_zero, zero_add]
    generalize hg : (p.backward gOut (es.map fun e => plainStep h e.x) a).2 = gs
    generalize hac : p.activations (es.map fun e => plainStep h e.x) a = acts
    have hl : acts.length = gs.length := by
      rw [← hg, ← hac, (backward_length p gOut _ a).1, (backward_length p gOut _ a).2]
    have hz : gs = (acts.zip gs).map Prod.snd := (List.map_snd_zip (by omega)).symm
    conv_lhs => rw [hz]
    rw [List.zip_map_right, List.map_map]
    congr 1
    refine List.map_congr_left fun q _ => ?_
    simp [stepResponse, Rnn.still]

/-- C122, the layers: the gradient of the loss with respect to the variables of the recurrent part is what the
approximations for layers with several uses take it to be, the sum over the registered uses of the products of the input
of the use and the gradient of its output. -/
theorem C122_uses {m h : ℕ} (p d : Rnn m h) {f : Vec h → ℝ} {gOut : Vec h → Vec h} (hf : IsGradient f gOut)
    (xs : List (Vec m)) :
    HasDerivAt (fun t => f ((p.move d t).output (xs.map (plainStep h)) 0))
      (((p.registered gOut (xs.map (plainStep h)) 0).1.map fun q =>
          ∑ j, q.2 j * (∑ i, q.1 i * d.wIn i j + d.bIn j)).sum +
        ((p.registered gOut (xs.map (plainStep h)) 0).2.map fun q =>
          ∑ j, q.2 j * (∑ i, q.1 i * d.wRec i j + d.bRec j)).sum) 0 := by
  have h1 := backward_spec p d hf (xs.map (plainStep h)) (fun _ => 0) 0 (fun j => hasDerivAt_const _ _)
  have hsc : ∀ t : ℝ, (xs.map (plainStep h)).map (Step.scale t) = xs.map (plainStep h) := fun t => by
    rw [List.map_map]
    refine List.map_congr_left fun x _ => ?_
    simp [Step.scale, plainStep]; rfl
  have hpl : (xs.map (plainStep h)).map (fun e => plainStep h e.x) = xs.map (plainStep h) := by
    rw [List.map_map]; rfl
  simp only [hsc, hpl] at h1
  convert h1 using 1
  simp only [Pi.zero_apply, mul_zero, Finset.sum_const_zero, zero_add, Rnn.registered]
  have hx : (xs.map (plainStep h)).map (·.x) = xs := by rw [List.map_map]; exact List.map_id xs
  rw [hx]
  have hl := backward_length p gOut (xs.map (plainStep h)) 0
  generalize (p.backward gOut (xs.map (plainStep h)) 0).2 = gs at hl ⊢
  generalize p.activations (xs.map (plainStep h)) 0 = acts at hl ⊢
  rw [List.length_map] at hl
  obtain ⟨hl1, hl2⟩ := hl
  clear h1 hsc hpl hx
  induction xs generalizing gs acts with
  | nil => cases gs <;> cases acts <;> simp_all
  | cons x xs ih =>
    cases gs with
    | nil => simp at hl1
    | cons g gs =>
      cases acts with
      | nil => simp at hl2
      | cons b acts =>
        have := ih gs acts (by simpa using hl1) (by simpa using hl2)
        simp only [List.map_cons, List.zip_cons_cons, List.sum_cons] at this ⊢
        rw [← this]
        simp only [stepResponse, plainStep, Pi.zero_apply, mul_zero, zero_add, add_zero, Finset.sum_add_distrib]
        ring

/-- C122, the comment in the example: registering `s_list` for both layers gives every use the same input and gradient. -/
theorem C122_comment {m h : ℕ} (p : Rnn m h) (gOut : Vec h → Vec h) (xs : List (Vec m)) :
    p.registeredS gOut (xs.map (plainStep h)) 0 = p.registered gOut (xs.map (plainStep h)) 0 := by
  have hs := backward_same p gOut (xs.map (plainStep h)) 0
  simp only [Rnn.registeredS, Rnn.registered]
  rw [List.map_congr_left (fun g hg => (hs g hg).1.symm : ∀ g ∈ (p.backward gOut (xs.map (plainStep h)) 0).2, g.gS = g.gIn)]
  rw [List.map_congr_left (fun g hg => (hs g hg).1.trans (hs g hg).2.symm :
    ∀ g ∈ (p.backward gOut (xs.map (plainStep h)) 0).2, g.gIn = g.gRec)]

/-- The sum of the outputs is a loss with a gradient. -/
example (h : ℕ) : IsGradient (fun a : Vec h => ∑ j, a j) (fun _ _ => 1) := by
  intro a
  have : (fun a : Vec h => ∑ j, a j) = (∑ j, (1 : ℝ) • (ContinuousLinearMap.proj j : Vec h →L[ℝ] ℝ) : Vec h →L[ℝ] ℝ) := by
    funext b; simp
  rw [this]
  exact ContinuousLinearMap.hasFDerivAt _

end Kfac.Examples
