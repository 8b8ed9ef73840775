import Verif.Opt.PropsUpdate
import Mathlib.LinearAlgebra.Matrix.NonsingularInverse

/-! # C117: the step solves the trust-region problem (optimizer.py 783-857) -/

set_option linter.unusedSectionVars false

namespace Kfac.Opt

open Matrix

variable {ι κ : Type} [Fintype ι] [Fintype κ] [DecidableEq ι]

/-! ### Specification -/

/-- The quadratic model of the loss with gradient `g` and curvature `F / lr`, at a step `δ`. -/
noncomputable def stepModel (F : Matrix ι ι ℝ) (lr : ℝ) (g δ : Vec ι) : ℝ := g ⬝ᵥ δ + 1 / (2 * lr) * (δ ⬝ᵥ F *ᵥ δ)

/-- `δ` is the only minimiser of the model among all steps whose squared norm for `F` is at most the constraint, if there is one. -/
def SolvesTrustRegion (F : Matrix ι ι ℝ) (lr : ℝ) (constraint : Option ℝ) (g δ : Vec ι) : Prop :=
  (∀ c ∈ constraint, δ ⬝ᵥ F *ᵥ δ ≤ c) ∧
  ∀ δ', (∀ c ∈ constraint, δ' ⬝ᵥ F *ᵥ δ' ≤ c) → δ' ≠ δ → stepModel F lr g δ < stepModel F lr g δ'

/-! ### Proof -/

theorem quadratic_pos {P F : Matrix ι ι ℝ} (hFP : F * P = 1) (hpos : ∀ v, v ≠ 0 → 0 < v ⬝ᵥ P *ᵥ v) {x : Vec ι} (hx : x ≠ 0) :
    0 < x ⬝ᵥ F *ᵥ x := by
  have hPF : P * F = 1 := mul_eq_one_comm.1 hFP
  have e : P *ᵥ (F *ᵥ x) = x := by rw [mulVec_mulVec, hPF, one_mulVec]
  have hne : F *ᵥ x ≠ 0 := by
    intro h
    rw [h, mulVec_zero] at e
    exact hx e.symm
  have := hpos _ hne
  rwa [e, dotProduct_comm] at this

theorem symm_inverse {P F : Matrix ι ι ℝ} (hFP : F * P = 1) (hsym : P.transpose = P) : F.transpose = F := by
  have h1 : P * F.transpose = 1 := by
    have := congrArg transpose hFP
    rwa [transpose_mul, hsym, transpose_one] at this
  calc F.transpose = F * P * F.transpose := by rw [hFP, Matrix.one_mul]
    _ = F := by rw [Matrix.mul_assoc, h1, Matrix.mul_one]

/-- A step opposite to the preconditioned gradient, of full length or shortened to the boundary. -/
theorem solves_of_ray {P F : Matrix ι ι ℝ} (hFP : F * P = 1) (hsym : P.transpose = P) (hpos : ∀ v, v ≠ 0 → 0 < v ⬝ᵥ P *ᵥ v)
    {lr a : ℝ} (hlr : 0 < lr) (ha : 0 < a) (ha1 : a ≤ 1) (constraint : Option ℝ) (g : Vec ι)
    (hin : ∀ c ∈ constraint, (-(lr • a • P *ᵥ g)) ⬝ᵥ F *ᵥ (-(lr • a • P *ᵥ g)) ≤ c)
    (hedge : a = 1 ∨ ∃ c ∈ constraint, (-(lr • a • P *ᵥ g)) ⬝ᵥ F *ᵥ (-(lr • a • P *ᵥ g)) = c) :
    SolvesTrustRegion F lr constraint g (-(lr • a • P *ᵥ g)) := by
  refine ⟨hin, fun δ hδ hne => ?_⟩
  set δ0 : Vec ι := -(lr • a • P *ᵥ g) with h0
  have hFδ : F *ᵥ δ0 = -((lr * a) • g) := by
    rw [h0, mulVec_neg, mulVec_smul, mulVec_smul, mulVec_mulVec, hFP, one_mulVec, smul_smul]
  have hg : g = -((1 / (lr * a)) • F *ᵥ δ0) := by
    rw [hFδ, smul_neg, neg_neg, smul_smul, one_div_mul_cancel (by positivity), one_smul]
  have hS := symm_inverse hFP hsym
  have hcomm : δ0 ⬝ᵥ F *ᵥ δ = δ ⬝ᵥ F *ᵥ δ0 := by
    rw [dotProduct_mulVec, ← mulVec_transpose, hS, dotProduct_comm]
  have hk : 0 < δ ⬝ᵥ F *ᵥ δ - 2 * (δ ⬝ᵥ F *ᵥ δ0) + δ0 ⬝ᵥ F *ᵥ δ0 := by
    have := quadratic_pos hFP hpos (sub_ne_zero.2 hne)
    rw [mulVec_sub, dotProduct_sub, sub_dotProduct, sub_dotProduct, hcomm] at this
    linarith
  have hgd : ∀ x : Vec ι, g ⬝ᵥ x = -(1 / (lr * a) * (x ⬝ᵥ F *ᵥ δ0)) := by
    intro x
    conv_lhs => rw [hg]
    rw [neg_dotProduct, smul_dotProduct, smul_eq_mul, dotProduct_comm]
  rw [stepModel, stepModel, hgd, hgd]
  set n := δ ⬝ᵥ F *ᵥ δ
  set n0 := δ0 ⬝ᵥ F *ᵥ δ0
  set m := δ ⬝ᵥ F *ᵥ δ0
  have hbound : 0 ≤ (n0 - n) * (1 - a) := by
    rcases hedge with h | ⟨c, hc, h⟩
    · rw [h]; simp
    · exact mul_nonneg (by have := hδ c hc; linarith) (by linarith)
  have key : (-(1 / (lr * a) * m) + 1 / (2 * lr) * n) - (-(1 / (lr * a) * n0) + 1 / (2 * lr) * n0) =
      1 / (2 * lr * a) * ((n - 2 * m + n0) + (n0 - n) * (1 - a)) := by
    field_simp
    ring
  have : 0 < 1 / (2 * lr * a) * ((n - 2 * m + n0) + (n0 - n) * (1 - a)) := by positivity
  linarith

/-- C117: the clipped and preconditioned vector times the learning rate. -/
theorem C117_clip (cfg : Config) (hlr : 0 < cfg.learningRate) (hc : ∀ c ∈ cfg.normConstraint, 0 < c) (P F : Matrix ι ι ℝ)
    (hFP : F * P = 1) (hsym : P.transpose = P) (hpos : ∀ v, v ≠ 0 → 0 < v ⬝ᵥ P *ᵥ v) (v : Vec ι) :
    SolvesTrustRegion F cfg.learningRate cfg.normConstraint v (-(cfg.learningRate • clipUpdates cfg v (P *ᵥ v))) := by
  rcases hcfg : cfg.normConstraint with _ | c
  · have e : clipUpdates cfg v (P *ᵥ v) = (1 : ℝ) • P *ᵥ v := by simp [clipUpdates, hcfg]
    rw [e]
    exact solves_of_ray hFP hsym hpos hlr one_pos le_rfl none v (by simp) (Or.inl rfl)
  · have hc0 : 0 < c := hc c hcfg
    obtain ⟨h1, ⟨a, ha, ha1, h2⟩, h3, h4⟩ := C41_clip cfg c hcfg hc0 P F hFP hpos v
    have e : cfg.learningRate • clipUpdates cfg v (P *ᵥ v) = cfg.learningRate • a • P *ᵥ v := by
      rw [h2, smul_comm]
    have n : ∀ x : Vec ι, (-x) ⬝ᵥ F *ᵥ (-x) = x ⬝ᵥ F *ᵥ x := fun x => by rw [mulVec_neg, neg_dotProduct_neg]
    by_cases hfull : (cfg.learningRate • P *ᵥ v) ⬝ᵥ F *ᵥ (cfg.learningRate • P *ᵥ v) ≤ c
    · have h5 := h3 hfull
      have e1 : cfg.learningRate • clipUpdates cfg v (P *ᵥ v) = cfg.learningRate • (1 : ℝ) • P *ᵥ v := by rw [h5, one_smul]
      rw [e1]
      refine solves_of_ray hFP hsym hpos hlr one_pos le_rfl (some c) v ?_ (Or.inl rfl)
      intro c' hc'
      cases hc'
      rw [n, ← e1]
      exact h1
    · have h5 := h4 (not_le.1 hfull)
      rw [e] at h1 h5 ⊢
      refine solves_of_ray hFP hsym hpos hlr ha ha1 (some c) v ?_ (Or.inr ⟨c, rfl, by rw [n]; exact h5⟩)
      intro c' hc'
      cases hc'
      rw [n]
      exact h1

/-- C117: with momentum type "adam" every step of every run solves the problem for the accumulated gradient. -/
theorem C117_adam (cfg : Config) (hm : cfg.momentumType = .adam) (hw : cfg.weightDecay = none) (hlr : 0 < cfg.learningRate)
    (hc : ∀ c ∈ cfg.normConstraint, 0 < c) (inputs : ℕ → StepIn ι κ) (s0 : State ι) (hv : s0.velocity = 0) (t : ℕ)
    (F : Matrix ι ι ℝ) (hFP : F * (inputs t).precon = 1) (hsym : (inputs t).precon.transpose = (inputs t).precon)
    (hpos : ∀ v, v ≠ 0 → 0 < v ⬝ᵥ (inputs t).precon *ᵥ v) :
    let s := trace cfg inputs s0
    SolvesTrustRegion F cfg.learningRate cfg.normConstraint
      (∑ u ∈ Finset.range (t + 1), cfg.momentum ^ (t - u) • (inputs u).grad (s u).params)
      ((s (t + 1)).params - (s t).params) := by
  intro s
  have hs : ∀ t, s (t + 1) = optStep cfg (inputs t) (s t) := fun _ => rfl
  have hvel : (s (t + 1)).velocity = ∑ u ∈ Finset.range (t + 1), cfg.momentum ^ (t - u) • (inputs u).grad (s u).params := by
    have := geometric cfg.momentum (fun t => (s t).velocity) (fun u => (inputs u).grad (s u).params)
      (fun t => by rw [hs]; exact ((optStep_eq cfg (inputs t) (s t)).2 hm).1) (t + 1)
    rw [this, show (s 0).velocity = 0 from hv, smul_zero, zero_add]
    rfl
  have hd : (s (t + 1)).params - (s t).params = -(cfg.learningRate • clipUpdates cfg (s (t + 1)).velocity
      ((inputs t).precon *ᵥ (s (t + 1)).velocity)) := by
    rw [hs t, ((optStep_eq cfg (inputs t) (s t)).2 hm).2]
    simp [addWeightDecay, hw]
  rw [hd, ← hvel]
  exact C117_clip cfg hlr hc _ F hFP hsym hpos _

/-- C117: with momentum type "regular" the part of the step which does not come from the velocity solves it for the gradient; this is
the whole step without momentum and in the first step. -/
theorem C117_regular (cfg : Config) (hm : cfg.momentumType = .regular) (hw : cfg.weightDecay = none) (hlr : 0 < cfg.learningRate)
    (hc : ∀ c ∈ cfg.normConstraint, 0 < c) (inputs : ℕ → StepIn ι κ) (s0 : State ι) (hv : s0.velocity = 0) (t : ℕ)
    (F : Matrix ι ι ℝ) (hFP : F * (inputs t).precon = 1) (hsym : (inputs t).precon.transpose = (inputs t).precon)
    (hpos : ∀ v, v ≠ 0 → 0 < v ⬝ᵥ (inputs t).precon *ᵥ v) :
    let s := trace cfg inputs s0
    let last := if t = 0 then 0 else (s t).params - (s (t - 1)).params
    SolvesTrustRegion F cfg.learningRate cfg.normConstraint ((inputs t).grad (s t).params)
      ((s (t + 1)).params - (s t).params - cfg.momentum • last) := by
  intro s last
  have hs : ∀ t, s (t + 1) = optStep cfg (inputs t) (s t) := fun _ => rfl
  have hstep : ∀ t, (s (t + 1)).params - (s t).params = -(cfg.learningRate • (s (t + 1)).velocity) := by
    intro t
    rw [hs t, ((optStep_eq cfg (inputs t) (s t)).1 hm).2]
    simp [addWeightDecay, hw]
  have hlast : last = -(cfg.learningRate • (s t).velocity) := by
    rcases t with _ | t
    · simp [last, show (s 0).velocity = 0 from hv]
    · simp only [last, Nat.add_one_ne_zero, if_false, Nat.add_sub_cancel]
      exact hstep t
  have hd : (s (t + 1)).params - (s t).params - cfg.momentum • last = -(cfg.learningRate • clipUpdates cfg ((inputs t).grad (s t).params)
      ((inputs t).precon *ᵥ (inputs t).grad (s t).params)) := by
    rw [hstep, hlast, hs t, ((optStep_eq cfg (inputs t) (s t)).1 hm).1, smul_add, smul_neg, smul_comm cfg.momentum]
    abel
  rw [hd]
  exact C117_clip cfg hlr hc _ F hFP hsym hpos _

/-! ### Example -/

/-- With the curvature 1, the gradient 2, learning rate 1 and norm constraint 1 the unclipped step is -2 and the best step within the
constraint -1. -/
example : SolvesTrustRegion (1 : Matrix Unit Unit ℝ) 1 (some 1) (fun _ => 2) (fun _ => -1) := by
  have := C117_regular clipDemoConfig rfl rfl one_pos (by intro c hc; cases hc; exact one_pos) (fun _ => clipDemoInput)
    (State.init (fun _ => 0) 1) rfl 0 1 (by simp [clipDemoInput]) (by simp [clipDemoInput]) (by
      intro v hv
      simp only [clipDemoInput, Matrix.one_mulVec, dotProduct, Finset.univ_unique, Finset.sum_singleton]
      have : v () ≠ 0 := fun h => hv (funext fun _ => h)
      exact mul_self_pos.2 this)
  refine Eq.subst (motive := fun δ => SolvesTrustRegion (1 : Matrix Unit Unit ℝ) 1 (some 1) (fun _ => 2) δ) ?_ this
  funext i
  have h := ((optStep_eq clipDemoConfig clipDemoInput (State.init (fun _ => 0) 1)).1 rfl)
  have e : (trace clipDemoConfig (fun _ => clipDemoInput) (State.init (fun _ => 0) 1) (0 + 1)) =
    optStep clipDemoConfig clipDemoInput (State.init (fun _ => 0) 1) := rfl
  rw [e, h.2, h.1]
  have e2 : clipDemoInput.grad (State.init (fun _ => 0) 1).params = fun _ => (2 : ℝ) := rfl
  have e3 : clipDemoInput.precon *ᵥ (fun _ => (2 : ℝ)) = fun _ => 2 := by simp [clipDemoInput]
  rw [e2, e3, clipDemo_clip clipDemoConfig rfl rfl]
  simp [addWeightDecay, clipDemoConfig, State.init, trace]

end Kfac.Opt
