import Verif.Est.Moments
import Mathlib.Tactic.FinCases

/-!
# C79 — what the estimation modes estimate

Every estimation mode but the empirical one is meant to yield statistics whose value (`"exact"`) or expectation
(`"gradients"`, `"curvature_prop"`) is the mean over the examples of `Σ_k coeff_k J_kᵀ F_k J_k`.
-/

namespace Kfac.Est
open Kfac.Loss MeasureTheory ProbabilityTheory

variable {N n T K : ℕ} {q : Fin T → ℕ}

/-- The mean over the examples of the curvature by the rows of tensor `t`. -/
noncomputable def target (ls : Losses N q K) (t : Fin T) (p p' : Fin (q t)) : ℝ := (∑ b, curvature ls t b p p') / N

/-! ### Second moments of the combined gradient -/

/-- The coordinates of all losses. -/
abbrev Coord (ls : Losses N q K) := (k : Fin K) × (Bool × Fin (ls k).n)

/-- The gradient as one sum over all coordinates. -/
def combined (ls : Losses N q K) (t : Fin T) (w : (k : Fin K) → Val N (ls k).n) : Batch N (q t) := fun b p =>
  ∑ c : Coord ls, Jac.at ((ls c.1).jac t) b c.2 p * Val.at (w c.1) b c.2

theorem combined_eq (ls : Losses N q K) (t : Fin T) (w : (k : Fin K) → Val N (ls k).n) :
    (fun b p => ∑ k, ∑ a, Jac.at ((ls k).jac t) b a p * Val.at (w k) b a) = combined ls t w := by
  funext b p
  rw [combined, Fintype.sum_sigma]

/-- The second moments of `grad_ys` with the right covariance give the curvature. -/
theorem moments_curvature (ls : Losses N q K) (t : Fin T) (b b' : Fin N) (p p' : Fin (q t)) :
    ∑ c : Coord ls, ∑ c' : Coord ls, Jac.at ((ls c.1).jac t) b c.2 p * Jac.at ((ls c'.1).jac t) b' c'.2 p'
        * (if h : c.1 = c'.1 then if b = b' then (ls c.1).coeff * fisherMatrix (ls c.1).loss b c.2 (h ▸ c'.2) else 0 else 0)
      = if b = b' then curvature ls t b p p' else 0 := by
  by_cases hb : b = b'
  · subst hb
    simp only [if_true, curvature]
    rw [Fintype.sum_sigma]
    refine Finset.sum_congr rfl fun k _ => ?_
    rw [Finset.mul_sum]
    refine Finset.sum_congr rfl fun a _ => ?_
    rw [Fintype.sum_sigma, Finset.sum_eq_single k]
    · rw [Finset.mul_sum]
      refine Finset.sum_congr rfl fun a' _ => ?_
      simp only [dif_pos]
      ring
    · intro k' _ hk'
      apply Finset.sum_eq_zero
      intro a' _
      rw [dif_neg (Ne.symm hk'), mul_zero]
    · simp
  · simp [hb]

theorem combined_mul (ls : Losses N q K) (t : Fin T) (w : (k : Fin K) → Val N (ls k).n) (b b' : Fin N) (p p' : Fin (q t)) :
    combined ls t w b p * combined ls t w b' p' = ∑ c : Coord ls, ∑ c' : Coord ls,
      Jac.at ((ls c.1).jac t) b c.2 p * Jac.at ((ls c'.1).jac t) b' c'.2 p' * (Val.at (w c.1) b c.2 * Val.at (w c'.1) b' c'.2) := by
  rw [combined, combined, Finset.sum_mul_sum]
  refine Finset.sum_congr rfl fun c _ => Finset.sum_congr rfl fun c' _ => ?_
  ring

theorem outputCov_one (g : Batch N n) (p p' : Fin n) : outputCov [g] p p' = (∑ b, g b p * g b p') / N := by
  rw [outputCov_apply _ (by simp)]; simp

theorem naiveCov_one (g : Batch N n) (p p' : Fin n) : naiveCov [g] p p' = (∑ b, ∑ b', g b p * g b' p') / N := by
  simp [naiveCov, Finset.sum_mul_sum]

theorem noMissing_one {α : Type} (g : α) : noMissing [some g] = .ok [g] := rfl

theorem scaled_at (c : ℝ) (v : Val N n) (b : Fin N) (a : Bool × Fin n) : Val.at (scaled c v) b a = c * Val.at v b a := by
  cases v <;> simp only [scaled, Val.at] <;> split <;> simp

theorem scaled_fits (l : AnyLoss N n) (y : Targets l) (c : ℝ) : ValFits l (scaled c (lossGrad l y)) := by
  cases l <;> trivial

theorem single_fits (l : AnyLoss N n) (ho : OneInput l) (x : Batch N n) : ValFits l (.single x) := by
  cases l <;> trivial

/-! ### The modes -/

/-- `"gradients"`: with targets drawn independently from the predictive distributions of all losses, graph construction
succeeds and the expectations of the statistics of a Kronecker output factor and of a naive block are the target. The rows of
different examples are uncorrelated. -/
theorem C79_gradients (ls : Losses N q K) (h : Good ls) (t : Fin T) (hd : ∃ k, ((ls k).jac t).isSome) :
    ∃ g : ((k : Fin K) → Targets (ls k).loss) → Batch N (q t),
      (∀ y, (gradsGradients ls y t >>= noMissing) = .ok [g y]) ∧
      (∀ p p', Integrable (fun y => outputCov [g y] p p') (jointLaw ls) ∧
        ∫ y, outputCov [g y] p p' ∂jointLaw ls = target ls t p p') ∧
      (∀ p p', Integrable (fun y => naiveCov [g y] p p') (jointLaw ls) ∧
        ∫ y, naiveCov [g y] p p' ∂jointLaw ls = target ls t p p') ∧
      (∀ b b' p p', b ≠ b' → ∫ y, g y b p * g y b' p' ∂jointLaw ls = 0) := by
  let w : ((k : Fin K) → Targets (ls k).loss) → (k : Fin K) → Val N (ls k).n := fun y k =>
    scaled (Real.sqrt (ls k).coeff) (lossGrad (ls k).loss (y k))
  have key : ∀ b b' p p', Integrable (fun y => combined ls t (w y) b p * combined ls t (w y) b' p') (jointLaw ls) ∧
      ∫ y, combined ls t (w y) b p * combined ls t (w y) b' p' ∂jointLaw ls
        = if b = b' then curvature ls t b p p' else 0 := by
    intro b b' p p'
    have hpair : ∀ c c' : Coord ls, Integrable (fun y => Jac.at ((ls c.1).jac t) b c.2 p * Jac.at ((ls c'.1).jac t) b' c'.2 p'
          * (Val.at (w y c.1) b c.2 * Val.at (w y c'.1) b' c'.2)) (jointLaw ls) ∧
        ∫ y, Jac.at ((ls c.1).jac t) b c.2 p * Jac.at ((ls c'.1).jac t) b' c'.2 p'
          * (Val.at (w y c.1) b c.2 * Val.at (w y c'.1) b' c'.2) ∂jointLaw ls
        = Jac.at ((ls c.1).jac t) b c.2 p * Jac.at ((ls c'.1).jac t) b' c'.2 p'
        * (if h : c.1 = c'.1 then if b = b' then (ls c.1).coeff * fisherMatrix (ls c.1).loss b c.2 (h ▸ c'.2) else 0 else 0) := by
      intro c c'
      have hj := joint_pair ls h.valid c.1 c'.1 b b' c.2 c'.2
      have e : (fun y => Jac.at ((ls c.1).jac t) b c.2 p * Jac.at ((ls c'.1).jac t) b' c'.2 p'
          * (Val.at (w y c.1) b c.2 * Val.at (w y c'.1) b' c'.2))
          = fun y => (Jac.at ((ls c.1).jac t) b c.2 p * Jac.at ((ls c'.1).jac t) b' c'.2 p'
            * (Real.sqrt (ls c.1).coeff * Real.sqrt (ls c'.1).coeff))
            * (Val.at (lossGrad (ls c.1).loss (y c.1)) b c.2 * Val.at (lossGrad (ls c'.1).loss (y c'.1)) b' c'.2) := by
        funext y
        simp only [w, scaled_at]
        ring
      rw [e]
      refine ⟨hj.1.const_mul _, ?_⟩
      rw [integral_const_mul, hj.2, mul_assoc]
      congr 1
      obtain ⟨k, a⟩ := c
      obtain ⟨k', a'⟩ := c'
      by_cases hk : k = k'
      · subst hk
        simp only [dif_pos]
        by_cases hb : b = b'
        · rw [if_pos hb, if_pos hb, Real.mul_self_sqrt (h.coeff k)]
        · rw [if_neg hb, if_neg hb, mul_zero]
      · rw [dif_neg hk, dif_neg hk, mul_zero]
    simp only [combined_mul]
    refine ⟨integrable_finsetSum _ fun c _ => integrable_finsetSum _ fun c' _ => (hpair c c').1, ?_⟩
    rw [integral_finsetSum _ fun c _ => integrable_finsetSum _ fun c' _ => (hpair c c').1, ← moments_curvature]
    refine Finset.sum_congr rfl fun c _ => ?_
    rw [integral_finsetSum _ fun c' _ => (hpair c c').1]
    exact Finset.sum_congr rfl fun c' _ => (hpair c c').2
  refine ⟨fun y => combined ls t (w y), ?_, ?_, ?_, ?_⟩
  · intro y
    have hg := gradientsAll_eq ls (fun k => .ok (w y k)) (w y) t (fun _ => rfl) (fun k => h.fits k t)
      (fun k => scaled_fits _ _ _) hd
    unfold gradsGradients
    rw [hg, combined_eq]
    rfl
  · intro p p'
    simp only [outputCov_one]
    refine ⟨(integrable_finsetSum _ fun b _ => (key b b p p').1).div_const _, ?_⟩
    rw [integral_div, integral_finsetSum _ fun b _ => (key b b p p').1, target]
    congr 1
    refine Finset.sum_congr rfl fun b _ => ?_
    rw [(key b b p p').2, if_pos rfl]
  · intro p p'
    simp only [naiveCov_one]
    have hi : ∀ b, Integrable (fun y => ∑ b', combined ls t (w y) b p * combined ls t (w y) b' p') (jointLaw ls) :=
      fun b => integrable_finsetSum _ fun b' _ => (key b b' p p').1
    refine ⟨(integrable_finsetSum _ fun b _ => hi b).div_const _, ?_⟩
    rw [integral_div, integral_finsetSum _ fun b _ => hi b, target]
    congr 1
    refine Finset.sum_congr rfl fun b _ => ?_
    rw [integral_finsetSum _ fun b' _ => (key b b' p p').1]
    simp only [(key _ _ p p').2, Finset.sum_ite_eq, Finset.mem_univ, if_true]
  · intro b b' p p' hb
    rw [(key b b' p p').2, if_neg hb]

/-! #### Random signs -/

theorem signAverage_sum {ι : Type} [Fintype ι] (ls : Losses N q K) (f : ι → (SignIndex ls → Bool) → ℝ) :
    signAverage ls (fun x => ∑ i, f i x) = ∑ i, signAverage ls (f i) := by
  simp only [signAverage]
  rw [Finset.sum_comm, Finset.sum_div]

theorem signAverage_const_mul (ls : Losses N q K) (c : ℝ) (f : (SignIndex ls → Bool) → ℝ) :
    signAverage ls (fun x => c * f x) = c * signAverage ls f := by
  simp only [signAverage]
  rw [← Finset.mul_sum, mul_div_assoc]

theorem signAverage_pair (ls : Losses N q K) (i j : SignIndex ls) :
    signAverage ls (fun x => (if x i then 1 else -1) * (if x j then 1 else -1)) = if i = j then 1 else 0 := by
  have h := expect_pair (fun (_ : SignIndex ls) (_ : Bool) => (1 / 2 : ℝ)) (fun _ => by simp) i j
    (fun s => if s then (1 : ℝ) else -1) (fun s => if s then (1 : ℝ) else -1)
  have e : signAverage ls (fun x => (if x i then 1 else -1) * (if x j then 1 else -1))
      = ∑ y : SignIndex ls → Bool, (∏ _i : SignIndex ls, (1 / 2 : ℝ)) * ((if y i then (1 : ℝ) else -1) * (if y j then (1 : ℝ) else -1)) := by
    rw [← Finset.mul_sum, Finset.prod_const, Finset.card_univ, signAverage, one_div, inv_pow, div_eq_inv_mul]
  rw [e, h]
  norm_num

/-- `"curvature_prop"`, with the Fisher or the generalised Gauss-Newton: for losses with one input, the averages over all
signs of the statistics are the target. -/
theorem C79_curvature_prop_partial (mt : MatType) (ls : Losses N q K) (h : Good ls) (ho : ∀ k, OneInput (ls k).loss)
    (t : Fin T) (hd : ∃ k, ((ls k).jac t).isSome) :
    ∃ g : (SignIndex ls → Bool) → Batch N (q t),
      (∀ x, (gradsCurvatureProp mt ls (signsOf ls x) t >>= noMissing) = .ok [g x]) ∧
      (∀ p p', signAverage ls (fun x => outputCov [g x] p p') = target ls t p p') ∧
      (∀ p p', signAverage ls (fun x => naiveCov [g x] p p') = target ls t p p') ∧
      (∀ b b' p p', b ≠ b' → signAverage ls (fun x => g x b p * g x b' p') = 0) := by
  choose B hB1 hB2 hB3 using fun k => factor_spec (ls k).loss (ho k) (h.valid k)
  choose X hX1 hX2 using hB1
  let w : (SignIndex ls → Bool) → (k : Fin K) → Val N (ls k).n := fun x k =>
    .single fun b i => Real.sqrt (ls k).coeff * X k (signsOf ls x k) b i
  have hat : ∀ x k b i, Val.at (w x k) b (false, i)
      = Real.sqrt (ls k).coeff * ∑ m, B k b i m * (if x ⟨k, b, m⟩ then 1 else -1) := by
    intro x k b i
    simp only [w, Val.at, Bool.false_eq_true, if_false, hX2, signsOf]
  have hmom : ∀ (c c' : Coord ls) (b b' : Fin N),
      signAverage ls (fun x => Val.at (w x c.1) b c.2 * Val.at (w x c'.1) b' c'.2)
        = if h : c.1 = c'.1 then if b = b' then (ls c.1).coeff * fisherMatrix (ls c.1).loss b c.2 (h ▸ c'.2) else 0 else 0 := by
    rintro ⟨k, s, i⟩ ⟨k', s', i'⟩ b b'
    cases s
    · cases s'
      · simp only [hat]
        have e : ∀ x : SignIndex ls → Bool, Real.sqrt (ls k).coeff * (∑ m, B k b i m * (if x ⟨k, b, m⟩ then 1 else -1))
            * (Real.sqrt (ls k').coeff * ∑ m, B k' b' i' m * (if x ⟨k', b', m⟩ then 1 else -1))
            = ∑ m, ∑ m', (Real.sqrt (ls k).coeff * Real.sqrt (ls k').coeff * (B k b i m * B k' b' i' m'))
              * ((if x ⟨k, b, m⟩ then 1 else -1) * (if x ⟨k', b', m'⟩ then 1 else -1)) := by
          intro x
          rw [mul_mul_mul_comm, Finset.sum_mul_sum, Finset.mul_sum]
          refine Finset.sum_congr rfl fun m _ => ?_
          rw [Finset.mul_sum]
          refine Finset.sum_congr rfl fun m' _ => ?_
          ring
        simp only [e]
        rw [signAverage_sum]
        simp only [signAverage_sum, signAverage_const_mul, signAverage_pair]
        by_cases hk : k = k'
        · subst hk
          simp only [dif_pos]
          by_cases hb : b = b'
          · subst hb
            rw [if_pos rfl, Real.mul_self_sqrt (h.coeff k), ← hB2 k b i i', Finset.mul_sum]
            refine Finset.sum_congr rfl fun m _ => ?_
            rw [Finset.sum_eq_single m]
            · simp
            · intro m' _ hm'
              rw [if_neg (by simp [Ne.symm hm']), mul_zero]
            · simp
          · rw [if_neg hb]
            refine Finset.sum_eq_zero fun m _ => Finset.sum_eq_zero fun m' _ => ?_
            rw [if_neg (by simp [hb]), mul_zero]
        · rw [dif_neg hk]
          refine Finset.sum_eq_zero fun m _ => Finset.sum_eq_zero fun m' _ => ?_
          rw [if_neg (by simp [hk]), mul_zero]
      · have : ∀ x, Val.at (w x k') b' (true, i') = 0 := fun x => by simp [w, Val.at]
        by_cases hk : k = k'
        · subst hk
          simp [this, signAverage, (fisherMatrix_second _ (ho k) b i' (false, i)).2]
        · simp [this, signAverage, hk]
    · have : ∀ x, Val.at (w x k) b (true, i) = 0 := fun x => by simp [w, Val.at]
      by_cases hk : k = k'
      · subst hk
        simp [this, signAverage, (fisherMatrix_second _ (ho k) b i (s', i')).1]
      · simp [this, signAverage, hk]
  have key : ∀ b b' p p', signAverage ls (fun x => combined ls t (w x) b p * combined ls t (w x) b' p')
      = if b = b' then curvature ls t b p p' else 0 := by
    intro b b' p p'
    simp only [combined_mul]
    rw [signAverage_sum, ← moments_curvature]
    refine Finset.sum_congr rfl fun c _ => ?_
    rw [signAverage_sum]
    refine Finset.sum_congr rfl fun c' _ => ?_
    rw [signAverage_const_mul, hmom]
  refine ⟨fun x => combined ls t (w x), ?_, ?_, ?_, ?_⟩
  · intro x
    have hm : ∀ k v, multFactor mt (ls k).loss v = .ok (.single (X k v)) := by
      intro k v
      have h1 := hX1 k v
      have h2 := ho k
      cases mt
      · exact congrArg Except.ok h1
      · have hs : ggnSupported (ls k).loss = .ok () := by
          revert h2
          generalize (ls k).loss = l
          cases l <;> simp [OneInput, ggnSupported]
        simp only [multFactor, hs, bind, Except.bind, pure, Except.pure, h1]
    have hg := gradientsAll_eq ls (fun k => do
        let value ← multFactor mt (ls k).loss (signsOf ls x k)
        scaleVal (Real.sqrt (ls k).coeff) value) (w x) t
      (fun k => by simp only [hm, bind, Except.bind, scaleVal, w]) (fun k => h.fits k t)
      (fun k => single_fits _ (ho k) _) hd
    unfold gradsCurvatureProp
    rw [hg, combined_eq]
    rfl
  · intro p p'
    simp only [outputCov_one, div_eq_inv_mul]
    rw [signAverage_const_mul, signAverage_sum, target, div_eq_inv_mul]
    simp only [key, if_true]
  · intro p p'
    simp only [naiveCov_one, div_eq_inv_mul]
    rw [signAverage_const_mul, signAverage_sum, target, div_eq_inv_mul]
    congr 1
    refine Finset.sum_congr rfl fun b _ => ?_
    rw [signAverage_sum]
    simp only [key, Finset.sum_ite_eq, Finset.mem_univ, if_true]
  · intro b b' p p' hb
    rw [key, if_neg hb]

/-! #### One-hot vectors -/

theorem outputCov_nil (p p' : Fin n) : outputCov ([] : List (Batch N n)) p p' = 0 := by
  simp [outputCov, Stats.totalNewCov]

theorem noMissing_somes {α : Type} (l : List α) : noMissing (l.map some) = .ok l := by
  unfold noMissing
  rw [if_neg (by simp)]
  congr 1
  induction l with
  | nil => rfl
  | cons x l ih => simpa using ih

theorem sum_range_fin (f : ℕ → ℝ) (n : ℕ) : ((List.range n).map f).sum = ∑ m : Fin n, f m := by
  rw [← List.map_coe_finRange_eq_range, List.map_map, Fin.sum_univ_def]; rfl

theorem width_one (l : AnyLoss N n) (ho : OneInput l) : width l = n := by
  cases l <;> simp [OneInput, width] at ho ⊢

theorem exactCount_one (l : AnyLoss N n) (ho : OneInput l) : exactCount .fisher (kind l) [N, n] = .ok n := by
  rw [C16_exact_coordinates_partial]
  cases l <;> simp [OneInput, kind, Kind.innerShape] at ho ⊢

/-- What the exact mode computes for losses with one input: for every loss and coordinate `m` the gradient for column `m` of
the factor, or `None`. -/
theorem gradsExact_eq (ls : Losses N q K) (h : Good ls) (ho : ∀ k, OneInput (ls k).loss) (t : Fin T) :
    ∃ col : (k : Fin K) → ℕ → Val N (ls k).n,
      gradsExact .fisher ls t = .ok ((List.finRange K).flatMap fun k => (List.range (ls k).n).map fun m =>
        ((ls k).jac t).map fun _ b p => ∑ a, Jac.at ((ls k).jac t) b a p * Val.at (col k m) b a) ∧
      ∀ k b a a', ∑ m : Fin (ls k).n, Val.at (col k m) b a * Val.at (col k m) b a'
        = (ls k).coeff * fisherMatrix (ls k).loss b a a' := by
  choose B hB1 hB2 hB3 using fun k => factor_spec (ls k).loss (ho k) (h.valid k)
  choose X hX1 hX2 using hB3
  let col : (k : Fin K) → ℕ → Val N (ls k).n := fun k m =>
    if hm : m < width (ls k).loss then .single fun b i => Real.sqrt (ls k).coeff * X k ⟨m, hm⟩ b i else .single fun _ _ => 0
  refine ⟨col, ?_, ?_⟩
  · unfold gradsExact
    rw [mapM_ok _ (fun k => (List.range (ls k).n).map fun m =>
        ((ls k).jac t).map fun _ (b : Fin N) (p : Fin (q t)) => ∑ a, Jac.at ((ls k).jac t) b a p * Val.at (col k m) b a)]
    · simp only [bind, Except.bind, pure, Except.pure, List.flatMap]
    · intro k _
      simp only [exactCount_one _ (ho k), bind, Except.bind]
      apply mapM_ok
      intro m hm
      have hm' : m < width (ls k).loss := by rw [width_one _ (ho k)]; exact List.mem_range.1 hm
      have e := hX1 k ⟨m, hm'⟩
      simp only at e
      have hcol : col k m = .single fun b i => Real.sqrt (ls k).coeff * X k ⟨m, hm'⟩ b i := dif_pos hm'
      simp only [multOneHot, e, scaleVal, ← hcol]
      apply contribution_eq _ _ _ (h.fits k t)
      rw [hcol]
      exact single_fits _ (ho k) _
  · intro k b a a'
    have hw := width_one _ (ho k)
    have hat : ∀ m i, m < width (ls k).loss → Val.at (col k m) b (true, i) = 0 := by
      intro m i hm
      simp only [col, dif_pos hm, Val.at, if_true]
    obtain ⟨s, i⟩ := a
    obtain ⟨s', i'⟩ := a'
    cases s
    · cases s'
      · have e : ∀ m : Fin (ls k).n, Val.at (col k m) b (false, i) * Val.at (col k m) b (false, i')
            = (ls k).coeff * (B k b i (Fin.cast hw.symm m) * B k b i' (Fin.cast hw.symm m)) := by
          intro m
          have hm : m.1 < width (ls k).loss := by rw [hw]; exact m.2
          simp only [col, dif_pos hm, Val.at, Bool.false_eq_true, if_false, hX2]
          rw [mul_mul_mul_comm, Real.mul_self_sqrt (h.coeff k)]
          rfl
        simp only [e]
        rw [← Finset.mul_sum, ← hB2 k b i i']
        congr 1
        exact Fintype.sum_equiv (finCongr hw.symm) _ _ fun m => rfl
      · rw [(fisherMatrix_second _ (ho k) b i' (false, i)).2, mul_zero]
        exact Finset.sum_eq_zero fun m _ => by rw [hat m i' (by rw [hw]; exact m.2), mul_zero]
    · rw [(fisherMatrix_second _ (ho k) b i (s', i')).1, mul_zero]
      exact Finset.sum_eq_zero fun m _ => by rw [hat m i (by rw [hw]; exact m.2), zero_mul]

/-- `"exact"` with the Fisher: for losses with one input which all depend on the tensor, the statistics of a Kronecker output
factor are the target. -/
theorem C79_exact_partial (ls : Losses N q K) (h : Good ls) (ho : ∀ k, OneInput (ls k).loss) (t : Fin T)
    (hd : ∀ k, ((ls k).jac t).isSome) :
    ∃ gs, (gradsExact .fisher ls t >>= noMissing) = .ok gs ∧ ∀ p p', outputCov gs p p' = target ls t p p' := by
  obtain ⟨col, h1, h2⟩ := gradsExact_eq ls h ho t
  let G : (k : Fin K) → ℕ → Batch N (q t) := fun k m b p => ∑ a, Jac.at ((ls k).jac t) b a p * Val.at (col k m) b a
  refine ⟨(List.finRange K).flatMap fun k => (List.range (ls k).n).map (G k), ?_, ?_⟩
  · rw [h1]
    show noMissing _ = _
    rw [← noMissing_somes, List.map_flatMap]
    congr 2
    funext k
    rw [List.map_map]
    apply List.map_congr_left
    intro m _
    obtain ⟨j, hj⟩ := Option.isSome_iff_exists.1 (hd k)
    simp only [Function.comp_apply, G, hj, Option.map_some]
  · intro p p'
    have hs : outputCov ((List.finRange K).flatMap fun k => (List.range (ls k).n).map (G k)) p p'
        = ∑ k, ∑ m : Fin (ls k).n, (∑ b, G k m b p * G k m b p') / (N : ℝ) := by
      by_cases hne : ((List.finRange K).flatMap fun k => (List.range (ls k).n).map (G k)) = []
      · rw [hne, outputCov_nil]
        symm
        refine Finset.sum_eq_zero fun k _ => Finset.sum_eq_zero fun m _ => ?_
        have hmem : G k m ∈ ((List.finRange K).flatMap fun k => (List.range (ls k).n).map (G k)) := by
          rw [List.mem_flatMap]
          exact ⟨k, List.mem_finRange k, List.mem_map.2 ⟨m, List.mem_range.2 m.2, rfl⟩⟩
        rw [hne] at hmem
        exact absurd hmem (by simp)
      · rw [outputCov_apply _ hne, List.map_flatMap, List.flatMap, List.sum_flatten, List.map_map, Fin.sum_univ_def]
        congr 1
        apply List.map_congr_left
        intro k _
        simp only [Function.comp_apply]
        rw [List.map_map, sum_range_fin]
        rfl
    rw [hs, target]
    simp only [← Finset.sum_div]
    congr 1
    simp only [curvature]
    have e : ∀ k b, ∑ m : Fin (ls k).n, G k m b p * G k m b p' = (ls k).coeff * ∑ a, ∑ a',
        Jac.at ((ls k).jac t) b a p * fisherMatrix (ls k).loss b a a' * Jac.at ((ls k).jac t) b a' p' := by
      intro k b
      simp only [G, Finset.sum_mul_sum]
      rw [Finset.sum_comm, Finset.mul_sum]
      refine Finset.sum_congr rfl fun a _ => ?_
      rw [Finset.sum_comm, Finset.mul_sum]
      refine Finset.sum_congr rfl fun a' _ => ?_
      have e3 : (ls k).coeff * (Jac.at ((ls k).jac t) b a p * fisherMatrix (ls k).loss b a a' * Jac.at ((ls k).jac t) b a' p')
          = Jac.at ((ls k).jac t) b a p * Jac.at ((ls k).jac t) b a' p' * ((ls k).coeff * fisherMatrix (ls k).loss b a a') := by
        ring
      rw [e3, ← h2 k b a a', Finset.mul_sum]
      refine Finset.sum_congr rfl fun m _ => ?_
      ring
    rw [Finset.sum_comm (s := Finset.univ (α := Fin N))]
    refine Finset.sum_congr rfl fun k _ => ?_
    rw [Finset.sum_comm]
    refine Finset.sum_congr rfl fun b _ => ?_
    exact e k b

/-! #### The data's targets -/

/-- `"empirical"`: one source, whose rows are the gradients of the total loss `Σ_k coeff_k loss_k` on the targets of the data
(here by the chain rule); the statistics are their mean outer product. -/
theorem C79_empirical (ls : Losses N q K) (h : Good ls) (t : Fin T) (hd : ∃ k, ((ls k).jac t).isSome)
    (y : (k : Fin K) → Targets (ls k).loss) :
    ∃ g : Batch N (q t), (gradsEmpirical ls y t >>= noMissing) = .ok [g] ∧
      (∀ b p, g b p = ∑ k, (ls k).coeff * ∑ a, Jac.at ((ls k).jac t) b a p * Val.at (lossGrad (ls k).loss (y k)) b a) ∧
      ∀ p p', outputCov [g] p p' = (∑ b, g b p * g b p') / N := by
  have hg := gradientsAll_eq ls (fun k => .ok (scaled (ls k).coeff (lossGrad (ls k).loss (y k))))
    (fun k => scaled (ls k).coeff (lossGrad (ls k).loss (y k))) t (fun _ => rfl) (fun k => h.fits k t)
    (fun k => scaled_fits _ _ _) hd
  refine ⟨fun b p => ∑ k, ∑ a, Jac.at ((ls k).jac t) b a p * Val.at (scaled (ls k).coeff (lossGrad (ls k).loss (y k))) b a,
    ?_, ?_, fun p p' => outputCov_one _ p p'⟩
  · unfold gradsEmpirical
    rw [hg]
    rfl
  · intro b p
    refine Finset.sum_congr rfl fun k _ => ?_
    rw [Finset.mul_sum]
    refine Finset.sum_congr rfl fun a _ => ?_
    rw [scaled_at]
    ring

/-! #### Tensors that no loss depends on -/

theorem gradientsAll_none (ls : Losses N q K) (ys : (k : Fin K) → Except String (Val N (ls k).n)) (t : Fin T)
    (hn : ∀ k, (ls k).jac t = none) : gradientsAll ls ys t = .ok none ∨ ∃ e, gradientsAll ls ys t = .error e := by
  have hc : ∀ k y, contribution (ls k) t y = .ok none := fun k y => by simp only [contribution, hn]
  have hm : ∀ l : List (Fin K), (∃ e, (l.mapM fun k => do
      let y ← ys k
      contribution (ls k) t y) = .error e) ∨ (l.mapM fun k => do
      let y ← ys k
      contribution (ls k) t y) = .ok (l.map fun _ => none) := by
    intro l
    induction l with
    | nil => exact .inr rfl
    | cons k l ih =>
      rw [List.mapM_cons]
      cases hy : ys k with
      | error e => exact .inl ⟨e, rfl⟩
      | ok y =>
        simp only [bind, Except.bind, hc] at ih ⊢
        rcases ih with ⟨e, he⟩ | he
        · exact .inl ⟨e, by rw [he]⟩
        · right; rw [he]; rfl
  unfold gradientsAll
  rcases hm (List.finRange K) with ⟨e, he⟩ | he
  · exact .inr ⟨e, by rw [he]; rfl⟩
  · left
    rw [he]
    show Except.ok (tfSum _) = _
    congr 1
    unfold tfSum
    have : ((List.finRange K).map fun _ => (none : Option (Batch N (q t)))).filterMap id = [] := by
      rw [List.filterMap_map]
      induction List.finRange K with
      | nil => rfl
      | cons x l ih => simpa using ih
    rw [this]

/-- A tensor that no loss depends on is rejected in every mode: its gradient is `None`, not zero. -/
theorem C79_unused_tensor_rejected (mt : MatType) (ls : Losses N q K) (t : Fin T) (hn : ∀ k, (ls k).jac t = none)
    (y : (k : Fin K) → Targets (ls k).loss) (signs : (k : Fin K) → Batch N (width (ls k).loss)) :
    (∃ e, (gradsGradients ls y t >>= noMissing) = .error e) ∧ (∃ e, (gradsEmpirical ls y t >>= noMissing) = .error e) ∧
    (∃ e, (gradsCurvatureProp mt ls signs t >>= noMissing) = .error e) := by
  refine ⟨?_, ?_, ?_⟩
  · unfold gradsGradients
    rcases gradientsAll_none ls (fun k => .ok (scaled (Real.sqrt (ls k).coeff) (lossGrad (ls k).loss (y k)))) t hn
      with h | ⟨e, h⟩ <;> rw [h]
    · exact ⟨_, rfl⟩
    · exact ⟨e, rfl⟩
  · unfold gradsEmpirical
    rcases gradientsAll_none ls (fun k => .ok (scaled (ls k).coeff (lossGrad (ls k).loss (y k)))) t hn
      with h | ⟨e, h⟩ <;> rw [h]
    · exact ⟨_, rfl⟩
    · exact ⟨e, rfl⟩
  · unfold gradsCurvatureProp
    rcases gradientsAll_none ls (fun k => do
      let value ← multFactor mt (ls k).loss (signs k)
      scaleVal (Real.sqrt (ls k).coeff) value) t hn with h | ⟨e, h⟩ <;> rw [h]
    · exact ⟨_, rfl⟩
    · exact ⟨e, rfl⟩

/-- A model with an unused tensor. -/
example : ∀ k, ((fun _ => ⟨1, .normalMean ⟨fun _ _ => 0, 1⟩, 1, fun t => if t = 0 then some (.single fun _ _ _ => 1) else none⟩ :
    Losses 2 (fun _ : Fin 2 => 1) 1) k).jac 1 = none := fun _ => rfl

/-! ### Where the modes fail -/

theorem mapM_error {α β : Type} (f : α → Except String β) (l : List α) (h : ∃ x ∈ l, ∃ e, f x = .error e) :
    ∃ e, l.mapM f = .error e := by
  induction l with
  | nil => simp at h
  | cons x l ih =>
    rw [List.mapM_cons]
    cases hx : f x with
    | error e => exact ⟨e, rfl⟩
    | ok v =>
      obtain ⟨y, hy, e, he⟩ := h
      rcases List.mem_cons.1 hy with rfl | hy
      · rw [he] at hx; cases hx
      · obtain ⟨e', he'⟩ := ih ⟨y, hy, e, he⟩
        exact ⟨e', by rw [he']; rfl⟩

theorem bind_error {α β : Type} {x : Except String α} (h : ∃ e, x = .error e) (f : α → Except String β) :
    ∃ e, (x >>= f) = .error e := by
  obtain ⟨e, rfl⟩ := h
  exact ⟨e, rfl⟩

/-- The exact mode with the generalised Gauss-Newton fails for every model: it reads `fisher_ggn_inner_static_shape`, which no
loss has. -/
theorem C79_exact_ggn_counterexample (ls : Losses N q K) (hK : 0 < K) (t : Fin T) : ∃ e, gradsExact .ggn ls t = .error e := by
  refine bind_error (mapM_error _ _ ⟨⟨0, hK⟩, List.mem_finRange _, ?_⟩) _
  exact bind_error (C16_ggn_exact_counterexample _ _) _

/-- Curvature propagation and the exact mode fail if any of the losses is a Gaussian with mean and variance: `value.dtype` of a
tuple. (The `"gradients"` mode is fine: `C79_gradients`.) -/
theorem C79_mean_variance_counterexample (mt : MatType) (ls : Losses N q K) (t : Fin T) (k : Fin K) (hn : 0 < (ls k).n)
    (hk : ¬ OneInput (ls k).loss) (signs : (k : Fin K) → Batch N (width (ls k).loss)) :
    (∃ e, gradsCurvatureProp mt ls signs t = .error e) ∧ ∃ e, gradsExact mt ls t = .error e := by
  constructor
  · refine bind_error (bind_error (mapM_error _ _ ⟨k, List.mem_finRange _, bind_error ?_ _⟩) _) _
    show ∃ e, (do
      let value ← multFactor mt (ls k).loss (signs k)
      scaleVal (Real.sqrt (ls k).coeff) value) = _
    generalize signs k = v
    revert v
    generalize (ls k).loss = l at hk
    intro v
    cases l <;> simp [OneInput] at hk
    cases mt <;> exact ⟨_, rfl⟩
  · refine bind_error (mapM_error _ _ ⟨k, List.mem_finRange _, ?_⟩) _
    cases mt with
    | ggn => exact bind_error (C16_ggn_exact_counterexample _ _) _
    | fisher =>
      simp only [C16_exact_coordinates_partial, bind, Except.bind]
      apply mapM_error
      refine ⟨0, ?_, ?_⟩
      · generalize (ls k).loss = l at hk
        cases l <;> simp [OneInput] at hk
        simp only [kind, Kind.innerShape]
        simpa using hn
      · generalize (ls k).loss = l at hk
        cases l <;> simp [OneInput] at hk
        rename_i l
        simp only [multOneHot, fisherOneHot, C15_normal_mean_variance l 0 (by omega), Except.map, scaleVal]
        exact ⟨_, rfl⟩

/-- The exact mode rejects every model with a tensor that some, but not all, of the losses depend on (two heads): it asks for
the gradient of each loss separately. The other modes accept it. -/
theorem C79_exact_two_heads_counterexample (ls : Losses N q K) (h : Good ls) (ho : ∀ k, OneInput (ls k).loss) (t : Fin T)
    (k : Fin K) (hn : 0 < (ls k).n) (hk : (ls k).jac t = none) :
    ∃ e, (gradsExact .fisher ls t >>= noMissing) = .error e := by
  obtain ⟨col, h1, -⟩ := gradsExact_eq ls h ho t
  rw [h1]
  show ∃ e, noMissing _ = _
  unfold noMissing
  rw [if_pos]
  · exact ⟨_, rfl⟩
  · rw [List.any_eq_true]
    refine ⟨none, ?_, rfl⟩
    rw [List.mem_flatMap]
    refine ⟨k, List.mem_finRange k, List.mem_map.2 ⟨0, List.mem_range.2 hn, ?_⟩⟩
    rw [hk]; rfl

/-- Two examples with unit-variance Gaussians of mean `w`, where `w` is the parameter. -/
noncomputable def meanModel : Losses 2 (fun _ : Fin 1 => 1) 1 := fun _ =>
  ⟨1, .normalMean ⟨fun _ _ => 0, 1⟩, 1, fun _ => some (.single fun _ _ _ => 1)⟩

theorem meanModel_good : Good meanModel where
  coeff _ := by norm_num [meanModel]
  valid _ := zero_lt_one' ℝ
  fits _ _ := trivial

/-- The exact mode with a block that uses the gradient of the parameter itself (`register_generic`): the columns of the factor
are replicated over the examples, so the gradients of the examples are added before they are squared. Here the exact mode
yields twice the target. -/
theorem C79_exact_naive_counterexample :
    ∃ gs, (gradsExact .fisher meanModel 0 >>= noMissing) = .ok gs ∧ naiveCov gs 0 0 = 2 * target meanModel 0 0 0 ∧
      target meanModel 0 0 0 ≠ 0 := by
  have ht : target meanModel 0 0 0 = 1 := by
    have hc : ∀ b, curvature meanModel 0 b 0 0 = 1 := by
      intro b
      let j : Option (Jac 1 2 1) := some (.single fun _ _ _ => 1)
      let l : AnyLoss 2 1 := .normalMean ⟨fun _ _ => 0, 1⟩
      have h1 : ∀ a a' : Bool × Fin 1, Jac.at j b a 0 * fisherMatrix l b a a' * Jac.at j b a' 0
          = if a = (false, 0) then if a' = (false, 0) then 1 else 0 else 0 := by
        rintro ⟨s, i⟩ ⟨s', i'⟩
        have hi := Subsingleton.elim i 0
        have hi' := Subsingleton.elim i' 0
        subst hi hi'
        cases s <;> cases s' <;> norm_num [j, l, Jac.at, fisherMatrix]
      have h2 : curvature meanModel 0 b 0 0 = 1 * ∑ a, ∑ a', Jac.at j b a 0 * fisherMatrix l b a a' * Jac.at j b a' 0 := by
        simp only [curvature, Fin.sum_univ_one]
        rfl
      rw [h2]
      simp [h1]
    simp [target, hc]
  refine ⟨[fun _ _ => 1], ?_, ?_, ?_⟩
  · have e : (NormalMean.mk (B := 2) (n := 1) (fun _ _ => 0) 1).oneHot [0] = .ok fun _ _ => 1 := by
      rw [C15_normal_mean _ 0 (by norm_num)]
      congr 1
      funext b i
      simp [NormalMean.multiplyFactor, replicatedOneHot, Subsingleton.elim i 0]
    have hg : gradsExact .fisher meanModel 0 = .ok [some fun _ _ => 1] := by
      have hs : (List.finRange 1) = [0] := rfl
      have hc : exactCount .fisher (kind (meanModel 0).loss) [2, (meanModel 0).n] = .ok 1 := rfl
      have hm : multOneHot .fisher (meanModel 0).loss 0 = .ok (.single fun _ _ => 1) := by
        simp only [multOneHot, meanModel, fisherOneHot, e, Except.map]
      unfold gradsExact
      rw [hs]
      simp only [List.mapM_cons, List.mapM_nil, hc, bind, Except.bind, pure, Except.pure, List.range_one, hm, scaleVal,
        contribution]
      simp [meanModel, pullback, Except.map]
      funext b p
      show (((Finset.univ : Finset (Fin 1)).card : ℕ) : ℝ) = 1
      simp
    rw [hg]
    rfl
  · rw [ht]
    norm_num [naiveCov]
  · rw [ht]; norm_num

/-! ### Cases meeting the hypotheses -/

/-- Two heads on a trunk: a softmax and a Gaussian with mean and variance; tensor 0 feeds both, tensor 1 the second only. -/
noncomputable def twoHeads : Losses 3 (fun _ : Fin 2 => 2) 2 := fun k =>
  if k = 0 then ⟨2, .categorical ⟨fun b i => b.1 - i.1⟩, 2, fun t =>
    if t = 0 then some (.single fun b i p => b.1 + i.1 * p.1 + 1) else none⟩
  else ⟨1, .normalMeanVar ⟨fun _ _ => 1, fun b _ => b.1 + 1⟩, 1 / 2, fun _ =>
    some (.pair (fun _ _ p => p.1) fun _ _ _ => 3)⟩

theorem twoHeads_good : Good twoHeads where
  coeff k := by
    fin_cases k <;> norm_num [twoHeads]
  valid k := by
    fin_cases k
    · show 0 < 2; norm_num
    · intro b i
      show (0 : ℝ) < b.1 + 1
      positivity
  fits k t := by
    fin_cases k <;> fin_cases t <;> trivial

example : Good twoHeads ∧ ∀ t, ∃ k, ((twoHeads k).jac t).isSome :=
  ⟨twoHeads_good, fun _ => ⟨1, rfl⟩⟩

example : Good meanModel ∧ (∀ k, OneInput (meanModel k).loss) ∧ ∀ t k, ((meanModel k).jac t).isSome :=
  ⟨meanModel_good, fun _ => trivial, fun _ _ => rfl⟩

example : ¬ OneInput (twoHeads 1).loss ∧ 0 < (twoHeads 1).n := ⟨id, by norm_num [twoHeads]⟩

/-- A softmax and a multi-Bernoulli head: the hypotheses of `C79_exact_two_heads_counterexample`. -/
noncomputable def discreteHeads : Losses 2 (fun _ : Fin 2 => 2) 2 := fun k =>
  if k = 0 then ⟨2, .categorical ⟨fun _ i => i.1⟩, 1, fun t => if t = 0 then some (.single fun _ _ _ => 1) else none⟩
  else ⟨3, .multiBernoulli ⟨fun _ i => i.1⟩, 1, fun t => if t = 1 then some (.single fun _ _ p => p.1) else none⟩

example : Good discreteHeads ∧ (∀ k, OneInput (discreteHeads k).loss) ∧ 0 < (discreteHeads 0).n ∧
    (discreteHeads 0).jac 1 = none ∧ ∀ t, ∃ k, ((discreteHeads k).jac t).isSome := by
  refine ⟨⟨?_, ?_, ?_⟩, ?_, ?_, ?_, ?_⟩
  · intro k; fin_cases k <;> norm_num [discreteHeads]
  · intro k; fin_cases k
    · show 0 < 2; norm_num
    · trivial
  · intro k t; fin_cases k <;> fin_cases t <;> trivial
  · intro k; fin_cases k <;> trivial
  · norm_num [discreteHeads]
  · rfl
  · intro t; fin_cases t
    · exact ⟨0, rfl⟩
    · exact ⟨1, rfl⟩

end Kfac.Est
