import Verif.Est.Spec
import Verif.Loss.Props

namespace Kfac.Est
open Kfac.Loss MeasureTheory ProbabilityTheory

variable {N n T K : ℕ} {q : Fin T → ℕ}

/-! ### Gradients -/

theorem sum_coord (f : Bool × Fin n → ℝ) : ∑ a, f a = (∑ i, f (false, i)) + ∑ i, f (true, i) := by
  rw [Fintype.sum_prod_type, Fintype.sum_bool, add_comm]

/-- A value with the structure of the inputs of a loss. -/
def ValFits (l : AnyLoss N n) (v : Val N n) : Prop :=
  match l, v with
  | .normalMeanVar _, .pair _ _ => True
  | .normalMeanVar _, .single _ => False
  | _, .single _ => True
  | _, .pair _ _ => False

theorem contribution_eq (s : Source N q) (t : Fin T) (y : Val N s.n) (hs : Fits s t) (hy : ValFits s.loss y) :
    contribution s t y = .ok ((s.jac t).map fun _ b p => ∑ a, Jac.at (s.jac t) b a p * Val.at y b a) := by
  unfold Fits at hs
  unfold ValFits at hy
  unfold contribution
  generalize s.jac t = j at hs ⊢
  generalize s.loss = l at hs hy
  rcases j with _ | j | ⟨j1, j2⟩
  · rfl
  · cases l <;> cases y <;> simp only at hs hy
    all_goals
      simp only [pullback, Except.map, Option.map_some]
      congr 2; funext b p; rw [sum_coord]; simp [Jac.at, Val.at]
  · cases l <;> cases y <;> simp only at hs hy
    simp only [pullback, Except.map, Option.map_some]
    congr 2; funext b p; rw [sum_coord]; simp [Jac.at, Val.at]

theorem sum_filterMap_id {α : Type} (l : List α) (f : α → Option ℝ) :
    ((l.map f).filterMap id).sum = (l.map fun x => (f x).getD 0).sum := by
  induction l with
  | nil => rfl
  | cons x l ih =>
    simp only [List.map_cons, List.sum_cons, List.filterMap_cons, id]
    cases h : f x with
    | none => simp only [Option.getD_none, zero_add]; exact ih
    | some v => simp only [Option.getD_some, List.sum_cons]; rw [← ih]; rfl

theorem tfSum_eq {P : ℕ} {α : Type} (l : List α) (f : α → Option (Batch N P)) (h : ∃ x ∈ l, (f x).isSome) :
    tfSum (l.map f) = some fun b p => (l.map fun x => ((f x).map fun g => g b p).getD 0).sum := by
  obtain ⟨x, hx, hs⟩ := h
  obtain ⟨v, hv⟩ := Option.isSome_iff_exists.1 hs
  have hmem : v ∈ (l.map f).filterMap id := by
    simp only [List.mem_filterMap, List.mem_map, id]
    exact ⟨some v, ⟨x, hx, hv⟩, rfl⟩
  have hne : (l.map f).filterMap id ≠ [] := List.ne_nil_of_mem hmem
  unfold tfSum
  split
  · contradiction
  · congr 1
    funext b p
    rw [← sum_filterMap_id]
    congr 1
    rw [List.map_filterMap, List.filterMap_map, List.filterMap_map]
    apply List.filterMap_congr
    intro x _
    simp

theorem gradientsAll_eq (ls : Losses N q K) (ys : (k : Fin K) → Except String (Val N (ls k).n))
    (vs : (k : Fin K) → Val N (ls k).n) (t : Fin T) (hy : ∀ k, ys k = .ok (vs k)) (hf : ∀ k, Fits (ls k) t)
    (hv : ∀ k, ValFits (ls k).loss (vs k)) (hd : ∃ k, ((ls k).jac t).isSome) :
    gradientsAll ls ys t = .ok (some fun b p => ∑ k, ∑ a, Jac.at ((ls k).jac t) b a p * Val.at (vs k) b a) := by
  have h1 : (List.finRange K).mapM (fun k => do
      let y ← ys k
      contribution (ls k) t y) = .ok ((List.finRange K).map fun k => ((ls k).jac t).map fun _ (b : Fin N) (p : Fin (q t)) =>
        ∑ a, Jac.at ((ls k).jac t) b a p * Val.at (vs k) b a) := by
    apply mapM_ok
    intro k _
    rw [hy]
    exact contribution_eq _ _ _ (hf k) (hv k)
  obtain ⟨k, hk⟩ := hd
  unfold gradientsAll
  rw [h1]
  show Except.ok _ = _
  rw [tfSum_eq _ _ ⟨k, List.mem_finRange k, by simpa using hk⟩]
  congr 2
  funext b p
  rw [Fin.sum_univ_def]
  congr 1
  apply List.map_congr_left
  intro k _
  cases h : (ls k).jac t with
  | none => simp [Jac.at]
  | some j => simp

/-! ### The statistics -/

theorem outputCov_apply {P : ℕ} (sources : List (Batch N P)) (hne : sources ≠ []) (p p' : Fin P) :
    outputCov sources p p' = (sources.map fun (g : Batch N P) => (∑ b, g b p * g b p') / (N : ℝ)).sum := by
  obtain ⟨g, gs, rfl⟩ := List.exists_cons_of_ne_nil hne
  have hc : ∀ g : Batch N P, Stats.computeCov (List.ofFn g) p p' = (∑ b, g b p * g b p') / N := by
    intro g
    simp only [Stats.computeCov, Matrix.transpose, Matrix.of_apply, List.map_ofFn, List.length_ofFn, List.sum_ofFn,
      Function.comp_def]
    have : ∑ b, g b p' * g b p = ∑ b, g b p * g b p' := Finset.sum_congr rfl fun _ _ => mul_comm _ _
    rw [this]; ring
  have hs : ∀ l : List (Batch N P), ((l.map fun g => [List.ofFn g]).map fun towers =>
      (towers.map (Stats.computeCov (n := P))).sum).sum p p' = (l.map fun g => (∑ b, g b p * g b p') / (N : ℝ)).sum := by
    intro l
    induction l with
    | nil => rfl
    | cons g l ih =>
      simp only [List.map_cons, List.sum_cons, List.map_nil, List.sum_nil, add_zero]
      rw [Matrix.add_apply, ih, hc]
  unfold outputCov Stats.totalNewCov
  rw [Matrix.smul_apply, hs]
  simp

/-! ### The factors of the losses with one input -/

theorem column_spec (fac : Batch N n → Batch N n) (B : Fin N → Fin n → Fin n → ℝ)
    (h : ∀ v b i, fac v b i = ∑ m, B b i m * v b m) (m : Fin n) (b : Fin N) (i : Fin n) :
    fac (replicatedOneHot N n m) b i = B b i m := by
  rw [h, Finset.sum_eq_single m]
  · simp [replicatedOneHot]
  · intro m' _ hm'
    simp [replicatedOneHot, Fin.val_inj, hm']
  · simp

theorem diag_mul (d : Fin n → ℝ) (v : Fin n → ℝ) (i : Fin n) : d i * v i = ∑ m, (if i = m then d i else 0) * v m := by
  simp

theorem diag_sq (d : Fin n → ℝ) (i i' : Fin n) :
    ∑ m, (if i = m then d i else 0) * (if i' = m then d i' else 0) = if i = i' then d i * d i else 0 := by
  by_cases h : i = i'
  · subst h; simp
  · rw [if_neg h]
    apply Finset.sum_eq_zero
    intro m _
    by_cases h1 : i = m
    · subst h1; rw [if_neg (Ne.symm h), mul_zero]
    · rw [if_neg h1, zero_mul]

/-- The factor as a matrix, its product with its transpose, and its columns. -/
theorem factor_spec (l : AnyLoss N n) (ho : OneInput l) (hv : Valid l) :
    ∃ B : Fin N → Fin n → Fin (width l) → ℝ,
      (∀ v, ∃ x, fisherFactor l v = .single x ∧ ∀ b i, x b i = ∑ m, B b i m * v b m) ∧
      (∀ b i i', ∑ m, B b i m * B b i' m = fisherMatrix l b (false, i) (false, i')) ∧
      (∀ m : Fin (width l), ∃ x, fisherOneHot l m = .ok (.single x) ∧ ∀ b i, x b i = B b i m) := by
  cases l with
  | normalMeanVar l => exact ho.elim
  | normalMean l =>
    have h1 : ∀ v b i, l.multiplyFactor v b i = ∑ m, (if i = m then l.var ^ (-(1 / 2) : ℝ) else 0) * v b m :=
      fun v b i => diag_mul (fun _ => l.var ^ (-(1 / 2) : ℝ)) (v b) i
    refine ⟨fun b i (m : Fin n) => if i = m then l.var ^ (-(1 / 2) : ℝ) else 0, fun v => ⟨_, rfl, h1 v⟩, ?_, ?_⟩
    · intro b i i'
      refine (diag_sq (fun _ => l.var ^ (-(1 / 2) : ℝ)) i i').trans ?_
      rw [rpow_half_mul hv]
      simp [fisherMatrix]
    · intro m
      refine ⟨l.multiplyFactor (replicatedOneHot N n m), ?_, fun b i => column_spec _ _ h1 m b i⟩
      simp only [fisherOneHot, C15_normal_mean l m.1 m.2, Except.map]
  | categorical l =>
    have hp : ∀ b j, l.sqrtProbs b j * l.sqrtProbs b j = l.probs b j := fun b j => Real.mul_self_sqrt (softmax_pos _ j).le
    have h1 : ∀ v b i, l.multiplyFactor v b i
        = ∑ m, ((if i = m then l.sqrtProbs b i else 0) - l.probs b i * l.sqrtProbs b m) * v b m := by
      intro v b i
      simp only [Categorical.multiplyFactor, sub_mul, Finset.sum_sub_distrib, ← diag_mul (l.sqrtProbs b), mul_assoc,
        ← Finset.mul_sum]
    refine ⟨fun b i (m : Fin n) => (if i = m then l.sqrtProbs b i else 0) - l.probs b i * l.sqrtProbs b m,
      fun v => ⟨_, rfl, h1 v⟩, ?_, ?_⟩
    · intro b i i'
      have e : ∀ m, ((if i = m then l.sqrtProbs b i else 0) - l.probs b i * l.sqrtProbs b m)
          * ((if i' = m then l.sqrtProbs b i' else 0) - l.probs b i' * l.sqrtProbs b m)
          = (if i = m then l.sqrtProbs b i else 0) * (if i' = m then l.sqrtProbs b i' else 0)
            - l.probs b i' * ((if i = m then l.sqrtProbs b i else 0) * l.sqrtProbs b m)
            - l.probs b i * ((if i' = m then l.sqrtProbs b i' else 0) * l.sqrtProbs b m)
            + l.probs b i * l.probs b i' * (l.sqrtProbs b m * l.sqrtProbs b m) := fun m => by ring
      show ∑ m : Fin n, _ = _
      refine (Finset.sum_congr (g := _) rfl fun (m : Fin n) _ => e m).trans ?_
      rw [Finset.sum_add_distrib, Finset.sum_sub_distrib, Finset.sum_sub_distrib, diag_sq, ← Finset.mul_sum,
        ← Finset.mul_sum, ← Finset.mul_sum, ← diag_mul (l.sqrtProbs b) (l.sqrtProbs b),
        ← diag_mul (l.sqrtProbs b) (l.sqrtProbs b)]
      simp only [hp]
      have hs : ∑ m, l.probs b m = 1 := softmax_sum _ i
      rw [hs]
      simp only [fisherMatrix, Categorical.probs, and_self, if_true]
      ring
    · intro m
      refine ⟨l.multiplyFactor (replicatedOneHot N n m), ?_, fun b i => column_spec _ _ h1 m b i⟩
      simp only [fisherOneHot, C15_categorical l m.1 m.2, Except.map]
  | multiBernoulli l =>
    have h1 : ∀ v b i, l.multiplyFactor v b i
        = ∑ m, (if i = m then Real.sqrt (l.probs b i * (1 - l.probs b i)) else 0) * v b m :=
      fun v b i => diag_mul (fun i => Real.sqrt (l.probs b i * (1 - l.probs b i))) (v b) i
    refine ⟨fun b i (m : Fin n) => if i = m then Real.sqrt (l.probs b i * (1 - l.probs b i)) else 0, fun v => ⟨_, rfl, h1 v⟩, ?_, ?_⟩
    · intro b i i'
      refine (diag_sq (fun i => Real.sqrt (l.probs b i * (1 - l.probs b i))) i i').trans ?_
      have h : 0 ≤ l.probs b i * (1 - l.probs b i) :=
        mul_nonneg (sigmoid_pos _).le (by have := sigmoid_lt_one (l.logits b i); exact sub_nonneg.2 this.le)
      rw [Real.mul_self_sqrt h]
      simp [fisherMatrix, MultiBernoulli.probs]
    · intro m
      refine ⟨l.multiplyFactor (replicatedOneHot N n m), ?_, fun b i => column_spec _ _ h1 m b i⟩
      simp only [fisherOneHot, C15_multi_bernoulli l m.1 m.2, Except.map]

/-- The Fisher matrix of a loss with one input vanishes on the coordinates of the second. -/
theorem fisherMatrix_second (l : AnyLoss N n) (ho : OneInput l) (b : Fin N) (i : Fin n) (a : Bool × Fin n) :
    fisherMatrix l b (true, i) a = 0 ∧ fisherMatrix l b a (true, i) = 0 := by
  obtain ⟨s, j⟩ := a
  cases l <;> cases s <;> simp [fisherMatrix, OneInput] at ho ⊢

end Kfac.Est
