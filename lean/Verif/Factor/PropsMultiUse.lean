import Verif.Factor.MultiUse
import Verif.Factor.PropsLag
import Verif.Stats.Props

/-! # C81: the data formats of layers used several times -/

namespace Kfac.Factor

open Kfac.Stats

variable {n : ℕ}

/-! ### Specification -/

/-- The vectors of a layer: `x w t b` is that of tower `w`, use `t` and example `b` of the tower. -/
abbrev UseVecs (n : ℕ) := ℕ → ℕ → ℕ → Fin n → ℝ

/-- Registered as lists: for each of the `W` towers one tensor `[B w, n]` per use. -/
def perUse (W T : ℕ) (B : ℕ → ℕ) (x : UseVecs n) : List (UseData (Fin n → ℝ)) :=
  (List.range W).map fun w => .uses ((List.range T).map fun t => (List.range (B w)).map (x w t))

/-- Registered as tensors: for each tower one tensor `[T * B w, n]`, use by use. -/
def folded (W T : ℕ) (B : ℕ → ℕ) (x : UseVecs n) : List (UseData (Fin n → ℝ)) :=
  (List.range W).map fun w => .tensor (timeMajor T (B w) (x w))

/-- The mean over all examples and uses of the products. -/
noncomputable def useMean (W T : ℕ) (B : ℕ → ℕ) (x : UseVecs n) (i j : Fin n) : ℝ :=
  (∑ w ∈ Finset.range W, ∑ t ∈ Finset.range T, ∑ b ∈ Finset.range (B w), x w t b i * x w t b j) /
    (T * ∑ w ∈ Finset.range W, B w : ℕ)

/-- The sum of the products of consecutive uses of the same example, divided by the number of examples times uses. -/
noncomputable def useLag (W T : ℕ) (B : ℕ → ℕ) (x : UseVecs n) (i j : Fin n) : ℝ :=
  (∑ w ∈ Finset.range W, ∑ t ∈ Finset.range (T - 1), ∑ b ∈ Finset.range (B w), x w (t + 1) b i * x w t b j) /
    (T * ∑ w ∈ Finset.range W, B w : ℕ)

/-! ### Lemmas -/

theorem mapM_ok_map {α β γ : Type} (l : List α) (f : α → β) (g : β → Except String γ) (h : α → γ)
    (e : ∀ a ∈ l, g (f a) = .ok (h a)) : (l.map f).mapM g = .ok (l.map h) := by
  induction l with
  | nil => rfl
  | cons a l ih =>
    rw [List.map_cons, List.mapM_cons, e a (by simp), ih fun b hb => e b (by simp [hb])]
    rfl

theorem sameLength_ok (k : ℕ) : ∀ l : List (UseData (Fin n → ℝ)), (∀ d ∈ l, ∃ u, d = .uses u ∧ u.length = k) → sameLength k l = .ok true
  | [], _ => rfl
  | d :: l, h => by
    obtain ⟨u, rfl, hu⟩ := h d (by simp)
    rw [sameLength, if_pos hu, sameLength_ok k l fun d' hd' => h d' (by simp [hd'])]

theorem range_ne (W : ℕ) (hW : 0 < W) : ∃ l, List.range W = 0 :: l := by
  obtain ⟨V, rfl⟩ : ∃ V, W = V + 1 := ⟨W - 1, by omega⟩
  exact ⟨_, List.range_succ_eq_map⟩

/-- The tower data of one source in the list format. -/
def useLists (W T : ℕ) (B : ℕ → ℕ) (x : UseVecs n) : List (List (Rows n)) :=
  (List.range W).map fun w => (List.range T).map fun t => (List.range (B w)).map (x w t)

theorem perUse_lists (W T : ℕ) (B : ℕ → ℕ) (x : UseVecs n) : (perUse W T B x).map UseData.lists = useLists W T B x := by
  simp [perUse, useLists, UseData.lists]

theorem process_perUse (strategy : String) (W T : ℕ) (B : ℕ → ℕ) (xs : List (UseVecs n)) (numUses : Option ℕ) (hW : 0 < W)
    (hx : xs ≠ []) (hu : numUses = none ∨ numUses = some T) (out : UseVecs n → List (Rows n))
    (hm : ∀ x, mergeUses strategy T (useLists W T B x) = .ok (out x)) :
    processSources strategy numUses (xs.map (perUse W T B)) = .ok (xs.map out, some T) := by
  have h1 : sameLength T (xs.map (perUse W T B)).flatten = .ok true := by
    apply sameLength_ok
    intro d hd
    simp only [List.mem_flatten, List.mem_map, perUse] at hd
    obtain ⟨l, ⟨x, -, rfl⟩, hd⟩ := hd
    obtain ⟨w, -, rfl⟩ := List.mem_map.1 hd
    exact ⟨_, rfl, by simp⟩
  have h2 : (xs.map (perUse W T B)).mapM (fun towers => mergeUses strategy T (towers.map UseData.lists)) = .ok (xs.map out) :=
    mapM_ok_map _ _ _ _ fun x _ => by rw [perUse_lists, hm]
  obtain ⟨x, xs', rfl⟩ := List.exists_cons_of_ne_nil hx
  obtain ⟨l, hl⟩ := range_ne W hW
  have h3 : ∃ f r, perUse W T B x = .uses f :: r ∧ f.length = T := ⟨_, _, by rw [perUse, hl]; rfl, by simp⟩
  obtain ⟨f, r, hf, hfl⟩ := h3
  rw [List.map_cons, hf] at h1 h2 ⊢
  have hn : ¬ (numUses.isSome = true ∧ numUses ≠ some T) := by
    rcases hu with rfl | rfl <;> simp
  simp only [processSources, hfl, if_neg hn, h1, h2]
  rfl

theorem process_folded (strategy : String) (W T : ℕ) (B : ℕ → ℕ) (xs : List (UseVecs n)) (numUses : Option ℕ) (hW : 0 < W)
    (hx : xs ≠ []) :
    processSources strategy numUses (xs.map (folded W T B)) =
      .ok (xs.map fun x => (List.range W).map fun w => timeMajor T (B w) (x w), numUses) := by
  have h2 : (xs.map (folded W T B)).mapM (fun towers => towers.mapM UseData.single) =
      .ok (xs.map fun x => (List.range W).map fun w => timeMajor T (B w) (x w)) :=
    mapM_ok_map _ _ _ _ fun x _ => mapM_ok_map _ _ _ _ fun w _ => rfl
  obtain ⟨x, xs', rfl⟩ := List.exists_cons_of_ne_nil hx
  obtain ⟨l, hl⟩ := range_ne W hW
  have h3 : ∃ f r, folded W T B x = .tensor f :: r := ⟨_, _, by rw [folded, hl]; rfl⟩
  obtain ⟨f, r, hf⟩ := h3
  rw [List.map_cons, hf] at h2 ⊢
  simp only [processSources, h2]
  rfl

theorem merge_separate (W T : ℕ) (B : ℕ → ℕ) (x : UseVecs n) (hT : 0 < T) :
    mergeUses "separate" T (useLists W T B x) = .ok ((List.range W).map fun w => timeMajor T (B w) (x w)) := by
  rw [mergeUses, if_neg (by decide), if_pos rfl, useLists]
  refine mapM_ok_map _ _ _ _ fun w _ => ?_
  have : ¬ ((List.range T).map fun t => (List.range (B w)).map (x w t)).isEmpty = true := by
    simp; omega
  rw [partitioned, if_neg this, timeMajor, List.flatMap_def]

/-- The examples of all towers in order, in use `t`. -/
def glued (W : ℕ) (B : ℕ → ℕ) (x : UseVecs n) (t : ℕ) : Rows n :=
  (List.range W).flatMap fun w => (List.range (B w)).map (x w t)

theorem glued_length (W : ℕ) (B : ℕ → ℕ) (x : UseVecs n) (t : ℕ) : (glued W B x t).length = ∑ w ∈ Finset.range W, B w := by
  induction W with
  | zero => rfl
  | succ W ih => simp only [glued, List.range_succ, List.flatMap_append] at ih ⊢; simp [ih, Finset.sum_range_succ]

theorem sum_range_map {α : Type} [AddCommMonoid α] (N : ℕ) (f : ℕ → α) : ((List.range N).map f).sum = ∑ b ∈ Finset.range N, f b := by
  induction N with
  | zero => rfl
  | succ N ih => rw [List.range_succ, List.map_append, List.sum_append, ih, Finset.sum_range_succ]; simp

theorem glued_sum (W : ℕ) (B : ℕ → ℕ) (x : UseVecs n) (t : ℕ) (f : (Fin n → ℝ) → ℝ) :
    ((glued W B x t).map f).sum = ∑ w ∈ Finset.range W, ∑ b ∈ Finset.range (B w), f (x w t b) := by
  induction W with
  | zero => rfl
  | succ W ih =>
    simp only [glued, List.range_succ, List.flatMap_append, List.map_append, List.sum_append] at ih ⊢
    rw [ih, Finset.sum_range_succ]
    simp [Function.comp_def, sum_range_map]

theorem glued_zip (W : ℕ) (B : ℕ → ℕ) (x : UseVecs n) (t t' : ℕ) (f : (Fin n → ℝ) → (Fin n → ℝ) → ℝ) :
    ((List.zip (glued W B x t) (glued W B x t')).map fun p => f p.1 p.2).sum =
      ∑ w ∈ Finset.range W, ∑ b ∈ Finset.range (B w), f (x w t b) (x w t' b) := by
  induction W with
  | zero => rfl
  | succ W ih =>
    have h : ∀ t, glued (W + 1) B x t = glued W B x t ++ (List.range (B W)).map (x W t) := fun t => by
      simp [glued, List.range_succ]
    rw [h, h, List.zip_append (by rw [glued_length, glued_length]), List.map_append, List.sum_append, ih, Finset.sum_range_succ,
      List.zip_map', List.map_map]
    congr 1

/-- The examples of all towers numbered through. -/
def globalVecs (W : ℕ) (B : ℕ → ℕ) (x : UseVecs n) (t b : ℕ) : Fin n → ℝ := (glued W B x t).getD b 0

theorem map_getD {α : Type} (l : List α) (d : α) (N : ℕ) (h : l.length = N) : (List.range N).map (fun b => l.getD b d) = l := by
  subst h
  apply List.ext_getElem?
  intro i
  by_cases hi : i < l.length
  · simp [hi]
  · simp [hi]

theorem global_glued (W : ℕ) (B : ℕ → ℕ) (x : UseVecs n) (t : ℕ) :
    (List.range (∑ w ∈ Finset.range W, B w)).map (globalVecs W B x t) = glued W B x t :=
  map_getD _ _ _ (glued_length W B x t)

theorem merge_concat (W T : ℕ) (B : ℕ → ℕ) (x : UseVecs n) (hW : 0 < W) (hT : 0 < T) :
    mergeUses "concat" T (useLists W T B x) = .ok [timeMajor T (∑ w ∈ Finset.range W, B w) (globalVecs W B x)] := by
  have hz : zipStar T (useLists W T B x) =
      (List.range T).map fun t => (List.range W).map fun w => (List.range (B w)).map (x w t) := by
    unfold zipStar useLists
    apply List.map_congr_left
    intro t ht
    rw [List.filterMap_map]
    have : ∀ w ∈ List.range W, ((fun l : List (Rows n) => l[t]?) ∘ fun w =>
        (List.range T).map fun t => (List.range (B w)).map (x w t)) w = some ((List.range (B w)).map (x w t)) := by
      intro w _
      simp [List.mem_range.1 ht]
    rw [List.filterMap_congr this]
    exact congrFun (List.filterMap_eq_map (f := fun w => (List.range (B w)).map (x w t))) (List.range W)
  have hne : ¬ (zipStar T (useLists W T B x)).flatten.isEmpty = true := by
    obtain ⟨l, hl⟩ := range_ne W hW
    obtain ⟨l', hl'⟩ := range_ne T hT
    rw [hz, hl, hl']
    simp
  rw [mergeUses, if_pos rfl, partitioned, if_neg hne, hz]
  simp only [bind, Except.bind, pure, Except.pure, timeMajor, global_glued]
  congr 2
  rw [List.flatten_flatten, List.map_map, List.flatMap_def]
  congr 1

theorem timeMajor_cov (T B : ℕ) (x : ℕ → ℕ → Fin n → ℝ) (i j : Fin n) :
    computeCov (timeMajor T B x) i j =
      (∑ t ∈ Finset.range T, ∑ b ∈ Finset.range B, x t b i * x t b j) / (T * B : ℕ) := by
  have h : ∀ f : (Fin n → ℝ) → ℝ, ((timeMajor T B x).map f).sum = ∑ t ∈ Finset.range T, ∑ b ∈ Finset.range B, f (x t b) := by
    intro f
    rw [timeMajor, List.flatMap_def, List.map_flatten, List.sum_flatten, List.map_map, List.map_map, sum_range_map]
    refine Finset.sum_congr rfl fun t _ => ?_
    simp [Function.comp_def, sum_range_map]
  rw [computeCov_eq]
  simp only [Matrix.smul_apply, list_sum_apply, Matrix.vecMulVec_apply, smul_eq_mul, timeMajor_length, h]
  ring

theorem total_apply {X : Type} (f : Rows n → Matrix (Fin n) (Fin n) ℝ) (xs : List X) (out : X → List (Rows n)) (L : ℕ)
    (hx : xs ≠ []) (hL : ∀ x, (out x).length = L) (i j : Fin n) :
    totalNewCov f (xs.map out) i j = (xs.map fun x => ((out x).map fun r => f r i j).sum / L).sum := by
  obtain ⟨x, xs', rfl⟩ := List.exists_cons_of_ne_nil hx
  unfold totalNewCov
  rw [Matrix.smul_apply, smul_eq_mul, List.map_map, list_sum_apply]
  simp only [Function.comp_apply, list_sum_apply, List.map_cons, List.headD_cons, hL, div_eq_inv_mul]
  rw [← List.map_cons (f := fun x => ((out x).map fun r => f r i j).sum),
    ← List.map_cons (f := fun x => (L : ℝ)⁻¹ * ((out x).map fun r => f r i j).sum), List.sum_map_mul_left]

/-- One source, towers kept apart, equal sizes. -/
theorem source_separate (f : Rows n → Matrix (Fin n) (Fin n) ℝ) (T W B : ℕ) (x : UseVecs n) (i j : Fin n) (S : ℕ → ℝ)
    (h : ∀ w, f (timeMajor T B (x w)) i j = S w / (T * B : ℕ)) :
    (((List.range W).map fun w => timeMajor T B (x w)).map fun r => f r i j).sum / W =
      (∑ w ∈ Finset.range W, S w) / (T * ∑ _w ∈ Finset.range W, B : ℕ) := by
  rw [List.map_map, sum_range_map]
  simp only [Function.comp_apply, h, ← Finset.sum_div, Finset.sum_const, Finset.card_range, smul_eq_mul]
  push_cast
  rw [div_div]
  congr 1
  ring

/-! ### The theorems -/

/-- How the data of a layer is registered: one tensor per use, or all uses in one tensor. -/
def registered (lists : Bool) (W T : ℕ) (B : ℕ → ℕ) (x : UseVecs n) : List (UseData (Fin n → ℝ)) :=
  if lists then perUse W T B x else folded W T B x

/-- One side of the block. -/
theorem side (strategy : String) (hs : strategy = "concat" ∨ strategy = "separate") (lists : Bool) (W T : ℕ) (B : ℕ → ℕ)
    (hW : 0 < W) (hT : 0 < T) (heq : (strategy = "concat" ∧ lists = true) ∨ ∃ b, ∀ w, B w = b) (numUses : Option ℕ)
    (hu : numUses = none ∨ numUses = some T) (xs : List (UseVecs n)) (hx : xs ≠ []) :
    ∃ out : UseVecs n → List (Rows n),
      processSources strategy numUses (xs.map (registered lists W T B)) =
        .ok (xs.map out, if lists then some T else numUses) ∧
      (∀ i j, totalNewCov computeCov (xs.map out) i j = (xs.map fun x => useMean W T B x i j).sum) ∧
      (∀ i j, totalNewCov (newCovDt1 T) (xs.map out) i j = (xs.map fun x => useLag W T B x i j).sum) ∧
      ∀ x, ((out x).map (multiPartialBatchSize T)).sum = ∑ w ∈ Finset.range W, B w := by
  have sep : ∀ b, (∀ w, B w = b) → ∀ out : UseVecs n → List (Rows n),
      (out = fun x => (List.range W).map fun w => timeMajor T (B w) (x w)) →
      (∀ i j, totalNewCov computeCov (xs.map out) i j = (xs.map fun x => useMean W T B x i j).sum) ∧
      (∀ i j, totalNewCov (newCovDt1 T) (xs.map out) i j = (xs.map fun x => useLag W T B x i j).sum) ∧
      ∀ x, ((out x).map (multiPartialBatchSize T)).sum = ∑ w ∈ Finset.range W, B w := by
    intro b hb out ho
    obtain rfl : B = fun _ => b := funext hb
    subst ho
    refine ⟨fun i j => ?_, fun i j => ?_, fun x => ?_⟩
    · rw [total_apply _ xs _ W hx (by simp)]
      congr 1
      apply List.map_congr_left
      intro x _
      exact source_separate computeCov T W b x i j _ fun w => timeMajor_cov T b (x w) i j
    · rw [total_apply _ xs _ W hx (by simp)]
      congr 1
      apply List.map_congr_left
      intro x _
      exact source_separate (newCovDt1 T) T W b x i j _ fun w => C64_lag_statistic T b hT (x w) i j
    · rw [List.map_map, sum_range_map]
      simp only [Function.comp_apply, multiPartialBatchSize, timeMajor_length, Nat.mul_div_cancel_left _ hT]
  cases lists with
  | false =>
    obtain ⟨b, hb⟩ : ∃ b, ∀ w, B w = b := by simpa using heq
    refine ⟨_, ?_, sep b hb _ rfl⟩
    rw [show xs.map (registered false W T B) = xs.map (folded W T B) from rfl]
    exact process_folded strategy W T B xs numUses hW hx
  | true =>
    rw [show xs.map (registered true W T B) = xs.map (perUse W T B) from rfl]
    rcases hs with rfl | rfl
    · refine ⟨_, process_perUse "concat" W T B xs numUses hW hx hu _ fun x => merge_concat W T B x hW hT, ?_, ?_, ?_⟩
      · intro i j
        rw [total_apply _ xs _ 1 hx (by simp)]
        congr 1
        apply List.map_congr_left
        intro x _
        simp only [List.map_cons, List.map_nil, List.sum_cons, List.sum_nil, add_zero, Nat.cast_one, div_one, timeMajor_cov,
          useMean]
        congr 1
        rw [eq_comm, Finset.sum_comm]
        refine Finset.sum_congr rfl fun t _ => ?_
        rw [← glued_sum W B x t fun v => v i * v j, ← global_glued, List.map_map, sum_range_map]
        rfl
      · intro i j
        rw [total_apply _ xs _ 1 hx (by simp)]
        congr 1
        apply List.map_congr_left
        intro x _
        simp only [List.map_cons, List.map_nil, List.sum_cons, List.sum_nil, add_zero, Nat.cast_one, div_one,
          C64_lag_statistic T _ hT, useLag]
        congr 1
        rw [eq_comm, Finset.sum_comm]
        refine Finset.sum_congr rfl fun t _ => ?_
        rw [← glued_zip W B x (t + 1) t fun v u => v i * u j, ← global_glued, ← global_glued, List.zip_map', List.map_map,
          sum_range_map]
        rfl
      · intro x
        simp [multiPartialBatchSize, timeMajor_length, Nat.mul_div_cancel_left _ hT]
    · obtain ⟨b, hb⟩ : ∃ b, ∀ w, B w = b := by simpa using heq
      exact ⟨_, process_perUse "separate" W T B xs numUses hW hx hu _ fun x => merge_separate W T B x hT, sep b hb _ rfl⟩

/-- The full claim: in every format and under both tower strategies the input factor's statistic is the mean over all
examples and uses of the products of the inputs, the lag statistic pairs consecutive uses of the same example (in the same
normalisation), the output factor sums the same quantities over the sources, and the batch sizes of the factors are the
registered ones. Missing: towers of unequal sizes, unless the data is given as lists and concatenated; see the
counterexample (and C12 for the "separate" strategy). -/
theorem C81_statistics_partial {m : ℕ} (strategy : String) (hs : strategy = "concat" ∨ strategy = "separate")
    (listsIn listsOut : Bool) (W T : ℕ) (B : ℕ → ℕ) (hW : 0 < W) (hT : 0 < T)
    (heq : (strategy = "concat" ∧ listsIn = true ∧ listsOut = true) ∨ ∃ b, ∀ w, B w = b) (numUses : Option ℕ)
    (hu : numUses = some T ∨ (numUses = none ∧ (listsIn = true ∨ listsOut = true)))
    (x : UseVecs n) (gs : List (UseVecs m)) (hg : gs ≠ []) :
    ∃ ins gouts, processUses strategy numUses (registered listsIn W T B x) (gs.map (registered listsOut W T B)) =
        .ok (ins, gouts, T) ∧
      (∀ i j, totalNewCov computeCov [ins] i j = useMean W T B x i j) ∧
      (∀ i j, totalNewCov (newCovDt1 T) [ins] i j = useLag W T B x i j) ∧
      (∀ i j, totalNewCov computeCov gouts i j = (gs.map fun g => useMean W T B g i j).sum) ∧
      (∀ i j, totalNewCov (newCovDt1 T) gouts i j = (gs.map fun g => useLag W T B g i j).sum) ∧
      (ins.map (multiPartialBatchSize T)).sum = ∑ w ∈ Finset.range W, B w ∧
      ∀ s ∈ gouts, (s.map (multiPartialBatchSize T)).sum = ∑ w ∈ Finset.range W, B w := by
  have hu1 : numUses = none ∨ numUses = some T := hu.symm.imp (·.1) id
  obtain ⟨oi, e1, c1, l1, b1⟩ := side strategy hs listsIn W T B hW hT (heq.imp (fun h => ⟨h.1, h.2.1⟩) id) numUses hu1 [x]
    (by simp)
  have hu2 : (if listsIn then some T else numUses) = none ∨ (if listsIn then some T else numUses) = some T := by
    cases listsIn
    · simpa using hu1
    · simp
  obtain ⟨og, e2, c2, l2, b2⟩ := side strategy hs listsOut W T B hW hT (heq.imp (fun h => ⟨h.1, h.2.2⟩) id)
    (if listsIn then some T else numUses) hu2 gs hg
  have hk : (if listsOut then some T else if listsIn then some T else numUses) = some T := by
    rcases hu with rfl | ⟨rfl, rfl | rfl⟩ <;> simp
  refine ⟨oi x, gs.map og, ?_, ?_, ?_, c2, l2, b1 x, ?_⟩
  · rw [processUses, show [registered listsIn W T B x] = [x].map (registered listsIn W T B) from rfl, e1]
    simp only [bind, Except.bind, e2, hk]
    rfl
  · intro i j
    have := c1 i j
    simpa using this
  · intro i j
    have := l1 i j
    simpa using this
  · intro s hs'
    obtain ⟨g, -, rfl⟩ := List.mem_map.1 hs'
    exact b2 g

/-- A `num_uses` that differs from the number of tensors in the lists is rejected. -/
theorem C81_wrong_num_uses {m : ℕ} (strategy : String) (W T : ℕ) (B : ℕ → ℕ) (hW : 0 < W) (x : UseVecs n) (k : ℕ) (hk : k ≠ T)
    (grads : List (List (UseData (Fin m → ℝ)))) : ∃ e, processUses strategy (some k) (perUse W T B x) grads = .error e := by
  obtain ⟨l, hl⟩ := range_ne W hW
  refine ⟨"ValueError: num_uses doesn't match length", ?_⟩
  simp [processUses, processSources, perUse, hl, hk, throw, throwThe, MonadExceptOf.throw, bind, Except.bind]

/-- Inputs and outputs given as lists of different lengths are rejected. -/
theorem C81_lengths_differ {m : ℕ} (strategy : String) (numUses : Option ℕ) (W T T' : ℕ) (B : ℕ → ℕ) (hW : 0 < W) (hT : T ≠ T')
    (x : UseVecs n) (gs : List (UseVecs m)) (hg : gs ≠ []) :
    ∃ e, processUses strategy numUses (perUse W T B x) (gs.map (perUse W T' B)) = .error e := by
  rw [processUses]
  cases h1 : processSources strategy numUses [perUse W T B x] with
  | error e => exact ⟨e, rfl⟩
  | ok r =>
    obtain ⟨l, hl⟩ := range_ne W hW
    obtain ⟨g, gs', rfl⟩ := List.exists_cons_of_ne_nil hg
    have hr : r.2 = some T := by
      simp only [perUse, hl, List.map_cons, processSources, List.length_map, List.length_range] at h1
      split at h1
      · cases h1
      · simp only [bind, Except.bind] at h1
        split at h1
        · cases h1
        · split at h1
          · cases h1
          · simp only [pure, Except.pure] at h1
            split at h1
            · cases h1
            · simp only [Except.ok.injEq] at h1
              rw [← h1]
    refine ⟨"ValueError: num_uses doesn't match length", ?_⟩
    simp [processSources, perUse, hl, hr, hT, throw, throwThe, MonadExceptOf.throw, bind, Except.bind]

theorem sameLength_false (k : ℕ) : ∀ l : List (UseData (Fin n → ℝ)), (∃ d ∈ l, ∀ u, d = .uses u → u.length ≠ k) →
    sameLength k l = .ok false ∨ ∃ e, sameLength k l = .error e
  | [], h => by simp at h
  | .tensor _ :: _, _ => .inr ⟨_, rfl⟩
  | .uses u :: l, h => by
    rw [sameLength]
    by_cases hu : u.length = k
    · rw [if_pos hu]
      obtain ⟨d, hd, hk⟩ := h
      rcases List.mem_cons.1 hd with rfl | hd
      · exact absurd hu (hk u rfl)
      · exact sameLength_false k l ⟨d, hd, hk⟩
    · rw [if_neg hu]
      exact .inl rfl

theorem process_inconsistent (strategy : String) (numUses : Option ℕ) (first : List (Rows n)) (rest : List (UseData (Fin n → ℝ)))
    (sources : List (List (UseData (Fin n → ℝ))))
    (h : ∃ s ∈ (.uses first :: rest) :: sources, ∃ d ∈ s, ∀ u, d = .uses u → u.length ≠ first.length) :
    ∃ e, processSources strategy numUses ((.uses first :: rest) :: sources) = .error e := by
  obtain ⟨s, hs, d, hd, hu⟩ := h
  have := sameLength_false first.length ((.uses first :: rest) :: sources).flatten ⟨d, List.mem_flatten.2 ⟨s, hs, hd⟩, hu⟩
  simp only [processSources]
  split
  · exact ⟨_, rfl⟩
  · rcases this with h | ⟨e, h⟩
    · rw [h]; exact ⟨_, rfl⟩
    · rw [h]; exact ⟨e, rfl⟩

/-- Towers with different numbers of uses (or a tower given as a tensor where the first one is a list) are rejected, for the inputs
and for the outputs of any source. -/
theorem C81_inconsistent_towers {m : ℕ} (strategy : String) (numUses : Option ℕ) (inputs : List (UseData (Fin n → ℝ)))
    (grads : List (List (UseData (Fin m → ℝ))))
    (h : (∃ first rest, inputs = .uses first :: rest ∧ ∃ d ∈ rest, ∀ u, d = .uses u → u.length ≠ first.length) ∨
      ∃ first rest sources, grads = (.uses first :: rest) :: sources ∧
        ∃ s ∈ grads, ∃ d ∈ s, ∀ u, d = .uses u → u.length ≠ first.length) :
    ∃ e, processUses strategy numUses inputs grads = .error e := by
  rw [processUses]
  rcases h with ⟨first, rest, rfl, d, hd, hu⟩ | ⟨first, rest, sources, rfl, h⟩
  · obtain ⟨e, he⟩ := process_inconsistent strategy numUses first rest [] ⟨_, List.mem_cons_self, d, by simp [hd], hu⟩
    exact ⟨e, by rw [he]; rfl⟩
  · cases processSources strategy numUses [inputs] with
    | error e => exact ⟨e, rfl⟩
    | ok r =>
      obtain ⟨e, he⟩ := process_inconsistent strategy r.2 first rest sources h
      exact ⟨e, by simp only [bind, Except.bind, he]⟩

/-- If both sides are single tensors, the number of uses must be given. -/
theorem C81_unknown_num_uses {m : ℕ} (strategy : String) (W T : ℕ) (B : ℕ → ℕ) (hW : 0 < W) (x : UseVecs n)
    (gs : List (UseVecs m)) (hg : gs ≠ []) :
    ∃ e, processUses strategy none (folded W T B x) (gs.map (folded W T B)) = .error e := by
  rw [processUses, show [folded W T B x] = [x].map (folded W T B) from rfl, process_folded strategy W T B [x] none hW (by simp)]
  simp only [bind, Except.bind, process_folded strategy W T B gs none hW hg]
  exact ⟨_, rfl⟩

/-- Under "concat" single tensors are not concatenated: with towers of one and three examples the same data gives another
covariance than in the list format. -/
theorem C81_concat_tensors_counterexample :
    ∃ (B : ℕ → ℕ) (x : UseVecs 1) (gs : List (UseVecs 1)) (ins ins' : List (Rows 1)) (gouts gouts' : List (List (Rows 1))),
      processUses "concat" (some 1) (perUse 2 1 B x) (gs.map (perUse 2 1 B)) = .ok (ins, gouts, 1) ∧
      processUses "concat" (some 1) (folded 2 1 B x) (gs.map (folded 2 1 B)) = .ok (ins', gouts', 1) ∧
      totalNewCov computeCov [ins] 0 0 = 1 / 4 ∧ totalNewCov computeCov [ins'] 0 0 = 1 / 2 := by
  let B : ℕ → ℕ := fun w => if w = 0 then 1 else 3
  let x : UseVecs 1 := fun w _ _ _ => if w = 0 then 1 else 0
  obtain ⟨ins, gouts, h1, h2, -⟩ := C81_statistics_partial "concat" (.inl rfl) true true 2 1 B (by omega) (by omega)
    (.inl ⟨rfl, rfl, rfl⟩) (some 1) (.inl rfl) x [x] (by simp)
  refine ⟨B, x, [x], ins, (List.range 2).map fun w => timeMajor 1 (B w) (x w), gouts,
    [(List.range 2).map fun w => timeMajor 1 (B w) (x w)], h1, ?_, ?_, ?_⟩
  · have := process_folded (n := 1) "concat" 2 1 B [x] (some 1) (by omega) (by simp)
    simp only [List.map_cons, List.map_nil] at this
    simp only [processUses, List.map_cons, List.map_nil, this, bind, Except.bind]
    rfl
  · rw [h2]
    simp [useMean, B, x, Finset.sum_range_succ]
  · have := total_apply (n := 1) computeCov [x] (fun x => (List.range 2).map fun w => timeMajor 1 (B w) (x w)) 2 (by simp)
      (by simp) 0 0
    simp only [List.map_cons, List.map_nil] at this
    rw [this]
    simp [List.range_succ, timeMajor_cov, B, x]

/-! ### Concrete cases -/

/-- Two towers of one and two examples, two uses, as lists, concatenated: the rows are use by use. -/
example : processUses (α := Fin 1 → ℝ) (β := Fin 1 → ℝ) "concat" none
    [.uses [[fun _ => 1], [fun _ => 2]], .uses [[fun _ => 3, fun _ => 4], [fun _ => 5, fun _ => 6]]]
    [[.uses [[fun _ => 7], [fun _ => 8]], .uses [[fun _ => 9, fun _ => 9], [fun _ => 9, fun _ => 9]]]] =
    .ok ([[fun _ => 1, fun _ => 3, fun _ => 4, fun _ => 2, fun _ => 5, fun _ => 6]],
      [[[fun _ => 7, fun _ => 9, fun _ => 9, fun _ => 8, fun _ => 9, fun _ => 9]]], 2) := rfl

example : (perUse 2 2 (fun w => w + 1) (fun w t b (_ : Fin 1) => (10 * w + 5 * t + b : ℝ))).length = 2 := by simp [perUse]

/-- Two uses in the first tower, one in the second. -/
example : ∃ e, processUses (α := Fin 1 → ℝ) (β := Fin 1 → ℝ) "separate" none [.uses [[fun _ => 1], [fun _ => 2]], .uses [[fun _ => 1]]]
    [[.uses [[fun _ => 1], [fun _ => 2]], .uses [[fun _ => 1], [fun _ => 2]]]] = .error e :=
  C81_inconsistent_towers _ _ _ _ (.inl ⟨_, _, rfl, _, List.mem_cons_self, by rintro u ⟨⟩; simp⟩)

/-- An unknown tower strategy is rejected for lists but not for single tensors. -/
example : (∃ e, processUses (α := Fin 1 → ℝ) (β := Fin 1 → ℝ) "average" none [.uses [[fun _ => 1]]] [[.uses [[fun _ => 1]]]] = .error e) ∧
    processUses (α := Fin 1 → ℝ) (β := Fin 1 → ℝ) "average" (some 1) [.tensor [fun _ => 1]] [[.tensor [fun _ => 1]]] =
      .ok ([[fun _ => 1]], [[[fun _ => 1]]], 1) := ⟨⟨_, rfl⟩, rfl⟩

end Kfac.Factor
