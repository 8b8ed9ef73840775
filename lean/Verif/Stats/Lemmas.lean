import Verif.Stats.Model
import Verif.Block.Props
import Mathlib.Analysis.Matrix.Order
import Mathlib.LinearAlgebra.Matrix.Vec

/-! Helper lemmas for the statistics properties. -/

namespace Kfac.Stats

variable {V : Type} [AddCommGroup V] [Module ℝ V]

/-! ### Moving averages -/

/-- An update: value, decay, weight. -/
structure Upd (V : Type) where
  v : V
  d : ℝ
  w : ℝ

/-- Specification: the total weight of a history; the weight of an entry is its own weight times the
product of all later decays. -/
def histWeight : List (Upd V) → ℝ
  | [] => 0
  | u :: later => u.w * (later.map Upd.d).prod + histWeight later

/-- Specification: the weighted sum of a history. -/
def histSum : List (Upd V) → V
  | [] => 0
  | u :: later => (u.w * (later.map Upd.d).prod) • u.v + histSum later

theorem foldl_add (h : List (Upd V)) (s : MovAvg V) :
    h.foldl (fun s u => s.add u.v u.d u.w) s
      = ⟨(h.map Upd.d).prod • s.var + histSum h, (h.map Upd.d).prod * s.totalWeight + histWeight h⟩ := by
  induction h generalizing s with
  | nil => simp [histSum, histWeight]
  | cons u h ih =>
    rw [List.foldl_cons, ih]
    simp only [MovAvg.add, histSum, histWeight, List.map_cons, List.prod_cons]
    congr 1
    · rw [smul_add, smul_smul, smul_smul, mul_comm u.d, mul_comm u.w, add_assoc]
    · ring

omit [AddCommGroup V] [Module ℝ V] in
theorem histWeight_nonneg (h : List (Upd V)) (hw : ∀ u ∈ h, 0 < u.w ∧ 0 ≤ u.d) : 0 ≤ histWeight h := by
  induction h with
  | nil => simp [histWeight]
  | cons u h ih =>
    have h1 := hw u (by simp)
    have h2 : 0 ≤ (h.map Upd.d).prod := List.prod_nonneg (by
      intro a ha
      simp only [List.mem_map] at ha
      obtain ⟨x, hx, rfl⟩ := ha
      exact (hw x (by simp [hx])).2)
    have h3 := ih fun x hx => hw x (by simp [hx])
    have := mul_nonneg h1.1.le h2
    simp only [histWeight]; linarith

omit [AddCommGroup V] [Module ℝ V] in
theorem histWeight_pos (h : List (Upd V)) (hne : h ≠ []) (hw : ∀ u ∈ h, 0 < u.w ∧ 0 ≤ u.d) :
    0 < histWeight h := by
  induction h with
  | nil => exact absurd rfl hne
  | cons u h ih =>
    have h1 := hw u (by simp)
    cases h with
    | nil => simpa [histWeight] using h1.1
    | cons u' h' =>
      have h2 : 0 ≤ ((u' :: h').map Upd.d).prod := List.prod_nonneg (by
        intro a ha
        simp only [List.mem_map] at ha
        obtain ⟨x, hx, rfl⟩ := ha
        exact (hw x (by simp [hx])).2)
      have h3 := ih (by simp) fun x hx => hw x (by simp [hx])
      have := mul_nonneg h1.1.le h2
      rw [histWeight]; linarith

theorem histSum_bounds (h : List (Upd ℝ)) (a b : ℝ) (hw : ∀ u ∈ h, 0 < u.w ∧ 0 ≤ u.d)
    (hab : ∀ u ∈ h, a ≤ u.v ∧ u.v ≤ b) :
    a * histWeight h ≤ histSum h ∧ histSum h ≤ b * histWeight h := by
  induction h with
  | nil => simp [histWeight, histSum]
  | cons u h ih =>
    have h1 := hw u (by simp)
    have h2 : 0 ≤ (h.map Upd.d).prod := List.prod_nonneg (by
      intro a ha
      simp only [List.mem_map] at ha
      obtain ⟨x, hx, rfl⟩ := ha
      exact (hw x (by simp [hx])).2)
    have h3 := ih (fun x hx => hw x (by simp [hx])) fun x hx => hab x (by simp [hx])
    have h4 := hab u (by simp)
    have h5 : 0 ≤ u.w * (h.map Upd.d).prod := mul_nonneg h1.1.le h2
    simp only [histWeight, histSum, smul_eq_mul]
    constructor <;> nlinarith [mul_le_mul_of_nonneg_left h4.1 h5, mul_le_mul_of_nonneg_left h4.2 h5]

theorem histSum_const (h : List (Upd V)) (c : V) (hc : ∀ u ∈ h, u.v = c) :
    histSum h = histWeight h • c := by
  induction h with
  | nil => simp [histSum, histWeight]
  | cons u h ih =>
    rw [histSum, histWeight, ih fun x hx => hc x (by simp [hx]), hc u (by simp), add_smul]

/-- Specification: the updates since the last reset. -/
def updatesSinceReset : List (MovOp V) → List (Upd V)
  | ops => ops.foldl (fun acc op => match op with
      | .add v d w => acc ++ [⟨v, d, w⟩]
      | .reset => []) []

theorem foldl_step (ops : List (MovOp V)) :
    ops.foldl MovAvg.step MovAvg.init
      = (updatesSinceReset ops).foldl (fun s u => s.add u.v u.d u.w) MovAvg.init := by
  induction ops using List.reverseRecOn with
  | nil => rfl
  | append_singleton ops op ih =>
    rw [List.foldl_append, updatesSinceReset, List.foldl_append]
    cases op with
    | add v d w =>
      simp only [List.foldl_cons, List.foldl_nil, MovAvg.step, List.foldl_append, ih,
        updatesSinceReset]
    | reset => rfl

/-! ### Accumulators -/

/-- Specification: the values accumulated since the last reset. -/
def valuesSinceReset : List (AccOp V) → List V
  | ops => ops.foldl (fun acc op => match op with
      | .accumulate v => acc ++ [v]
      | .reset => []
      | .readAndReset => []) []

theorem accum_state (ops : List (AccOp V)) :
    ops.foldl (fun s op => (s.step op).1) Accum.init
      = ⟨(valuesSinceReset ops).sum, (valuesSinceReset ops).length⟩ := by
  induction ops using List.reverseRecOn with
  | nil => simp [valuesSinceReset, Accum.init]
  | append_singleton ops op ih =>
    have hv : valuesSinceReset (ops ++ [op]) = (match op with
        | .accumulate v => valuesSinceReset ops ++ [v]
        | .reset => []
        | .readAndReset => []) := by
      simp only [valuesSinceReset, List.foldl_append, List.foldl_cons, List.foldl_nil]
    rw [List.foldl_append, ih, hv]
    cases op with
    | accumulate v =>
      simp [Accum.step, Accum.accumulate]
    | reset => simp [Accum.step, Accum.reset]
    | readAndReset => simp [Accum.step, Accum.readValueAndReset, Accum.reset]

/-! ### Covariances as row means -/

theorem list_sum_apply {ι : Type} (l : List ι) {n m : Nat} (f : ι → Matrix (Fin n) (Fin m) ℝ)
    (i : Fin n) (j : Fin m) : (l.map f).sum i j = (l.map fun x => f x i j).sum := by
  induction l with
  | nil => rfl
  | cons x l ih => simp only [List.map_cons, List.sum_cons, Matrix.add_apply, ih]

theorem computeCov_eq {n : Nat} (rows : Rows n) :
    computeCov rows = (rows.length : ℝ)⁻¹ • (rows.map fun x => Matrix.vecMulVec x x).sum := by
  ext i j
  have h : (rows.map fun x => x j * x i) = rows.map fun x => x i * x j := by
    apply List.map_congr_left; intro x _; ring
  simp only [Matrix.smul_apply, list_sum_apply, Matrix.vecMulVec_apply, smul_eq_mul]
  unfold computeCov
  simp only [Matrix.transpose, Matrix.of_apply, h]
  ring

theorem computeDiagCov_eq {n : Nat} (rows : Rows n) :
    computeDiagCov rows = (rows.length : ℝ)⁻¹ • (rows.map fun x => fun i => x i ^ 2).sum := by
  have key : ∀ (l : Rows n) (i : Fin n),
      (l.map fun x => fun i => x i ^ 2).sum i = (l.map fun x => x i ^ 2).sum := by
    intro l i
    induction l with
    | nil => rfl
    | cons x l ih => simp only [List.map_cons, List.sum_cons, Pi.add_apply, ih]
  funext i
  simp only [computeDiagCov, Pi.smul_apply, key, smul_eq_mul]
  ring

theorem listSum_psd {n : Nat} (l : List (Matrix (Fin n) (Fin n) ℝ)) (h : ∀ M ∈ l, M.PosSemidef) :
    l.sum.PosSemidef := by
  induction l with
  | nil => exact Matrix.PosSemidef.zero
  | cons x l ih =>
    rw [List.sum_cons]
    exact (h x (by simp)).add (ih fun M hM => h M (by simp [hM]))

theorem computeCov_psd {n : Nat} (rows : Rows n) : (computeCov rows).PosSemidef := by
  rw [computeCov_eq]
  apply Matrix.PosSemidef.smul
  · apply listSum_psd
    intro M hM
    simp only [List.mem_map] at hM
    obtain ⟨x, _, rfl⟩ := hM
    exact Matrix.posSemidef_vecMulVec_self_star x
  · positivity

theorem totalNewCov_psd {n : Nat} (data : List (List (Rows n))) :
    (totalNewCov computeCov data).PosSemidef := by
  apply Matrix.PosSemidef.smul _ (by positivity)
  apply listSum_psd
  intro M hM
  simp only [List.mem_map] at hM
  obtain ⟨t, _, rfl⟩ := hM
  apply listSum_psd
  intro M hM
  simp only [List.mem_map] at hM
  obtain ⟨t, _, rfl⟩ := hM
  exact computeCov_psd t

theorem newCov_psd {n : Nat} (data : List (List (List (Rows n)))) :
    (newCovOverReplicas computeCov data).PosSemidef := by
  apply Matrix.PosSemidef.smul _ (by positivity)
  apply listSum_psd
  intro M hM
  simp only [List.mem_map] at hM
  obtain ⟨t, _, rfl⟩ := hM
  exact totalNewCov_psd t

theorem listSum_nonneg {n : Nat} (l : List (Fin n → ℝ)) (h : ∀ M ∈ l, 0 ≤ M) : 0 ≤ l.sum := by
  induction l with
  | nil => exact le_refl _
  | cons x l ih =>
    rw [List.sum_cons]
    exact add_nonneg (h x (by simp)) (ih fun M hM => h M (by simp [hM]))

theorem newDiagCov_nonneg {n : Nat} (data : List (List (List (Rows n)))) :
    0 ≤ newCovOverReplicas computeDiagCov data := by
  apply smul_nonneg (by positivity)
  apply listSum_nonneg
  intro M hM
  simp only [List.mem_map] at hM
  obtain ⟨t, _, rfl⟩ := hM
  apply smul_nonneg (by positivity)
  apply listSum_nonneg
  intro M hM
  simp only [List.mem_map] at hM
  obtain ⟨t, _, rfl⟩ := hM
  apply listSum_nonneg
  intro M hM
  simp only [List.mem_map] at hM
  obtain ⟨t, _, rfl⟩ := hM
  rw [computeDiagCov_eq]
  apply smul_nonneg (by positivity)
  apply listSum_nonneg
  intro M hM
  simp only [List.mem_map] at hM
  obtain ⟨t, _, rfl⟩ := hM
  intro i
  exact sq_nonneg _

/-! ### Towers -/

theorem flatten_length_eq {α : Type} (ts : List (List α)) (m : Nat) (h : ∀ t ∈ ts, t.length = m) :
    ts.flatten.length = ts.length * m := by
  induction ts with
  | nil => simp
  | cons t ts ih =>
    rw [List.flatten_cons, List.length_append, ih fun x hx => h x (by simp [hx]), h t (by simp),
      List.length_cons]
    ring

/-- Any estimator which is a mean over rows. -/
theorem tower_mean {α : Type} (g : α → V) (f : List α → V)
    (hf : ∀ rows, f rows = (rows.length : ℝ)⁻¹ • (rows.map g).sum) (ts : List (List α)) (m : Nat)
    (h : ∀ t ∈ ts, t.length = m) :
    ((ts.length : ℝ))⁻¹ • (ts.map f).sum = f ts.flatten := by
  have h1 : (ts.map f).sum = (m : ℝ)⁻¹ • (ts.flatten.map g).sum := by
    induction ts with
    | nil => simp
    | cons t ts ih =>
      rw [List.map_cons, List.sum_cons, ih fun x hx => h x (by simp [hx]), hf, h t (by simp),
        List.flatten_cons, List.map_append, List.sum_append, smul_add]
  rw [h1, hf, flatten_length_eq ts m h, smul_smul, Nat.cast_mul, mul_inv]

theorem totalNewCov_towers {α : Type} (f : List α → V) (g : α → V)
    (hf : ∀ rows, f rows = (rows.length : ℝ)⁻¹ • (rows.map g).sum) (data : List (List (List α)))
    (T m : Nat) (hne : data ≠ []) (htowers : ∀ towers ∈ data, towers.length = T)
    (hsize : ∀ towers ∈ data, ∀ t ∈ towers, t.length = m) :
    totalNewCov f data = totalNewCov f (data.map fun towers => [towers.flatten]) := by
  have hT : (data.headD []).length = T := by
    cases data with
    | nil => exact absurd rfl hne
    | cons a l => exact htowers a (by simp)
  have h1 : ((data.map fun towers => [towers.flatten]).headD []).length = 1 := by
    cases data with
    | nil => exact absurd rfl hne
    | cons a l => rfl
  unfold totalNewCov
  rw [hT, h1, List.smul_sum]
  simp only [Nat.cast_one, inv_one, one_smul, List.map_map]
  congr 1
  apply List.map_congr_left
  intro towers ht
  simp only [Function.comp, List.map_cons, List.map_nil, List.sum_cons, List.sum_nil, add_zero]
  rw [← tower_mean g f hf towers m (hsize towers ht), htowers towers ht]

theorem totalNewCov_perm {B : Type} (f : B → V) (data data' : List (List B))
    (h : List.Forall₂ List.Perm data data') : totalNewCov f data = totalNewCov f data' := by
  have h1 : (data.headD []).length = (data'.headD []).length := by
    cases h with
    | nil => rfl
    | cons h _ => exact h.length_eq
  have h2 : (data.map fun towers => (towers.map f).sum) = data'.map fun towers => (towers.map f).sum := by
    clear h1
    induction h with
    | nil => rfl
    | cons h _ ih => rw [List.map_cons, List.map_cons, ih, (h.map f).sum_eq]
  unfold totalNewCov
  rw [h1, h2]

/-! ### Positive definite factors give a descent direction -/

open Matrix in
theorem inner_pos {p c : Nat} {A : Matrix (Fin p) (Fin p) ℝ} {G : Matrix (Fin c) (Fin c) ℝ}
    (hA : A.PosDef) (hG : G.PosDef) {X : Matrix (Fin p) (Fin c) ℝ} (hX : X ≠ 0) :
    0 < ∑ i, ∑ j, X i j * (A * X * G) i j := by
  have hk := (hG.transpose.kronecker hA)
  have hv : vec X ≠ 0 := by rwa [ne_eq, vec_eq_zero_iff]
  have := hk.dotProduct_mulVec_pos hv
  rw [kronecker_mulVec_vec, star_trivial, Matrix.transpose_transpose] at this
  rw [vec_dotProduct_vec] at this
  have e : (Xᵀ * (A * X * G)).trace = ∑ i, ∑ j, X i j * (A * X * G) i j := by
    rw [Matrix.trace, Finset.sum_comm]
    rfl
  rwa [e] at this

end Kfac.Stats
