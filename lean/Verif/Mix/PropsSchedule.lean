import Verif.Mix.PropsInterpolation
import Mathlib.Algebra.Field.GeomSum
import Mathlib.Analysis.PSeries
import Mathlib.Tactic.Positivity

/-! # C133: learning rates that change while training -/

namespace Kfac.Mix

open Kfac.Stats Kfac.Block Kfac.Train Kfac.Params Matrix

variable {B : ℕ} {shapes : Fin B → Shape}

/-! ### Specification -/

/-- The options when the tensor given as `learning_rate` (optimizer.py 112-114, 420) has the value `r`. -/
def atRate (cfg : Config) (r : ℝ) : Config := { cfg with learningRate := r }

/-- `tf.train.exponential_decay(r, step, steps, decay, staircase=True)` (convnet.py 814-815). -/
noncomputable def stairs (r decay : ℝ) (steps t : ℕ) : ℝ := r * decay ^ (t / steps)

/-- As `Sampling`, with a learning rate that depends on the number of batches so far. -/
def Scheduled {n : ℕ} (cfg : Config) (rate : ℕ → ℝ) (start : Net shapes) (ℓ : Fin n → Params shapes → ℝ)
    (updates : List (Fin n) → List (Op shapes)) (damping : List (Fin n) → ℝ) (states : List (Fin n) → Net shapes) : Prop :=
  execute (atRate cfg (rate 0)) start (updates []) = .ok (states []) ∧
  ∀ i h, execute (atRate cfg (rate h.length)) (states h) (.train (ℓ i) (damping h) :: updates (i :: h)) = .ok (states (i :: h))

/-! ### Sums of learning rates -/

theorem harmonic_sum {β γ : ℝ} (hβ : 0 < β) (hγ : 1 ≤ γ) (R : ℝ) : ∃ T : ℕ, R ≤ ∑ t ∈ Finset.range T, β / (γ + t) := by
  obtain ⟨T, hT⟩ := (Real.tendsto_sum_range_one_div_nat_succ_atTop.eventually_ge_atTop (R * γ / β)).exists
  refine ⟨T, ?_⟩
  rw [div_le_iff₀ hβ] at hT
  have h1 : ∀ t ∈ Finset.range T, β / γ * (1 / ((t : ℝ) + 1)) ≤ β / (γ + t) := by
    intro t _
    have ht : (0 : ℝ) ≤ t := Nat.cast_nonneg t
    rw [div_mul_div_comm, mul_one]
    exact div_le_div_of_nonneg_left hβ.le (by positivity) (by nlinarith)
  have h2 := Finset.sum_le_sum h1
  rw [← Finset.mul_sum] at h2
  refine le_trans ?_ h2
  rw [div_mul_eq_mul_div, le_div_iff₀ (by positivity)]
  linarith

theorem square_sum {β γ : ℝ} (hγ : 1 < γ) (T : ℕ) : ∑ t ∈ Finset.range T, (β / (γ + t)) ^ 2 ≤ β ^ 2 / (γ - 1) := by
  have h1 : ∑ t ∈ Finset.range T, (β / (γ + t)) ^ 2 ≤ β ^ 2 / (γ - 1) - β ^ 2 / (γ - 1 + T) := by
    induction T with
    | zero => simp
    | succ T ih =>
      rw [Finset.sum_range_succ]
      have hT : (0 : ℝ) ≤ T := Nat.cast_nonneg T
      have h2 : (β / (γ + T)) ^ 2 ≤ β ^ 2 / (γ - 1 + T) - β ^ 2 / (γ + T) := by
        have h3 : 0 < γ - 1 + T := by linarith
        have h4 : 0 < γ + T := by linarith
        have e : β ^ 2 / (γ - 1 + T) - β ^ 2 / (γ + T) = β ^ 2 / ((γ - 1 + T) * (γ + T)) := by
          field_simp
          ring
        rw [e, div_pow]
        exact div_le_div_of_nonneg_left (sq_nonneg _) (by positivity) (by nlinarith)
      have e : γ - 1 + ((T + 1 : ℕ) : ℝ) = γ + T := by
        push_cast
        ring
      rw [e]
      linarith
  have h2 : 0 ≤ β ^ 2 / (γ - 1 + T) := div_nonneg (sq_nonneg _) (add_nonneg (sub_pos.mpr hγ).le (Nat.cast_nonneg T))
  linarith

section theorems

variable {n : ℕ} {cfg : Config} {rate : ℕ → ℝ} {start : Net shapes} {ℓ : Fin n → Params shapes → ℝ}
  {updates : List (Fin n) → List (Op shapes)} {damping : List (Fin n) → ℝ} {states : List (Fin n) → Net shapes}
  {lam L b Λ c v low μ : ℝ}

/-! ### Without momentum -/

theorem scheduled_cond (h : ∀ t, Drawing (atRate cfg (rate t)) start ℓ updates damping lam L b Λ c)
    (hs : Scheduled cfg rate start ℓ updates damping states) : ∀ l, Cond lam b c true true (states l)
  | [] => by
    obtain ⟨net, h1, h2, -⟩ := drawn_first (h 0)
    rwa [← Except.ok.inj (hs.1.symm.trans h1)] at h2
  | i :: l => by
    obtain ⟨P, -, h1⟩ := drawn_next (h l.length) (scheduled_cond h hs l) l
    obtain ⟨net', h2, h3, -⟩ := h1 i
    rwa [← Except.ok.inj ((hs.2 i l).symm.trans h2)] at h3

theorem scheduled_first (h : ∀ t, Drawing (atRate cfg (rate t)) start ℓ updates damping lam L b Λ c)
    (hs : Scheduled cfg rate start ℓ updates damping states) : (states []).params = start.params := by
  obtain ⟨net, h1, -, h2⟩ := drawn_first (h 0)
  rwa [← Except.ok.inj (hs.1.symm.trans h1)] at h2

theorem expect_congr {t : ℕ} {φ ψ : List (Fin n) → ℝ} (h : ∀ l, l.length = t → φ l ≤ ψ l) : expect n t φ ≤ expect n t ψ :=
  div_le_div_of_nonneg_right (Finset.sum_le_sum fun s _ => h _ (List.length_ofFn)) (by positivity)

theorem scheduled_step (h : ∀ t, Drawn (atRate cfg (rate t)) start ℓ updates damping lam L b Λ c v)
    (hs : Scheduled cfg rate start ℓ updates damping states) (t : ℕ) :
    expect n (t + 1) (fun l => meanLoss ℓ (states l).params) ≤ expect n t (fun l => meanLoss ℓ (states l).params) -
      rate t / (2 * c) * expect n t (fun l => ∑ j, ∑ k, grad (meanLoss ℓ) (states l).params j k ^ 2) +
      L * rate t ^ 2 * v / (2 * lam ^ 2) := by
  rw [expect_succ]
  have h1 : ∀ l : List (Fin n), l.length = t → (∑ i, meanLoss ℓ (states (i :: l)).params) / n ≤
      1 * meanLoss ℓ (states l).params + -(rate t / (2 * c)) * (∑ j, ∑ k, grad (meanLoss ℓ) (states l).params j k ^ 2) +
      L * rate t ^ 2 * v / (2 * lam ^ 2) := by
    rintro l rfl
    have := cond_step (h l.length).toDrawing (scheduled_cond (fun t => (h t).toDrawing) hs l) l (fun i => hs.2 i l)
      ((h l.length).variance _)
    simp only [atRate] at this
    linarith
  refine (expect_congr h1).trans (le_of_eq ?_)
  rw [expect_linear (h 0).batches]
  ring

theorem expect_above (hn : 0 < n) {φ : List (Fin n) → ℝ} (hφ : ∀ l, low ≤ φ l) (T : ℕ) : low ≤ expect n T φ := by
  have := expect_linear (t := T) hn (fun _ => 0) (fun _ => 0) 0 0 low
  simp only [mul_zero, zero_add, zero_mul] at this
  rw [← this]
  exact expect_mono hφ

/-- C133: the expected squared gradients, weighted by the learning rates. -/
theorem C133_average (h : ∀ t, Drawn (atRate cfg (rate t)) start ℓ updates damping lam L b Λ c v)
    (hs : Scheduled cfg rate start ℓ updates damping states) (hlow : ∀ θ, low ≤ meanLoss ℓ θ) (T : ℕ) :
    ∑ t ∈ Finset.range T, rate t * expect n t (fun l => ∑ j, ∑ k, grad (meanLoss ℓ) (states l).params j k ^ 2) ≤
      2 * c * (meanLoss ℓ start.params - low) + c * L * v / lam ^ 2 * ∑ t ∈ Finset.range T, rate t ^ 2 := by
  have hc := (h 0).positive
  have hlam := (h 0).damped
  have h2 : ∑ t ∈ Finset.range T, rate t * expect n t (fun l => ∑ j, ∑ k, grad (meanLoss ℓ) (states l).params j k ^ 2) ≤
      2 * c * (meanLoss ℓ start.params - expect n T (fun l => meanLoss ℓ (states l).params)) +
      c * L * v / lam ^ 2 * ∑ t ∈ Finset.range T, rate t ^ 2 := by
    induction T with
    | zero => simp [expect_zero, scheduled_first (fun t => (h t).toDrawing) hs]
    | succ T ih =>
      rw [Finset.sum_range_succ, Finset.sum_range_succ]
      have h3 := mul_le_mul_of_nonneg_left (scheduled_step h hs T) (by positivity : 0 ≤ 2 * c)
      have e : 2 * c * (expect n T (fun l => meanLoss ℓ (states l).params) -
          rate T / (2 * c) * expect n T (fun l => ∑ j, ∑ k, grad (meanLoss ℓ) (states l).params j k ^ 2) +
          L * rate T ^ 2 * v / (2 * lam ^ 2)) = 2 * c * expect n T (fun l => meanLoss ℓ (states l).params) -
          rate T * expect n T (fun l => ∑ j, ∑ k, grad (meanLoss ℓ) (states l).params j k ^ 2) +
          c * L * v / lam ^ 2 * rate T ^ 2 := by
        field_simp
      rw [e] at h3
      linarith
  have h3 := mul_le_mul_of_nonneg_left (expect_above (h 0).batches (fun l => hlow (states l).params) T) (by positivity : 0 ≤ 2 * c)
  linarith

/-- C133: if the learning rates have an unbounded sum and their squares a bounded one, the expected squared gradients come
arbitrarily close to zero, again and again. -/
theorem C133_stationary (h : ∀ t, Drawn (atRate cfg (rate t)) start ℓ updates damping lam L b Λ c v)
    (hs : Scheduled cfg rate start ℓ updates damping states) (hlow : ∀ θ, low ≤ meanLoss ℓ θ)
    (hsum : ∀ R, ∃ T, R ≤ ∑ t ∈ Finset.range T, rate t) {R : ℝ} (hsq : ∀ T, ∑ t ∈ Finset.range T, rate t ^ 2 ≤ R)
    {ε : ℝ} (hε : 0 < ε) (T₀ : ℕ) :
    ∃ t, T₀ ≤ t ∧ expect n t (fun l => ∑ j, ∑ k, grad (meanLoss ℓ) (states l).params j k ^ 2) < ε := by
  by_contra hno
  push Not at hno
  have hlam := (h 0).damped
  have hc := (h 0).positive
  have hL := (h 0).curved
  have hv : 0 ≤ v := le_trans (div_nonneg (Finset.sum_nonneg fun i _ => Finset.sum_nonneg fun j _ => Finset.sum_nonneg fun k _ => sq_nonneg _)
    (Nat.cast_nonneg n)) ((h 0).variance start.params)
  have hr : ∀ t, 0 < rate t := fun t => (h t).rate
  have hg : ∀ t, 0 ≤ expect n t (fun l => ∑ j, ∑ k, grad (meanLoss ℓ) (states l).params j k ^ 2) := fun t =>
    expect_above (h 0).batches (fun l => Finset.sum_nonneg fun j _ => Finset.sum_nonneg fun k _ => sq_nonneg _) t
  set K := 2 * c * (meanLoss ℓ start.params - low) + c * L * v / lam ^ 2 * R with hK
  obtain ⟨T, hT⟩ := hsum (∑ t ∈ Finset.range T₀, rate t + (K + 1) / ε)
  have h1 := C133_average h hs hlow T
  have h2 := mul_le_mul_of_nonneg_left (hsq T) (by positivity : 0 ≤ c * L * v / lam ^ 2)
  have h3 : ε * (∑ t ∈ Finset.range T, rate t - ∑ t ∈ Finset.range T₀, rate t) ≤
      ∑ t ∈ Finset.range T, rate t * expect n t (fun l => ∑ j, ∑ k, grad (meanLoss ℓ) (states l).params j k ^ 2) := by
    clear hT h1 h2
    induction T with
    | zero =>
      have : 0 ≤ ∑ t ∈ Finset.range T₀, rate t := Finset.sum_nonneg fun t _ => (hr t).le
      simp only [Finset.range_zero, Finset.sum_empty]
      nlinarith
    | succ T ih =>
      rw [Finset.sum_range_succ _ T]
      rcases Nat.lt_or_ge T T₀ with hlt | hge
      · have h4 : ∑ t ∈ Finset.range (T + 1), rate t ≤ ∑ t ∈ Finset.range T₀, rate t :=
          Finset.sum_le_sum_of_subset_of_nonneg (Finset.range_mono hlt) fun t _ _ => (hr t).le
        have h5 : 0 ≤ ∑ t ∈ Finset.range T, rate t * expect n t (fun l => ∑ j, ∑ k, grad (meanLoss ℓ) (states l).params j k ^ 2) :=
          Finset.sum_nonneg fun t _ => mul_nonneg (hr t).le (hg t)
        have h6 := mul_nonneg (hr T).le (hg T)
        rw [Finset.sum_range_succ] at h4
        rw [Finset.sum_range_succ]
        nlinarith
      · have h4 := mul_le_mul_of_nonneg_left (hno T hge) (hr T).le
        rw [Finset.sum_range_succ]
        linarith
  have h4 : (K + 1) / ε ≤ ∑ t ∈ Finset.range T, rate t - ∑ t ∈ Finset.range T₀, rate t := by linarith
  have h5 := mul_le_mul_of_nonneg_left h4 hε.le
  rw [mul_div_cancel₀ _ hε.ne'] at h5
  linarith

/-- C133: under the Polyak-Łojasiewicz condition, with the learning rates `β / (γ + t)`, the expected distance to the minimum
is at most a constant divided by `γ + t`: no level remains. -/
theorem C133_vanishes {β γ : ℝ} (hrate : ∀ t : ℕ, rate t = β / (γ + t)) (hγ : 0 < γ)
    (h : ∀ t, Drawn (atRate cfg (rate t)) start ℓ updates damping lam L b Λ c v)
    (hs : Scheduled cfg rate start ℓ updates damping states)
    (hst : ∀ θ, 2 * μ * (meanLoss ℓ θ - low) ≤ ∑ j, ∑ k, grad (meanLoss ℓ) θ j k ^ 2)
    (hβ : c < β * μ) (hβ' : β * μ ≤ c * γ) (T : ℕ) :
    expect n T (fun l => meanLoss ℓ (states l).params) - low ≤
      max (γ * (meanLoss ℓ start.params - low)) (c * L * β ^ 2 * v / (2 * lam ^ 2 * (β * μ - c))) / (γ + T) := by
  have hc := (h 0).positive
  have hlam := (h 0).damped
  set κ := β * μ / c with hκ
  set N := L * β ^ 2 * v / (2 * lam ^ 2) with hN
  have hκ1 : 1 < κ := by rwa [hκ, one_lt_div hc]
  have hκγ : κ ≤ γ := by rw [hκ, div_le_iff₀ hc]; linarith
  have e : c * L * β ^ 2 * v / (2 * lam ^ 2 * (β * μ - c)) = N / (κ - 1) := by
    have h1 : β * μ - c ≠ 0 := (sub_pos.mpr hβ).ne'
    have h2 : κ - 1 = (β * μ - c) / c := by rw [hκ]; field_simp
    rw [hN, h2]
    field_simp
  rw [e]
  set V := max (γ * (meanLoss ℓ start.params - low)) (N / (κ - 1)) with hV
  have hNV : N ≤ (κ - 1) * V := by
    have := mul_le_mul_of_nonneg_left (le_max_right (γ * (meanLoss ℓ start.params - low)) (N / (κ - 1))) (sub_pos.mpr hκ1).le
    rwa [mul_div_cancel₀ _ (sub_pos.mpr hκ1).ne'] at this
  have hN0 : 0 ≤ N := by
    have hL := (h 0).curved
    have hv : 0 ≤ v := le_trans (div_nonneg (Finset.sum_nonneg fun i _ => Finset.sum_nonneg fun j _ => Finset.sum_nonneg fun k _ => sq_nonneg _)
      (Nat.cast_nonneg n)) ((h 0).variance start.params)
    positivity
  have hV0 : 0 ≤ V := le_max_of_le_right (div_nonneg hN0 (sub_pos.mpr hκ1).le)
  induction T with
  | zero =>
    rw [expect_zero, scheduled_first (fun t => (h t).toDrawing) hs, le_div_iff₀ (by simpa using hγ)]
    have := le_max_left (γ * (meanLoss ℓ start.params - low)) (N / (κ - 1))
    simp only [Nat.cast_zero, add_zero]
    linarith
  | succ T ih =>
    set s := γ + (T : ℝ) with hsdef
    have hs0 : 0 < s := by positivity
    have hsκ : κ ≤ s := hκγ.trans (le_add_of_nonneg_right (Nat.cast_nonneg T))
    set a := expect n T (fun l => meanLoss ℓ (states l).params) with ha
    set G := expect n T (fun l => ∑ j, ∑ k, grad (meanLoss ℓ) (states l).params j k ^ 2) with hG
    have h1 : 2 * μ * (a - low) ≤ G := by
      have h2 := expect_mono (n := n) (t := T) (φ := fun l => 2 * μ * meanLoss ℓ (states l).params + 0 * 0 + -(2 * μ * low))
        (ψ := fun l => ∑ j, ∑ k, grad (meanLoss ℓ) (states l).params j k ^ 2) fun l => by
          have := hst (states l).params
          linarith
      rw [expect_linear (h 0).batches (fun l => meanLoss ℓ (states l).params) (fun _ => 0)] at h2
      rw [zero_mul] at h2
      linarith
    have h2 := scheduled_step h hs T
    rw [hrate T] at h2
    have hr : 0 < β / s := by
      have := (h T).rate
      simp only [atRate, hrate] at this
      exact this
    have h3 := mul_le_mul_of_nonneg_left h1 (by positivity : 0 ≤ β / s / (2 * c))
    have e1 : β / s / (2 * c) * (2 * μ * (a - low)) = κ / s * (a - low) := by
      rw [hκ]
      field_simp
    have e2 : L * (β / s) ^ 2 * v / (2 * lam ^ 2) = N / s ^ 2 := by
      rw [hN]
      field_simp
    rw [e1] at h3
    rw [e2] at h2
    have h4 : expect n (T + 1) (fun l => meanLoss ℓ (states l).params) - low ≤ (1 - κ / s) * (a - low) + N / s ^ 2 := by linarith
    refine h4.trans ?_
    have h5 : 0 ≤ 1 - κ / s := by
      rw [sub_nonneg, div_le_one hs0]
      exact hsκ
    have h6 := mul_le_mul_of_nonneg_left ih h5
    have h7 : N / s ^ 2 ≤ (κ - 1) * V / s ^ 2 := div_le_div_of_nonneg_right hNV (by positivity)
    have e3 : (1 - κ / s) * (V / s) + (κ - 1) * V / s ^ 2 = V * (s - 1) / s ^ 2 := by
      field_simp
      ring
    have h8 : V * (s - 1) / s ^ 2 ≤ V / (s + 1) := by
      rw [div_le_div_iff₀ (by positivity) (by positivity)]
      nlinarith
    have e4 : γ + ((T + 1 : ℕ) : ℝ) = s + 1 := by
      rw [hsdef]
      push_cast
      ring
    rw [e4]
    linarith

theorem scheduled_one (h : ∀ t, Drawn (atRate cfg (rate t)) start ℓ updates damping lam L b Λ c v)
    (hs : Scheduled cfg rate start ℓ updates damping states) (l : List (Fin n)) :
    (∑ i, meanLoss ℓ (states (i :: l)).params) / n ≤ meanLoss ℓ (states l).params + L * v / (2 * lam ^ 2) * rate l.length ^ 2 := by
  have h1 := cond_step (h l.length).toDrawing (scheduled_cond (fun t => (h t).toDrawing) hs l) l (fun i => hs.2 i l)
    ((h l.length).variance _)
  have h2 : 0 ≤ rate l.length / (2 * c) * ∑ j, ∑ k, grad (meanLoss ℓ) (states l).params j k ^ 2 :=
    mul_nonneg (div_nonneg (h l.length).rate.le (mul_nonneg zero_le_two (h 0).positive.le))
      (Finset.sum_nonneg fun j _ => Finset.sum_nonneg fun k _ => sq_nonneg _)
  simp only [atRate] at h1
  have e : L * rate l.length ^ 2 * v / (2 * lam ^ 2) = L * v / (2 * lam ^ 2) * rate l.length ^ 2 := by ring
  linarith

/-- A function of the history that grows on average by at most `N t` in step `t` stays small with a probability that does not
depend on the number of steps. -/
theorem maximal (hn : 0 < n) {φ : List (Fin n) → ℝ} {N : ℕ → ℝ} (hφ : ∀ l, 0 ≤ φ l) (hN : ∀ t, 0 ≤ N t)
    (hstep : ∀ l, (∑ i, φ (i :: l)) / n ≤ φ l + N l.length) {ε : ℝ} (hε : 0 < ε) (T m : ℕ) :
    share n (T + m) (fun l => ∃ j, j ≤ m ∧ ε < φ (l.drop j)) ≤ (expect n T φ + ∑ t ∈ Finset.range m, N (T + t)) / ε := by
  classical
  have hn' : (0 : ℝ) < n := by exact_mod_cast hn
  rw [share_expect]
  let tail : ℕ → ℝ := fun k => ∑ t ∈ Finset.Ico k m, N (T + t)
  have htail : ∀ k, 0 ≤ tail k := fun k => Finset.sum_nonneg fun t _ => hN _
  let Z : ℕ → List (Fin n) → ℝ := fun k l => if ∃ j, j ≤ k ∧ ε < φ (l.drop j) then 1 else (φ l + tail k) / ε
  have h1 : ∀ l, (if ∃ j, j ≤ m ∧ ε < φ (l.drop j) then (1 : ℝ) else 0) ≤ Z m l := by
    intro l
    simp only [Z]
    split_ifs
    · exact le_refl _
    · exact div_nonneg (add_nonneg (hφ l) (htail m)) hε.le
  have h2 : ∀ k, k < m → expect n (T + (k + 1)) (Z (k + 1)) ≤ expect n (T + k) (Z k) := by
    intro k hk
    rw [← add_assoc, expect_succ]
    refine expect_congr fun l hl => ?_
    by_cases hit : ∃ j, j ≤ k ∧ ε < φ (l.drop j)
    · have h3 : ∀ i, Z (k + 1) (i :: l) = 1 := fun i => by
        obtain ⟨j, hj, hj'⟩ := hit
        exact if_pos ⟨j + 1, by omega, by simpa using hj'⟩
      have h4 : Z k l = 1 := if_pos hit
      rw [h4, Finset.sum_congr rfl fun i _ => h3 i]
      simp [hn'.ne']
    · have h3 : ∀ i, Z (k + 1) (i :: l) ≤ (φ (i :: l) + tail (k + 1)) / ε := fun i => by
        simp only [Z]
        split_ifs with h4
        · obtain ⟨j, hj, hj'⟩ := h4
          rcases j with _ | j
          · rw [le_div_iff₀ hε]
            have := htail (k + 1)
            simp only [List.drop_zero] at hj'
            linarith
          · exact (hit ⟨j, by omega, by simpa using hj'⟩).elim
        · exact le_refl _
      have h4 : Z k l = (φ l + tail k) / ε := if_neg hit
      have h5 : tail k = N (T + k) + tail (k + 1) := Finset.sum_eq_sum_Ico_succ_bot hk _
      rw [h4, h5]
      refine (div_le_div_of_nonneg_right (Finset.sum_le_sum fun i _ => h3 i) hn'.le).trans ?_
      rw [← Finset.sum_div, Finset.sum_add_distrib, div_right_comm]
      refine div_le_div_of_nonneg_right ?_ hε.le
      have h6 := hstep l
      rw [hl] at h6
      rw [add_div]
      have h7 : (∑ _i : Fin n, tail (k + 1)) / n = tail (k + 1) := by
        simp [hn'.ne']
      rw [h7]
      linarith
  have h3 : ∀ k, k ≤ m → expect n (T + k) (Z k) ≤ expect n T (Z 0) := by
    intro k
    induction k with
    | zero => exact fun _ => le_refl _
    | succ k ih => exact fun hk => (h2 k hk).trans (ih (Nat.le_of_succ_le hk))
  refine (expect_mono h1).trans ((h3 m (le_refl m)).trans ?_)
  have h4 : ∀ l, Z 0 l ≤ ε⁻¹ * φ l + 0 * 0 + ε⁻¹ * tail 0 := by
    intro l
    have e : ε⁻¹ * φ l + 0 * 0 + ε⁻¹ * tail 0 = (φ l + tail 0) / ε := by
      field_simp
      ring
    rw [e]
    simp only [Z]
    split_ifs with h4
    · obtain ⟨j, hj, hj'⟩ := h4
      obtain rfl : j = 0 := by omega
      rw [le_div_iff₀ hε]
      have := htail 0
      simp only [List.drop_zero] at hj'
      linarith
    · exact le_refl _
  refine (expect_mono h4).trans (le_of_eq ?_)
  rw [expect_linear hn φ (fun _ => 0)]
  simp only [tail, Nat.Ico_zero_eq_range]
  field_simp
  ring

/-- C133: how unlikely it is that the loss exceeds its lower bound by more than `ε` at any of the times from `T` to `T + m`.
The history at time `T + m - j` is the history at time `T + m` without the last `j` batches. -/
theorem C133_maximal (h : ∀ t, Drawn (atRate cfg (rate t)) start ℓ updates damping lam L b Λ c v)
    (hs : Scheduled cfg rate start ℓ updates damping states) (hlow : ∀ θ, low ≤ meanLoss ℓ θ) {ε : ℝ} (hε : 0 < ε) (T m : ℕ) :
    share n (T + m) (fun l => ∃ j, j ≤ m ∧ ε < meanLoss ℓ (states (l.drop j)).params - low) ≤
      (expect n T (fun l => meanLoss ℓ (states l).params) - low + L * v / (2 * lam ^ 2) * ∑ t ∈ Finset.range m, rate (T + t) ^ 2) / ε := by
  have hL := (h 0).curved
  have hv : 0 ≤ v := le_trans (div_nonneg (Finset.sum_nonneg fun i _ => Finset.sum_nonneg fun j _ => Finset.sum_nonneg fun k _ => sq_nonneg _)
    (Nat.cast_nonneg n)) ((h 0).variance start.params)
  have hn' : (0 : ℝ) < n := by exact_mod_cast (h 0).batches
  refine (maximal (h 0).batches (φ := fun l => meanLoss ℓ (states l).params - low)
    (N := fun t => L * v / (2 * lam ^ 2) * rate t ^ 2) (fun l => sub_nonneg.mpr (hlow _)) (fun t => by positivity) (fun l => ?_) hε T m).trans
    (le_of_eq ?_)
  · have h1 := scheduled_one h hs l
    have h2 : (∑ i, (meanLoss ℓ (states (i :: l)).params - low)) / n = (∑ i, meanLoss ℓ (states (i :: l)).params) / n - low := by
      rw [Finset.sum_sub_distrib]
      simp
      field_simp
    simp only [h2]
    linarith
  · rw [← Finset.mul_sum]
    have h1 := expect_linear (t := T) (h 0).batches (fun l => meanLoss ℓ (states l).params) (fun _ => 0) 1 0 (-low)
    simp only [one_mul, mul_zero, add_zero, zero_mul, ← sub_eq_add_neg] at h1
    rw [h1]

/-- C133: with the learning rates `β / (γ + t)` the probability that the loss is far from its minimum at any time from `T` to
`T + m` has a bound that does not depend on `m` and vanishes for large `T`: almost every run approaches the minimum. -/
theorem C133_stays {β γ : ℝ} (hrate : ∀ t : ℕ, rate t = β / (γ + t)) (hγ : 0 < γ)
    (h : ∀ t, Drawn (atRate cfg (rate t)) start ℓ updates damping lam L b Λ c v)
    (hs : Scheduled cfg rate start ℓ updates damping states) (hlow : ∀ θ, low ≤ meanLoss ℓ θ)
    (hst : ∀ θ, 2 * μ * (meanLoss ℓ θ - low) ≤ ∑ j, ∑ k, grad (meanLoss ℓ) θ j k ^ 2)
    (hβ : c < β * μ) (hβ' : β * μ ≤ c * γ) {ε : ℝ} (hε : 0 < ε) (T m : ℕ) :
    share n (T + m) (fun l => ∃ j, j ≤ m ∧ ε < meanLoss ℓ (states (l.drop j)).params - low) ≤
      (max (γ * (meanLoss ℓ start.params - low)) (c * L * β ^ 2 * v / (2 * lam ^ 2 * (β * μ - c))) / (γ + T) +
        L * v / (2 * lam ^ 2) * (β ^ 2 / (γ + T - 1))) / ε := by
  have hL := (h 0).curved
  have hc := (h 0).positive
  have hv : 0 ≤ v := le_trans (div_nonneg (Finset.sum_nonneg fun i _ => Finset.sum_nonneg fun j _ => Finset.sum_nonneg fun k _ => sq_nonneg _)
    (Nat.cast_nonneg n)) ((h 0).variance start.params)
  have hγ1 : 1 < γ := by nlinarith
  have hT : (0 : ℝ) ≤ T := Nat.cast_nonneg T
  refine (C133_maximal h hs hlow hε T m).trans (div_le_div_of_nonneg_right (add_le_add (C133_vanishes hrate hγ h hs hst hβ hβ' T) ?_) hε.le)
  refine mul_le_mul_of_nonneg_left ?_ (by positivity)
  have h1 := square_sum (β := β) (γ := γ + T) (by linarith) m
  refine le_trans (le_of_eq (Finset.sum_congr rfl fun t _ => ?_)) h1
  rw [hrate]
  push_cast
  rw [add_assoc]

/-! ### With momentum -/

theorem execute_plain {r : ℝ} : ∀ (ops : List (Op shapes)), (∀ op ∈ ops, op.Update lam b Λ) → ∀ (net : Net shapes),
    execute (atRate cfg r) net ops = execute (atRate { cfg with momentum := 0 } r) net ops
  | [], _, _ => rfl
  | op :: ops, h, net => by
    have h1 : net.step (atRate cfg r) op = net.step (atRate { cfg with momentum := 0 } r) op := by
      cases op with
      | cov new decay => rfl
      | inv d => rfl
      | train f d => exact (h (.train f d) (by simp) : False).elim
    rw [execute_cons, execute_cons, h1]
    congr 1
    funext s
    exact execute_plain ops (fun op' h' => h op' (by simp [h'])) s

theorem execute_velocity : ∀ (ops : List (Op shapes)), (∀ op ∈ ops, op.Update lam b Λ) → ∀ {net net' : Net shapes},
    execute cfg net ops = .ok net' → net'.velocity = net.velocity
  | [], _, net, net', h => by
    rw [← Except.ok.inj h]
  | op :: ops, h, net, net', h' => by
    rw [execute_cons] at h'
    cases h1 : net.step cfg op with
    | error e => rw [h1] at h'; cases h'
    | ok s =>
      rw [h1] at h'
      rw [execute_velocity ops (fun op' h' => h op' (by simp [h'])) h']
      cases op with
      | cov new decay => rw [← Except.ok.inj h1]
      | inv d =>
        simp only [Net.step] at h1
        cases h2 : (collect fun k => (shapes k).invUpdate cfg.rule cfg.power d (net.stats k)) with
        | error e => rw [h2] at h1; cases h1
        | ok s' => rw [h2] at h1; rw [← Except.ok.inj h1]
      | train f d => exact (h (.train f d) (by simp) : False).elim

theorem schedule_next (h : ∀ t, Drawing (atRate { cfg with momentum := 0 } (rate t)) start ℓ updates damping lam L b Λ c)
    {net : Net shapes} (hc : Cond lam b c true true net) (i : Fin n) (l : List (Fin n)) :
    ∃ u : Params shapes, lam * inner u u ≤ inner (grad (ℓ i) net.params) u ∧
      ∃ net', execute (atRate cfg (rate l.length)) net (.train (ℓ i) (damping l) :: updates (i :: l)) = .ok net' ∧
        Cond lam b c true true net' ∧ net'.velocity = cfg.momentum • net.velocity + u ∧
        net'.params = net.params - rate l.length • net'.velocity := by
  have h0 := h l.length
  obtain ⟨P, h1, h2⟩ := cond_velocity (cfg := atRate cfg (rate l.length)) h0.proper h0.pure h0.power h0.damped h0.worst h0.unconstrained hc
    (h0.damping_lower l) (h0.damping_upper l)
  obtain ⟨net1, h3, h4, h5, h6⟩ := h2 (ℓ i)
  obtain ⟨net2, h7, h8, h9⟩ := cond_execute (cfg := atRate cfg (rate l.length)) h0.proper h0.power h0.damped h0.worst (updates (i :: l)) h4 (h0.allowed _)
  have h10 := execute_velocity _ (h0.allowed _) h7
  refine ⟨P (grad (ℓ i) net.params), (h1 _).1, net2, ?_, by simpa using h8, h10.trans h5, ?_⟩
  · rw [execute_cons, h3]
    exact h7
  · rw [h9, h10]
    exact h6

/-- C133: whatever batches are drawn, no operation fails, also with momentum. -/
theorem C133_succeeds (h : ∀ t, Drawing (atRate { cfg with momentum := 0 } (rate t)) start ℓ updates damping lam L b Λ c) :
    ∃ states, Scheduled cfg rate start ℓ updates damping states := by
  classical
  obtain ⟨first, h1, h2, -⟩ := drawn_first (h 0)
  rw [← execute_plain _ ((h 0).allowed [])] at h1
  have h3 : ∀ (l : List (Fin n)) (i : Fin n) (s : {net : Net shapes // Cond lam b c true true net}),
      ∃ s' : {net : Net shapes // Cond lam b c true true net},
        execute (atRate cfg (rate l.length)) s.1 (.train (ℓ i) (damping l) :: updates (i :: l)) = .ok s'.1 := by
    intro l i s
    obtain ⟨u, -, net', h5, h6, -⟩ := schedule_next h s.2 i l
    exact ⟨⟨net', h6⟩, h5⟩
  choose next hnext using h3
  let st : List (Fin n) → {net : Net shapes // Cond lam b c true true net} := fun l =>
    List.rec (motive := fun _ => {net : Net shapes // Cond lam b c true true net}) ⟨first, h2⟩ (fun i l s => next l i s) l
  exact ⟨fun l => (st l).1, h1, fun i l => hnext l i (st l)⟩

theorem coordinate_small {u g : Params shapes} {G : ℝ} (hlam : 0 < lam) (hG : 0 ≤ G) (hu : lam * inner u u ≤ inner g u)
    (hg : ∑ j, ∑ k, g j k ^ 2 ≤ G ^ 2) (j : Fin B) (k : Fin (shapes j).dim) : |u j k| ≤ G / lam := by
  have h1 : u j k ^ 2 ≤ inner u u := by
    have h2 : u j k * u j k ≤ ∑ k, u j k * u j k :=
      Finset.single_le_sum (f := fun k => u j k * u j k) (fun k _ => mul_self_nonneg _) (Finset.mem_univ k)
    have h3 : ∑ k, u j k * u j k ≤ inner u u :=
      Finset.single_le_sum (f := fun j => ∑ k, u j k * u j k) (fun j _ => Finset.sum_nonneg fun k _ => mul_self_nonneg _) (Finset.mem_univ j)
    rw [pow_two]
    exact h2.trans h3
  have h2 : 2 * lam * inner g u ≤ (∑ j, ∑ k, g j k ^ 2) + lam ^ 2 * inner u u := by
    simp only [inner, Finset.mul_sum, ← Finset.sum_add_distrib]
    refine Finset.sum_le_sum fun j _ => Finset.sum_le_sum fun k _ => ?_
    nlinarith [sq_nonneg (g j k - lam * u j k)]
  have h3 : lam ^ 2 * inner u u ≤ G ^ 2 := by nlinarith
  rw [le_div_iff₀ hlam]
  refine abs_le_of_sq_le_sq' ?_ hG |>.2
  rw [mul_pow, sq_abs]
  nlinarith [sq_nonneg lam]

theorem scheduled_moved (h : ∀ t, Drawing (atRate { cfg with momentum := 0 } (rate t)) start ℓ updates damping lam L b Λ c)
    (hs : Scheduled cfg rate start ℓ updates damping states) (hm : 0 ≤ cfg.momentum) (hm' : cfg.momentum < 1)
    (hv : start.velocity = 0) {G : ℝ} (hG : 0 ≤ G) (hg : ∀ i θ, ∑ j, ∑ k, grad (ℓ i) θ j k ^ 2 ≤ G ^ 2) :
    ∀ l, Cond lam b c true true (states l) ∧ ∀ j k, |(states l).velocity j k| ≤ G / (lam * (1 - cfg.momentum)) ∧
      |(states l).params j k - start.params j k| ≤ G / (lam * (1 - cfg.momentum)) * ∑ t ∈ Finset.range l.length, rate t
  | [] => by
    obtain ⟨net, h1, h2, h3⟩ := drawn_first (h 0)
    rw [← execute_plain _ ((h 0).allowed [])] at h1
    have h4 := Except.ok.inj (hs.1.symm.trans h1)
    have h5 := execute_velocity _ ((h 0).allowed []) h1
    have hlam := (h 0).damped
    rw [h4]
    refine ⟨h2, fun j k => ⟨?_, by simp [h3]⟩⟩
    rw [h5, hv]
    have : 0 < 1 - cfg.momentum := sub_pos.mpr hm'
    simp only [Pi.zero_apply, abs_zero]
    positivity
  | i :: l => by
    obtain ⟨h1, h2⟩ := scheduled_moved h hs hm hm' hv hG hg l
    obtain ⟨u, h3, net', h4, h5, h6, h7⟩ := schedule_next h h1 i l
    have h8 := Except.ok.inj ((hs.2 i l).symm.trans h4)
    have hlam := (h 0).damped
    have h9 : 0 < 1 - cfg.momentum := sub_pos.mpr hm'
    rw [h8]
    refine ⟨h5, fun j k => ?_⟩
    have h10 := coordinate_small hlam hG h3 (hg _ _) j k
    have h11 : |net'.velocity j k| ≤ G / (lam * (1 - cfg.momentum)) := by
      rw [h6]
      have h12 : |cfg.momentum * (states l).velocity j k| ≤ cfg.momentum * (G / (lam * (1 - cfg.momentum))) := by
        rw [abs_mul, abs_of_nonneg hm]
        exact mul_le_mul_of_nonneg_left (h2 j k).1 hm
      have e : cfg.momentum * (G / (lam * (1 - cfg.momentum))) + G / lam = G / (lam * (1 - cfg.momentum)) := by
        field_simp
        ring
      have h13 := abs_add_le (cfg.momentum * (states l).velocity j k) (u j k)
      show |cfg.momentum * (states l).velocity j k + u j k| ≤ _
      linarith
    refine ⟨h11, ?_⟩
    have hr : 0 < rate l.length := (h l.length).rate
    have h12 : net'.params j k - start.params j k =
        ((states l).params j k - start.params j k) + -(rate l.length * net'.velocity j k) := by
      rw [h7]
      show (states l).params j k - rate l.length * net'.velocity j k - start.params j k = _
      ring
    rw [h12, List.length_cons, Finset.sum_range_succ, mul_add]
    refine (abs_add_le _ _).trans (add_le_add (h2 j k).2 ?_)
    rw [abs_neg, abs_mul, abs_of_pos hr, mul_comm]
    exact mul_le_mul_of_nonneg_right h11 hr.le

/-- C133: with momentum below one and gradients of the batches of at most the length `G`, no parameter moves by more than
`G / (lam (1 - momentum))` times the sum of the learning rates, whatever batches are drawn. -/
theorem C133_moved (h : ∀ t, Drawing (atRate { cfg with momentum := 0 } (rate t)) start ℓ updates damping lam L b Λ c)
    (hs : Scheduled cfg rate start ℓ updates damping states) (hm : 0 ≤ cfg.momentum) (hm' : cfg.momentum < 1)
    (hv : start.velocity = 0) {G : ℝ} (hG : 0 ≤ G) (hg : ∀ i θ, ∑ j, ∑ k, grad (ℓ i) θ j k ^ 2 ≤ G ^ 2)
    (l : List (Fin n)) (j : Fin B) (k : Fin (shapes j).dim) :
    |(states l).params j k - start.params j k| ≤ G / (lam * (1 - cfg.momentum)) * ∑ t ∈ Finset.range l.length, rate t :=
  ((scheduled_moved h hs hm hm' hv hG hg l).2 j k).2

end theorems

theorem stairs_sum {r decay : ℝ} (hr : 0 ≤ r) (hd : 0 ≤ decay) (hd' : decay < 1) {steps : ℕ} (hs : 0 < steps) (T : ℕ) :
    ∑ t ∈ Finset.range T, stairs r decay steps t ≤ steps * r / (1 - decay) := by
  have h1 : ∀ m : ℕ, ∑ t ∈ Finset.range (steps * m), stairs r decay steps t = steps * r * ∑ t ∈ Finset.range m, decay ^ t := by
    intro m
    induction m with
    | zero => simp
    | succ m ih =>
      rw [Nat.mul_succ, Finset.sum_range_add, ih, Finset.sum_range_succ, mul_add]
      congr 1
      have h2 : ∀ x ∈ Finset.range steps, stairs r decay steps (steps * m + x) = r * decay ^ m := by
        intro x hx
        rw [stairs, Nat.mul_add_div hs, Nat.div_eq_of_lt (Finset.mem_range.mp hx), add_zero]
      rw [Finset.sum_congr rfl h2]
      simp
      ring
  have h2 : ∑ t ∈ Finset.range T, stairs r decay steps t ≤ ∑ t ∈ Finset.range (steps * T), stairs r decay steps t :=
    Finset.sum_le_sum_of_subset_of_nonneg (Finset.range_mono (Nat.le_mul_of_pos_left T hs)) fun t _ _ => by
      rw [stairs]
      positivity
  refine h2.trans ?_
  rw [h1, mul_div_assoc, mul_assoc]
  refine mul_le_mul_of_nonneg_left ?_ (Nat.cast_nonneg _)
  rw [div_eq_mul_inv]
  refine mul_le_mul_of_nonneg_left ?_ hr
  rw [geom_sum_eq hd'.ne, ← neg_div_neg_eq, neg_sub, neg_sub, div_le_iff₀ (sub_pos.mpr hd'), inv_mul_cancel₀ (sub_pos.mpr hd').ne']
  have := pow_nonneg hd T
  linarith

section convnet

variable {n : ℕ} {cfg : Config} {start : Net shapes} {ℓ : Fin n → Params shapes → ℝ}
  {updates : List (Fin n) → List (Op shapes)} {damping : List (Fin n) → ℝ} {states : List (Fin n) → Net shapes}
  {lam L b Λ c : ℝ}

/-- C133: with the learning rates and the momentum of `train_mnist_estimator` (convnet.py 813-819) no parameter ever moves by
more than four times the length of the gradients divided by the damping, however long the training is. -/
theorem C133_convnet (hmom : cfg.momentum = 9 / 10)
    (h : ∀ t, Drawing (atRate { cfg with momentum := 0 } (stairs (2 / 100000) (1 / 2) 10000 t)) start ℓ updates damping lam L b Λ c)
    (hs : Scheduled cfg (stairs (2 / 100000) (1 / 2) 10000) start ℓ updates damping states)
    (hv : start.velocity = 0) {G : ℝ} (hG : 0 ≤ G) (hg : ∀ i θ, ∑ j, ∑ k, grad (ℓ i) θ j k ^ 2 ≤ G ^ 2)
    (l : List (Fin n)) (j : Fin B) (k : Fin (shapes j).dim) :
    |(states l).params j k - start.params j k| ≤ 4 * G / lam := by
  have h1 := C133_moved h hs (by rw [hmom]; norm_num) (by rw [hmom]; norm_num) hv hG hg l j k
  have h2 := stairs_sum (r := 2 / 100000) (decay := 1 / 2) (steps := 10000) (by norm_num) (by norm_num) (by norm_num) (by norm_num) l.length
  have hlam := (h 0).damped
  refine h1.trans ((mul_le_mul_of_nonneg_left h2 (by rw [hmom]; norm_num; positivity)).trans (le_of_eq ?_))
  rw [hmom]
  push_cast
  field_simp
  ring

end convnet

/-! ### Examples -/

theorem drawing_slower {n : ℕ} {cfg : Config} {start : Net shapes} {ℓ : Fin n → Params shapes → ℝ}
    {updates : List (Fin n) → List (Op shapes)} {damping : List (Fin n) → ℝ} {lam L b Λ c r : ℝ}
    (h : Drawing cfg start ℓ updates damping lam L b Λ c) (hr : 0 < r) (hr' : r ≤ cfg.learningRate) :
    Drawing (atRate cfg r) start ℓ updates damping lam L b Λ c :=
  { h with rate := hr, slow := (mul_le_mul_of_nonneg_left hr' h.curved).trans h.slow }

/-- The net of C114 with decreasing learning rates: the hypotheses of `C133_stationary` and `C133_vanishes` hold. -/
example : ∃ (shapes : Fin 4 → Shape) (cfg : Config) (start : Net shapes) (ℓ : Fin 2 → Params shapes → ℝ)
    (updates : List (Fin 2) → List (Op shapes)) (damping : List (Fin 2) → ℝ) (states : List (Fin 2) → Net shapes) (c v β γ R : ℝ),
    (∀ t : ℕ, Drawn (atRate cfg (β / (γ + t))) start ℓ updates damping 1 1 3 2 c v) ∧
    Scheduled cfg (fun t => β / (γ + t)) start ℓ updates damping states ∧ 0 < γ ∧ c < β * 1 ∧ β * 1 ≤ c * γ ∧
    (∀ θ, 0 ≤ meanLoss ℓ θ) ∧ (∀ θ, 2 * 1 * (meanLoss ℓ θ - 0) ≤ ∑ j, ∑ k, grad (meanLoss ℓ) θ j k ^ 2) ∧
    (∀ R, ∃ T : ℕ, R ≤ ∑ t ∈ Finset.range T, β / (γ + t)) ∧ (∀ T, ∑ t ∈ Finset.range T, (β / (γ + t)) ^ 2 ≤ R) ∧
    0 < meanLoss ℓ start.params ∧ ℓ 0 ≠ ℓ 1 := by
  obtain ⟨shapes, cfg, start, ℓ, updates, damping, -, c, v, hd, -, -, h1, h2, h3, h4, -⟩ := drawn_example
  have hc := hd.positive
  have hr := hd.rate
  set γ := 2 + 2 * c / cfg.learningRate with hγ
  have hγ2 : 2 ≤ γ := le_add_of_nonneg_right (by positivity)
  have hle : ∀ t : ℕ, 2 * c / (γ + t) ≤ cfg.learningRate := by
    intro t
    have ht : (0 : ℝ) ≤ t := Nat.cast_nonneg t
    rw [div_le_iff₀ (by linarith)]
    have e : cfg.learningRate * γ = 2 * cfg.learningRate + 2 * c := by
      rw [hγ]
      field_simp
    nlinarith
  have hdr : ∀ t : ℕ, Drawn (atRate cfg (2 * c / (γ + t))) start ℓ updates damping 1 1 3 2 c v := fun t =>
    ⟨drawing_slower hd.toDrawing (by positivity) (hle t), hd.variance⟩
  have e : ({ cfg with momentum := 0 } : Config) = cfg := by
    have := hd.momentum
    cases cfg
    simp_all
  obtain ⟨states, hs⟩ := C133_succeeds (cfg := cfg) (rate := fun t => 2 * c / (γ + t)) (fun t => by
    rw [e]
    exact (hdr t).toDrawing)
  exact ⟨shapes, cfg, start, ℓ, updates, damping, states, c, v, 2 * c, γ, _, hdr, hs, by linarith, by linarith, by nlinarith, h1, h2,
    harmonic_sum (by linarith) (by linarith), square_sum (by linarith), h3, h4⟩

theorem linear_fderiv (a θ d : Params shapes) :
    Differentiable ℝ (fun θ : Params shapes => inner a θ) ∧ fderiv ℝ (fun θ : Params shapes => inner a θ) θ d = inner a d := by
  let A : Params shapes →ₗ[ℝ] ℝ := ⟨⟨fun θ => inner a θ, inner_add_right a⟩, fun t x => inner_smul a x t⟩
  refine ⟨A.toContinuousLinearMap.differentiable, ?_⟩
  have h1 : HasFDerivAt (fun θ : Params shapes => inner a θ) A.toContinuousLinearMap θ := A.toContinuousLinearMap.hasFDerivAt
  rw [h1.fderiv]
  rfl

theorem linear_grad (a θ : Params shapes) : grad (fun θ : Params shapes => inner a θ) θ = a := by
  funext j k
  rw [grad, (linear_fderiv a θ _).2, inner_single]

/-- The net of C114 with a linear loss, momentum and the learning rates of convnet.py: the hypotheses of `C133_convnet` hold. -/
example : ∃ (shapes : Fin 4 → Shape) (cfg : Config) (start : Net shapes) (ℓ : Fin 2 → Params shapes → ℝ)
    (updates : List (Fin 2) → List (Op shapes)) (damping : List (Fin 2) → ℝ) (states : List (Fin 2) → Net shapes) (c G : ℝ),
    cfg.momentum = 9 / 10 ∧
    (∀ t, Drawing (atRate { cfg with momentum := 0 } (stairs (2 / 100000) (1 / 2) 10000 t)) start ℓ updates damping 1 0 3 2 c) ∧
    Scheduled cfg (stairs (2 / 100000) (1 / 2) 10000) start ℓ updates damping states ∧ start.velocity = 0 ∧ 0 ≤ G ∧
    (∀ i θ, ∑ j, ∑ k, grad (ℓ i) θ j k ^ 2 ≤ G ^ 2) ∧ grad (ℓ 0) ≠ 0 := by
  obtain ⟨shapes, cfg, start, ℓ₀, updates, damping, -, c, v, hd, -, -, -, h2, h3, -, h5, -⟩ := drawn_example
  have h6 := (mul_pos two_pos h3).trans_le (by simpa using h2 start.params)
  set a := grad (meanLoss ℓ₀) start.params with ha
  let ℓ : Fin 2 → Params shapes → ℝ := fun i θ => inner ((![1, 3] i : ℝ) • a) θ
  have hmean : meanLoss ℓ = fun θ => inner ((2 : ℝ) • a) θ := by
    funext θ
    simp [meanLoss, ℓ, Fin.sum_univ_two, inner, mul_assoc]
    simp only [← Finset.mul_sum]
    ring
  have hr : ∀ t, 0 < stairs (2 / 100000) (1 / 2) 10000 t := fun t => by
    rw [stairs]
    positivity
  let cfg' : Config := { cfg with momentum := 9 / 10 }
  have hdr : ∀ t, Drawing (atRate { cfg' with momentum := 0 } (stairs (2 / 100000) (1 / 2) 10000 t)) start ℓ updates damping 1 0 3 2 c :=
    fun t => { hd.toDrawing with
      momentum := rfl
      differentiable := fun i => (linear_fderiv _ 0 0).1
      curved := le_refl _
      smooth := fun θ d => by
        rw [hmean, (linear_fderiv _ θ d).2]
        simp only [inner_add_right]
        simp
      rate := hr t
      slow := by simp }
  obtain ⟨states, hs⟩ := C133_succeeds hdr
  refine ⟨shapes, cfg', start, ℓ, updates, damping, states, c, Real.sqrt (9 * ∑ j, ∑ k, a j k ^ 2), rfl, hdr, hs, h5, Real.sqrt_nonneg _, ?_, ?_⟩
  · intro i θ
    rw [Real.sq_sqrt (by linarith), linear_grad]
    simp only [Pi.smul_apply, smul_eq_mul, mul_pow, ← Finset.mul_sum]
    refine mul_le_mul_of_nonneg_right ?_ (by linarith)
    fin_cases i <;> norm_num
  · intro h
    have h7 := congrFun h start.params
    rw [linear_grad] at h7
    have h8 : a = 0 := by simpa using h7
    rw [h8] at h6
    simp at h6

end Kfac.Mix
