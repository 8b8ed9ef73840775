import Verif.Examples.Workers
import Verif.Train.PropsRegression
import Mathlib.Algebra.Order.Floor.Semiring
import Mathlib.Tactic.IntervalCases

/-! # C119: dedicated workers -/

namespace Kfac.Examples

open Kfac.Train Kfac.Stats

/-- A floating-point value of `0.6 * num`: close to the exact one, and exact if that is an integer. -/
def Rounded (num : ℕ) (x : ℝ) : Prop := |x - 3 / 5 * num| < 1 / 10 ∧ (5 ∣ num → x = 3 / 5 * num)

theorem Rounded.exact (num : ℕ) : Rounded num (3 / 5 * num) := ⟨by simp, fun _ => rfl⟩

theorem Rounded.bounds {num : ℕ} {x : ℝ} (h : Rounded num x) (hn : 3 ≤ num) : 0 < x ∧ x < num - 1 := by
  have h1 := abs_lt.mp h.1
  have h2 : (3 : ℝ) ≤ num := by exact_mod_cast hn
  constructor <;> linarith

/-- C119, roles: every worker of a cluster has exactly one role, and numbers outside the cluster are refused if there are
at least three workers. -/
theorem C119_roles {num : ℕ} {x : ℝ} (h : Rounded num x) (task : ℕ) :
    (task < num → ∃ r, chooseOp x task num = .ok r ∧ (isGradientTask x task num = true ↔ r = .gradient) ∧
      (isCovUpdateTask x task num = true ↔ r = .covariance) ∧ (isInvUpdateTask task num = true ↔ r = .inverse)) ∧
    (3 ≤ num → num ≤ task → ∃ e, chooseOp x task num = .error e) := by
  by_cases hn : num < 3
  · refine ⟨fun _ => ⟨.gradient, ?_⟩, fun h3 => by omega⟩
    simp [chooseOp, isGradientTask, isCovUpdateTask, isInvUpdateTask, hn]
  · obtain ⟨h0, h1⟩ := h.bounds (by omega)
    constructor
    · intro ht
      by_cases hg : (task : ℝ) < x
      · have h2 : task + 1 ≠ num := by
          rintro rfl
          push_cast at h1
          linarith
        exact ⟨.gradient, by simp [chooseOp, isGradientTask, isCovUpdateTask, isInvUpdateTask, hn, hg, not_le.mpr hg, h2]⟩
      · by_cases hi : task + 1 = num
        · have h2 : ¬ (task : ℝ) < num - 1 := by
            rw [← hi]; push_cast; linarith
          exact ⟨.inverse, by simp [chooseOp, isGradientTask, isCovUpdateTask, isInvUpdateTask, hn, hg, h2, hi]⟩
        · have h2 : (task : ℝ) < num - 1 := by
            have : ((task + 1 : ℕ) : ℝ) < num := by exact_mod_cast (by omega : task + 1 < num)
            push_cast at this
            linarith
          exact ⟨.covariance, by
            simp [chooseOp, isGradientTask, isCovUpdateTask, isInvUpdateTask, hn, hg, not_lt.mp hg, h2, hi]⟩
    · intro _ ht
      have h2 : (num : ℝ) ≤ task := by exact_mod_cast ht
      have h3 : ¬ (task : ℝ) < x := by linarith
      have h4 : ¬ (task : ℝ) < num - 1 := by linarith
      have h5 : ¬ task + 1 = num := by omega
      exact ⟨_, by simp [chooseOp, isGradientTask, isCovUpdateTask, isInvUpdateTask, hn, h3, h4, h5]; rfl⟩

/-- C119, aggregation: the number of gradients the synchronous optimizer waits for is the number of workers that compute
gradients. -/
theorem C119_aggregated {num : ℕ} {x : ℝ} (h : Rounded num x) :
    ((Finset.range num).filter fun task => isGradientTask x task num = true).card = numGradientTasks x num := by
  by_cases hn : num < 3
  · simp [isGradientTask, numGradientTasks, hn]
  · obtain ⟨h0, h1⟩ := h.bounds (by omega)
    have hle : ⌈x⌉₊ ≤ num := by
      apply Nat.ceil_le.mpr
      linarith
    have : (Finset.range num).filter (fun task => isGradientTask x task num = true) = Finset.range ⌈x⌉₊ := by
      ext task
      simp only [Finset.mem_filter, Finset.mem_range, isGradientTask, hn, if_false, decide_eq_true_eq, Nat.lt_ceil]
      constructor
      · exact fun h => h.2
      · intro h2
        refine ⟨?_, h2⟩
        have h3 : (task : ℝ) < num := by linarith
        exact_mod_cast h3
    rw [this, Finset.card_range, numGradientTasks, if_neg hn]

/-- C119, staffing (partial: five workers or more): at least 60% of the workers, rounded up, compute gradients and come
first, at least one updates the covariances, and exactly the last one inverts. -/
theorem C119_staffed_partial {num : ℕ} {x : ℝ} (h : Rounded num x) (hn : 5 ≤ num) :
    (∃ task < num, isCovUpdateTask x task num = true) ∧
    (∀ task, isInvUpdateTask task num = true ↔ task + 1 = num) ∧
    (∀ task, isGradientTask x task num = true → ∀ earlier ≤ task, isGradientTask x earlier num = true) ∧
    (3 * num ≤ 5 * numGradientTasks x num ∧ 5 * numGradientTasks x num < 3 * num + 5) := by
  have hb := abs_lt.mp h.1
  have h3 : ¬ num < 3 := by omega
  obtain ⟨h0, h1⟩ := h.bounds (by omega)
  have hceil : 3 * num ≤ 5 * ⌈x⌉₊ ∧ 5 * ⌈x⌉₊ < 3 * num + 5 := by
    obtain ⟨k, r, hr, rfl⟩ : ∃ k r, r < 5 ∧ num = 5 * k + r := ⟨num / 5, num % 5, Nat.mod_lt _ (by omega), by omega⟩
    have hx : ((5 * k + r : ℕ) : ℝ) = 5 * k + r := by push_cast; ring
    rw [hx] at hb
    have key : ∀ m : ℕ, (m : ℝ) - 1 < x → x ≤ m → ⌈x⌉₊ = m := by
      intro m hm1 hm2
      apply le_antisymm (Nat.ceil_le.mpr hm2)
      rcases Nat.eq_zero_or_pos m with rfl | hm
      · omega
      · have : m - 1 < ⌈x⌉₊ := by
          rw [Nat.lt_ceil, Nat.cast_sub hm]
          simpa using hm1
        omega
    interval_cases r
    · have := h.2 (by omega)
      rw [hx] at this
      rw [key (3 * k) (by push_cast; simp at this; linarith) (by push_cast; simp at this; linarith)]
      omega
    · rw [key (3 * k + 1) (by push_cast at hb ⊢; linarith) (by push_cast at hb ⊢; linarith)]; omega
    · rw [key (3 * k + 2) (by push_cast at hb ⊢; linarith) (by push_cast at hb ⊢; linarith)]; omega
    · rw [key (3 * k + 2) (by push_cast at hb ⊢; linarith) (by push_cast at hb ⊢; linarith)]; omega
    · rw [key (3 * k + 3) (by push_cast at hb ⊢; linarith) (by push_cast at hb ⊢; linarith)]; omega
  refine ⟨⟨⌈x⌉₊, ?_, ?_⟩, ?_, ?_, ?_⟩
  · omega
  · simp only [isCovUpdateTask, h3, if_false, decide_eq_true_eq]
    refine ⟨Nat.le_ceil x, ?_⟩
    have : ((⌈x⌉₊ + 1 : ℕ) : ℝ) < num := by exact_mod_cast (by omega : ⌈x⌉₊ + 1 < num)
    push_cast at this
    linarith
  · intro task; simp [isInvUpdateTask, h3]
  · intro task ht earlier he
    simp only [isGradientTask, h3, if_false, decide_eq_true_eq] at ht ⊢
    have : (earlier : ℝ) ≤ task := by exact_mod_cast he
    linarith
  · simpa [numGradientTasks, h3] using hceil

/-- C119, "the next 20% accumulate covariance statistics; the last 20% invert" is false: there is only one worker that
inverts, whatever the number of workers; of twenty workers seven accumulate statistics. -/
theorem C119_shares_counterexample :
    (∀ num task task', isInvUpdateTask task num = true → isInvUpdateTask task' num = true → task = task') ∧
    (∀ task, isCovUpdateTask (3 / 5 * (20 : ℕ)) task 20 = true ↔ 12 ≤ task ∧ task < 19) := by
  constructor
  · intro num task task' h h'
    by_cases hn : num < 3
    · simp [isInvUpdateTask, hn] at h
    · simp only [isInvUpdateTask, hn, if_false, decide_eq_true_eq] at h h'
      omega
  · intro task
    simp only [isCovUpdateTask, show ¬ (20 < 3) by omega, if_false, decide_eq_true_eq]
    constructor
    · intro h
      obtain ⟨h1, h2⟩ := h
      have h3 : (12 : ℝ) ≤ task := by norm_num at h1 ⊢; linarith
      have h4 : (task : ℝ) < 19 := by norm_num at h2 ⊢; linarith
      exact ⟨by exact_mod_cast h3, by exact_mod_cast h4⟩
    · rintro ⟨h1, h2⟩
      have h3 : (12 : ℝ) ≤ task := by exact_mod_cast h1
      have h4 : (task : ℝ) < 19 := by exact_mod_cast h2
      constructor <;> norm_num <;> linarith

/-- Optimizer variables as they are created: no statistics, inverses and velocities zero. -/
def Untrained {n o : ℕ} : Net n o → Prop
  | .nil => True
  | .cons _ l _ rest => l.velocity = 0 ∧ l.input.inverse = 0 ∧ l.output.inverse = 0 ∧
      l.input.avg.value true = none ∧ Untrained rest

theorem precondition_zero {n q : ℕ} (bias : Bool) (l : Layer (n + bias.toNat) q) (h : l.input.inverse = 0)
    (g u : Fin (n + bias.toNat) → Fin q → ℝ) (hu : l.precondition bias g = .ok u) : u = 0 := by
  rcases Nat.eq_zero_or_pos q with rfl | hq
  · funext i j; exact j.elim0
  · rw [precondition_eq hq.ne', h] at hu
    have := Except.ok.inj hu
    rw [← this]
    simp only [Matrix.zero_mul]
    rfl

theorem update_untrained {n o N : ℕ} (lr momentum coeff : ℝ) (net : Net n o) (x : Fin N → Fin n → ℝ)
    (train : Fin N → (Fin o → ℝ) → ℝ) (h : Untrained net) (m : Net n o) (hm : net.update lr momentum coeff x train = .ok m) :
    m = net := by
  induction net with
  | nil => exact (Except.ok.inj hm).symm
  | cons bias l φ rest ih =>
    obtain ⟨h1, h2, h3, h4, h5⟩ := h
    simp only [Net.update] at hm
    cases hu : l.precondition bias (matGradient (lossOf bias φ rest x train) l.weights) with
    | error e => rw [hu] at hm; simp [Bind.bind, Except.bind] at hm
    | ok u =>
      rw [hu] at hm
      obtain rfl := precondition_zero bias l h2 _ _ hu
      simp only [Bind.bind, Except.bind] at hm
      cases hr : rest.update lr momentum coeff (fun i => φ (affine bias l.weights (x i))) train with
      | error e => rw [hr] at hm; simp at hm
      | ok r =>
        rw [hr] at hm
        obtain rfl := ih _ _ h5 _ hr
        rw [← Except.ok.inj hm]
        cases l
        simp_all

/-- C119 for fewer than five workers is false: no worker accumulates statistics, and with fewer than three none inverts.
Then the weights never change, or the run fails because it inverts statistics that are 0/0. -/
theorem C119_small_counterexample {num : ℕ} {x : ℝ} (h : Rounded num x) (hn : num < 5) :
    (∀ task, isCovUpdateTask x task num = false) ∧
    (num < 3 → ∀ task, isInvUpdateTask task num = false) ∧
    ∀ {n o : ℕ} (cfg : Config) (net : Net n o) (_ : Untrained net) (events : List (ℕ × Op n o)) (_ : IsRun x num events)
      (m : Net n o), net.run cfg (events.map Prod.snd) = .ok m → m = net := by
  have hcov : ∀ task, isCovUpdateTask x task num = false := by
    intro task
    by_cases h3 : num < 3
    · simp [isCovUpdateTask, h3]
    · simp only [isCovUpdateTask, h3, if_false, decide_eq_false_iff_not]
      rintro ⟨h1, h2⟩
      have hb := abs_lt.mp h.1
      have h4 : ((task + 1 : ℕ) : ℝ) < num := by push_cast; linarith
      have h5 : task + 1 < num := by exact_mod_cast h4
      have h6 : num = 3 ∨ num = 4 := by omega
      rcases h6 with rfl | rfl
      · have : (task : ℝ) ≤ 1 := by exact_mod_cast (by omega : task ≤ 1)
        push_cast at hb
        linarith
      · have : (task : ℝ) ≤ 2 := by exact_mod_cast (by omega : task ≤ 2)
        push_cast at hb
        linarith
  refine ⟨hcov, fun h3 task => by simp [isInvUpdateTask, h3], ?_⟩
  intro n o cfg net hnet events hrun m hm
  induction events with
  | nil => exact (Except.ok.inj hm).symm
  | cons e events ih =>
    obtain ⟨-, hop⟩ := hrun e List.mem_cons_self
    have hrest : IsRun x num events := fun e' he' => hrun e' (List.mem_cons_of_mem _ he')
    rw [List.map_cons, Net.run] at hm
    have hstep : ∀ m', net.step cfg e.2 = .ok m' → m' = net := by
      intro m' hm'
      obtain ⟨i, op⟩ := e
      cases op with
      | cov y s d =>
        exfalso
        simp only [chooseOp, hcov, roleOf] at hop
        split at hop
        · simp at hop
        · simp only [Bool.false_eq_true, if_false] at hop
          split at hop <;> simp at hop
      | inv d =>
        cases net with
        | nil => exact (Except.ok.inj hm').symm
        | cons bias l φ rest =>
          obtain ⟨-, -, -, h4, -⟩ := hnet
          simp only [Net.step, Net.invUpdate, Layer.invUpdate, h4] at hm'
          simp [Bind.bind, Except.bind] at hm'
      | train y loss =>
        simp only [Net.step, Net.trainStep] at hm'
        cases hs : net.sqNorm y loss with
        | error e => rw [hs] at hm'; simp [Bind.bind, Except.bind] at hm'
        | ok sq =>
          rw [hs] at hm'
          exact update_untrained _ _ _ net y loss hnet m' hm'
    cases hs : net.step cfg e.2 with
    | error er => rw [hs] at hm; simp [Except.bind] at hm
    | ok m' =>
      rw [hs] at hm
      obtain rfl := hstep m' hs
      exact ih hrest hm

/-- A run of three workers on a fresh linear model with one weight. -/
example : IsRun (n := 1) (o := 1) (3 / 5 * (3 : ℕ)) 3
      [(0, .train (N := 1) (fun _ _ => 1) fun _ z => z 0), (1, .train (N := 1) (fun _ _ => 1) fun _ z => z 0)] ∧
    Untrained (Net.cons false (fresh fun _ _ => 1) id .nil : Net 1 1) := by
  constructor
  · intro e he
    simp only [List.mem_cons, List.not_mem_nil, or_false] at he
    rcases he with rfl | rfl <;>
      simp only [chooseOp, isGradientTask, roleOf, show ¬ (3 < 3) by omega, if_false] <;> norm_num
  · refine ⟨rfl, rfl, rfl, ?_, trivial⟩
    simp [fresh, MovAvg.init, MovAvg.value]

end Kfac.Examples
