import Verif.Examples.Loops
import Verif.Examples.Workers
import Verif.Examples.PropsWorkers
import Verif.Exec.Props
import Verif.Train.PropsPeriodic

/-! # C123: the training loops of the examples -/

namespace Kfac.Examples

open Kfac.Train

/-- The arguments `minimize_loss_single_machine` passes to `PeriodicInvCovUpdateKfacOpt` (convnet.py 239-250). -/
def automatic (p : Manual) : Periodic where
  base := p.base
  invertEvery := p.invertEvery
  covUpdateEvery := 1
  numBurninSteps := 0
  covEmaDecay := some p.covEmaDecay
  damping := p.damping
  preconDampingMult := 1

/-- C123, manual loop: it does the same as the loop with `PeriodicInvCovUpdateKfacOpt`, with the same failures, if the global
step starts at a multiple of the interval of the inversions. -/
theorem C123_manual {n o : ℕ} (p : Manual) (batch : ℕ → BatchOf n o) (net : Net n o) {start : ℕ} (hs : p.invertEvery ∣ start) (T : ℕ) :
    p.run batch net start T = ((automatic p).run batch net T).map fun s => (s.net, start + T) := by
  suffices h : p.run batch net start T = ((automatic p).run batch net T).map (fun s => (s.net, start + T)) ∧
      ∀ s, (automatic p).run batch net T = .ok s → s.counter = T ∧ s.burnin = 0 by
    exact h.1
  induction T with
  | zero => exact ⟨rfl, fun s h => by cases h; exact ⟨rfl, rfl⟩⟩
  | succ T ih =>
    rw [Manual.run, Periodic.run, ih.1]
    cases hr : (automatic p).run batch net T with
    | error e => exact ⟨rfl, fun s h => by cases h⟩
    | ok s =>
      obtain ⟨h1, h2⟩ := ih.2 s hr
      simp only [Except.map, Except.bind]
      by_cases h0 : p.invertEvery = 0
      · simp [Manual.step, Periodic.step, automatic, h0]
      · have hm : (start + T) % p.invertEvery = T % p.invertEvery := by
          obtain ⟨k, rfl⟩ := hs
          rw [Nat.mul_add_mod]
        have e : (automatic p).step (batch T) s =
            (p.step (batch T) (s.net, start + T)).map fun r => ⟨r.1, s.counter + 1, s.burnin⟩ := by
          simp only [Manual.step, Periodic.step, automatic, h0, h1, hm, Nat.mod_one, Opt.effectiveDecay, pow_one, mul_one,
            if_true, if_false, Nat.not_lt_zero, or_self, one_ne_zero]
          by_cases hq : T % p.invertEvery = 0
          · simp only [hq, if_true]
            cases (s.net.covUpdate p.covEmaDecay (batch T).x (batch T).sampled).invUpdate p.base.rule p.base.power p.damping with
            | error e => rfl
            | ok m =>
              simp only [Except.bind]
              cases m.trainStep p.base (batch T).x (batch T).loss <;> rfl
          · simp only [hq, if_false, Except.bind]
            cases (s.net.covUpdate p.covEmaDecay (batch T).x (batch T).sampled).trainStep p.base (batch T).x (batch T).loss <;> rfl
        have hg : ∀ r, p.step (batch T) (s.net, start + T) = .ok r → r.2 = start + (T + 1) := by
          intro r hr
          simp only [Manual.step, h0, if_false] at hr
          revert hr
          generalize (if (start + T) % p.invertEvery = 0 then _ else _ : Except String (Net n o)) = q
          cases q with
          | error e => intro hr; cases hr
          | ok m =>
            simp only [Except.bind]
            cases m.trainStep p.base (batch T).x (batch T).loss with
            | error e => intro hr; cases hr
            | ok m' => intro hr; cases hr; rfl
        rw [e]
        cases hst : p.step (batch T) (s.net, start + T) with
        | error e => exact ⟨rfl, fun s h => by cases h⟩
        | ok r =>
          refine ⟨?_, fun s' h => ?_⟩
          · simp only [Except.map]
            rw [← hg r hst]
          · cases h; exact ⟨by simp [h1], h2⟩

/-- C123, estimator: at every global step each inverse has been computed at most `numThunks - 1` steps ago, if training
started at step 0; started anywhere else the same holds from the `numThunks`-th step on. -/
theorem C123_fresh {numThunks : ℕ} {j : ℕ} (hj : j < numThunks) (start t : ℕ) (hst : start = 0 ∨ start + numThunks ≤ t + 1) :
    ∃ t', start ≤ t' ∧ t' ≤ t ∧ t < t' + numThunks ∧ j ∈ estimatorInverses t' numThunks := by
  by_cases h : t < numThunks ∧ start = 0
  · exact ⟨0, by omega, by omega, by omega, by simp [estimatorInverses, hj]⟩
  · obtain ⟨t', h1, h2, h3⟩ := Exec.C18_no_starvation 1 numThunks (t + 1 - numThunks) j one_pos hj
    simp only [Nat.add_sub_cancel, Nat.div_one] at h2
    refine ⟨t', by omega, by omega, by omega, ?_⟩
    rw [estimatorInverses]
    split
    · simpa using hj
    · exact h3

/-- C123, estimator: all inverses are computed at step 0 and exactly one, in turn, at every later step. -/
theorem C123_one_each (t numThunks : ℕ) (hn : 0 < numThunks) :
    (∀ j, j ∈ estimatorInverses 0 numThunks ↔ j < numThunks) ∧
    (t ≠ 0 → estimatorInverses t numThunks = [t % numThunks]) := by
  refine ⟨fun j => by simp [estimatorInverses], fun ht => ?_⟩
  rw [estimatorInverses, if_neg ht]
  obtain ⟨h1, h2, h3⟩ := Exec.C18_count_per_step t 1 numThunks
  rw [Nat.min_eq_left (by omega)] at h1
  obtain ⟨k, hk⟩ := List.length_eq_one_iff.mp h1
  have hm : t % numThunks ∈ Exec.batchExecute t 1 numThunks := by
    simp only [Exec.batchExecute, List.mem_filter, List.mem_range, Exec.batchCondition, decide_eq_true_eq]
    refine ⟨Nat.mod_lt _ hn, ?_⟩
    have : ((1 : ℕ) : Int) - 1 + (t : Int) * (1 : ℕ) - ((t % numThunks : ℕ) : Int) = (numThunks : Int) * ((t / numThunks : ℕ) : Int) := by
      have := Nat.div_add_mod t numThunks
      push_cast
      have h4 : (numThunks : Int) * ((t / numThunks : ℕ) : Int) + ((t % numThunks : ℕ) : Int) = t := by exact_mod_cast this
      push_cast at h4
      linarith
    rw [this, Int.mul_emod_right]
    norm_num
  rw [hk] at hm ⊢
  rw [List.mem_singleton.mp hm]

/-- C123 for the chief worker (`distributed_grads_only_and_ops_chief_worker`) is false: all workers compute gradients, and
they are documented to be averaged over all of them, but with three or more workers the optimizer is told to wait for fewer. -/
theorem C123_chief_counterexample {num : ℕ} {x : ℝ} (h : Rounded num x) (hn : 3 ≤ num) : numGradientTasks x num < num := by
  obtain ⟨-, h1⟩ := h.bounds hn
  rw [numGradientTasks, if_neg (by omega)]
  have h2 : x ≤ ((num - 1 : ℕ) : ℝ) := by
    rw [Nat.cast_sub (by omega)]; push_cast; linarith
  have := Nat.ceil_le.mpr h2
  omega

/-- With fewer than three workers the gradients of all are used. -/
theorem C123_chief_partial {num : ℕ} (x : ℝ) (hn : num < 3) : numGradientTasks x num = num := by
  rw [numGradientTasks, if_pos hn]

/-- Four factors: all at step 0, then 1, 2, 3, 0, 1. -/
example : (List.range 6).map (fun t => estimatorInverses t 4) = [[0, 1, 2, 3], [1], [2], [3], [0], [1]] := by decide

end Kfac.Examples
