import Verif.Train.Periodic
import Verif.Train.PropsFit

/-! # C102: training a network with `PeriodicInvCovUpdateKfacOpt` -/

namespace Kfac.Train

open Kfac.Stats Kfac.Block Kfac.Grad Kfac.Loss Matrix

variable {N n o q : ℕ}

/-! ### Specification -/

/-- The documented decay. -/
noncomputable def documentedDecay (p : Periodic) : ℝ := (p.covEmaDecay.map fun d => d ^ p.covUpdateEvery).getD 0.95

/-- What execution number `t` of the training op does. -/
noncomputable def opsAt (p : Periodic) (b : BatchOf n o) (t : ℕ) : List (Op n o) :=
  if t < p.numBurninSteps then [.cov b.x b.sampled 1]
  else (if p.covUpdateEvery ∣ t - p.numBurninSteps then [.cov b.x b.sampled (documentedDecay p)] else []) ++
    (if p.invertEvery ∣ t - p.numBurninSteps then [.inv (p.damping * p.preconDampingMult)] else []) ++ [.train b.x b.loss]

/-- Training on all examples of a training set at every execution; the targets for the covariances are sampled each time. -/
noncomputable def onAll (x : Fin (N + 1) → Fin n → ℝ) (loss : Fin (N + 1) → Head 1 o) (sampled : ℕ → Fin (N + 1) → Head 1 o)
    (t : ℕ) : BatchOf n o :=
  ⟨N, x, fun i => exampleLoss (loss i), fun i => exampleLoss (sampled t i)⟩

/-! ### Lemmas -/

theorem effectiveDecay_eq (p : Periodic) : Opt.effectiveDecay p.covEmaDecay p.covUpdateEvery = documentedDecay p := by
  unfold Opt.effectiveDecay documentedDecay
  cases p.covEmaDecay <;> rfl

/-- One execution is a sequence of operations. -/
theorem step_ops (p : Periodic) (hc : p.covUpdateEvery ≠ 0) (hi : p.invertEvery ≠ 0) (b : BatchOf n o) (net : Net n o) (t : ℕ) :
    p.step b ⟨net, t - p.numBurninSteps, min t p.numBurninSteps⟩ = (net.run p.base (opsAt p b t)).map fun net =>
      ⟨net, t + 1 - p.numBurninSteps, min (t + 1) p.numBurninSteps⟩ := by
  unfold Periodic.step opsAt
  by_cases ht : t < p.numBurninSteps
  · rw [if_pos ht, if_pos (by simpa using ht)]
    simp only [Net.run, Net.step, Except.bind, Except.map]
    congr 2 <;> omega
  · rw [if_neg ht, if_neg (show ¬min t p.numBurninSteps < p.numBurninSteps by omega), if_neg (by simp [hc, hi]), effectiveDecay_eq]
    have e1 : min t p.numBurninSteps = min (t + 1) p.numBurninSteps := by omega
    have e2 : t - p.numBurninSteps + 1 = t + 1 - p.numBurninSteps := by omega
    simp only [Nat.dvd_iff_mod_eq_zero, e1, e2]
    have key : ∀ m : Net n o, ((m.trainStep p.base b.x b.loss).map fun net =>
        (⟨net, t + 1 - p.numBurninSteps, min (t + 1) p.numBurninSteps⟩ : PeriodicState n o)) =
        (m.run p.base [.train b.x b.loss]).map fun net => ⟨net, t + 1 - p.numBurninSteps, min (t + 1) p.numBurninSteps⟩ := by
      intro m
      simp only [Net.run, Net.step]
      cases m.trainStep p.base b.x b.loss <;> rfl
    by_cases h1 : (t - p.numBurninSteps) % p.covUpdateEvery = 0 <;> by_cases h2 : (t - p.numBurninSteps) % p.invertEvery = 0
    all_goals simp only [h1, h2, if_true, if_false, List.append_assoc, List.nil_append, List.cons_append]
    · simp only [key]
      show _ = Except.map _ (((_ : Net n o).invUpdate _ _ _).bind _)
      cases (net.covUpdate (documentedDecay p) b.x b.sampled).invUpdate p.base.rule p.base.power (p.damping * p.preconDampingMult) <;> rfl
    · simp only [key]
      rfl
    · simp only [key]
      show _ = Except.map _ ((net.invUpdate _ _ _).bind _)
      cases net.invUpdate p.base.rule p.base.power (p.damping * p.preconDampingMult) <;> rfl
    · simp only [key]
      rfl

/-- C102: any number of executions of the training op are the covariance updates, inverse updates and training steps at the
documented times with the documented decay and damping (failing exactly when one of them fails), and the counters count. -/
theorem C102_schedule (p : Periodic) (hc : p.covUpdateEvery ≠ 0) (hi : p.invertEvery ≠ 0) (batch : ℕ → BatchOf n o) (net : Net n o)
    (T : ℕ) : p.run batch net T = (net.run p.base ((List.range T).flatMap fun t => opsAt p (batch t) t)).map fun net =>
      ⟨net, T - p.numBurninSteps, min T p.numBurninSteps⟩ := by
  induction T with
  | zero => simp [Periodic.run, Net.run, Except.map]
  | succ T ih =>
    rw [Periodic.run, ih, List.range_succ, List.flatMap_append, run_append]
    cases net.run p.base ((List.range T).flatMap fun t => opsAt p (batch t) t) with
    | error e => rfl
    | ok m =>
      simp only [Except.map, Except.bind, List.flatMap_cons, List.flatMap_nil, List.append_nil]
      exact step_ops p hc hi (batch T) m T

theorem eval_covUpdate {M : ℕ} (decay : ℝ) (net : Net n o) (x : Fin M → Fin n → ℝ) (sampled : Fin M → (Fin o → ℝ) → ℝ) :
    (net.covUpdate decay x sampled).eval = net.eval := by
  induction net with
  | nil => rfl
  | cons bias l φ rest ih =>
    funext y
    simp only [Net.covUpdate, Net.eval, ih]

/-- C102: the burn-in succeeds and does not change the function the network computes. -/
theorem C102_burnin (p : Periodic) (batch : ℕ → BatchOf n o) (net : Net n o) {T : ℕ} (hT : T ≤ p.numBurninSteps) :
    ∃ m, p.run batch net T = .ok ⟨m, 0, T⟩ ∧ m.eval = net.eval := by
  induction T with
  | zero => exact ⟨net, rfl, rfl⟩
  | succ T ih =>
    obtain ⟨m, h1, h2⟩ := ih (by omega)
    refine ⟨m.covUpdate 1 (batch T).x (batch T).sampled, ?_, by rw [eval_covUpdate, h2]⟩
    rw [Periodic.run, h1]
    simp only [Except.bind, Periodic.step]
    rw [if_pos (by omega)]

/-- C102: if one of the intervals is zero, every execution after the burn-in fails. -/
theorem C102_zero_interval (p : Periodic) (h : p.covUpdateEvery = 0 ∨ p.invertEvery = 0) (batch : ℕ → BatchOf n o) (net : Net n o)
    {T : ℕ} (hT : p.numBurninSteps < T) : ∃ e, p.run batch net T = .error e := by
  induction T with
  | zero => omega
  | succ T ih =>
    rw [Periodic.run]
    rcases Nat.lt_or_ge p.numBurninSteps T with h1 | h1
    · obtain ⟨e, he⟩ := ih h1
      exact ⟨e, by rw [he]; rfl⟩
    · obtain ⟨m, h2, -⟩ := C102_burnin p batch net h1
      refine ⟨"Integer division by zero", ?_⟩
      rw [h2]
      simp only [Except.bind, Periodic.step]
      rw [if_neg (by omega), if_pos h]

/-- The updates of the statistics of one execution. -/
noncomputable def upkeepAt (p : Periodic) (x : Fin (N + 1) → Fin n → ℝ) (sampled : ℕ → Fin (N + 1) → Head 1 o) (t : ℕ) :
    List (Upkeep n o) :=
  if t < p.numBurninSteps then [.cov x (sampled t) 1]
  else (if p.covUpdateEvery ∣ t - p.numBurninSteps then [.cov x (sampled t) (documentedDecay p)] else []) ++
    (if p.invertEvery ∣ t - p.numBurninSteps then [.inv (p.damping * p.preconDampingMult)] else [])

/-- Those before the first, and before each later training step. -/
noncomputable def upkeepOf (p : Periodic) (x : Fin (N + 1) → Fin n → ℝ) (sampled : ℕ → Fin (N + 1) → Head 1 o) :
    ℕ → List (Upkeep n o)
  | 0 => (List.range (p.numBurninSteps + 1)).flatMap (upkeepAt p x sampled)
  | k + 1 => upkeepAt p x sampled (p.numBurninSteps + (k + 1))

theorem opsAt_upkeep (p : Periodic) (x : Fin (N + 1) → Fin n → ℝ) (loss : Fin (N + 1) → Head 1 o)
    (sampled : ℕ → Fin (N + 1) → Head 1 o) (t : ℕ) : opsAt p (onAll x loss sampled t) t =
      (upkeepAt p x sampled t).map Upkeep.op ++ if t < p.numBurninSteps then [] else [.train x fun i => exampleLoss (loss i)] := by
  unfold opsAt upkeepAt
  split
  · rfl
  · rw [List.map_append]
    congr 2 <;> split <;> rfl

/-- Training with the periodic optimizer is `fit`. -/
theorem run_fit (p : Periodic) (x : Fin (N + 1) → Fin n → ℝ) (loss : Fin (N + 1) → Head 1 o)
    (sampled : ℕ → Fin (N + 1) → Head 1 o) (net : Net n o) (k : ℕ) :
    net.run p.base ((List.range (p.numBurninSteps + (k + 1))).flatMap fun t => opsAt p (onAll x loss sampled t) t) =
      net.fit p.base x loss (upkeepOf p x sampled) (k + 1) := by
  induction k with
  | zero =>
    rw [Net.fit, Net.fit]
    simp only [Except.bind, upkeepOf]
    congr 1
    rw [List.range_succ, List.flatMap_append, List.flatMap_append, List.map_append]
    have : (List.range p.numBurninSteps).flatMap (fun t => opsAt p (onAll x loss sampled t) t) =
        ((List.range p.numBurninSteps).flatMap (upkeepAt p x sampled)).map Upkeep.op := by
      rw [List.map_flatMap]
      refine List.flatMap_congr ?_
      intro t ht
      rw [opsAt_upkeep, if_pos (List.mem_range.mp ht), List.append_nil]
    rw [this]
    simp [opsAt_upkeep]
  | succ k ih =>
    rw [Net.fit, ← ih, show p.numBurninSteps + (k + 1 + 1) = p.numBurninSteps + (k + 1) + 1 by omega, List.range_succ,
      List.flatMap_append, run_append]
    congr 1
    funext m
    simp [opsAt_upkeep, upkeepOf]

theorem admissible_upkeep (p : Periodic) (hd : ∀ d ∈ p.covEmaDecay, 0 ≤ d) (x : Fin (N + 1) → Fin n → ℝ)
    (sampled : ℕ → Fin (N + 1) → Head 1 o) (k : ℕ) : ∀ u ∈ upkeepOf p x sampled k, u.Admissible (p.damping * p.preconDampingMult) := by
  have hdec : 0 ≤ documentedDecay p := by
    unfold documentedDecay
    cases h : p.covEmaDecay with
    | none => norm_num
    | some d => exact pow_nonneg (hd d h) _
  have key : ∀ t, ∀ u ∈ upkeepAt p x sampled t, u.Admissible (p.damping * p.preconDampingMult) := by
    intro t u hu
    unfold upkeepAt at hu
    split at hu
    · rw [List.mem_singleton] at hu
      subst hu
      exact zero_le_one (α := ℝ)
    · rcases List.mem_append.mp hu with h | h <;> split at h <;> simp only [List.mem_singleton, List.not_mem_nil] at h
      · subst h; exact hdec
      · subst h; exact le_refl _
  cases k with
  | zero =>
    intro u hu
    obtain ⟨t, -, ht⟩ := List.mem_flatMap.mp hu
    exact key t u ht
  | succ k => exact key _

theorem bounded_upkeep (p : Periodic) (bias : Bool) (x : Fin (N + 1) → Fin n → ℝ)
    (sampled : ℕ → Fin (N + 1) → Head 1 o) (hs : ∀ t i, Classifier (sampled t i)) (k : ℕ) : ∀ u ∈ upkeepOf p x sampled k,
      u.Bounded bias (∑ i, ∑ r, appendHomog bias (x i) r ^ 2) (p.damping * p.preconDampingMult) := by
  have hx : ∀ i, ∑ r, appendHomog bias (x i) r ^ 2 ≤ ∑ i, ∑ r, appendHomog bias (x i) r ^ 2 := fun i =>
    Finset.single_le_sum (f := fun i => ∑ r, appendHomog bias (x i) r ^ 2)
      (fun i _ => Finset.sum_nonneg fun r _ => sq_nonneg _) (Finset.mem_univ i)
  have key : ∀ t, ∀ u ∈ upkeepAt p x sampled t,
      u.Bounded bias (∑ i, ∑ r, appendHomog bias (x i) r ^ 2) (p.damping * p.preconDampingMult) := by
    intro t u hu
    unfold upkeepAt at hu
    split at hu
    · rw [List.mem_singleton] at hu
      subst hu
      exact ⟨hx, hs t⟩
    · rcases List.mem_append.mp hu with h | h <;> split at h <;> simp only [List.mem_singleton, List.not_mem_nil] at h
      · subst h; exact ⟨hx, hs t⟩
      · subst h; exact le_refl _
  cases k with
  | zero =>
    intro u hu
    obtain ⟨t, -, ht⟩ := List.mem_flatMap.mp hu
    exact key t u ht
  | succ k => exact key _

theorem upkeepOf_zero (p : Periodic) (x : Fin (N + 1) → Fin n → ℝ) (sampled : ℕ → Fin (N + 1) → Head 1 o) :
    ∃ (M : ℕ) (x' : Fin (M + 1) → Fin n → ℝ) (s : Fin (M + 1) → Head 1 o) (decay damping : ℝ) (us : List (Upkeep n o)),
      upkeepOf p x sampled 0 = .cov x' s decay :: us ∧ .inv damping ∈ us := by
  have hlast : upkeepAt p x sampled p.numBurninSteps = [.cov x (sampled p.numBurninSteps) (documentedDecay p),
      .inv (p.damping * p.preconDampingMult)] := by
    simp [upkeepAt]
  cases hb : p.numBurninSteps with
  | zero =>
    rw [hb] at hlast
    refine ⟨N, x, sampled 0, documentedDecay p, p.damping * p.preconDampingMult, [.inv (p.damping * p.preconDampingMult)], ?_, by simp⟩
    simp [upkeepOf, hb, hlast]
  | succ b =>
    refine ⟨N, x, sampled 0, 1, p.damping * p.preconDampingMult,
      ((List.range (b + 1)).map Nat.succ).flatMap (upkeepAt p x sampled), ?_, ?_⟩
    · rw [upkeepOf, hb, List.range_succ_eq_map, List.flatMap_cons]
      have : upkeepAt p x sampled 0 = [.cov x (sampled 0) 1] := by simp [upkeepAt, hb]
      rw [this]
      rfl
    · refine List.mem_flatMap.mpr ⟨b + 1, ?_, ?_⟩
      · simp
      · rw [← hb, hlast]
        simp

/-- C102: with `PeriodicInvCovUpdateKfacOpt` without momentum and norm constraint, one fully connected layer trained on all
examples with any of the losses, and targets sampled from a classification for the covariances, converges for all intervals of the
updates and all lengths of the burn-in: all executions succeed, the loss never increases and tends to the infimum of the losses of
all linear models. -/
theorem C102_converges (hq : q ≠ 0) (p : Periodic) (hc0 : p.covUpdateEvery ≠ 0) (hi0 : p.invertEvery ≠ 0)
    (hd : ∀ d ∈ p.covEmaDecay, 0 ≤ d) (hm : p.base.momentum = 0) (hn : p.base.normConstraint = none)
    (hlr : 0 < p.base.learningRate) (bias : Bool) (x : Fin (N + 1) → Fin n → ℝ) (loss : Fin (N + 1) → Head 1 q)
    (hv : ∀ i, (loss i).Valid) {β : ℝ} (hβ : 0 ≤ β) (hc : ∀ i, curvature (loss i) ≤ β)
    (hs : β * p.base.learningRate * meanSquare bias x < 2 * (p.damping * p.preconDampingMult)) (hl : 0 < p.damping * p.preconDampingMult)
    (sampled : ℕ → Fin (N + 1) → Head 1 q) (hsam : ∀ t i, Classifier (sampled t i)) (w : Fin (n + bias.toNat) → Fin q → ℝ) :
    ∃ (states : ℕ → PeriodicState n q) (m : ℝ),
      (∀ t, p.run (onAll x loss sampled) (linear bias (fresh w)) t = .ok (states t)) ∧
      Antitone (fun t => meanHead x loss (states t).net) ∧
      IsGLB (Set.range fun l : Layer (n + bias.toNat) q => meanHead x loss (linear bias l)) m ∧
      Filter.Tendsto (fun t => meanHead x loss (states t).net) Filter.atTop (nhds m) := by
  obtain ⟨layers, m, h1, h2, h3, h4, -⟩ := C98_converges hq p.base hm hn hlr bias x loss hv hβ hc hl hs (upkeepOf p x sampled)
    (admissible_upkeep p hd x sampled) (bounded_upkeep p bias x sampled hsam) (upkeepOf_zero p x sampled) w
  have key : ∀ t, ∃ s, p.run (onAll x loss sampled) (linear bias (fresh w)) t = .ok s ∧
      meanHead x loss s.net = meanHead x loss (linear bias (layers (t - p.numBurninSteps))) := by
    intro t
    by_cases ht : t ≤ p.numBurninSteps
    · obtain ⟨m, e1, e2⟩ := C102_burnin p (onAll x loss sampled) (linear bias (fresh w)) ht
      refine ⟨_, e1, ?_⟩
      have h0 := h1 0
      rw [Net.fit] at h0
      rw [show t - p.numBurninSteps = 0 by omega, ← Except.ok.inj h0]
      simp only [meanHead, e2]
    · obtain ⟨k, rfl⟩ : ∃ k, t = p.numBurninSteps + (k + 1) := ⟨t - p.numBurninSteps - 1, by omega⟩
      rw [C102_schedule p hc0 hi0, run_fit, h1]
      refine ⟨_, rfl, ?_⟩
      rw [show p.numBurninSteps + (k + 1) - p.numBurninSteps = k + 1 by omega]
  choose states e1 e2 using key
  refine ⟨states, m, e1, ?_, h3, ?_⟩
  · intro a b hab
    show meanHead x loss (states b).net ≤ meanHead x loss (states a).net
    rw [e2, e2]
    exact h2 (by omega)
  · have : (fun t => meanHead x loss (states t).net) =
        (fun k => meanHead x loss (linear bias (layers k))) ∘ fun t => t - p.numBurninSteps := by
      funext t; exact e2 t
    rw [this]
    exact h4.comp (Filter.tendsto_sub_atTop_nat _)

/-- Softmax regression of three classes with the default intervals, three burn-in steps and the labels drawn anew for the
covariances. -/
example (w : Fin (1 + true.toNat) → Fin 3 → ℝ) (sampled : ℕ → Fin 2 → Fin 3) : ∃ (states : ℕ → PeriodicState 1 3) (m : ℝ),
    (∀ t, Periodic.run ⟨⟨1, 0, none, .tracenorm, 1⟩, 10, 1, 3, none, 1, 1⟩ (onAll (N := 1) (fun i _ => if i = 0 then 1 else -1)
      (fun i => .categorical fun _ => i.castSucc) (fun t i => .categorical fun _ => sampled t i)) (linear true (fresh w)) t = .ok (states t)) ∧
    Antitone (fun t => meanHead (N := 2) (fun i _ => if i = 0 then 1 else -1) (fun i => .categorical fun _ => i.castSucc) (states t).net) ∧
    IsGLB (Set.range fun l : Layer (1 + true.toNat) 3 => meanHead (N := 2) (fun i _ => if i = 0 then 1 else -1)
      (fun i => .categorical fun _ => i.castSucc) (linear true l)) m ∧
    Filter.Tendsto (fun t => meanHead (N := 2) (fun i _ => if i = 0 then 1 else -1) (fun i => .categorical fun _ => i.castSucc) (states t).net)
      Filter.atTop (nhds m) := by
  refine C102_converges (by norm_num) ⟨⟨1, 0, none, .tracenorm, 1⟩, 10, 1, 3, none, 1, 1⟩ (by norm_num) (by norm_num) (by simp) rfl rfl
    one_pos true _ (fun i => .categorical fun _ => i.castSucc) (fun i => trivial) (β := 1 / 2) (by norm_num) (fun i => le_refl _) ?_
    (by norm_num) (fun t i => .categorical fun _ => sampled t i) (fun t i => trivial) w
  have e : ∀ i : Fin 2, ∑ r, appendHomog true (fun _ : Fin 1 => if i = 0 then (1 : ℝ) else -1) r ^ 2 = 2 := by
    intro i
    rw [homog_sum fun _ t => t ^ 2]
    split_ifs <;> norm_num
  norm_num [meanSquare, e]

end Kfac.Train
