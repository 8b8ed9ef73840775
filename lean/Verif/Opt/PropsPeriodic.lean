import Verif.Opt.PropsDamping
import Verif.Stats.Model

/-! # C37-C40: the periodic optimizer -/

set_option linter.unusedSectionVars false

namespace Kfac.Opt

open Matrix

variable {ι κ γ : Type} [Fintype ι] [Fintype κ]

/-- A run after burn-in. -/
theorem trainStep_eq (cfg : Config) (p : PConfig) (precon : Precon ι γ) (inp : PIn ι κ γ) (s : PState ι γ)
    (hb : p.numBurninSteps ≤ s.burnin) :
    let s' := trainStep cfg p precon inp s
    s'.cov = (if s.opt.counter % p.covUpdateEvery = 0 then inp.covUpdate s.opt.params true s.cov else s.cov) ∧
    s'.inv = (if s.opt.counter % p.invertEvery = 0 then
        some (s'.cov, (if inp.readEarly then s.opt.damping else (preUpdate cfg inp.base s.opt).damping) * p.dampingMult)
      else s.inv) ∧
    (∀ x, s'.inv = some x →
      s'.opt = applyGradients cfg { inp.base with precon := precon x } (preUpdate cfg inp.base s.opt)) ∧
    s'.opt.counter = s.opt.counter + 1 ∧ s'.burnin = s.burnin := by
  intro s'
  have hs : s' = trainStep cfg p precon inp s := rfl
  rw [trainStep, if_neg (by omega)] at hs
  refine ⟨by rw [hs], by rw [hs], ?_, ?_, by rw [hs]⟩
  · intro x hx
    rw [hs] at hx ⊢
    simp only at hx ⊢
    rw [hx]
  · rw [hs]
    simp only
    rw [apply_counter, (preUpdate_keeps _ _ _).1]

theorem ptrace_counter (cfg : Config) (p : PConfig) (precon : Precon ι γ) (inputs : ℕ → PIn ι κ γ)
    (s0 : PState ι γ) (hb : p.numBurninSteps ≤ s0.burnin) (h0 : s0.opt.counter = 0) (t : ℕ) :
    (ptrace cfg p precon inputs s0 t).opt.counter = t ∧
    p.numBurninSteps ≤ (ptrace cfg p precon inputs s0 t).burnin := by
  induction t with
  | zero => exact ⟨h0, hb⟩
  | succ t ih =>
    obtain ⟨_, _, _, h1, h2⟩ := trainStep_eq cfg p precon (inputs t) _ ih.2
    exact ⟨by rw [ptrace, h1, ih.1], by rw [ptrace, h2]; exact ih.2⟩

theorem sub_mod_succ (t k : ℕ) (h : (t + 1) % k ≠ 0) : t + 1 - (t + 1) % k = t - t % k := by
  have h1 := Nat.div_add_mod (t + 1) k
  have h2 := Nat.div_add_mod t k
  have h3 : (t + 1) / k = t / k := by
    rw [Nat.succ_div, if_neg (fun hd => h (Nat.dvd_iff_mod_eq_zero.1 hd)), Nat.add_zero]
  rw [h3] at h1
  omega

/-! ## C38 -/

/-- The covariance statistics before run `t` are the result of the updates of exactly the runs divisible by
`cov_update_every`, in order, each with decay and at the parameters of its run. The stored inverses after the
inverse update of run `t`, which are the ones its parameter update uses, exist and were computed in run
`t - t % invert_every` from the statistics as they were after that run's covariance update (if due). -/
theorem C38_schedule (cfg : Config) (p : PConfig) (precon : Precon ι γ) (inputs : ℕ → PIn ι κ γ)
    (s0 : PState ι γ) (hb : p.numBurninSteps ≤ s0.burnin) (h0 : s0.opt.counter = 0) (t : ℕ) :
    let s := ptrace cfg p precon inputs s0
    (s t).cov = ((List.range t).filter (fun u => decide (u % p.covUpdateEvery = 0))).foldl
      (fun c u => (inputs u).covUpdate (s u).opt.params true c) s0.cov ∧
    ∃ damping, (s (t + 1)).inv = some ((s (t - t % p.invertEvery + 1)).cov, damping) ∧
      (s (t + 1)).opt = applyGradients cfg
        { (inputs t).base with precon := precon ((s (t - t % p.invertEvery + 1)).cov, damping) }
        (preUpdate cfg (inputs t).base (s t).opt) := by
  intro s
  have hstep : ∀ t, s (t + 1) = trainStep cfg p precon (inputs t) (s t) := fun _ => rfl
  have hc := ptrace_counter cfg p precon inputs s0 hb h0
  constructor
  · induction t with
    | zero => rfl
    | succ t ih =>
      have h1 := (trainStep_eq cfg p precon (inputs t) (s t) (hc t).2).1
      rw [(hc t).1] at h1
      rw [List.range_succ, List.filter_append, List.foldl_append, ← ih, hstep, h1]
      split_ifs with h <;> simp [h]
  · have hinv : ∃ damping, (s (t + 1)).inv = some ((s (t - t % p.invertEvery + 1)).cov, damping) := by
      induction t with
      | zero =>
        have h2 := (trainStep_eq cfg p precon (inputs 0) (s 0) (hc 0).2).2.1
        rw [(hc 0).1, if_pos (Nat.zero_mod _)] at h2
        rw [hstep, h2, Nat.zero_sub]
        exact ⟨_, rfl⟩
      | succ t ih =>
        have h2 := (trainStep_eq cfg p precon (inputs (t + 1)) (s (t + 1)) (hc (t + 1)).2).2.1
        rw [(hc (t + 1)).1] at h2
        by_cases hd : (t + 1) % p.invertEvery = 0
        · rw [if_pos hd] at h2
          rw [hstep (t + 1), h2, hd, Nat.sub_zero]
          exact ⟨_, rfl⟩
        · rw [if_neg hd] at h2
          obtain ⟨d, hd'⟩ := ih
          have : t + 1 - (t + 1) % p.invertEvery = t - t % p.invertEvery := by
            exact sub_mod_succ _ _ hd
          rw [hstep (t + 1), h2, hd', this]
          exact ⟨d, rfl⟩
    obtain ⟨d, hd⟩ := hinv
    exact ⟨d, hd, (trainStep_eq cfg p precon (inputs t) (s t) (hc t).2).2.2.1 _ hd⟩

/-! ## C37 -/

/-- If the adaptation interval is a multiple of the inversion period, then in every run the parameter update uses
inverses computed with the damping in force at that moment (times `precon_damping_mult`), provided the damping is
adapted immediately, or else TF happens to read the damping for the inverses after its adaptation. -/
theorem C37_partial (cfg : Config) (p : PConfig) (precon : Precon ι γ) (inputs : ℕ → PIn ι κ γ)
    (s0 : PState ι γ) (hb : p.numBurninSteps ≤ s0.burnin) (h0 : s0.opt.counter = 0)
    (hdvd : p.invertEvery ∣ cfg.interval)
    (hread : cfg.immediate = true ∨ ∀ t, (inputs t).readEarly = false) (t : ℕ) :
    let s := ptrace cfg p precon inputs s0
    let now := preUpdate cfg (inputs t).base (s t).opt
    ∃ cov, (s (t + 1)).inv = some (cov, now.damping * p.dampingMult) ∧
      (s (t + 1)).opt = applyGradients cfg
        { (inputs t).base with precon := precon (cov, now.damping * p.dampingMult) } now := by
  intro s now
  have hstep : ∀ t, s (t + 1) = trainStep cfg p precon (inputs t) (s t) := fun _ => rfl
  have hc := ptrace_counter cfg p precon inputs s0 hb h0
  have hndvd : ∀ t, t % p.invertEvery ≠ 0 → t % cfg.interval ≠ 0 := by
    intro t h1 h2
    exact h1 (Nat.dvd_iff_mod_eq_zero.1 (hdvd.trans (Nat.dvd_iff_mod_eq_zero.2 h2)))
  suffices hinv : ∃ cov, (s (t + 1)).inv =
      some (cov, (preUpdate cfg (inputs t).base (s t).opt).damping * p.dampingMult) by
    obtain ⟨c, hc'⟩ := hinv
    exact ⟨c, hc', (trainStep_eq cfg p precon (inputs t) (s t) (hc t).2).2.2.1 _ hc'⟩
  have hread' : ∀ t, (if (inputs t).readEarly then (s t).opt.damping
      else (preUpdate cfg (inputs t).base (s t).opt).damping) =
      (preUpdate cfg (inputs t).base (s t).opt).damping := by
    intro t
    rcases hread with h | h
    · rw [preUpdate_immediate _ _ _ (.inr (.inr h))]; simp
    · simp [h t]
  -- outside the inversion period neither of the adaptations happens
  have hpre : ∀ t, t % p.invertEvery ≠ 0 →
      (preUpdate cfg (inputs t).base (s t).opt).damping = (s t).opt.damping := by
    intro t ht
    by_cases h : cfg.adaptDamping = false ∨ cfg.isChief = false ∨ cfg.immediate = true
    · rw [preUpdate_immediate _ _ _ h]
    · rw [preUpdate_damping _ _ _ h, (hc t).1, if_neg (fun hh => hndvd t ht hh.1)]
  induction t with
  | zero =>
    have h2 := (trainStep_eq cfg p precon (inputs 0) (s 0) (hc 0).2).2.1
    rw [(hc 0).1, if_pos (Nat.zero_mod _), hread'] at h2
    exact ⟨_, h2⟩
  | succ t ih =>
    have h2 := (trainStep_eq cfg p precon (inputs (t + 1)) (s (t + 1)) (hc (t + 1)).2).2.1
    rw [(hc (t + 1)).1] at h2
    by_cases hd : (t + 1) % p.invertEvery = 0
    · rw [if_pos hd, hread'] at h2
      exact ⟨_, h2⟩
    · rw [if_neg hd] at h2
      obtain ⟨c, hcov⟩ := ih
      refine ⟨c, ?_⟩
      rw [hstep (t + 1), h2, hcov, hpre _ hd]
      have h3 := (trainStep_eq cfg p precon (inputs t) (s t) (hc t).2).2.2.1 _ hcov
      have h4 : (s (t + 1)).opt.damping = (preUpdate cfg (inputs t).base (s t).opt).damping := by
        rw [hstep, h3, apply_damping, (preUpdate_keeps _ _ _).1, (hc t).1, if_neg (hndvd _ hd)]
        split_ifs <;> rfl
      rw [h4]

/-- If the preconditioner is the same matrix for all statistics and dampings, the parameters and variables of
the periodic optimizer evolve like those of the plain one. -/
theorem ptrace_const (cfg : Config) (p : PConfig) (base : ℕ → StepIn ι κ) (inputs : ℕ → PIn ι κ γ)
    (s0 : PState ι γ) (hb : p.numBurninSteps ≤ s0.burnin) (h0 : s0.opt.counter = 0) (m : Matrix ι ι ℝ)
    (h1 : ∀ t, (inputs t).base = base t) (h2 : ∀ t, (base t).precon = m) (t : ℕ) :
    (ptrace cfg p (fun _ => m) inputs s0 t).opt = trace cfg base s0.opt t := by
  induction t with
  | zero => rfl
  | succ t ih =>
    obtain ⟨_, d, _, h3⟩ := C38_schedule cfg p (fun _ => m) inputs s0 hb h0 t
    rw [h3, trace, optStep, ih, h1, ← h2 t]

noncomputable def demoDelayed : Config := { demoConfig with immediate := false }

noncomputable def demoP (invertEvery : ℕ) : PConfig :=
  { invertEvery, covUpdateEvery := 1, numBurninSteps := 0, dampingMult := 1 }

/-- The statistics count the updates. -/
noncomputable def demoPInput (early : Bool) : PIn Unit Unit ℕ :=
  { base := demoInput, covUpdate := fun _ _ c => c + 1, readEarly := early }

noncomputable def demoPState : PState Unit ℕ :=
  { opt := State.init (fun _ => 2) 1, cov := 0, inv := none, burnin := 0 }

/-- If the intervals do not line up the inverses can be stale: damping adapted in every run, inverses computed
in every second one; the update of run 1 uses inverses for damping 1 while the damping is 1/2. -/
theorem C37_stale :
    ∃ (cfg : Config) (p : PConfig) (inputs : ℕ → PIn Unit Unit ℕ) (s0 : PState Unit ℕ),
      ¬ p.invertEvery ∣ cfg.interval ∧ cfg.immediate = true ∧ s0.opt.counter = 0 ∧
      (∀ t, (inputs t).readEarly = false) ∧
      let s := ptrace cfg p (fun _ => 1) inputs s0
      (s 2).inv.map Prod.snd = some 1 ∧
        (preUpdate cfg (inputs 1).base (s 1).opt).damping * p.dampingMult = 1 / 2 := by
  refine ⟨demoConfig, demoP 2, fun _ => demoPInput false, demoPState, by simp [demoConfig, demoP], rfl, rfl,
    fun _ => rfl, ?_⟩
  have hc := ptrace_counter demoConfig (demoP 2) (fun _ => 1) (fun _ => demoPInput false) demoPState
    (Nat.zero_le _) rfl
  have e0 := (trainStep_eq demoConfig (demoP 2) (fun _ => 1) (demoPInput false) demoPState (Nat.zero_le _)).2.1
  have e1 := (trainStep_eq demoConfig (demoP 2) (fun _ => 1) (demoPInput false)
    (ptrace demoConfig (demoP 2) (fun _ => 1) (fun _ => demoPInput false) demoPState 1) (hc 1).2).2.1
  rw [if_pos (show demoPState.opt.counter % (demoP 2).invertEvery = 0 from rfl)] at e0
  rw [(hc 1).1, if_neg (by simp [demoP])] at e1
  refine ⟨?_, ?_⟩
  · rw [ptrace, e1, ptrace, ptrace, e0, preUpdate_immediate _ _ _ (.inr (.inr rfl))]
    simp [demoPInput, demoPState, demoP, State.init]
  · rw [ptrace_const demoConfig (demoP 2) (fun _ => demoInput) (fun _ => demoPInput false) demoPState
      (Nat.zero_le _) rfl 1 (fun _ => rfl) (fun _ => rfl), preUpdate_immediate _ _ _ (.inr (.inr rfl))]
    rw [show trace demoConfig (fun _ => demoInput) demoPState.opt 1 =
      trace demoConfig (fun _ => demoInput) (State.init (fun _ => 2) 1) 1 from rfl, demo_damping]
    simp [demoP]

/-- With delayed adaptation the intervals can line up and the inverses still be stale: the read of the damping
for the inverses is not ordered after its adaptation in the same run. -/
theorem C37_race_counterexample :
    ∃ (cfg : Config) (p : PConfig) (inputs : ℕ → PIn Unit Unit ℕ) (s0 : PState Unit ℕ),
      p.invertEvery ∣ cfg.interval ∧ cfg.immediate = false ∧ s0.opt.counter = 0 ∧
      let s := ptrace cfg p (fun _ => 1) inputs s0
      (s 2).inv.map Prod.snd = some 1 ∧
        (preUpdate cfg (inputs 1).base (s 1).opt).damping * p.dampingMult = 1 / 2 := by
  refine ⟨demoDelayed, demoP 1, fun _ => demoPInput true, demoPState, one_dvd _, rfl, rfl, ?_⟩
  have hc := ptrace_counter demoDelayed (demoP 1) (fun _ => 1)
    (fun _ => demoPInput true) demoPState (Nat.zero_le _) rfl
  have e1 := (trainStep_eq demoDelayed (demoP 1) (fun _ => 1) (demoPInput true)
    (ptrace demoDelayed (demoP 1) (fun _ => 1) (fun _ => demoPInput true) demoPState 1) (hc 1).2).2.1
  have ho := ptrace_const demoDelayed (demoP 1) (fun _ => demoInput)
    (fun _ => demoPInput true) demoPState (Nat.zero_le _) rfl 1 (fun _ => rfl) (fun _ => rfl) 1
  rw [(hc 1).1, if_pos (show 1 % (demoP 1).invertEvery = 0 from rfl), ho] at e1
  refine ⟨?_, ?_⟩
  · rw [ptrace, e1]
    rw [show (trace demoDelayed (fun _ => demoInput) demoPState.opt 1).damping = 1 from demo_damping_delayed.1]
    simp [demoPInput, demoP]
  · rw [ho]
    change (preUpdate demoDelayed demoInput _).damping * _ = _
    rw [show (preUpdate demoDelayed demoInput
      (trace demoDelayed (fun _ => demoInput) demoPState.opt 1)).damping = 1 / 2 from demo_damping_delayed.2]
    simp [demoP]

/-- Statistics updated in every run, inverses in every second one: run 3 uses the inverses of run 2, computed
after three updates. -/
example : ∃ damping, (ptrace demoConfig (demoP 2) (fun _ => 1) (fun _ => demoPInput false) demoPState 4).inv =
    some (3, damping) := by
  obtain ⟨_, d, h, _⟩ := C38_schedule demoConfig (demoP 2) (fun _ => 1) (fun _ => demoPInput false) demoPState
    (Nat.zero_le _) rfl 3
  obtain ⟨h3, _⟩ := C38_schedule demoConfig (demoP 2) (fun _ => 1) (fun _ => demoPInput false) demoPState
    (Nat.zero_le _) rfl 3
  refine ⟨d, ?_⟩
  rw [h, show 3 - 3 % (demoP 2).invertEvery + 1 = 3 from rfl, h3]
  rfl

/-! ## C39 -/

/-- The first `num_burnin_steps` runs leave the optimizer's variables, the parameters and the stored inverses as
they are and only add data to the statistics, without decay; the runs after that are exactly the runs without
burn-in from step 0 and these statistics. -/
theorem C39_burnin (cfg : Config) (p : PConfig) (precon : Precon ι γ) (inputs : ℕ → PIn ι κ γ)
    (s0 : PState ι γ) (hb : s0.burnin = 0) :
    let cov := fun n => (List.range n).foldl (fun c u => (inputs u).covUpdate s0.opt.params false c) s0.cov
    (∀ t ≤ p.numBurninSteps, ptrace cfg p precon inputs s0 t = { s0 with cov := cov t, burnin := t }) ∧
    (∀ t, ptrace cfg p precon inputs s0 (p.numBurninSteps + t) =
      { ptrace cfg { p with numBurninSteps := 0 } precon (fun u => inputs (p.numBurninSteps + u))
          { s0 with cov := cov p.numBurninSteps } t with burnin := p.numBurninSteps }) := by
  intro cov
  have h1 : ∀ t ≤ p.numBurninSteps, ptrace cfg p precon inputs s0 t = { s0 with cov := cov t, burnin := t } := by
    intro t
    induction t with
    | zero => intro _; rw [ptrace]; simp only [cov, List.range_zero, List.foldl_nil]; rw [← hb]
    | succ t ih =>
      intro ht
      rw [ptrace, ih (by omega), trainStep, if_pos (show t < p.numBurninSteps by omega)]
      simp [cov, List.range_succ]
  refine ⟨h1, ?_⟩
  intro t
  induction t with
  | zero => rw [Nat.add_zero, h1 _ le_rfl]; rfl
  | succ t ih =>
    rw [← Nat.add_assoc, ptrace, ih, ptrace]
    generalize ptrace cfg { p with numBurninSteps := 0 } precon (fun u => inputs (p.numBurninSteps + u))
          { s0 with cov := cov p.numBurninSteps } t = s
    rw [trainStep, if_neg (by simp), trainStep, if_neg (Nat.not_lt_zero _)]

/-- Three runs with two burn-in runs: the first two only count. -/
example (precon : Precon Unit ℕ) :
    (ptrace demoConfig { demoP 1 with numBurninSteps := 2 } precon (fun _ => demoPInput false) demoPState 2) =
      { demoPState with cov := 2, burnin := 2 } := by
  rw [(C39_burnin demoConfig { demoP 1 with numBurninSteps := 2 } precon (fun _ => demoPInput false) demoPState
    rfl).1 2 le_rfl]
  rfl

/-! ## C40 -/

section Decay

variable {V : Type} [AddCommGroup V] [Module ℝ V]

/-- Spec: the covariance update of a factor whose data in this run is `data params`: the decay is 1.0 unless
`should_decay` (estimator.py 613-629). -/
noncomputable def averageUpdate (decay : ℝ) (data : Vec ι → V) :
    Vec ι → Bool → Stats.MovAvg V → Stats.MovAvg V :=
  fun params shouldDecay c => c.add (data params) (if shouldDecay then decay else 1) 1

/-- With an explicit `cov_ema_decay` the statistics after run `t` are the sum of the data of the runs that
update the covariances, where data that was `n` runs old at the last update is discounted by
`cov_ema_decay ** n`; the total weight is the sum of these discounts. -/
theorem C40_explicit_partial (cfg : Config) (p : PConfig) (precon : Precon ι (Stats.MovAvg V))
    (inputs : ℕ → PIn ι κ (Stats.MovAvg V)) (s0 : PState ι (Stats.MovAvg V)) (hb : p.numBurninSteps ≤ s0.burnin)
    (h0 : s0.opt.counter = 0) (hcov : s0.cov = Stats.MovAvg.init) (d : ℝ) (data : ℕ → Vec ι → V)
    (hd : ∀ t, (inputs t).covUpdate = averageUpdate (effectiveDecay (some d) p.covUpdateEvery) (data t)) (t : ℕ) :
    let s := ptrace cfg p precon inputs s0
    let last := t - t % p.covUpdateEvery
    let used := (Finset.range (t + 1)).filter (fun u => p.covUpdateEvery ∣ u)
    (s (t + 1)).cov.var = ∑ u ∈ used, d ^ (last - u) • data u (s u).opt.params ∧
    (s (t + 1)).cov.totalWeight = ∑ u ∈ used, d ^ (last - u) := by
  intro s last used
  have hstep : ∀ t, s (t + 1) = trainStep cfg p precon (inputs t) (s t) := fun _ => rfl
  have hc := ptrace_counter cfg p precon inputs s0 hb h0
  simp only [last, used]
  clear last used
  induction t with
  | zero =>
    have h1 := (trainStep_eq cfg p precon (inputs 0) (s 0) (hc 0).2).1
    rw [(hc 0).1, if_pos (Nat.zero_mod _), hd 0] at h1
    have hs0 : (s 0).cov = Stats.MovAvg.init := hcov
    rw [hstep, h1, hs0, Finset.range_one, Finset.filter_singleton, if_pos (dvd_zero _)]
    simp [averageUpdate, Stats.MovAvg.add, Stats.MovAvg.init]
  | succ t ih =>
    have h1 := (trainStep_eq cfg p precon (inputs (t + 1)) (s (t + 1)) (hc (t + 1)).2).1
    rw [(hc (t + 1)).1, hd] at h1
    rw [hstep (t + 1), h1, Finset.range_add_one, Finset.filter_insert]
    by_cases hm : (t + 1) % p.covUpdateEvery = 0
    · rw [if_pos hm, if_pos (Nat.dvd_iff_mod_eq_zero.2 hm), hm, Nat.sub_zero,
        Finset.sum_insert (by simp), Finset.sum_insert (by simp)]
      have hlast : t + 1 = (t - t % p.covUpdateEvery) + p.covUpdateEvery := by
        have e1 := Nat.div_add_mod t p.covUpdateEvery
        have e2 := Nat.div_add_mod (t + 1) p.covUpdateEvery
        have e3 : (t + 1) / p.covUpdateEvery = t / p.covUpdateEvery + 1 := by
          rw [Nat.succ_div, if_pos (Nat.dvd_iff_mod_eq_zero.2 hm)]
        rw [e3, hm, Nat.mul_add] at e2
        omega
      have hpow : ∀ u ∈ (Finset.range (t + 1)).filter (fun u => p.covUpdateEvery ∣ u),
          d ^ (t + 1 - u) = d ^ p.covUpdateEvery * d ^ (t - t % p.covUpdateEvery - u) := by
        intro u hu
        have hu' := Finset.mem_filter.1 hu
        have hle : u ≤ t - t % p.covUpdateEvery := by
          obtain ⟨k, rfl⟩ := hu'.2
          have e1 := Nat.div_add_mod t p.covUpdateEvery
          have hk : p.covUpdateEvery * k ≤ t := Nat.lt_succ_iff.1 (Finset.mem_range.1 hu'.1)
          rcases Nat.eq_zero_or_pos p.covUpdateEvery with hz | hpos
          · rw [hz]; simp
          · have hk2 : k ≤ t / p.covUpdateEvery := (Nat.le_div_iff_mul_le hpos).2 (by rwa [Nat.mul_comm])
            have := Nat.mul_le_mul_left p.covUpdateEvery hk2
            omega
        rw [← pow_add]
        congr 1
        omega
      constructor
      · simp only [averageUpdate, Stats.MovAvg.add, if_true, effectiveDecay, ih.1, Nat.sub_self, pow_zero, one_smul]
        rw [add_comm, Finset.smul_sum]
        congr 1
        refine Finset.sum_congr rfl fun u hu => ?_
        rw [hpow u hu, mul_smul]
      · simp only [averageUpdate, Stats.MovAvg.add, if_true, effectiveDecay, ih.2, Nat.sub_self, pow_zero]
        rw [add_comm, Finset.mul_sum]
        congr 1
        exact Finset.sum_congr rfl fun u hu => (hpow u hu).symm
    · rw [if_neg hm, if_neg (fun h => hm (Nat.dvd_iff_mod_eq_zero.1 h)), sub_mod_succ _ _ hm]
      exact ih

/-- Updates in every second run, decay 1/2 per run, data always 1: after run 2 the sum is 1 + 1/4. -/
example (precon : Precon Unit (Stats.MovAvg ℝ)) :
    (ptrace demoConfig { demoP 1 with covUpdateEvery := 2 } precon
      (fun _ => { base := demoInput, covUpdate := averageUpdate (effectiveDecay (some (1 / 2)) 2) (fun _ => 1),
                  readEarly := false })
      { opt := State.init (fun _ => 2) 1, cov := Stats.MovAvg.init, inv := none, burnin := 0 } 3).cov.var =
      5 / 4 := by
  rw [(C40_explicit_partial demoConfig { demoP 1 with covUpdateEvery := 2 } precon _ _ (Nat.zero_le _) rfl rfl
    (1 / 2) (fun _ _ => (1 : ℝ)) (fun _ => rfl) 2).1]
  simp [Finset.sum_filter, Finset.sum_range_succ]
  norm_num

/-- Without an explicit `cov_ema_decay` the default 0.95 is applied once per covariance update instead of once
per step, for every update period other than 1. -/
theorem C40_default_counterexample (k : ℕ) (hk : 1 ≤ k) :
    effectiveDecay none k = 0.95 ^ k ↔ k = 1 := by
  simp only [effectiveDecay]
  constructor
  · intro h
    by_contra hne
    have h2 : 1 < k := by omega
    have := pow_lt_pow_right_of_lt_one₀ (a := (0.95 : ℝ)) (by norm_num) (by norm_num) h2
    rw [pow_one, ← h] at this
    exact lt_irrefl _ this
  · rintro rfl; norm_num

end Decay

end Kfac.Opt
