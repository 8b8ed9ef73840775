import Verif.Global.Model
import Verif.Train.Lemmas

/-! # C99: the global constants -/

namespace Kfac.Global

open Kfac.Stats Kfac.Train

/-- The last value given, or the default. -/
def latest {α : Type} (default : α) : List (Option α) → α
  | [] => default
  | x :: xs => latest (x.getD default) xs

/-- The arguments a call passes to `set_global_constants` of fisher_factors.py. -/
def Call.factorArgs {R : Type} (sanitize : String → String) : Call R → FactorArgs
  | .factors a => a
  | .construct r s => if r ≠ none ∨ s = true then { getSanitizedNameFn := some sanitize } else {}
  | _ => {}

/-- The replicator a call passes. -/
def Call.replicator {R : Type} : Call R → Option R
  | .utils _ r => r
  | .construct r _ => r
  | _ => none

theorem assign_eq {α : Type} (x : Option α) (old : α) : assign x old = x.getD old := by cases x <;> rfl

theorem latest_run {S C α : Type} (step : S → C → S) (f : S → α) (g : C → Option α)
    (h : ∀ s c, f (step s c) = (g c).getD (f s)) (s : S) (cs : List C) :
    f (cs.foldl step s) = latest (f s) (cs.map g) := by
  induction cs generalizing s with
  | nil => rfl
  | cons c cs ih => rw [List.foldl_cons, ih, h]; rfl

theorem factors_call {R α : Type} (sanitize : String → String) (f : FactorGlobals → α) (g : FactorArgs → Option α)
    (h : ∀ s a, f (s.set a) = (g a).getD (f s)) (h0 : g {} = none) (m : Modules R) (c : Call R) :
    f (m.call sanitize c).factors = (g (c.factorArgs sanitize)).getD (f m.factors) := by
  cases c with
  | factors a => exact h _ _
  | blocks p t => simp [Modules.call, Call.factorArgs, h0]
  | optimizer i => simp [Modules.call, Call.factorArgs, h0]
  | utils p r => simp [Modules.call, Call.factorArgs, h0]
  | construct r s =>
    cases r <;> cases s <;> simp [Modules.call, Call.factorArgs, h0, h]

theorem factors_program {R α : Type} (sanitize : String → String) (f : FactorGlobals → α) (g : FactorArgs → Option α)
    (h : ∀ s a, f (s.set a) = (g a).getD (f s)) (h0 : g {} = none) (calls : List (Call R)) :
    f (program sanitize calls).factors = latest (f {}) (calls.map fun c => g (c.factorArgs sanitize)) :=
  latest_run (Modules.call sanitize) (fun m : Modules R => f m.factors) (fun c => g (c.factorArgs sanitize))
    (factors_call sanitize f g h h0) imported calls

/-- C99: every constant of fisher_factors.py has the value given last, or the documented default. -/
theorem C99_factor_constants {R : Type} (sanitize : String → String) (calls : List (Call R)) :
    let g := (program sanitize calls).factors
    let given {α : Type} (default : α) (arg : FactorArgs → Option α) :=
      latest default (calls.map fun c => arg (c.factorArgs sanitize))
    g.initCovariancesAtZero = given true (·.initCovariancesAtZero) ∧
    g.zeroDebias = given true (·.zeroDebias) ∧
    g.initInversesAtZero = given true (·.initInversesAtZero) ∧
    g.eigenvalueDecompositionThreshold = given 4 (·.eigenvalueDecompositionThreshold) ∧
    g.eigenvalueClippingThreshold = given 0 (·.eigenvalueClippingThreshold) ∧
    g.assumeZeroMeanActivations = given false (·.assumeZeroMeanActivations) ∧
    g.subtractMeanContribFromCov = given true (·.subtractMeanContribFromCov) ∧
    g.subSampleInputs = given false (·.subSampleInputs) ∧
    g.inputsToExtractPatchesFactor = given (1 / 5) (·.inputsToExtractPatchesFactor) ∧
    g.subSamplePatches = given false (·.subSamplePatches) ∧
    g.maxNumPatches = given (10 ^ 7) (·.maxNumPatches) ∧
    g.maxNumPatchesPerDimension = given 3 (·.maxNumPatchesPerDimension) ∧
    g.towerStrategy = given "separate" (·.towerStrategy) ∧
    g.getSanitizedNameFn = given id (·.getSanitizedNameFn) ∧
    g.usePatchesSecondMomentOp = given false (·.usePatchesSecondMomentOp) := by
  intro g given
  refine ⟨?_, ?_, ?_, ?_, ?_, ?_, ?_, ?_, ?_, ?_, ?_, ?_, ?_, ?_, ?_⟩ <;>
    exact factors_program sanitize _ _ (fun s a => assign_eq _ _) rfl calls

/-- C99: so do the constants of the other modules. -/
theorem C99_other_constants {R : Type} (sanitize : String → String) (calls : List (Call R)) :
    let m := program sanitize calls
    m.normalizeDampingPower = latest 1 (calls.map fun c => match c with | .blocks p _ => p | _ => none) ∧
    m.piType = latest "tracenorm" (calls.map fun c => match c with | .blocks _ t => t | _ => none) ∧
    m.includeDampingInQmodelChange = latest false (calls.map fun c => match c with | .optimizer i => i | _ => none) ∧
    m.posdefInvMethod = latest "cholesky" (calls.map fun c => match c with | .utils p _ => p | _ => none) ∧
    m.tfReplicator = latest none (calls.map fun c => c.replicator.map some) := by
  intro m
  refine ⟨?_, ?_, ?_, ?_, ?_⟩
  · refine latest_run (Modules.call sanitize) (fun m : Modules R => m.normalizeDampingPower) _ (fun s c => ?_) imported calls
    cases c with
    | construct r s => cases r <;> cases s <;> simp [Modules.call]
    | _ => simp [Modules.call, assign_eq]
  · refine latest_run (Modules.call sanitize) (fun m : Modules R => m.piType) _ (fun s c => ?_) imported calls
    cases c with
    | construct r s => cases r <;> cases s <;> simp [Modules.call]
    | _ => simp [Modules.call, assign_eq]
  · refine latest_run (Modules.call sanitize) (fun m : Modules R => m.includeDampingInQmodelChange) _ (fun s c => ?_)
      imported calls
    cases c with
    | construct r s => cases r <;> cases s <;> simp [Modules.call]
    | _ => simp [Modules.call, assign_eq]
  · refine latest_run (Modules.call sanitize) (fun m : Modules R => m.posdefInvMethod) _ (fun s c => ?_) imported calls
    cases c with
    | construct r s => cases r <;> cases s <;> simp [Modules.call]
    | _ => simp [Modules.call, assign_eq]
  · refine latest_run (Modules.call sanitize) (fun m : Modules R => m.tfReplicator) _ (fun s c => ?_) imported calls
    cases c with
    | construct r s => cases r <;> cases s <;> simp [Modules.call, Call.replicator, assign_eq]
    | _ => simp [Modules.call, Call.replicator, assign_eq]

theorem initializers_call {R : Type} (sanitize : String → String) (m : Modules R) (c : Call R) :
    (m.call sanitize c).inverseInitializer = m.inverseInitializer ∧
    (m.call sanitize c).covarianceInitializer = m.covarianceInitializer ∧
    (m.call sanitize c).diagonalCovarianceInitializer = m.diagonalCovarianceInitializer := by
  cases c with
  | construct r s => cases r <;> cases s <;> simp [Modules.call]
  | _ => simp [Modules.call]

theorem initializers_program {R : Type} (sanitize : String → String) (calls : List (Call R)) :
    (program sanitize calls).inverseInitializer = .zeros ∧ (program sanitize calls).covarianceInitializer = .zeros ∧
    (program sanitize calls).diagonalCovarianceInitializer = .zeros := by
  have : ∀ m : Modules R, m.inverseInitializer = .zeros ∧ m.covarianceInitializer = .zeros ∧
      m.diagonalCovarianceInitializer = .zeros →
      (calls.foldl (Modules.call sanitize) m).inverseInitializer = .zeros ∧
      (calls.foldl (Modules.call sanitize) m).covarianceInitializer = .zeros ∧
      (calls.foldl (Modules.call sanitize) m).diagonalCovarianceInitializer = .zeros := by
    induction calls with
    | nil => exact fun m h => h
    | cons c cs ih =>
      intro m h
      refine ih _ ?_
      obtain ⟨h1, h2, h3⟩ := initializers_call sanitize m c
      rw [h1, h2, h3]; exact h
  exact this imported ⟨rfl, rfl, rfl⟩

/-- C99 (partial): the variables of new factors start as the flags say, unless `init_covariances_at_zero` or
`init_inverses_at_zero` was set to False (missing: those, see `C99_initial_counterexample`). -/
theorem C99_initial_partial {R : Type} (sanitize : String → String) (calls : List (Call R)) (n : ℕ) :
    let m := program sanitize calls
    (m.factors.initCovariancesAtZero = true → (m.newDense n).avg.var = 0 ∧ (m.newDiag n).1.var = 0) ∧
    (m.factors.initInversesAtZero = true → (m.newDense n).inverse = 0) := by
  obtain ⟨h1, h2, h3⟩ := initializers_program sanitize calls
  refine ⟨fun _ => ⟨?_, ?_⟩, fun _ => ?_⟩
  · simp [Modules.newDense, h2, Initializer.matrix]
  · simp [Modules.newDiag, h3, Initializer.vector]
  · simp [Modules.newDense, h1, Initializer.matrix]

/-- C99: the flags `init_covariances_at_zero` and `init_inverses_at_zero` have no effect: whatever the program calls, when
the flags are False a new covariance or inverse of positive dimension does not start at the identity (or at ones). -/
theorem C99_initial_counterexample {R : Type} (sanitize : String → String) (calls : List (Call R)) (n : ℕ) (hn : 0 < n) :
    let m := program sanitize (calls ++ [.factors { initCovariancesAtZero := some false, initInversesAtZero := some false }])
    m.factors.initCovariancesAtZero = false ∧ m.factors.initInversesAtZero = false ∧
    (m.newDense n).avg.var ≠ 1 ∧ (m.newDense n).inverse ≠ 1 ∧ (m.newDiag n).1.var ≠ fun _ => 1 := by
  intro m
  obtain ⟨h1, h2, h3⟩ := initializers_program sanitize
    (calls ++ [.factors { initCovariancesAtZero := some false, initInversesAtZero := some false }])
  have hz : (0 : Matrix (Fin n) (Fin n) ℝ) ≠ 1 := fun h => by
    have := congrFun (congrFun h ⟨0, hn⟩) ⟨0, hn⟩
    simp at this
  refine ⟨?_, ?_, ?_, ?_, ?_⟩
  · simp [m, program, Modules.call, FactorGlobals.set, assign]
  · simp [m, program, Modules.call, FactorGlobals.set, assign]
  · simpa [m, Modules.newDense, h2, Initializer.matrix] using hz
  · simpa [m, Modules.newDense, h1, Initializer.matrix] using hz
  · simp only [m, Modules.newDiag, h3, Initializer.vector]
    intro h
    have := congrFun h ⟨0, hn⟩
    simp at this

/-- The weight of the `i`-th of the updates: the product of the later decays. -/
def later {n : ℕ} : List (Matrix (Fin n) (Fin n) ℝ × ℝ) → ℝ
  | [] => 1
  | u :: us => u.2 * later us

/-- The weighted sum of the values, and the sum of the weights. -/
def weighted {n : ℕ} : List (Matrix (Fin n) (Fin n) ℝ × ℝ) → Matrix (Fin n) (Fin n) ℝ × ℝ
  | [] => (0, 0)
  | u :: us => (later us • u.1 + (weighted us).1, later us + (weighted us).2)

/-- The covariance updates among the events. -/
def updates {R : Type} {n : ℕ} (events : List (Event R n)) : List (Matrix (Fin n) (Fin n) ℝ × ℝ) :=
  events.filterMap fun e => match e with | .cov v d => some (v, d) | .call _ => none

theorem events_run {R : Type} {n : ℕ} (sanitize : String → String) (events : List (Event R n)) (m : Modules R)
    (s : DenseVars n) :
    let s' := (events.foldl (Event.run sanitize) (m, s)).2
    s'.avg.var = later (updates events) • s.avg.var + (weighted (updates events)).1 ∧
    s'.avg.totalWeight = later (updates events) * s.avg.totalWeight + (weighted (updates events)).2 ∧
    s'.normalize = s.normalize ∧ s'.inverse = s.inverse := by
  induction events generalizing m s with
  | nil => simp [updates, later, weighted]
  | cons e es ih =>
    cases e with
    | call c => exact ih _ _
    | cov v d =>
      obtain ⟨h1, h2, h3, h4⟩ := ih m { s with avg := s.avg.add v d 1 }
      refine ⟨?_, ?_, h3, h4⟩
      · refine h1.trans ?_
        simp only [MovAvg.add, updates, List.filterMap_cons, later, weighted]
        module
      · refine h2.trans ?_
        simp only [MovAvg.add, updates, List.filterMap_cons, later, weighted]
        ring

/-- C99: `zero_debias` counts as it is when a factor's variables are created; later calls change nothing. With it the
covariance is the weighted mean of the estimates, without it the weighted sum. -/
theorem C99_zero_debias {R : Type} (sanitize : String → String) (calls : List (Call R)) {n : ℕ} (events : List (Event R n)) :
    let m := program sanitize calls
    let s := (events.foldl (Event.run sanitize) (m, m.newDense n)).2
    let w := weighted (updates events)
    s.avg.value s.normalize =
      if latest true (calls.map fun c => (c.factorArgs sanitize).zeroDebias) = true then
        if w.2 = 0 then none else some (w.2⁻¹ • w.1)
      else some w.1 := by
  intro m s w
  obtain ⟨h1, h2, h3, -⟩ := events_run sanitize events m (m.newDense n)
  obtain ⟨-, hc, -⟩ := initializers_program sanitize calls
  have hv : (m.newDense n).avg.var = 0 := by simp [m, Modules.newDense, hc, Initializer.matrix]
  have hw : (m.newDense n).avg.totalWeight = 0 := rfl
  have hz : (m.newDense n).normalize = latest true (calls.map fun c => (c.factorArgs sanitize).zeroDebias) :=
    (C99_factor_constants sanitize calls).2.1
  have e1 : s.avg.var = w.1 := by rw [h1, hv]; simp [w]
  have e2 : s.avg.totalWeight = w.2 := by rw [h2, hw]; simp [w]
  have e3 : s.normalize = latest true (calls.map fun c => (c.factorArgs sanitize).zeroDebias) := h3.trans hz
  simp only [MovAvg.value, e1, e2, e3]

/-- C99: so also for diagonal factors: the average after any updates is the weighted sum of the new values, divided by the sum of
the weights unless `zero_debias` was last given as False when the variables were made. -/
theorem C99_zero_debias_diagonal {R : Type} (sanitize : String → String) (calls : List (Call R)) {n : ℕ}
    (us : List ((Fin n → ℝ) × ℝ)) :
    let d := (program sanitize calls).newDiag n
    let w : List ((Fin n → ℝ) × ℝ) → (Fin n → ℝ) × ℝ := fun us => us.foldl (fun s u => (u.2 • s.1 + u.1, u.2 * s.2 + 1)) (0, 0)
    (us.foldl (fun s u => s.add u.1 u.2 1) d.1).value d.2 =
      if latest true (calls.map fun c => (c.factorArgs sanitize).zeroDebias) = true then
        if (w us).2 = 0 then none else some ((w us).2⁻¹ • (w us).1)
      else some (w us).1 := by
  intro d w
  obtain ⟨-, -, hc⟩ := initializers_program sanitize calls
  have hz : d.2 = latest true (calls.map fun c => (c.factorArgs sanitize).zeroDebias) := (C99_factor_constants sanitize calls).2.1
  have key : ∀ (us : List ((Fin n → ℝ) × ℝ)) (s : MovAvg (Fin n → ℝ)),
      us.foldl (fun s u => s.add u.1 u.2 1) s =
        ⟨(us.foldl (fun s u => (u.2 • s.1 + u.1, u.2 * s.2 + 1)) (s.var, s.totalWeight)).1,
          (us.foldl (fun s u => (u.2 • s.1 + u.1, u.2 * s.2 + 1)) (s.var, s.totalWeight)).2⟩ := by
    intro us
    induction us with
    | nil => exact fun s => rfl
    | cons u us ih =>
      intro s
      rw [List.foldl_cons, ih]
      simp only [MovAvg.add, one_smul, List.foldl_cons]
  have hd : d.1 = ⟨0, 0⟩ := by simp [d, Modules.newDiag, hc, Initializer.vector]
  rw [key us d.1, hz, hd]
  simp only [MovAvg.value, w]

/-- All layers have outputs. -/
def Arch.Proper {n o : ℕ} : Arch n o → Prop
  | .nil => True
  | .cons (q := q) _ _ _ rest => q ≠ 0 ∧ rest.Proper

theorem newNet_safe {R : Type} (m : Modules R) (hm : m.inverseInitializer = .zeros) {N n o : ℕ} (a : Arch n o) (ha : a.Proper)
    (x : Fin N → Fin n → ℝ) (loss : Fin N → (Fin o → ℝ) → ℝ) :
    (m.newNet a).sqNorm x loss = .ok 0 ∧ ∀ lr momentum coeff, (m.newNet a).update lr momentum coeff x loss = .ok (m.newNet a) := by
  induction a with
  | nil => exact ⟨rfl, fun _ _ _ => rfl⟩
  | cons bias w φ rest ih =>
    rename_i n q k o
    obtain ⟨h1, h2⟩ := ih ha.2 (fun i => φ (affine bias w (x i))) loss
    have hp : ∀ g, (m.newLayer w).precondition bias g = .ok 0 := fun g => by
      rw [precondition_eq ha.1]
      simp [Modules.newLayer, Modules.newDense, hm, Initializer.matrix]
      rfl
    refine ⟨?_, fun lr momentum coeff => ?_⟩
    · simp only [Modules.newNet, Net.sqNorm, hp, bind, Except.bind]
      rw [show (m.newLayer w).weights = w from rfl, h1]
      simp [pure, Except.pure]
    · simp only [Modules.newNet, Net.update, hp, bind, Except.bind]
      rw [show (m.newLayer w).weights = w from rfl, h2]
      simp [pure, Except.pure, Modules.newLayer]

/-- C99: whatever constants were set, training steps before the first inverse update do not move the parameters (the stored
inverses are zero). -/
theorem C99_safeguard {R : Type} (sanitize : String → String) (calls : List (Call R)) {n o : ℕ} (a : Arch n o)
    (ha : a.Proper) (cfg : Config) (ops : List (Op n o))
    (hops : ∀ op ∈ ops, ∃ (N : ℕ) (x : Fin N → Fin n → ℝ) (loss : Fin N → (Fin o → ℝ) → ℝ), op = .train x loss) :
    ((program sanitize calls).newNet a).run cfg ops = .ok ((program sanitize calls).newNet a) := by
  obtain ⟨hm, -, -⟩ := initializers_program sanitize calls
  induction ops with
  | nil => rfl
  | cons op ops ih =>
    obtain ⟨N, x, loss, rfl⟩ := hops op (by simp)
    obtain ⟨h1, h2⟩ := newNet_safe (program sanitize calls) hm a ha x loss
    have : ((program sanitize calls).newNet a).step cfg (.train x loss) = .ok ((program sanitize calls).newNet a) := by
      simp only [Net.step, Net.trainStep, h1, bind, Except.bind, h2]
    simp only [Net.run, this, Except.bind]
    exact ih fun op h => hops op (by simp [h])

/-- C99 (partial): an optimizer uses the replicator it was given, if it was given one (missing: an optimizer without one, see
`C99_replicator_counterexample`). -/
theorem C99_replicator_partial {R : Type} (sanitize : String → String) (calls : List (Call R)) (r : R) (strategy : Bool) :
    (program sanitize (calls ++ [.construct (some r) strategy])).tfReplicator = some r := by
  simp [program, Modules.call, assign]

/-- C99: once any optimizer has been given a replicator, no optimizer constructed later without one is free of it, whatever
else the program calls. -/
theorem C99_replicator_counterexample {R : Type} (sanitize : String → String) (calls rest : List (Call R)) (r : R)
    (strategy strategy' : Bool) :
    (program sanitize (calls ++ .construct (some r) strategy :: rest ++ [.construct none strategy'])).tfReplicator ≠ none := by
  have hkeep : ∀ (cs : List (Call R)) (m : Modules R), m.tfReplicator ≠ none →
      (cs.foldl (Modules.call sanitize) m).tfReplicator ≠ none := by
    intro cs
    induction cs with
    | nil => exact fun m h => h
    | cons c cs ih =>
      intro m h
      refine ih _ ?_
      cases c with
      | construct r s => cases r <;> cases s <;> simp [Modules.call, assign, h]
      | utils p r => cases r <;> simp [Modules.call, assign, h]
      | _ => simpa [Modules.call] using h
  rw [program, List.append_assoc, List.foldl_append, List.cons_append, List.foldl_cons]
  exact hkeep _ _ (by simp [Modules.call, assign])

/-- The hypotheses of `C99_safeguard` are met: a layer of two inputs and two outputs after `zero_debias=False` and an
ineffective `init_inverses_at_zero=False`. -/
example (sanitize : String → String) (cfg : Config) (x : Fin 3 → Fin 2 → ℝ) (loss : Fin 3 → (Fin 2 → ℝ) → ℝ) :
    let m : Modules Unit := program sanitize [.factors { zeroDebias := some false }, .factors { initInversesAtZero := some false }]
    let a : Arch 2 2 := .cons true (fun i j => i.val + j.val) (fun s => s) .nil
    m.factors.zeroDebias = false ∧ (m.newNet a).run cfg [.train x loss, .train x loss] = .ok (m.newNet a) :=
  by
    intro m a
    refine ⟨(C99_factor_constants sanitize _).2.1.trans rfl, C99_safeguard sanitize _ a ⟨by decide, trivial⟩ cfg _ fun op h => ?_⟩
    simp only [List.mem_cons, List.not_mem_nil, or_false, or_self] at h
    exact ⟨3, x, loss, h⟩

end Kfac.Global
