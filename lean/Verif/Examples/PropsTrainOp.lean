import Verif.Examples.TrainOp
import Verif.Opt.PropsConstruct

/-! # C124: the optimizers of the examples -/

namespace Kfac.Examples.TrainOp

open Kfac.Opt

variable {B L : Type}

/-- Specification: the documented values of `--lrmu_adaptation` with the momentum type, learning rate and momentum they stand
for. -/
inductive Documented (f : Flags) : String → ℝ → Option ℝ → Prop
  | on : f.lrmuAdaptation = "on" → Documented f "qmodel" 1 none
  | onlyLr : f.lrmuAdaptation = "only_lr" → Documented f "qmodel_fixedmu" 1 (some f.momentum)
  | off : f.lrmuAdaptation = "off" → Documented f "adam" f.learningRate (some f.momentum)

/-- Specification: the losses that the damping adaptation needs, none without adaptation, otherwise one: that of the current
batch if the damping is adapted immediately, and that of the previous batch if not. -/
def Needed (f : Flags) (now before losses : List L) : Prop :=
  (f.adaptDamping = false → losses = []) ∧
  (f.adaptDamping = true → f.updateDampingImmediately = true → losses = now) ∧
  (f.adaptDamping = true → f.updateDampingImmediately = false → losses = before)

private theorem validate (f : Flags) (tb : Bool) (t : String) (lr : ℝ) (m : Option ℝ) :
    ((lrmu f).bind fun p => (construct ⟨p.2.2, p.2.1, none, p.1, none, true, tb⟩).map fun q => (q.1, q.2, p.2.1)) =
      .ok (t, lr, m) ↔ Documented f t lr m := by
  have hq : construct ⟨"qmodel", none, none, none, none, true, tb⟩ = .ok ("qmodel", 1) := by
    rw [C46_accepts]
    have h : "qmodel".toList = "qmodel".toList.map Char.toLower := by decide
    refine ⟨h, .inl (.inl rfl), by simp, by simp, by simp, by simp, ?_⟩
    rintro (h | h) <;> exact absurd h (by decide)
  have hf : construct ⟨"qmodel_fixedmu", some f.momentum, none, none, none, true, tb⟩ = .ok ("qmodel_fixedmu", 1) := by
    rw [C46_accepts]
    have h : "qmodel_fixedmu".toList = "qmodel_fixedmu".toList.map Char.toLower := by decide
    refine ⟨h, .inl (.inr rfl), by simp, by simp, by simp, by simp, ?_⟩
    rintro (h | h) <;> exact absurd h (by decide)
  have ha : construct ⟨"adam", some f.momentum, none, some f.learningRate, none, true, tb⟩ = .ok ("adam", f.learningRate) := by
    rw [C46_accepts]
    have h : "adam".toList = "adam".toList.map Char.toLower := by decide
    refine ⟨h, .inr (.inr rfl), by simp, by simp, by simp, ?_, by simp⟩
    rintro (h | h) <;> exact absurd h (by decide)
  unfold lrmu
  constructor
  · split_ifs with h1 h2 h3
    · simp only [Except.bind, hq, Except.map, Except.ok.injEq, Prod.mk.injEq]
      rintro ⟨rfl, rfl, rfl⟩
      exact .on h1
    · simp only [Except.bind, hf, Except.map, Except.ok.injEq, Prod.mk.injEq]
      rintro ⟨rfl, rfl, rfl⟩
      exact .onlyLr h2
    · simp only [Except.bind, ha, Except.map, Except.ok.injEq, Prod.mk.injEq]
      rintro ⟨rfl, rfl, rfl⟩
      exact .off h3
    · simp [Except.bind]
  · rintro (h | h | h)
    · simp [h, Except.bind, hq, Except.map]
    · simp [h, Except.bind, hf, Except.map]
    · simp [h, Except.bind, ha, Except.map]

private theorem unfoldKfac (f : Flags) (hk : f.optimizer = "kfac") (lossFn : Option B → Except String L)
    (minibatch prev : Option B) :
    makeTrainOp f lossFn minibatch prev =
      (((lrmu f).bind fun p => (construct ⟨p.2.2, p.2.1, none, p.1, none, true, minibatch.isSome⟩).map
        fun q => (q.1, q.2, p.2.1)).bind fun r =>
        (Adaptation.losses ⟨f.adaptDamping, f.updateDampingImmediately, true, true, minibatch, prev, lossFn⟩).bind
          fun ls => .ok ⟨"kfac", r.1, r.2.1, r.2.2, if f.adaptDamping then f.initialDamping else f.damping, ls⟩) := by
  unfold makeTrainOp
  rw [if_pos hk]
  cases lrmu f with
  | error e => rfl
  | ok p =>
    obtain ⟨a, b, c⟩ := p
    simp only [Bind.bind, Except.bind, Pure.pure, Except.pure]
    cases construct ⟨c, b, none, a, none, true, minibatch.isSome⟩ <;> rfl

/-- The command line examples with K-FAC: the optimizer is built exactly for the three documented values of
`--lrmu_adaptation`, with the documented momentum type, learning rate and momentum, the damping of the documented flag, and the
loss that the damping adaptation needs evaluated on the right batch. -/
theorem C124_kfac (f : Flags) (hk : f.optimizer = "kfac") (loss : B → L) (now before : B) (r : Built L) :
    makeTrainOp f (onBatch loss) (some now) (some before) = .ok r ↔
      r.optimizer = "kfac" ∧ Documented f r.momentumType r.learningRate r.momentum ∧
      (f.adaptDamping = true → r.damping = f.initialDamping) ∧ (f.adaptDamping = false → r.damping = f.damping) ∧
      Needed f [loss now] [loss before] r.losses := by
  rw [unfoldKfac f hk]
  obtain ⟨o, t, lr, m, d, ls⟩ := r
  have hv := validate f (some now).isSome
  generalize ((lrmu f).bind fun p => (construct ⟨p.2.2, p.2.1, none, p.1, none, true, (some now).isSome⟩).map
        fun q => (q.1, q.2, p.2.1)) = V at hv
  cases V with
  | error e =>
    have : ¬ Documented f t lr m := fun h => by cases (hv t lr m).2 h
    simp [Except.bind, this]
  | ok p =>
    obtain ⟨t', lr', m'⟩ := p
    have h1 : Documented f t lr m ↔ (t' = t ∧ lr' = lr ∧ m' = m) := by
      rw [← hv t lr m]
      simp
    rw [h1]
    cases ha : f.adaptDamping <;> cases hi : f.updateDampingImmediately <;>
      simp [Adaptation.losses, Adaptation.currentLoss, onBatch, Needed, ha, hi, Except.bind, Except.map, Pure.pure,
        Except.pure, Bind.bind] <;> grind

/-- With `--optimizer=adam` the settings are mapped to those of Adam and no loss is evaluated; any other name fails. -/
theorem C124_others (f : Flags) (hk : f.optimizer ≠ "kfac") (lossFn : Option B → Except String L)
    (minibatch prev : Option B) (r : Built L) :
    makeTrainOp f lossFn minibatch prev = .ok r ↔
      f.optimizer = "adam" ∧ r.optimizer = "adam" ∧ r.momentumType = "adam" ∧ r.learningRate = f.learningRate ∧
      r.momentum = some f.momentum ∧ r.damping = f.damping ∧ r.losses = [] := by
  unfold makeTrainOp
  rw [if_neg hk]
  obtain ⟨o, t, lr, m, d, ls⟩ := r
  split_ifs with h
  · simp only [Pure.pure, Except.pure, Except.ok.injEq, Built.mk.injEq]
    grind
  · simp [h]

/-- The TPU examples do the same as the command line examples, unless the damping is adapted and not immediately. -/
theorem C124_tpu_partial (f : Flags) (h : f.adaptDamping = true → f.updateDampingImmediately = true) (loss : B → L)
    (now before : B) :
    tpuMakeTrainOp f (onBatch loss) now = makeTrainOp f (onBatch loss) (some now) (some before) := by
  unfold tpuMakeTrainOp makeTrainOp
  cases ha : f.adaptDamping <;> cases hi : f.updateDampingImmediately <;>
    simp_all [Adaptation.losses, Adaptation.currentLoss]

/-- In that case they always fail: the loss is asked for a batch that is None. -/
theorem C124_tpu_counterexample (f : Flags) (hk : f.optimizer = "kfac") (ha : f.adaptDamping = true)
    (hi : f.updateDampingImmediately = false) (loss : B → L) (now : B) :
    (∀ r, tpuMakeTrainOp f (onBatch loss) now ≠ .ok r) ∧
      (f.lrmuAdaptation = "on" →
        ∀ before, ∃ r, makeTrainOp f (onBatch loss) (some now) (some before) = .ok r ∧ r.losses = [loss before]) := by
  constructor
  · intro r
    unfold tpuMakeTrainOp
    rw [unfoldKfac f hk]
    generalize ((lrmu f).bind fun p => (construct ⟨p.2.2, p.2.1, none, p.1, none, true, (some now).isSome⟩).map
        fun q => (q.1, q.2, p.2.1)) = V
    cases V <;>
      simp [Except.bind, Adaptation.losses, Adaptation.currentLoss, onBatch, ha, hi, Except.map, Bind.bind]
  · intro hon before
    refine ⟨⟨"kfac", "qmodel", 1, none, f.initialDamping, [loss before]⟩, ?_, rfl⟩
    rw [C124_kfac f hk]
    exact ⟨rfl, .on hon, fun _ => rfl, by simp [ha], by simp [ha], by simp [hi], fun _ _ => rfl⟩

/-- `rnn_mnist.py` never gets a train op: its arguments pass the checks of the constructor for the documented values of
`--lrmu_adaptation`, but the damping is adapted immediately and `train_batch` is None, so the loss is asked for a batch that is
None. With the current batch given, `loss now` would be built. -/
theorem C124_rnn_counterexample (f : Flags) (loss : B → L) (now before : B) :
    (∀ r, rnnMakeTrainOp f (onBatch loss) before ≠ .ok r) ∧
    (∀ t lr m, Documented f t lr m →
      rnnMakeTrainOp f (onBatch loss) before = .error "TypeError: 'NoneType' object is not subscriptable") ∧
    (Adaptation.losses ⟨true, true, true, true, some now, some before, onBatch loss⟩ = .ok [loss now]) := by
  have hl : Adaptation.losses ⟨true, true, true, true, none, some before, onBatch loss⟩ =
      .error "TypeError: 'NoneType' object is not subscriptable" := rfl
  have hu : rnnMakeTrainOp f (onBatch loss) before =
      (((lrmu f).bind fun p => (construct ⟨p.2.2, p.2.1, none, p.1, none, true, false⟩).map
        fun q => (q.1, q.2, p.2.1)).bind fun _ => .error "TypeError: 'NoneType' object is not subscriptable") := by
    unfold rnnMakeTrainOp
    cases lrmu f with
    | error e => rfl
    | ok p =>
      obtain ⟨a, b, c⟩ := p
      simp only [Bind.bind, Except.bind]
      cases construct ⟨c, b, none, a, none, true, false⟩ <;> rfl
  refine ⟨fun r => ?_, fun t lr m h => ?_, rfl⟩
  · rw [hu]
    generalize ((lrmu f).bind fun p => (construct ⟨p.2.2, p.2.1, none, p.1, none, true, false⟩).map
        fun q => (q.1, q.2, p.2.1)) = V
    cases V <;> simp [Except.bind]
  · rw [hu, (validate f false t lr m).2 h]
    rfl

/-- The flags with their defaults in autoencoder_mnist.py: momentum type 'qmodel', damping 150, the loss of the current batch. -/
example : ∃ r, makeTrainOp ⟨"kfac", "on", 3e-3, 0.9, 1e-2, 150, true, true⟩ (onBatch fun b : ℕ => b) (some 7) (some 6) =
    .ok r ∧ r.momentumType = "qmodel" ∧ r.damping = 150 ∧ r.losses = [7] := by
  refine ⟨⟨"kfac", "qmodel", 1, none, 150, [7]⟩, ?_, rfl, rfl, rfl⟩
  rw [C124_kfac _ rfl]
  exact ⟨rfl, .on rfl, fun _ => rfl, by simp, by simp, fun _ _ => rfl, by simp⟩

end Kfac.Examples.TrainOp
