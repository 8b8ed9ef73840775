import Verif.Keras.PropsConfig
import Verif.Opt.PropsConstruct

/-! # C127: a fixed momentum with the Keras optimizer -/

namespace Kfac.Keras

open Kfac.Opt (lower isQmodel construct Args)

theorem attachBatch_momentum {o o' : KOpt} {batch : Option (Val × Option ℕ)} (h : attachBatch o batch = .ok o') :
    o'.kwargs "momentum" = o.kwargs "momentum" ∧ o'.hyper = o.hyper := by
  cases batch with
  | none => cases h; exact ⟨rfl, rfl⟩
  | some b =>
    simp only [attachBatch, registerTrainBatch] at h
    split at h
    · cases h; exact ⟨by simp [Dict.set], rfl⟩
    · split at h
      · cases h; exact ⟨by simp [Dict.set], rfl⟩
      · cases h

/-- The momentum that the wrapped optimizer gets if the momentum type starts with qmodel. -/
theorem created_momentum (unique : String) (args : Dict) (o : KOpt) (hi : init unique args = .ok o) (v : Val)
    (ht : args "momentum_type" = some v) (hv : startsQmodel v = .ok true) (had : (args.get "adaptive").truthy = false)
    (collection vars lossFn : Val) (batch : Option (Val × Option ℕ)) (settings : Dict)
    (hc : create o collection vars lossFn batch = .ok settings) :
    settings "momentum" = some ((args "momentum").getD (.float 0.9)) ∧
      (∀ m, args "momentum" = some m → m.truthy = false) := by
  obtain ⟨K, loss, q, hm, rfl⟩ := (init_iff _ _ _).1 hi
  have hKf : ∀ k, k ∉ ["use_passed_loss", "update_damping_immediately", "invert_every", "damping_adaptation_interval"] →
      K k = startKw unique args k := by
    intro k hk
    rw [configure_ok hm.configured, configureDamping_other hk, had]; rfl
  have hKm : K "momentum" = args "momentum" := by rw [hKf _ (by decide), startKw_eq]; simp [named]
  have hKt : K "momentum_type" = some v := by rw [hKf _ (by decide), startKw_eq]; simp [named, ht]
  have hq : q = true := by
    have := hm.qmodel
    simp only [Dict.get, startConfig_eq, hKt] at this
    simp at this
    rw [hv] at this
    cases this; rfl
  subst hq
  obtain ⟨q1, hq1, hq2⟩ := configure_checks hm.configured
  rw [hKt, Option.getD_some, hv] at hq1
  cases hq1
  have hf := (hq2 rfl).2
  constructor
  · unfold create at hc
    simp only at hc
    split at hc
    · cases hc
    rename_i o1 ho1
    obtain ⟨a1, a2⟩ := attachBatch_momentum ho1
    split at hc
    · cases hc
    cases hc
    have hh : o1.hyper "momentum" = none := by
      rw [a2]
      change hypersOf (startConfig args K loss) true "momentum" = none
      rw [hypersOf, if_neg (by simp)]
    have hk : o1.kwargs "momentum" = args "momentum" := by
      rw [a1]
      simp only [Dict.set]
      rw [if_neg (by decide), moveLoss_eq, if_neg (by decide), if_neg (by decide), hKm]
    have hd : defaults "momentum" = some (.float 0.9) := by simp [defaults, Dict.lit, lookup_cons']
    have hp : ∀ d : Dict, d "momentum" = args "momentum" →
        effective ((Dict.update d o1.hyper).set "layer_collection" collection) "momentum" =
          some ((args "momentum").getD (.float 0.9)) := by
      intro d hd'
      simp only [effective, Dict.set, Dict.update, hh, hd', Option.none_or, hd]
      cases args "momentum" <;> simp
    apply hp
    split
    · simp only [Dict.set]; rw [if_neg (by decide)]; exact hk
    · exact hk
  · intro m hm'
    simpa [Dict.get, hKm, hm'] using hf

/-- Momentum type qmodel_fixedmu with the Keras optimizer: no fixed momentum besides 0 and the default 0.9 can be had;
a number other than 0 is refused, and None or nothing at all mean that the quadratic model chooses it or 0.9. -/
theorem C127_keras_counterexample (unique : String) (args : Dict) (o : KOpt) (hi : init unique args = .ok o) (t : String)
    (ht : args "momentum_type" = some (.str t)) (hq : lower t = "qmodel_fixedmu")
    (had : (args.get "adaptive").truthy = false) (collection vars lossFn : Val) (batch : Option (Val × Option ℕ))
    (settings : Dict) (hc : create o collection vars lossFn batch = .ok settings) (r : ℝ) (h0 : r ≠ 0) (h9 : r ≠ 0.9) :
    settings "momentum" ≠ some (.float r) := by
  have hv : startsQmodel (.str t) = .ok true := by simp only [startsQmodel, hq]; decide
  obtain ⟨a, b⟩ := created_momentum unique args o hi _ ht hv had collection vars lossFn batch settings hc
  intro h
  rw [a] at h
  cases hm : args "momentum" with
  | none =>
    rw [hm] at h
    simp only [Option.getD_none, Option.some.injEq, Val.float.injEq] at h
    exact h9 h.symm
  | some m =>
    rw [hm] at h
    simp only [Option.getD_some, Option.some.injEq] at h
    subst h
    have := b _ hm
    simp [Val.truthy, h0] at this

/-- Momentum type qmodel, not in adaptive mode, without a momentum: the check passes, but the wrapped optimizer gets the
default 0.9 and its constructor refuses it. -/
theorem C127_keras_qmodel_counterexample (unique : String) (args : Dict) (o : KOpt) (hi : init unique args = .ok o)
    (t : String) (ht : args "momentum_type" = some (.str t)) (hq : lower t = "qmodel")
    (had : (args.get "adaptive").truthy = false) (hm : args "momentum" = none)
    (collection vars lossFn : Val) (batch : Option (Val × Option ℕ))
    (settings : Dict) (hc : create o collection vars lossFn batch = .ok settings) :
    settings "momentum" = some (.float 0.9) ∧
    ∀ a : Args, a.momentumType = t → a.momentum = some 0.9 → ∀ x, construct a ≠ .ok x := by
  have hv : startsQmodel (.str t) = .ok true := by simp only [startsQmodel, hq]; decide
  obtain ⟨a, _⟩ := created_momentum unique args o hi _ ht hv had collection vars lossFn batch settings hc
  refine ⟨by rw [a, hm]; rfl, ?_⟩
  rintro b rfl hb ⟨t', lr⟩ hx
  obtain ⟨h1, _, _, h4, _⟩ := (Opt.C46_accepts b t' lr).1 hx
  have : t' = "qmodel" := by
    rw [← hq, lower, ← h1, String.ofList_toList]
  rw [h4 this] at hb
  cases hb

/-- `Kfac(damping=1, momentum_type='qmodel_fixedmu')` with a layer collection can be made: its fixed momentum is 0.9. -/
example : ∃ o settings, init "kfac" (Dict.lit [("damping", .float 1), ("momentum_type", .str "qmodel_fixedmu")]) = .ok o ∧
    create o (.obj 0) (.obj 1) .none none = .ok settings ∧ settings "momentum" = some (.float 0.9) := by
  have h : startsQmodel (.str "qmodel_fixedmu") = .ok true := by simp only [startsQmodel]; decide
  set args := Dict.lit [("damping", .float 1), ("momentum_type", .str "qmodel_fixedmu")] with hargs
  have ha : ∀ k, k ∉ ["damping", "momentum_type"] → args k = none := by
    intro k hk
    simp only [List.mem_cons, List.not_mem_nil, or_false, not_or] at hk
    simp [hargs, Dict.lit, lookup_cons', hk]
  have ht : args "momentum_type" = some (.str "qmodel_fixedmu") := by simp [hargs, Dict.lit, lookup_cons']
  have hk : ∀ k, k ∉ ["name", "damping", "momentum_type", "learning_rate"] → startKw "kfac" args k = none := by
    intro k hk
    simp only [List.mem_cons, List.not_mem_nil, or_false, not_or] at hk
    rw [startKw_eq, if_neg hk.1, if_neg hk.2.2.2, if_neg hk.2.1, ha k (by simp [hk])]
    simp
  have htk : startKw "kfac" args "momentum_type" = some (.str "qmodel_fixedmu") := by
    rw [startKw_eq]; simp [named, ht]
  have had : (args.get "adaptive").truthy = false := by simp [Dict.get, ha, Val.truthy]
  have hcd : configureDamping (startKw "kfac" args) = startKw "kfac" args := by
    unfold configureDamping
    rw [if_neg (by simp [Dict.get, hk, Val.truthy])]
  have hcf : configure (startKw "kfac" args) (args.get "adaptive").truthy = .ok (startKw "kfac" args) := by
    unfold configure
    rw [had]
    simp only [Bool.false_eq_true, if_false, htk, Option.getD_some, h]
    rw [if_neg, if_neg, hcd]
    · simp [Dict.get, hk, Val.truthy]
    · simp [Dict.get, startKw_eq, ha, Val.truthy]
  have hmade : Made "kfac" args (startKw "kfac" args) .none true :=
    { sentinel := by simp [Dict.get, ha, Val.truthy]
      damping := by simp [Dict.get, hargs, Dict.lit]
      clipvalue := ha _ (by decide)
      clipnorm := ha _ (by decide)
      configured := hcf
      serialized := by simp [Dict.get, ha, serializeLoss, Val.truthy]
      qmodel := by simp [Dict.get, startConfig_eq, htk, h] }
  have hi := (init_iff "kfac" args _).2 ⟨_, _, _, hmade, rfl⟩
  have hcreate : ∃ settings, create ⟨moveLoss (startKw "kfac" args), startConfig args (startKw "kfac" args) .none,
      hypersOf (startConfig args (startKw "kfac" args) .none) true⟩ (.obj 0) (.obj 1) .none none = .ok settings := by
    have : ((startConfig args (startKw "kfac" args) .none).get "adapt_damping").truthy = false := by
      simp [Dict.get, startConfig_eq, hk, defaults, Dict.lit, lookup_cons', Val.truthy]
    simp only [create, attachBatch, this]
    exact ⟨_, rfl⟩
  obtain ⟨settings, hs⟩ := hcreate
  refine ⟨_, settings, hi, hs, ?_⟩
  rw [(created_momentum "kfac" args _ hi _ ht h had _ _ _ _ _ hs).1, ha "momentum" (by decide)]
  rfl

end Kfac.Keras
