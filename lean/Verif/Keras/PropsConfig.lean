import Verif.Keras.Config
import Mathlib.Tactic.NormNum
import Mathlib.Tactic.Linarith

/-! # C57, C58: keyword arguments of the Keras optimizer -/

namespace Kfac.Keras

open Kfac.Opt (lower isQmodel)

/-! ### C57 -/

/-- The documented values of missing keywords (optimizers.py 60-68), in adaptive mode and with adaptive damping. -/
def documentedDefault (adaptive damping : Bool) (k : String) : Option Val :=
  if adaptive && k = "adapt_damping" then some (.bool true)
  else if adaptive && k = "momentum" then some .none
  else if adaptive && k = "momentum_type" then some (.str "qmodel")
  else if damping && k = "use_passed_loss" then some (.bool true)
  else if damping && k = "update_damping_immediately" then some (.bool true)
  else if damping && k = "damping_adaptation_interval" then some (.int 5)
  else if damping && k = "invert_every" then some (.int 5)
  else none

theorem lookup_cons' (a : String) (b : Val) (l : List (String × Val)) (k : String) :
    ((a, b) :: l).lookup k = if k = a then some b else l.lookup k := by
  rw [List.lookup_cons]
  by_cases h : k = a
  · subst h; simp
  · rw [if_neg h]
    have : (k == a) = false := by simpa using h
    rw [this]

theorem adaptiveKwargs_eq (k : String) : adaptiveKwargs k =
    if k = "adapt_damping" then some (.bool true) else if k = "momentum" then some .none
    else if k = "momentum_type" then some (.str "qmodel") else none := by
  simp only [adaptiveKwargs, Dict.lit, lookup_cons', List.lookup_nil]

theorem dampingKwargs_eq (k : String) : dampingKwargs k =
    if k = "use_passed_loss" then some (.bool true)
    else if k = "update_damping_immediately" then some (.bool true) else none := by
  simp only [dampingKwargs, Dict.lit, lookup_cons', List.lookup_nil]

theorem configure_ok {kw kw' : Dict} {adaptive : Bool} (h : configure kw adaptive = .ok kw') :
    kw' = configureDamping (if adaptive then kw.update adaptiveKwargs else kw) := by
  unfold configure at h
  generalize (if adaptive then kw.update adaptiveKwargs else kw) = kw1 at h ⊢
  simp only at h
  split at h
  · cases h
  · split at h
    · cases h
    · split at h
      · cases h
      · cases h; rfl

theorem configureDamping_of_some {kw : Dict} {k : String} {v : Val} (hk : kw k = some v)
    (h : k = "invert_every" ∨ k = "damping_adaptation_interval" →
      (kw "invert_every").isSome ∧ (kw "damping_adaptation_interval").isSome) : configureDamping kw k = some v := by
  unfold configureDamping
  split
  · have hu : ∀ j w, kw j = some w → kw.update (dampingKwargs.update kw) j = some w := by
      intro j w hj; simp [Dict.update, hj]
    simp only
    split
    · exact hu k v hk
    · rename_i hb
      by_cases h' : k = "invert_every" ∨ k = "damping_adaptation_interval"
      · exfalso
        apply hb
        obtain ⟨h1, h2⟩ := h h'
        obtain ⟨w1, hw1⟩ := Option.isSome_iff_exists.1 h1
        obtain ⟨w2, hw2⟩ := Option.isSome_iff_exists.1 h2
        rw [hu _ _ hw1, hu _ _ hw2]
        rfl
      · simp only [not_or] at h'
        simp only [Dict.set, h'.1, h'.2, if_false]
        exact hu k v hk
  · exact hk

/-- C57, keywords passed by the user keep their values, except for the momentum, its type and `adapt_damping` in
adaptive mode, and for `invert_every` and `damping_adaptation_interval` unless both are passed. Missing: these
exceptions, where it is false. -/
theorem C57_kept_partial (kw kw' : Dict) (adaptive : Bool) (h : configure kw adaptive = .ok kw') (k : String) (v : Val)
    (hk : kw k = some v)
    (h1 : adaptive = true → k ≠ "adapt_damping" ∧ k ≠ "momentum" ∧ k ≠ "momentum_type")
    (h2 : k = "invert_every" ∨ k = "damping_adaptation_interval" →
      (kw "invert_every").isSome ∧ (kw "damping_adaptation_interval").isSome) :
    kw' k = some v := by
  rw [configure_ok h]
  apply configureDamping_of_some
  · cases adaptive
    · exact hk
    · obtain ⟨a, b, c⟩ := h1 rfl
      simp only [if_true, Dict.update, adaptiveKwargs_eq, a, b, c, if_false, Option.none_or, hk]
  · intro hj
    cases adaptive
    · exact h2 hj
    · simpa [Dict.update, adaptiveKwargs_eq] using h2 hj

/-- C57, missing keywords get exactly the documented values. -/
theorem C57_filled (kw kw' : Dict) (adaptive : Bool) (h : configure kw adaptive = .ok kw') (k : String)
    (hk : kw k = none) :
    kw' k = documentedDefault adaptive (adaptive || (kw.get "adapt_damping").truthy) k := by
  rw [configure_ok h]
  have hd : ((if adaptive then kw.update adaptiveKwargs else kw).get "adapt_damping").truthy =
      (adaptive || (kw.get "adapt_damping").truthy) := by
    cases adaptive
    · simp
    · simp [Dict.get, Dict.update, adaptiveKwargs_eq, Val.truthy]
  have ha : (if adaptive then kw.update adaptiveKwargs else kw) k = if adaptive then adaptiveKwargs k else none := by
    cases adaptive <;> simp [Dict.update, hk]
  unfold configureDamping
  rw [hd]
  generalize hkw : (if adaptive then kw.update adaptiveKwargs else kw) = kw1 at ha
  cases hdd : (adaptive || (kw.get "adapt_damping").truthy)
  · simp only [Bool.false_eq_true, if_false]
    rw [ha]
    have : adaptive = false := by simpa using (Bool.or_eq_false_iff.1 hdd).1
    subst this
    simp [documentedDefault]
  · simp only [if_true, documentedDefault, Bool.true_and]
    have hu : kw1.update (dampingKwargs.update kw1) k = ((if adaptive then adaptiveKwargs k else none).or (dampingKwargs k)) := by
      simp only [Dict.update, ha]
      cases adaptive <;> simp only [Bool.false_eq_true, if_false, if_true, Option.none_or, Option.or_none]
      cases adaptiveKwargs k <;> simp
    split
    · rename_i hb
      rw [Bool.and_eq_true] at hb
      have hne : k ≠ "invert_every" ∧ k ≠ "damping_adaptation_interval" := by
        constructor
        · rintro rfl
          have := hb.1
          rw [hu] at this
          simp [adaptiveKwargs_eq, dampingKwargs_eq] at this
        · rintro rfl
          have := hb.2
          rw [hu] at this
          simp [adaptiveKwargs_eq, dampingKwargs_eq] at this
      rw [hu, adaptiveKwargs_eq, dampingKwargs_eq]
      simp only [hne.1, hne.2, decide_false, Bool.false_eq_true, if_false]
      cases adaptive
      · simp
      · simp; split_ifs <;> simp
    · simp only [Dict.set, hu, adaptiveKwargs_eq, dampingKwargs_eq]
      by_cases h1 : k = "damping_adaptation_interval"
      · subst h1; simp
      · by_cases h2 : k = "invert_every"
        · subst h2; simp
        · cases adaptive
          · simp [h1, h2]
          · simp [h1, h2]; split_ifs <;> simp

/-- C57, adaptive mode rejects a learning rate. -/
theorem C57_learning_rate (kw : Dict) (h : (kw.get "learning_rate").truthy = true) :
    configure kw true = .error "ValueError: learning_rate must be None" := by
  have hq : isQmodel (lower "qmodel") = true := by decide
  have hl : ((kw.update adaptiveKwargs).get "learning_rate").truthy = true := by
    simpa [Dict.get, Dict.update, adaptiveKwargs_eq] using h
  have ht : (kw.update adaptiveKwargs) "momentum_type" = some (.str "qmodel") := by
    simp [Dict.update, adaptiveKwargs_eq]
  simp [configure, ht, startsQmodel, hq, hl]

/-- C57, violated: with adaptive damping a user's `invert_every` is overwritten if the other interval is not passed, and
conversely. -/
theorem C57_interval_counterexample (v : Val) :
    (∃ kw', configure (Dict.lit [("learning_rate", .float 1), ("adapt_damping", .bool true), ("invert_every", v)]) false =
      .ok kw' ∧ kw' "invert_every" = some (.int 5)) ∧
    ∃ kw', configure (Dict.lit [("learning_rate", .float 1), ("adapt_damping", .bool true),
      ("damping_adaptation_interval", v)]) false = .ok kw' ∧ kw' "damping_adaptation_interval" = some (.int 5) := by
  have hq : isQmodel (lower "regular") = false := by decide
  constructor
  · refine ⟨_, by simp [configure, Dict.lit, lookup_cons', startsQmodel, hq]; rfl, ?_⟩
    simp [configureDamping, Dict.get, lookup_cons', Dict.lit, Val.truthy, Dict.update, Dict.set, dampingKwargs_eq]
  · refine ⟨_, by simp [configure, Dict.lit, lookup_cons', startsQmodel, hq]; rfl, ?_⟩
    simp [configureDamping, Dict.get, lookup_cons', Dict.lit, Val.truthy, Dict.update, Dict.set, dampingKwargs_eq]

/-- C57, violated: adaptive mode silently replaces a momentum and a momentum type passed by the user, and turns on
adaptive damping that was turned off explicitly; the momentum should be an error according to the documentation. -/
theorem C57_momentum_counterexample (m t : Val) :
    ∃ kw', configure (Dict.lit [("learning_rate", .none), ("momentum", m), ("momentum_type", t),
      ("adapt_damping", .bool false)]) true = .ok kw' ∧
      kw' "momentum" = some .none ∧ kw' "momentum_type" = some (.str "qmodel") ∧ kw' "adapt_damping" = some (.bool true) := by
  have hq : isQmodel (lower "qmodel") = true := by decide
  refine ⟨_, by simp [configure, Dict.lit, lookup_cons', startsQmodel, hq, Dict.update, adaptiveKwargs_eq, Dict.get, Val.truthy]; rfl, ?_⟩
  simp [configureDamping, Dict.get, lookup_cons', Dict.lit, Val.truthy, Dict.update, Dict.set, dampingKwargs_eq,
    adaptiveKwargs_eq]

/-- The hypotheses of `C57_kept_partial` with both intervals passed in adaptive mode. -/
example : ∃ kw', configure (Dict.lit [("learning_rate", .none), ("invert_every", .int 2),
    ("damping_adaptation_interval", .int 6)]) true = .ok kw' ∧ kw' "invert_every" = some (.int 2) ∧
    kw' "damping_adaptation_interval" = some (.int 6) ∧ kw' "use_passed_loss" = some (.bool true) := by
  have hq : isQmodel (lower "qmodel") = true := by decide
  have hc : ∃ kw', configure (Dict.lit [("learning_rate", .none), ("invert_every", .int 2),
      ("damping_adaptation_interval", .int 6)]) true = .ok kw' :=
    ⟨_, by simp [configure, Dict.lit, lookup_cons', startsQmodel, hq, Dict.update, adaptiveKwargs_eq, Dict.get, Val.truthy]; rfl⟩
  obtain ⟨kw', hc⟩ := hc
  refine ⟨kw', hc, ?_, ?_, ?_⟩
  · exact C57_kept_partial _ _ _ hc _ _ (by simp [Dict.lit, lookup_cons']) (by simp) (by simp [Dict.lit, lookup_cons'])
  · exact C57_kept_partial _ _ _ hc _ _ (by simp [Dict.lit, lookup_cons']) (by simp) (by simp [Dict.lit, lookup_cons'])
  · rw [C57_filled _ _ _ hc _ (by simp [Dict.lit, lookup_cons'])]
    simp [documentedDefault]

/-! ### C58 -/

/-- The keywords handed to `configure` by the constructor. -/
noncomputable def startKw (unique : String) (args : Dict) : Dict :=
  Dict.update (fun k => if named.contains k then none else args k)
    (Dict.lit [("name", if (args.get "name").truthy then args.get "name" else .str unique),
      ("learning_rate", args.get "learning_rate"), ("damping", args.get "damping")])

theorem startKw_eq (unique : String) (args : Dict) (k : String) : startKw unique args k =
    if k = "name" then some (if (args.get "name").truthy then args.get "name" else .str unique)
    else if k = "learning_rate" then some (args.get "learning_rate")
    else if k = "damping" then some (args.get "damping")
    else if named.contains k then none else args k := by
  simp only [startKw, Dict.update, Dict.lit, lookup_cons', List.lookup_nil]
  split_ifs <;> simp

noncomputable def startConfig (args K : Dict) (loss : Val) : Dict :=
  ((defaults.update K).update (Dict.lit [("loss_weights", args.get "loss_weights"),
    ("fisher_approx", args.get "fisher_approx"), ("seed", args.get "seed")])).set "loss" loss

theorem startConfig_eq (args K : Dict) (loss : Val) (k : String) : startConfig args K loss k =
    if k = "loss" then some loss
    else if k = "loss_weights" then some (args.get "loss_weights")
    else if k = "fisher_approx" then some (args.get "fisher_approx")
    else if k = "seed" then some (args.get "seed")
    else (K k).or (defaults k) := by
  simp only [startConfig, Dict.set, Dict.update, Dict.lit, lookup_cons', List.lookup_nil]
  split_ifs <;> simp

def moveLoss (K : Dict) : Dict := match K "loss_tensor" with
  | some t => (K.erase "loss_tensor").set "loss" t
  | none => K

/-- What a successful construction went through. -/
structure Made (unique : String) (args K : Dict) (loss : Val) (q : Bool) : Prop where
  sentinel : (args.get "_sentinel").truthy = false
  damping : args.get "damping" ≠ .none
  clipvalue : args "clipvalue" = none
  clipnorm : args "clipnorm" = none
  configured : configure (startKw unique args) (args.get "adaptive").truthy = .ok K
  serialized : serializeLoss (args.get "loss") = .ok loss
  qmodel : startsQmodel ((startConfig args K loss).get "momentum_type") = .ok q

theorem init_iff (unique : String) (args : Dict) (o : KOpt) : init unique args = .ok o ↔
    ∃ K loss q, Made unique args K loss q ∧
      o = ⟨moveLoss K, startConfig args K loss, hypersOf (startConfig args K loss) q⟩ := by
  have hcv : named.contains "clipvalue" = false := by decide
  have hcn : named.contains "clipnorm" = false := by decide
  unfold init
  constructor
  · intro h
    split at h
    · cases h
    rename_i hs
    split at h
    · cases h
    rename_i damping hd
    simp only [hcv, hcn, Bool.false_eq_true, if_false] at h
    split at h
    · cases h
    rename_i hclip
    rw [Bool.not_eq_true, Bool.or_eq_false_iff] at hclip
    split at h
    · cases h
    rename_i K hK
    split at h
    · cases h
    rename_i loss hloss
    split at h
    · cases h
    rename_i q hq
    refine ⟨K, loss, q, ⟨by simpa using hs, fun hn => ‹(args.get "damping" = Val.none → False)› hn, ?_, ?_, hK, hloss, hq⟩, ?_⟩
    · simpa using hclip.1
    · simpa using hclip.2
    · cases h; rfl
  · rintro ⟨K, loss, q, hm, rfl⟩
    rw [if_neg (by simp [hm.sentinel])]
    have hd := hm.damping
    split
    · rename_i h; exact absurd h hd
    · simp only [hcv, hcn, Bool.false_eq_true, if_false, hm.clipvalue, hm.clipnorm, Option.isSome_none, Bool.or_self]
      have h1 := hm.configured
      have h2 := hm.serialized
      have h3 := hm.qmodel
      simp only [startKw] at h1
      simp only [h1, h2]
      simp only [startConfig] at h3
      simp only [h3]
      rfl

/-- Losses that survive being serialised twice: names, functions, and lists or dictionaries of them. -/
def Plain : Val → Prop
  | .str _ => True
  | .func _ => True
  | _ => False

def PlainLoss : Val → Prop
  | .none => True
  | .str _ => True
  | .func _ => True
  | .list l => ∀ v ∈ l, Plain v
  | .dict l => ∀ e ∈ l, Plain e.2
  | _ => False

theorem serializeOne_plain {v : Val} (h : Plain v) : ∃ s, serializeOne v = .ok (.str s) := by
  cases v <;> simp [Plain] at h
  · exact ⟨_, rfl⟩
  · exact ⟨_, rfl⟩

theorem mapM_plain (l : List Val) (h : ∀ v ∈ l, Plain v) :
    ∃ l', l.mapM serializeOne = .ok l' ∧ (∀ v ∈ l', Plain v) ∧ l'.length = l.length := by
  induction l with
  | nil => exact ⟨[], rfl, by simp, rfl⟩
  | cons v l ih =>
    obtain ⟨l', h1, h2, h3⟩ := ih (fun w hw => h w (by simp [hw]))
    obtain ⟨s, hs⟩ := serializeOne_plain (h v (by simp))
    refine ⟨.str s :: l', ?_, ?_, by simp [h3]⟩
    · rw [List.mapM_cons, hs, h1]; rfl
    · intro w hw
      rcases List.mem_cons.1 hw with rfl | hw
      · trivial
      · exact h2 w hw

theorem mapM_plain_items (l : List (String × Val)) (h : ∀ e ∈ l, Plain e.2) :
    ∃ l', (l.mapM fun e => (serializeOne e.2).map fun x => (e.1, x)) = .ok l' ∧ (∀ e ∈ l', Plain e.2) ∧
      l'.length = l.length := by
  induction l with
  | nil => exact ⟨[], rfl, by simp, rfl⟩
  | cons v l ih =>
    obtain ⟨l', h1, h2, h3⟩ := ih (fun w hw => h w (by simp [hw]))
    obtain ⟨s, hs⟩ := serializeOne_plain (h v (by simp))
    refine ⟨(v.1, .str s) :: l', ?_, ?_, by simp [h3]⟩
    · rw [List.mapM_cons, hs, h1]; rfl
    · intro w hw
      rcases List.mem_cons.1 hw with rfl | hw
      · trivial
      · exact h2 w hw

theorem serializeLoss_plain {v : Val} (h : PlainLoss v) : ∃ l, serializeLoss v = .ok l ∧ PlainLoss l := by
  unfold serializeLoss
  split
  · exact ⟨v, rfl, h⟩
  · split
    · exact ⟨_, rfl, trivial⟩
    · obtain ⟨l', h1, h2, _⟩ := mapM_plain_items _ h
      exact ⟨.dict l', by rw [h1]; rfl, h2⟩
    · obtain ⟨l', h1, h2, _⟩ := mapM_plain _ h
      exact ⟨.list l', by rw [h1]; rfl, h2⟩
    · cases v <;> simp_all [PlainLoss, lossesSerialize]

/-- The named parameters that are not passed on as keywords. -/
def dropped : List String := ["_sentinel", "model", "loss", "loss_weights", "fisher_approx", "layer_collection",
  "adaptive", "train_batch", "seed"]

theorem startKw_dropped (unique : String) (args : Dict) {k : String} (hk : k ∈ dropped) : startKw unique args k = none := by
  rw [startKw_eq]
  simp only [dropped, List.mem_cons, List.not_mem_nil, or_false] at hk
  rcases hk with rfl | rfl | rfl | rfl | rfl | rfl | rfl | rfl | rfl <;> simp [named]

theorem startKw_kept (unique : String) (args : Dict) {k : String} (hk : k ∉ dropped)
    (hn : (args.get "name").truthy = true) (hl : (args "learning_rate").isSome) (hd : (args "damping").isSome) :
    startKw unique args k = args k := by
  rw [startKw_eq, hn, if_pos rfl]
  have hget : ∀ j, (args j).isSome → some (args.get j) = args j := by
    intro j hj
    obtain ⟨v, hv⟩ := Option.isSome_iff_exists.1 hj
    simp [Dict.get, hv]
  split_ifs with h1 h3 h4 h5
  · subst h1
    apply hget
    cases hv : args "name" with
    | none => simp [Dict.get, hv, Val.truthy] at hn
    | some v => rfl
  · subst h3; exact hget _ hl
  · subst h4; exact hget _ hd
  · exfalso
    simp only [named, List.contains_eq_mem, List.mem_cons, List.not_mem_nil, or_false, decide_eq_true_eq] at h5
    simp only [dropped, List.mem_cons, List.not_mem_nil, or_false, not_or] at hk
    tauto
  · rfl

/-- Keywords that `configure` may add are not among the dropped ones. -/
theorem configured_dropped {unique : String} {args K : Dict} {ad : Bool}
    (h : configure (startKw unique args) ad = .ok K) {k : String} (hk : k ∈ dropped) : K k = none := by
  rw [C57_filled _ _ _ h k (startKw_dropped unique args hk)]
  simp only [dropped, List.mem_cons, List.not_mem_nil, or_false] at hk
  rcases hk with rfl | rfl | rfl | rfl | rfl | rfl | rfl | rfl | rfl <;> simp [documentedDefault]

/-- `configure` keeps a dictionary that has the keywords it would add. -/
theorem configureDamping_complete {kw : Dict} (h1 : (kw "use_passed_loss").isSome)
    (h2 : (kw "update_damping_immediately").isSome) (h3 : (kw "invert_every").isSome)
    (h4 : (kw "damping_adaptation_interval").isSome) : configureDamping kw = kw := by
  have hu : kw.update (dampingKwargs.update kw) = kw := by
    funext k
    simp only [Dict.update, dampingKwargs_eq]
    cases hk : kw k with
    | some v => simp
    | none =>
      have n1 : k ≠ "use_passed_loss" := by rintro rfl; simp [hk] at h1
      have n2 : k ≠ "update_damping_immediately" := by rintro rfl; simp [hk] at h2
      simp [n1, n2]
  unfold configureDamping
  split
  · simp only [hu, h3, h4, Bool.and_self, if_true]
  · rfl

theorem truthy_configured_name {unique : String} (hu : unique ≠ "") {args K : Dict} {ad : Bool}
    (h : configure (startKw unique args) ad = .ok K) : ∃ v, K "name" = some v ∧ v.truthy = true := by
  refine ⟨if (args.get "name").truthy then args.get "name" else .str unique, ?_, ?_⟩
  · exact C57_kept_partial _ _ _ h _ _ (by simp [startKw_eq]) (by simp) (by simp)
  · split
    · assumption
    · simp [Val.truthy, hu]

theorem configured_some {unique : String} {args K : Dict} {ad : Bool}
    (h : configure (startKw unique args) ad = .ok K) {k : String} (hk : k = "learning_rate" ∨ k = "damping") :
    K k = some (args.get k) := by
  rcases hk with rfl | rfl <;>
    exact C57_kept_partial _ _ _ h _ _ (by simp [startKw_eq]) (by simp) (by simp)

theorem defaults_some (k : String) (hk : k ∈ ["cov_ema_decay", "momentum", "momentum_type", "adapt_damping",
    "use_passed_loss", "update_damping_immediately", "invert_every", "damping_adaptation_interval", "loss_fn",
    "batch_size", "cov_update_every"]) : (defaults k).isSome := by
  simp only [List.mem_cons, List.not_mem_nil, or_false] at hk
  rcases hk with rfl | rfl | rfl | rfl | rfl | rfl | rfl | rfl | rfl | rfl | rfl <;>
    simp [defaults, Dict.lit, lookup_cons']

theorem defaults_loss_tensor : defaults "loss_tensor" = none := by
  simp [defaults, Dict.lit, lookup_cons']

theorem hypersOf_mutable {config : Dict} {q : Bool} {k : String} (h : k ∉ mutableHypers) : hypersOf config q k = none := by
  unfold hypersOf
  rw [if_neg]
  simp [h]

theorem hypersOf_ne_none (config : Dict) (q : Bool) (k : String) : hypersOf config q k ≠ some .none := by
  unfold hypersOf
  split
  · split
    · simp
    · rename_i h; exact h
  · simp

/-- The keywords `configure` may change. -/
def touched : List String := ["adapt_damping", "momentum", "momentum_type", "use_passed_loss",
  "update_damping_immediately", "invert_every", "damping_adaptation_interval"]

theorem configureDamping_other {kw : Dict} {k : String} (hk : k ∉ ["use_passed_loss", "update_damping_immediately",
    "invert_every", "damping_adaptation_interval"]) : configureDamping kw k = kw k := by
  simp only [List.mem_cons, List.not_mem_nil, or_false, not_or] at hk
  have hu : kw.update (dampingKwargs.update kw) k = kw k := by
    simp only [Dict.update, dampingKwargs_eq, hk, if_false]
    cases kw k <;> simp
  unfold configureDamping
  split
  · simp only
    split
    · exact hu
    · simp only [Dict.set, hk, if_false]
      exact hu
  · rfl

theorem configure_other {kw K : Dict} {ad : Bool} (h : configure kw ad = .ok K) {k : String} (hk : k ∉ touched) :
    K k = kw k := by
  rw [configure_ok h]
  simp only [touched, List.mem_cons, List.not_mem_nil, or_false, not_or] at hk
  rw [configureDamping_other (by simp [hk])]
  cases ad <;> simp [Dict.update, adaptiveKwargs_eq, hk]

/-- The checks a successful `configure` passed, in terms of its result. -/
theorem configure_checks {kw K : Dict} {ad : Bool} (h : configure kw ad = .ok K) :
    ∃ q, startsQmodel ((K "momentum_type").getD (.str "regular")) = .ok q ∧
      (q = true → (K.get "learning_rate").truthy = false ∧ (K.get "momentum").truthy = false) := by
  have hK := configure_ok h
  unfold configure at h
  generalize (if ad then kw.update adaptiveKwargs else kw) = kw1 at h hK
  have e : ∀ k, k ∉ ["use_passed_loss", "update_damping_immediately", "invert_every", "damping_adaptation_interval"] →
      K k = kw1 k := fun k hk => by rw [hK, configureDamping_other hk]
  simp only at h
  split at h
  · cases h
  rename_i q hq
  refine ⟨q, by rw [e _ (by decide)]; exact hq, ?_⟩
  rintro rfl
  simp only [Dict.get, e "learning_rate" (by decide), e "momentum" (by decide)]
  split at h
  · cases h
  · rename_i h1
    split at h
    · cases h
    · rename_i h2
      simp only [Bool.true_and, Bool.not_eq_true] at h1 h2
      exact ⟨h1, h2⟩

theorem configure_false {kw : Dict} {q : Bool} (hq : startsQmodel ((kw "momentum_type").getD (.str "regular")) = .ok q)
    (hl : q = true → (kw.get "learning_rate").truthy = false) (hm : q = true → (kw.get "momentum").truthy = false) :
    configure kw false = .ok (configureDamping kw) := by
  unfold configure
  simp only [Bool.false_eq_true, if_false, hq]
  rw [if_neg, if_neg]
  · intro hc
    rw [Bool.and_eq_true] at hc
    rw [hm hc.1] at hc
    simp at hc
  · intro hc
    rw [Bool.and_eq_true] at hc
    rw [hl hc.1] at hc
    simp at hc

theorem moveLoss_eq (K : Dict) (k : String) : moveLoss K k =
    if k = "loss" then (K "loss_tensor").or (K "loss") else if k = "loss_tensor" then none else K k := by
  unfold moveLoss
  cases ht : K "loss_tensor" with
  | some t => simp only [Dict.set, Dict.erase, Option.some_or]
  | none =>
    by_cases h1 : k = "loss"
    · subst h1; simp
    · by_cases h2 : k = "loss_tensor"
      · subst h2; simp [ht]
      · simp [h1, h2]

theorem effective_congr {P P' : Dict} (h : ∀ k, (P' k).or (defaults k) = (P k).or (defaults k))
    (hs : (P' "cov_ema_decay").isSome = (P "cov_ema_decay").isSome ∨
      (P "cov_ema_decay" = none ∧ (P "cov_update_every").or (defaults "cov_update_every") = some (.int 1))) :
    effective P' = effective P := by
  funext k
  unfold effective
  simp only [h]
  by_cases hk : k = "cov_ema_decay"
  · subst hk
    rcases hs with hs | ⟨hs, h1⟩
    · simp only [hs]
    · simp only [hs, h1, decide_true, Bool.true_and, Option.isSome_none, Bool.false_eq_true, if_false, Option.none_or,
        Option.getD_some]
      split
      · simp [defaults, Dict.lit, power]
      · rfl
  · simp [hk]

/-- Two optimizers with the same hyperparameters whose keywords differ only by defaults create the same optimizer. -/
theorem create_congr {A B C C' h : Dict} (hC : C'.get "adapt_damping" = C.get "adapt_damping")
    (hAB : ∀ k, ((h k).or (B k)).or (defaults k) = ((h k).or (A k)).or (defaults k))
    (htb : B "train_batch" = A "train_batch") (hh : h "cov_ema_decay" = none ∧ h "cov_update_every" = none)
    (hcov : (B "cov_ema_decay").isSome = (A "cov_ema_decay").isSome ∨
      (A "cov_ema_decay" = none ∧ (A "cov_update_every").or (defaults "cov_update_every") = some (.int 1)))
    (hfn : (C.get "adapt_damping").truthy = false ∨ ((B "loss_fn").isSome ∧ (A "loss_fn").isSome))
    (collection vars lossFn : Val) (batch : Option (Val × Option ℕ))
    (hbs : batch = none ∨ ((B "batch_size").isSome ∧ (A "batch_size").isSome)) :
    create ⟨B, C', h⟩ collection vars lossFn batch = create ⟨A, C, h⟩ collection vars lossFn batch := by
  obtain ⟨A', B', hA', hB', hbA, hbB, hrel⟩ : ∃ A' B' : Dict,
      attachBatch ⟨A.set "var_list" vars, C, h⟩ batch = .ok ⟨A', C, h⟩ ∧
      attachBatch ⟨B.set "var_list" vars, C', h⟩ batch = .ok ⟨B', C', h⟩ ∧
      (∀ k, A' k = if k = "var_list" then some vars else if k = "train_batch" then
        ((batch.map (·.1)).or (A k)) else A k) ∧
      (∀ k, B' k = if k = "var_list" then some vars else if k = "train_batch" then
        ((batch.map (·.1)).or (B k)) else B k) ∧ True := by
    rcases hbs with rfl | ⟨hb, ha⟩
    · refine ⟨_, _, rfl, rfl, ?_, ?_, trivial⟩ <;> intro k <;> simp [Dict.set]
    · cases batch with
      | none => refine ⟨_, _, rfl, rfl, ?_, ?_, trivial⟩ <;> intro k <;> simp [Dict.set]
      | some b =>
        obtain ⟨va, hva⟩ := Option.isSome_iff_exists.1 ha
        obtain ⟨vb, hvb⟩ := Option.isSome_iff_exists.1 hb
        refine ⟨(A.set "var_list" vars).set "train_batch" b.1, (B.set "var_list" vars).set "train_batch" b.1, ?_, ?_, ?_,
          ?_, trivial⟩
        · simp [attachBatch, registerTrainBatch, Dict.set, hva]
        · simp [attachBatch, registerTrainBatch, Dict.set, hvb]
        · intro k
          by_cases h1 : k = "var_list"
          · subst h1; simp [Dict.set]
          · by_cases h2 : k = "train_batch" <;> simp [Dict.set, h1, h2]
        · intro k
          by_cases h1 : k = "var_list"
          · subst h1; simp [Dict.set]
          · by_cases h2 : k = "train_batch" <;> simp [Dict.set, h1, h2]
  have htb' : B' "train_batch" = A' "train_batch" := by rw [hbA, hbB]; simp [htb]
  have e1 : ∀ k, k ≠ "var_list" → k ≠ "train_batch" → A' k = A k ∧ B' k = B k := by
    intro k h1 h2
    rw [hbA, hbB]; simp [h1, h2]
  unfold create
  simp only [hA', hB', hC, htb']
  split
  · rfl
  · congr 1
    have hkw : ∀ X : Dict, ((C.get "adapt_damping").truthy = false ∨ (X "loss_fn").isSome) →
        (if ((C.get "adapt_damping").truthy && (X "loss_fn").isNone) = true then X.set "loss_fn" lossFn else X) = X := by
      intro X hX
      rw [if_neg]
      rcases hX with hX | hX
      · simp [hX]
      · simp only [Bool.and_eq_true, not_and, Bool.not_eq_true, Option.isNone_eq_false_iff]
        exact fun _ => hX
    rw [hkw A' (by rw [(e1 "loss_fn" (by decide) (by decide)).1]; exact hfn.imp id (·.2)),
      hkw B' (by rw [(e1 "loss_fn" (by decide) (by decide)).2]; exact hfn.imp id (·.1))]
    apply effective_congr
    · intro k
      simp only [Dict.set, Dict.update]
      split
      · rfl
      · rw [hbA, hbB]
        split
        · rfl
        · split
          · rename_i h3; subst h3; rw [htb]
          · exact hAB k
    · simp only [Dict.set, Dict.update, e1 "cov_ema_decay" (by decide) (by decide),
        e1 "cov_update_every" (by decide) (by decide), hh.1, hh.2, Option.none_or]
      simpa using hcov

/-- C58, an optimizer restored from the configuration of another (with the current values `h` of its hyperparameters)
creates an underlying optimizer with the same settings, for the same layer collection and train batch, provided that

* `cov_ema_decay` was passed, or covariances are updated in every step,
* a momentum was passed with the momentum types `qmodel` (adaptive mode does so),
* `loss_fn` was passed with adaptive damping, and `batch_size` if a train batch is registered,
* the loss is no instance of a loss class.

Missing: the other cases, where it is false. -/
theorem C58_restored_partial (unique unique' : String) (hu : unique ≠ "") (args : Dict) (o : KOpt)
    (hi : init unique args = .ok o) (h : Dict)
    (hh : ∀ k, (h k).isSome = (o.hyper k).isSome) (hh' : ∀ k, h k ≠ some .none)
    (hcov : (args "cov_ema_decay").isSome ∨ args "cov_update_every" = none ∨ args "cov_update_every" = some (.int 1))
    (hmom : (args "momentum").isSome ∨ (args.get "adaptive").truthy = true ∨
      startsQmodel ((args "momentum_type").getD (.str "adam")) = .ok false)
    (hfn : ((args.get "adapt_damping").truthy = false ∧ (args.get "adaptive").truthy = false) ∨ (args "loss_fn").isSome)
    (hloss : PlainLoss (args.get "loss"))
    (collection vars lossFn : Val) (batch : Option (Val × Option ℕ)) (hbs : batch = none ∨ (args "batch_size").isSome) :
    ∃ o', init unique' (getConfig { o with hyper := h }) = .ok o' ∧
      create o' collection vars lossFn batch = create { o with hyper := h } collection vars lossFn batch := by
  obtain ⟨K, loss, q, hm, rfl⟩ := (init_iff unique args o).1 hi
  simp only at hh
  set C := startConfig args K loss with hC
  set G := getConfig ⟨moveLoss K, C, h⟩ with hG
  have hGk : ∀ k, G k = (h k).or (C k) := fun k => rfl
  have hCk : ∀ k, k ∉ dropped → C k = (K k).or (defaults k) := by
    intro k hk
    rw [hC, startConfig_eq]
    simp only [dropped, List.mem_cons, List.not_mem_nil, or_false, not_or] at hk
    simp [hk]
  have hnone : ∀ k, k ∉ mutableHypers → h k = none := by
    intro k hk
    have := hh k
    rw [hypersOf_mutable hk] at this
    simpa using this
  -- keys of the configuration
  have hGC : ∀ k, k ∉ mutableHypers → G k = C k := by
    intro k hk; rw [hGk, hnone k hk]; simp
  have hGsome : ∀ k, k ∉ dropped → ((K k).isSome ∨ (defaults k).isSome) → (G k).isSome := by
    intro k hk hs
    rw [hGk, hCk k hk]
    cases h k <;> cases hK : K k <;> cases hD : defaults k <;> simp_all
  -- the name
  obtain ⟨nm, hnm, hnmt⟩ := truthy_configured_name hu hm.configured
  have hGname : G "name" = some nm := by
    rw [hGC _ (by decide), hCk _ (by decide), hnm]; rfl
  have hGnt : (G.get "name").truthy = true := by simpa [Dict.get, hGname] using hnmt
  have hlr := configured_some hm.configured (.inl rfl)
  have hdp := configured_some hm.configured (.inr rfl)
  have hGlr : (G "learning_rate").isSome := hGsome _ (by decide) (.inl (by simp [hlr]))
  have hGdp : (G "damping").isSome := hGsome _ (by decide) (.inl (by simp [hdp]))
  have hK0 : ∀ k, startKw unique' G k = if k ∈ dropped then none else G k := by
    intro k
    split
    · rename_i hk; exact startKw_dropped unique' G hk
    · rename_i hk; exact startKw_kept unique' G hk hGnt hGlr hGdp
  -- momentum type
  have hmtC : C.get "momentum_type" = (K "momentum_type").getD (.str "adam") := by
    simp only [Dict.get]
    rw [hCk _ (by decide)]
    cases K "momentum_type" <;> simp [defaults, Dict.lit, lookup_cons']
  have hGmt : G "momentum_type" = some (C.get "momentum_type") := by
    have hs := hGsome "momentum_type" (by decide) (.inr (defaults_some _ (by decide)))
    rw [hGC _ (by decide)] at hs ⊢
    obtain ⟨v, hv⟩ := Option.isSome_iff_exists.1 hs
    simp [Dict.get, hv]
  obtain ⟨q1, hq1, hchk⟩ := configure_checks hm.configured
  have hq0 := hm.qmodel
  rw [← hC, hmtC] at hq0
  have hqq : q1 = q := by
    cases hK : K "momentum_type" with
    | some v => rw [hK] at hq0 hq1; simp only [Option.getD_some] at hq0 hq1; rw [hq0] at hq1; cases hq1; rfl
    | none =>
      rw [hK] at hq0 hq1
      have a1 : startsQmodel (.str "regular") = .ok false := by simp only [startsQmodel]; decide
      have a2 : startsQmodel (.str "adam") = .ok false := by simp only [startsQmodel]; decide
      simp only [Option.getD_none] at hq0 hq1
      rw [a1] at hq1; rw [a2] at hq0; cases hq1; cases hq0; rfl
  subst hqq
  have hqh : q1 = true → h "learning_rate" = none ∧ h "momentum" = none := by
    rintro rfl
    have h1 := hh "learning_rate"
    have h2 := hh "momentum"
    rw [hypersOf, if_neg (by simp)] at h1 h2
    exact ⟨by simpa using h1, by simpa using h2⟩
  have hKmom : q1 = true → (K "momentum").isSome := by
    intro hq
    cases had : (args.get "adaptive").truthy with
    | true =>
      rw [configure_ok hm.configured, configureDamping_other (by decide), had]
      simp [Dict.update, adaptiveKwargs_eq]
    | false =>
      rcases hmom with hmom | hmom | hmom
      · rw [configure_ok hm.configured, configureDamping_other (by decide), had]
        simpa [startKw_eq, named] using hmom
      · rw [had] at hmom; cases hmom
      · have hKm : K "momentum_type" = args "momentum_type" := by
          rw [configure_ok hm.configured, configureDamping_other (by decide), had]
          simp [startKw_eq, named]
        rw [hKm, hmom] at hq0
        cases hq0
        cases hq
  -- the keywords of the restored optimizer
  set K' := startKw unique' G with hK'
  have hcfg : configure K' false = .ok K' := by
    have hc := configure_false (kw := K') (q := q1) ?_ ?_ ?_
    · rw [hc, configureDamping_complete] <;> rw [hK0, if_neg (by decide)] <;>
        exact hGsome _ (by decide) (.inr (defaults_some _ (by decide)))
    · rw [hK0, if_neg (by decide), hGmt, Option.getD_some, hmtC, hq0]
    · intro hq
      have e : K'.get "learning_rate" = K.get "learning_rate" := by
        simp only [Dict.get, hK0]
        rw [if_neg (by decide), hGk, (hqh hq).1, Option.none_or, hCk _ (by decide), hlr, Option.some_or]
      rw [e]; exact (hchk hq).1
    · intro hq
      obtain ⟨v, hv⟩ := Option.isSome_iff_exists.1 (hKmom hq)
      have e : K'.get "momentum" = K.get "momentum" := by
        simp only [Dict.get, hK0]
        rw [if_neg (by decide), hGk, (hqh hq).2, Option.none_or, hCk _ (by decide), hv, Option.some_or]
      rw [e]; exact (hchk hq).2
  have hCdrop : ∀ k, k ∈ ["_sentinel", "adaptive", "layer_collection", "model"] → C k = none := by
    intro k hk
    have hkd : k ∈ dropped := by
      simp only [List.mem_cons, List.not_mem_nil, or_false] at hk
      rcases hk with rfl | rfl | rfl | rfl <;> decide
    rw [hC, startConfig_eq]
    have hKk := configured_dropped hm.configured hkd
    rw [hKk]
    simp only [List.mem_cons, List.not_mem_nil, or_false] at hk
    rcases hk with rfl | rfl | rfl | rfl <;> simp [defaults, Dict.lit, lookup_cons']
  have hGad : (G.get "adaptive").truthy = false := by
    simp only [Dict.get]
    rw [hGC _ (by decide), hCdrop _ (by decide)]; rfl
  have hGse : (G.get "_sentinel").truthy = false := by
    simp only [Dict.get]
    rw [hGC _ (by decide), hCdrop _ (by decide)]; rfl
  have hclip : ∀ k, k = "clipvalue" ∨ k = "clipnorm" → G k = none := by
    intro k hk
    have h1 : args k = none := by
      rcases hk with rfl | rfl
      · exact hm.clipvalue
      · exact hm.clipnorm
    have h2 : K k = none := by
      rcases hk with rfl | rfl <;> rw [configure_other hm.configured (by decide), startKw_eq] <;> simpa [named] using h1
    rcases hk with rfl | rfl <;> rw [hGC _ (by decide), hCk _ (by decide), h2] <;> simp [defaults, Dict.lit, lookup_cons']
  have hGdamp : G.get "damping" ≠ .none := by
    have : G "damping" ≠ some .none := by
      rw [hGk, hCk _ (by decide), hdp, Option.some_or]
      cases hd : h "damping" with
      | none => simpa using hm.damping
      | some v => have := hh' "damping"; rw [hd] at this; simpa using this
    obtain ⟨v, hv⟩ := Option.isSome_iff_exists.1 hGdp
    rw [hv] at this
    simpa [Dict.get, hv] using this
  have hGloss : G.get "loss" = loss := by
    simp only [Dict.get]
    rw [hGC _ (by decide), hC, startConfig_eq]; simp
  obtain ⟨l1, hl1, hpl⟩ := serializeLoss_plain hloss
  have hll : l1 = loss := by have := hm.serialized; rw [hl1] at this; cases this; rfl
  subst hll
  obtain ⟨l2, hl2, -⟩ := serializeLoss_plain hpl
  set C' := startConfig G K' l2 with hC'
  have hCk' : ∀ k, k ∉ dropped → C' k = (h k).or (C k) := by
    intro k hk
    rw [hC', startConfig_eq]
    have hk' := hk
    simp only [dropped, List.mem_cons, List.not_mem_nil, or_false, not_or] at hk'
    simp only [hk', if_false]
    rw [hK0, if_neg hk, hGk, hCk k hk]
    cases h k <;> cases K k <;> cases defaults k <;> simp
  have hmt' : C'.get "momentum_type" = C.get "momentum_type" := by
    simp only [Dict.get]
    rw [hCk' _ (by decide), hnone _ (by decide), Option.none_or]
  have had' : C'.get "adapt_damping" = C.get "adapt_damping" := by
    simp only [Dict.get]
    rw [hCk' _ (by decide), hnone _ (by decide), Option.none_or]
  have hmade : Made unique' G K' l2 q1 :=
    ⟨hGse, hGdamp, hclip _ (.inl rfl), hclip _ (.inr rfl), by rw [hGad]; exact hcfg, by rw [hGloss]; exact hl2,
      by rw [← hC', hmt', hmtC, hq0]⟩
  have hhyp : hypersOf C' q1 = h := by
    funext k
    have hhk := hh k
    have hhk' := hh' k
    by_cases hk : k ∈ mutableHypers
    · have hkd : k ∉ dropped := by
        simp only [mutableHypers, List.mem_cons, List.not_mem_nil, or_false] at hk
        rcases hk with rfl | rfl | rfl | rfl | rfl <;> decide
      unfold hypersOf at hhk ⊢
      rw [had']
      split
      · rename_i hc
        rw [if_pos hc] at hhk
        rw [hCk' k hkd]
        cases hv : h k with
        | some v =>
          rw [hv] at hhk'
          have hv0 : v ≠ .none := by simpa using hhk'
          rw [Option.some_or]
          split
          · rename_i h0; exact absurd (by simpa using h0) hv0
          · rfl
        | none =>
          rw [hv] at hhk
          rw [Option.none_or]
          cases hcv : C k with
          | none => rfl
          | some w =>
            rw [hcv] at hhk
            split
            · rfl
            · rename_i h0
              exfalso
              split at hhk
              · rename_i h1; exact h0 h1
              · simp at hhk
      · rename_i hc
        rw [if_neg hc] at hhk
        have : h k = none := by simpa using hhk
        rw [this]
    · rw [hypersOf_mutable hk, hnone k hk]
  refine ⟨⟨moveLoss K', C', h⟩, (init_iff _ _ _).2 ⟨K', l2, q1, hmade, by rw [hhyp]⟩, ?_⟩
  have hK'k : ∀ k, K' k = if k ∈ dropped then none else (h k).or ((K k).or (defaults k)) := by
    intro k
    rw [hK0]
    split
    · rfl
    · rename_i hk; rw [hGk, hCk k hk]
  have hlt : K' "loss_tensor" = K "loss_tensor" := by
    rw [hK'k, if_neg (by decide), hnone _ (by decide), defaults_loss_tensor]; simp
  have hKargs : ∀ k, k ∉ touched → k ∉ named → K k = args k := by
    intro k h1 h2
    rw [configure_other hm.configured h1, startKw_eq]
    have h2' := h2
    simp only [named, List.mem_cons, List.not_mem_nil, or_false, not_or] at h2'
    simp only [h2', if_false, List.contains_eq_mem, h2, decide_false, Bool.false_eq_true]
  have hB : ∀ k, k ≠ "loss" → k ≠ "loss_tensor" → moveLoss K' k = K' k ∧ moveLoss K k = K k := by
    intro k h1 h2
    rw [moveLoss_eq, moveLoss_eq]; simp [h1, h2]
  have hsome : ∀ k, k ∉ dropped → (defaults k).isSome → (K' k).isSome := by
    intro k hk hd
    rw [hK'k, if_neg hk]
    obtain ⟨d, hd⟩ := Option.isSome_iff_exists.1 hd
    rw [hd]
    cases h k <;> cases K k <;> simp
  change create ⟨moveLoss K', C', h⟩ collection vars lossFn batch = create ⟨moveLoss K, C, h⟩ collection vars lossFn batch
  apply create_congr (A := moveLoss K) (B := moveLoss K') had'
  · intro k
    by_cases h1 : k = "loss"
    · subst h1
      rw [moveLoss_eq, moveLoss_eq, if_pos rfl, if_pos rfl, hlt, configured_dropped hm.configured (k := "loss") (by decide),
        hK'k "loss", if_pos (by decide)]
    · by_cases h2 : k = "loss_tensor"
      · subst h2
        rw [moveLoss_eq, moveLoss_eq]
        simp
      · rw [(hB k h1 h2).1, (hB k h1 h2).2, hK'k]
        split
        · rename_i hd; rw [configured_dropped hm.configured hd]
        · cases h k <;> cases K k <;> cases defaults k <;> simp
  · rw [(hB "train_batch" (by decide) (by decide)).1, (hB "train_batch" (by decide) (by decide)).2, hK'k, if_pos (by decide),
      configured_dropped hm.configured (by decide)]
  · exact ⟨hnone _ (by decide), hnone _ (by decide)⟩
  · rw [(hB "cov_ema_decay" (by decide) (by decide)).1, (hB "cov_ema_decay" (by decide) (by decide)).2,
      (hB "cov_update_every" (by decide) (by decide)).2,
      hKargs "cov_ema_decay" (by decide) (by decide), hKargs "cov_update_every" (by decide) (by decide)]
    have hs := hsome "cov_ema_decay" (by decide) (defaults_some _ (by decide))
    cases hca : args "cov_ema_decay" with
    | some v => left; simp [hs]
    | none =>
      right
      rw [hca] at hcov
      rcases hcov with hcov | hcov | hcov
      · simp at hcov
      · exact ⟨rfl, by rw [hcov]; simp [defaults, Dict.lit, lookup_cons']⟩
      · exact ⟨rfl, by rw [hcov]; simp⟩
  · rw [(hB "loss_fn" (by decide) (by decide)).1, (hB "loss_fn" (by decide) (by decide)).2]
    rcases hfn with ⟨h1, h2⟩ | h1
    · left
      simp only [Dict.get]
      have hKad : K "adapt_damping" = args "adapt_damping" := by
        rw [configure_ok hm.configured, configureDamping_other (by decide), h2]
        simp [startKw_eq, named]
      rw [hCk _ (by decide), hKad]
      simp only [Dict.get] at h1
      cases ha : args "adapt_damping" with
      | none => simp [defaults, Dict.lit, lookup_cons', Val.truthy]
      | some v => rw [ha] at h1; simpa using h1
    · right
      refine ⟨hsome _ (by decide) (defaults_some _ (by decide)), ?_⟩
      rw [hKargs _ (by decide) (by decide)]
      exact h1
  · refine hbs.imp id fun h1 => ?_
    rw [(hB "batch_size" (by decide) (by decide)).1, (hB "batch_size" (by decide) (by decide)).2]
    refine ⟨hsome _ (by decide) (defaults_some _ (by decide)), ?_⟩
    rw [hKargs _ (by decide) (by decide)]
    exact h1

/-! Where restoring goes wrong. -/

theorem init_kwargs {unique : String} {args : Dict} {o : KOpt} (hi : init unique args = .ok o) {k : String}
    (h1 : k ∉ touched) (h2 : k ∉ named) (h3 : k ≠ "loss_tensor") : o.kwargs k = args k := by
  obtain ⟨K, loss, q, hm, rfl⟩ := (init_iff _ _ _).1 hi
  have h2' := h2
  simp only [named, List.mem_cons, List.not_mem_nil, or_false, not_or] at h2'
  simp only [moveLoss_eq, h3, if_false, h2']
  rw [configure_other hm.configured h1, startKw_eq]
  simp only [h2', if_false, List.contains_eq_mem, h2, decide_false, Bool.false_eq_true]

theorem init_config {unique : String} {args : Dict} {o : KOpt} (hi : init unique args = .ok o) {k : String}
    (h1 : k ∉ touched) (h2 : k ∉ named) (h3 : k ∉ mutableHypers) :
    getConfig o k = (args k).or (defaults k) := by
  obtain ⟨K, loss, q, hm, rfl⟩ := (init_iff _ _ _).1 hi
  have h2' := h2
  simp only [named, List.mem_cons, List.not_mem_nil, or_false, not_or] at h2'
  simp only [getConfig, Dict.update, hypersOf_mutable h3, Option.none_or]
  rw [startConfig_eq, configure_other hm.configured h1, startKw_eq]
  simp only [h2', if_false, List.contains_eq_mem, h2, decide_false, Bool.false_eq_true]

theorem init_hyper {unique : String} {args : Dict} {o : KOpt} (hi : init unique args = .ok o) {k : String}
    (h3 : k ∉ mutableHypers) : o.hyper k = none := by
  obtain ⟨K, loss, q, hm, rfl⟩ := (init_iff _ _ _).1 hi
  exact hypersOf_mutable h3

/-- C58: the weight decay and the norm constraint an optimizer was made with are current values that can be changed and
are saved as such. -/
theorem C58_current {unique : String} {args : Dict} {o : KOpt} (hi : init unique args = .ok o) {k : String}
    (hk : k = "weight_decay_coeff" ∨ k = "norm_constraint") {v : Val} (ha : args k = some v) (hv : v ≠ .none) :
    o.hyper k = some v ∧ ∀ w, getConfig { o with hyper := o.hyper.set k w } k = some w := by
  obtain ⟨K, loss, q, hm, rfl⟩ := (init_iff _ _ _).1 hi
  have h1 : k ∉ touched := by rcases hk with rfl | rfl <;> decide
  have h2 : k ∉ named := by rcases hk with rfl | rfl <;> decide
  have h3 : k ∈ mutableHypers := by rcases hk with rfl | rfl <;> decide
  have h4 : k ≠ "damping" ∧ k ≠ "learning_rate" ∧ k ≠ "momentum" := by rcases hk with rfl | rfl <;> decide
  have h2' := h2
  simp only [named, List.mem_cons, List.not_mem_nil, or_false, not_or] at h2'
  have hc : startConfig args K loss k = some v := by
    rw [startConfig_eq, configure_other hm.configured h1, startKw_eq]
    simp only [h2', if_false, List.contains_eq_mem, h2, decide_false, Bool.false_eq_true, ha, Option.some_or]
  refine ⟨?_, fun w => by simp [getConfig, Dict.update, Dict.set]⟩
  simp only [hypersOf, hc, List.contains_eq_mem, h3, h4, decide_true, decide_false, Bool.false_and, Bool.not_false,
    Bool.or_self, Bool.and_false, Bool.and_self, if_true]
  split
  · rename_i h0; exact absurd (by simpa using h0) hv
  · rfl

/-- The keywords of a created optimizer. -/
theorem create_ok {o : KOpt} {collection vars lossFn : Val} {batch : Option (Val × Option ℕ)} {d : Dict}
    (h : create o collection vars lossFn batch = .ok d) :
    ∃ P, d = effective P ∧
      (∀ k, k ∉ ["var_list", "train_batch", "batch_size", "loss_fn", "layer_collection"] →
        P k = (o.hyper k).or (o.kwargs k)) ∧
      (o.hyper "loss_fn" = none → P "loss_fn" = if (o.config.get "adapt_damping").truthy && (o.kwargs "loss_fn").isNone
        then some lossFn else o.kwargs "loss_fn") ∧
      (o.hyper "batch_size" = none → ∀ b (n : ℕ), batch = some (b, some (n + 1)) →
        P "batch_size" = (o.kwargs "batch_size").or (some (.int (n + 1)))) := by
  unfold create at h
  simp only at h
  split at h
  · cases h
  rename_i o1 ho1
  have hcfg : o1.config = o.config ∧ o1.hyper = o.hyper ∧
      (∀ k, k ∉ ["var_list", "train_batch", "batch_size"] → o1.kwargs k = o.kwargs k) ∧
      ∀ b (n : ℕ), batch = some (b, some (n + 1)) →
        o1.kwargs "batch_size" = (o.kwargs "batch_size").or (some (.int (n + 1))) := by
    cases batch with
    | none =>
      simp only [attachBatch, Except.ok.injEq] at ho1
      subst ho1
      refine ⟨rfl, rfl, ?_, by simp⟩
      intro k hk
      simp only [List.mem_cons, List.not_mem_nil, or_false, not_or] at hk
      simp [Dict.set, hk]
    | some b =>
      simp only [attachBatch, registerTrainBatch] at ho1
      split at ho1
      · rename_i v hv
        cases ho1
        refine ⟨rfl, rfl, ?_, ?_⟩
        · intro k hk
          simp only [List.mem_cons, List.not_mem_nil, or_false, not_or] at hk
          simp [Dict.set, hk]
        · intro _ _ _
          simp [Dict.set] at hv ⊢
          rw [hv]; rfl
      · rename_i hv
        split at ho1
        · rename_i n hn
          cases ho1
          refine ⟨rfl, rfl, ?_, ?_⟩
          · intro k hk
            simp only [List.mem_cons, List.not_mem_nil, or_false, not_or] at hk
            simp [Dict.set, hk]
          · intro b' n' hb'
            have hb2 : b.2 = some (n' + 1) := by rw [Option.some.inj hb']
            rw [hb2] at hn
            simp only [Option.some.injEq, Nat.succ_eq_add_one, Nat.add_right_cancel_iff] at hn
            rw [hn]
            simp [Dict.set] at hv ⊢
            rw [hv]; rfl
        · cases ho1
  obtain ⟨c1, c2, c3, c4⟩ := hcfg
  split at h
  · cases h
  cases h
  refine ⟨_, rfl, ?_, ?_, ?_⟩
  · intro k hk
    simp only [List.mem_cons, List.not_mem_nil, or_false, not_or] at hk
    simp only [Dict.set, Dict.update, c1, c2]
    rw [if_neg hk.2.2.2.2]
    congr 1
    split
    · simp only [Dict.set, hk, if_false]; exact c3 k (by simp [hk])
    · exact c3 k (by simp [hk])
  · intro hh
    simp only [Dict.set, Dict.update, c1, c2, hh, Option.none_or]
    rw [if_neg (by decide), c3 _ (by decide)]
    split
    · simp [Dict.set]
    · exact c3 _ (by decide)
  · intro hh b n hb
    simp only [Dict.set, Dict.update, c1, c2, hh, Option.none_or]
    rw [if_neg (by decide), c3 _ (by decide)]
    split
    · simp only [Dict.set, show ("batch_size" = "loss_fn") = False by simp, if_false]; exact c4 b n hb
    · exact c4 b n hb

/-- C58, violated for the default `cov_ema_decay`: whenever it is not passed and covariances are updated every `n ≥ 2`
steps, the original uses 0.95 and the restored optimizer 0.95 to the power of `n`. -/
theorem C58_cov_ema_decay_counterexample (unique unique' : String) (args : Dict) (o o' : KOpt)
    (hi : init unique args = .ok o) (hi' : init unique' (getConfig o) = .ok o')
    (h1 : args "cov_ema_decay" = none) (n : ℤ) (hn : 2 ≤ n) (h2 : args "cov_update_every" = some (.int n))
    (collection vars lossFn : Val) (batch : Option (Val × Option ℕ)) (d d' : Dict)
    (hd : create o collection vars lossFn batch = .ok d) (hd' : create o' collection vars lossFn batch = .ok d') :
    d "cov_ema_decay" = some (.float 0.95) ∧ d' "cov_ema_decay" = some (.float (0.95 ^ n)) ∧
      d "cov_ema_decay" ≠ d' "cov_ema_decay" := by
  obtain ⟨P, rfl, hP, -⟩ := create_ok hd
  obtain ⟨P', rfl, hP', -⟩ := create_ok hd'
  have a1 : P "cov_ema_decay" = none := by
    rw [hP _ (by decide), init_hyper hi (by decide), init_kwargs hi (by decide) (by decide) (by decide), h1]; rfl
  have a2 : P' "cov_ema_decay" = some (.float 0.95) := by
    rw [hP' _ (by decide), init_hyper hi' (by decide), init_kwargs hi' (by decide) (by decide) (by decide),
      init_config hi (by decide) (by decide) (by decide), h1]
    simp [defaults, Dict.lit]
  have a3 : P' "cov_update_every" = some (.int n) := by
    rw [hP' _ (by decide), init_hyper hi' (by decide), init_kwargs hi' (by decide) (by decide) (by decide),
      init_config hi (by decide) (by decide) (by decide), h2]
    simp
  have e1 : effective P "cov_ema_decay" = some (.float 0.95) := by
    simp [effective, a1, defaults, Dict.lit]
  have e2 : effective P' "cov_ema_decay" = some (.float (0.95 ^ n)) := by
    simp [effective, a2, a3, power]
  refine ⟨e1, e2, ?_⟩
  rw [e1, e2]
  intro h
  simp only [Option.some.injEq, Val.float.injEq] at h
  obtain ⟨m, rfl⟩ : ∃ m : ℕ, n = (m + 2 : ℕ) := ⟨(n - 2).toNat, by omega⟩
  rw [zpow_natCast] at h
  have : (0.95 : ℝ) ^ (m + 2) < 0.95 := by
    have h1 : (0.95 : ℝ) ^ (m + 1) < 1 := pow_lt_one₀ (by norm_num) (by norm_num) (by omega)
    rw [pow_succ]
    nlinarith
  linarith

/-- C58, violated for the generated loss function of adaptive damping: the restored optimizer has none. -/
theorem C58_loss_fn_counterexample (unique unique' : String) (args : Dict) (o o' : KOpt)
    (hi : init unique args = .ok o) (hi' : init unique' (getConfig o) = .ok o')
    (h1 : args "loss_fn" = none) (h2 : (o.config.get "adapt_damping").truthy = true)
    (collection vars lossFn : Val) (batch : Option (Val × Option ℕ)) (d d' : Dict)
    (hd : create o collection vars lossFn batch = .ok d) (hd' : create o' collection vars lossFn batch = .ok d') :
    d "loss_fn" = some lossFn ∧ d' "loss_fn" = some .none := by
  obtain ⟨P, rfl, -, hP, -⟩ := create_ok hd
  obtain ⟨P', rfl, -, hP', -⟩ := create_ok hd'
  have a0 : o.kwargs "loss_fn" = none := by rw [init_kwargs hi (by decide) (by decide) (by decide), h1]
  have a1 : P "loss_fn" = some lossFn := by rw [hP (init_hyper hi (by decide)), a0]; simp [h2]
  have a2 : o'.kwargs "loss_fn" = some .none := by
    rw [init_kwargs hi' (by decide) (by decide) (by decide), init_config hi (by decide) (by decide) (by decide), h1]
    simp [defaults, Dict.lit, lookup_cons']
  have a3 : P' "loss_fn" = some .none := by rw [hP' (init_hyper hi' (by decide)), a2]; simp
  simp [effective, a1, a3]

/-- C58, violated for the inferred batch size: the restored optimizer does not infer it. -/
theorem C58_batch_size_counterexample (unique unique' : String) (args : Dict) (o o' : KOpt)
    (hi : init unique args = .ok o) (hi' : init unique' (getConfig o) = .ok o')
    (h1 : args "batch_size" = none) (collection vars lossFn b : Val) (n : ℕ) (d d' : Dict)
    (hd : create o collection vars lossFn (some (b, some (n + 1))) = .ok d)
    (hd' : create o' collection vars lossFn (some (b, some (n + 1))) = .ok d') :
    d "batch_size" = some (.int (n + 1)) ∧ d' "batch_size" = some .none := by
  obtain ⟨P, rfl, -, -, hP⟩ := create_ok hd
  obtain ⟨P', rfl, -, -, hP'⟩ := create_ok hd'
  have a0 : o.kwargs "batch_size" = none := by rw [init_kwargs hi (by decide) (by decide) (by decide), h1]
  have a1 : P "batch_size" = some (.int (n + 1)) := by rw [hP (init_hyper hi (by decide)) b n rfl, a0]; rfl
  have a2 : o'.kwargs "batch_size" = some .none := by
    rw [init_kwargs hi' (by decide) (by decide) (by decide), init_config hi (by decide) (by decide) (by decide), h1]
    simp [defaults, Dict.lit, lookup_cons']
  have a3 : P' "batch_size" = some .none := by rw [hP' (init_hyper hi' (by decide)) b n rfl, a2]; rfl
  simp [effective, a1, a3]

/-- C58, violated for instances of loss classes: their configuration is taken for a dictionary of losses, so that
restoring raises. -/
theorem C58_class_loss_counterexample (unique unique' : String) (args : Dict) (o : KOpt) (cls : String)
    (config : List (String × Val)) (hi : init unique args = .ok o) (hl : args.get "loss" = .inst cls config) (o' : KOpt) :
    init unique' (getConfig o) ≠ .ok o' := by
  intro hi'
  obtain ⟨K, loss, q, hm, rfl⟩ := (init_iff _ _ _).1 hi
  obtain ⟨K', loss', q', hm', rfl⟩ := (init_iff _ _ _).1 hi'
  have h1 := hm.serialized
  rw [hl] at h1
  simp [serializeLoss, Val.truthy, lossesSerialize] at h1
  subst h1
  have h2 := hm'.serialized
  have h3 : getConfig ⟨moveLoss K, startConfig args K (.dict [("class_name", .str cls), ("config", .dict config)]),
      hypersOf (startConfig args K (.dict [("class_name", .str cls), ("config", .dict config)])) q⟩ "loss" =
      some (.dict [("class_name", .str cls), ("config", .dict config)]) := by
    simp only [getConfig, Dict.update]
    rw [hypersOf_mutable (by decide), startConfig_eq]; simp
  simp only [Dict.get, h3, Option.getD_some] at h2
  simp [serializeLoss, Val.truthy, lossesSerialize, serializeOne, List.mapM_cons, Except.map, bind, Except.bind] at h2

/-- C58, violated for the momentum types `qmodel...` without a momentum (the default is the fixed momentum of
`qmodel_fixedmu`): restoring raises. -/
theorem C58_fixed_momentum_counterexample (unique unique' : String) (args : Dict) (o : KOpt)
    (hi : init unique args = .ok o) (h1 : args "momentum" = none) (h2 : (args.get "adaptive").truthy = false)
    (h3 : startsQmodel (args.get "momentum_type") = .ok true) (o' : KOpt) :
    init unique' (getConfig o) ≠ .ok o' := by
  intro hi'
  obtain ⟨K, loss, q, hm, rfl⟩ := (init_iff _ _ _).1 hi
  obtain ⟨K', loss', q', hm', rfl⟩ := (init_iff _ _ _).1 hi'
  have hmt : ∃ v, args "momentum_type" = some v ∧ startsQmodel v = .ok true := by
    cases hv : args "momentum_type" with
    | none => simp [Dict.get, hv, startsQmodel] at h3
    | some v => exact ⟨v, rfl, by simpa [Dict.get, hv] using h3⟩
  obtain ⟨v, hv, hvq⟩ := hmt
  have hKf : ∀ k, k ∉ ["use_passed_loss", "update_damping_immediately", "invert_every", "damping_adaptation_interval"] →
      K k = startKw unique args k := by
    intro k hk
    rw [configure_ok hm.configured, configureDamping_other hk, h2]; rfl
  have hKm : K "momentum" = none := by rw [hKf _ (by decide), startKw_eq]; simp [named, h1]
  have hKt : K "momentum_type" = some v := by rw [hKf _ (by decide), startKw_eq]; simp [named, hv]
  have hq : q = true := by
    have := hm.qmodel
    simp only [Dict.get, startConfig_eq, hKt] at this
    simp at this
    rw [hvq] at this
    cases this; rfl
  subst hq
  set G := getConfig ⟨moveLoss K, startConfig args K loss, hypersOf (startConfig args K loss) true⟩ with hG
  have hGm : G "momentum" = some (.float 0.9) := by
    have e1 : hypersOf (startConfig args K loss) true "momentum" = none := by
      rw [hypersOf, if_neg (by simp)]
    simp only [hG, getConfig, Dict.update, e1, Option.none_or]
    rw [startConfig_eq, hKm]
    simp [defaults, Dict.lit, lookup_cons']
  have hGt : G "momentum_type" = some v := by
    simp only [hG, getConfig, Dict.update]
    rw [hypersOf_mutable (by decide), startConfig_eq, hKt]
    simp
  have hGa : (G.get "adaptive").truthy = false := by
    simp only [hG, getConfig, Dict.get, Dict.update]
    rw [hypersOf_mutable (by decide), startConfig_eq, configured_dropped hm.configured (k := "adaptive") (by decide)]
    simp [defaults, Dict.lit, lookup_cons', Val.truthy]
  obtain ⟨q1, hq1, hq2⟩ := configure_checks hm'.configured
  have hKf' : ∀ k, k ∉ ["use_passed_loss", "update_damping_immediately", "invert_every", "damping_adaptation_interval"] →
      K' k = startKw unique' G k := by
    intro k hk
    rw [configure_ok hm'.configured, configureDamping_other hk, hGa]; rfl
  have hKt' : K' "momentum_type" = some v := by rw [hKf' _ (by decide), startKw_eq]; simp [named, hGt]
  have hKm' : K' "momentum" = some (.float 0.9) := by rw [hKf' _ (by decide), startKw_eq]; simp [named, hGm]
  rw [hKt', Option.getD_some, hvq] at hq1
  cases hq1
  have := (hq2 rfl).2
  simp only [Dict.get, hKm', Option.getD_some, Val.truthy] at this
  norm_num at this

/-- Simple arguments are accepted. -/
theorem init_of {unique : String} {args : Dict} (h1 : (args.get "_sentinel").truthy = false) (h2 : args.get "damping" ≠ .none)
    (h3 : args "clipvalue" = none) (h4 : args "clipnorm" = none) (h5 : (args.get "adaptive").truthy = false)
    (h6 : args "momentum_type" = none ∨ args "momentum_type" = some (.str "adam")) (h7 : (args.get "loss") = .none) :
    ∃ o, init unique args = .ok o := by
  have hq1 : isQmodel (lower "regular") = false := by decide
  have hq2 : isQmodel (lower "adam") = false := by decide
  have hK : configure (startKw unique args) (args.get "adaptive").truthy = .ok (configureDamping (startKw unique args)) := by
    rw [h5]
    have : startKw unique args "momentum_type" = args "momentum_type" := by rw [startKw_eq]; simp [named]
    rcases h6 with h6 | h6 <;> simp [configure, this, h6, startsQmodel, hq1, hq2]
  have ht : configureDamping (startKw unique args) "momentum_type" = args "momentum_type" := by
    rw [configureDamping_other (by decide), startKw_eq]; simp [named]
  refine ⟨_, (init_iff _ _ _).2 ⟨_, .none, false, ⟨h1, h2, h3, h4, hK, ?_, ?_⟩, rfl⟩⟩
  · rw [h7]; simp [serializeLoss, Val.truthy]
  · simp only [Dict.get, startConfig_eq, ht]
    rcases h6 with h6 | h6 <;> simp [h6, defaults, Dict.lit, lookup_cons', startsQmodel, hq2]

theorem init_adapt {unique : String} {args : Dict} {o : KOpt} (hi : init unique args = .ok o)
    (ha : (args.get "adaptive").truthy = false) : o.config "adapt_damping" = (args "adapt_damping").or (some (.bool false)) := by
  obtain ⟨K, loss, q, hm, rfl⟩ := (init_iff _ _ _).1 hi
  simp only [startConfig_eq]
  rw [configure_ok hm.configured, configureDamping_other (by decide), ha]
  simp [startKw_eq, named, defaults, Dict.lit, lookup_cons']

/-- An optimizer with covariance updates every third step, restored: the hypotheses of
`C58_cov_ema_decay_counterexample`. -/
example : ∃ o o' d d', init "kfac" (Dict.lit [("learning_rate", .float 1), ("damping", .float 1), ("cov_update_every", .int 3)]) =
    .ok o ∧ init "kfac_1" (getConfig o) = .ok o' ∧ create o (.obj 0) (.obj 1) (.obj 2) none = .ok d ∧
    create o' (.obj 0) (.obj 1) (.obj 2) none = .ok d' ∧ d "cov_ema_decay" = some (.float 0.95) ∧
    d' "cov_ema_decay" = some (.float (0.95 ^ (3 : ℤ))) := by
  set args := Dict.lit [("learning_rate", .float 1), ("damping", .float 1), ("cov_update_every", .int 3)] with hargs
  have ha : ∀ k, k ∉ ["learning_rate", "damping", "cov_update_every"] → args k = none := by
    intro k hk
    simp only [List.mem_cons, List.not_mem_nil, or_false, not_or] at hk
    simp [hargs, Dict.lit, lookup_cons', hk]
  obtain ⟨o, ho⟩ := init_of (unique := "kfac") (args := args) (by simp [Dict.get, ha, Val.truthy])
    (by simp [hargs, Dict.get, Dict.lit, lookup_cons']) (ha _ (by decide)) (ha _ (by decide))
    (by simp [Dict.get, ha, Val.truthy]) (.inl (ha _ (by decide))) (by simp [Dict.get, ha])
  have hK : ∃ K, Made "kfac" args K .none false ∧
      o = ⟨moveLoss K, startConfig args K .none, hypersOf (startConfig args K .none) false⟩ ∧ K = startKw "kfac" args := by
    obtain ⟨K, loss, q, hm, rfl⟩ := (init_iff _ _ _).1 ho
    have hl := hm.serialized
    simp [Dict.get, ha, serializeLoss, Val.truthy] at hl
    subst hl
    have hKe : K = startKw "kfac" args := by
      have := configure_ok hm.configured
      simp only [Dict.get, ha _ (show "adaptive" ∉ _ by decide), Option.getD_none, Val.truthy, Bool.false_eq_true, if_false] at this
      rw [this, configureDamping, if_neg]
      simp [Dict.get, startKw_eq, named, ha, Val.truthy]
    have hq := hm.qmodel
    have hq2 : isQmodel (lower "adam") = false := by decide
    rw [hKe] at hq
    simp [Dict.get, startConfig_eq, startKw_eq, named, ha, defaults, Dict.lit, lookup_cons', startsQmodel, hq2] at hq
    subst hq
    exact ⟨K, hm, rfl, hKe⟩
  obtain ⟨K, hm, hoe, hKe⟩ := hK
  have hG : ∀ k, k ∉ mutableHypers → getConfig o k = startConfig args K .none k := by
    intro k hk
    subst hoe
    simp only [getConfig, Dict.update, hypersOf_mutable hk, Option.none_or]
  obtain ⟨o', ho'⟩ := init_of (unique := "kfac_1") (args := getConfig o)
    (by rw [Dict.get, hG _ (by decide), startConfig_eq, hKe, startKw_eq]; simp [named, defaults, Dict.lit, lookup_cons', Val.truthy])
    (by
      subst hoe
      simp [getConfig, Dict.get, Dict.update, hypersOf, mutableHypers, startConfig_eq, hKe, startKw_eq, named, hargs, Dict.lit,
        lookup_cons', defaults, Val.truthy])
    (by rw [hG _ (by decide), startConfig_eq, hKe, startKw_eq]; simp [named, defaults, Dict.lit, lookup_cons', ha])
    (by rw [hG _ (by decide), startConfig_eq, hKe, startKw_eq]; simp [named, defaults, Dict.lit, lookup_cons', ha])
    (by rw [Dict.get, hG _ (by decide), startConfig_eq, hKe, startKw_eq]; simp [named, defaults, Dict.lit, lookup_cons', Val.truthy])
    (by rw [hG _ (by decide), startConfig_eq, hKe, startKw_eq]; simp [named, defaults, Dict.lit, lookup_cons', ha])
    (by rw [Dict.get, hG _ (by decide), startConfig_eq]; simp)
  have hcreate : ∀ (x : KOpt), (x.config.get "adapt_damping").truthy = false →
      ∃ d, create x (.obj 0) (.obj 1) (.obj 2) none = .ok d := by
    intro x hx
    exact ⟨effective (((x.kwargs.set "var_list" (.obj 1)).update x.hyper).set "layer_collection" (.obj 0)), by
      simp only [create, attachBatch, hx, Bool.false_and, Bool.false_eq_true, if_false]⟩
  have hc1 := init_adapt ho (by simp [Dict.get, ha, Val.truthy])
  rw [ha _ (by decide)] at hc1
  obtain ⟨d, hd⟩ := hcreate o (by simp [Dict.get, hc1, Val.truthy])
  have hc2 := init_adapt ho'
    (by rw [Dict.get, hG _ (by decide), startConfig_eq, hKe, startKw_eq]; simp [named, defaults, Dict.lit, lookup_cons', Val.truthy])
  have hGd : getConfig o "adapt_damping" = some (.bool false) := by
    simp only [getConfig, Dict.update, init_hyper ho (show "adapt_damping" ∉ mutableHypers by decide), hc1]; rfl
  rw [hGd] at hc2
  obtain ⟨d', hd'⟩ := hcreate o' (by simp [Dict.get, hc2, Val.truthy])
  obtain ⟨e1, e2, -⟩ := C58_cov_ema_decay_counterexample _ _ _ _ _ ho ho' (ha _ (by decide)) 3 (by decide)
    (by simp [hargs, Dict.lit, lookup_cons']) _ _ _ _ _ _ hd hd'
  exact ⟨o, o', d, d', ho, ho', hd, hd', e1, e2⟩

/-- The hypotheses of `C58_restored_partial` with a train batch. -/
example : ∃ o, init "kfac" (Dict.lit [("learning_rate", .float 1), ("damping", .float 1), ("momentum", .float 0.8),
    ("cov_update_every", .int 3), ("cov_ema_decay", .float 0.9), ("batch_size", .int 7)]) = .ok o ∧
    ∃ o', init "kfac_1" (getConfig o) = .ok o' ∧
      create o' (.obj 0) (.obj 1) (.obj 2) (some (.obj 3, none)) = create o (.obj 0) (.obj 1) (.obj 2) (some (.obj 3, none)) := by
  set args := Dict.lit [("learning_rate", .float 1), ("damping", .float 1), ("momentum", .float 0.8),
    ("cov_update_every", .int 3), ("cov_ema_decay", .float 0.9), ("batch_size", .int 7)] with hargs
  have ha : ∀ k, k ∉ ["learning_rate", "damping", "momentum", "cov_update_every", "cov_ema_decay", "batch_size"] →
      args k = none := by
    intro k hk
    simp only [List.mem_cons, List.not_mem_nil, or_false, not_or] at hk
    simp [hargs, Dict.lit, lookup_cons', hk]
  obtain ⟨o, ho⟩ := init_of (unique := "kfac") (args := args) (by simp [Dict.get, ha, Val.truthy])
    (by simp [hargs, Dict.get, Dict.lit, lookup_cons']) (ha _ (by decide)) (ha _ (by decide))
    (by simp [Dict.get, ha, Val.truthy]) (.inl (ha _ (by decide))) (by simp [Dict.get, ha])
  refine ⟨o, ho, ?_⟩
  refine C58_restored_partial "kfac" "kfac_1" (by decide) args o ho o.hyper (fun _ => rfl) ?_
    (.inl (by simp [hargs, Dict.lit, lookup_cons'])) (.inl (by simp [hargs, Dict.lit, lookup_cons']))
    (.inl (by simp [Dict.get, ha, Val.truthy])) (by simp [Dict.get, ha, PlainLoss]) _ _ _ _
    (.inr (by simp [hargs, Dict.lit, lookup_cons']))
  intro k
  obtain ⟨K, loss, q, hm, rfl⟩ := (init_iff _ _ _).1 ho
  simp only [hypersOf]
  split
  · split
    · simp
    · rename_i hx
      exact hx
  · simp

end Kfac.Keras
