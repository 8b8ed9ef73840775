import Verif.Keras.Saving
import Verif.Keras.PropsConfig

/-! # C101: loading a saved model -/

namespace Kfac.Keras

variable {V : Type}

/-- The part of a structure at the end of a path of keys and indices. -/
inductive At : Val → List (String ⊕ ℕ) → Val → Prop
  | here (v : Val) : At v [] v
  | key {items : List (String × Val)} {k : String} {v w : Val} {p : List (String ⊕ ℕ)} (h : (k, v) ∈ items) (hp : At v p w) :
      At (.dict items) (.inl k :: p) w
  | index {items : List Val} {i : ℕ} {v w : Val} {p : List (String ⊕ ℕ)} (h : items[i]? = some v) (hp : At v p w) :
      At (.list items) (.inr i :: p) w

/-- Neither a dictionary nor a list. -/
def Leaf : Val → Prop
  | .dict _ => False
  | .list _ => False
  | _ => True

theorem mapItems_eq (f : Val → Val) (l : List (String × Val)) : mapItems f l = l.map fun e => (e.1, mapStructure f e.2) := by
  induction l with
  | nil => simp [mapItems]
  | cons e l ih => simp [mapItems, ih]

theorem mapVals_eq (f : Val → Val) (l : List Val) : mapVals f l = l.map (mapStructure f) := by
  induction l with
  | nil => simp [mapVals]
  | cons e l ih => simp [mapVals, ih]

theorem at_map (f : Val → Val) {v w : Val} {p : List (String ⊕ ℕ)} (h : At v p w) (hw : Leaf w) : At (mapStructure f v) p (f w) := by
  induction h with
  | here v =>
    have : mapStructure f v = f v := by cases v <;> simp_all [mapStructure, Leaf]
    rw [this]
    exact .here _
  | @key items k v w p hk hp ih =>
    rw [mapStructure, mapItems_eq]
    exact .key (List.mem_map.mpr ⟨(k, v), hk, rfl⟩) (ih hw)
  | @index items i v w p hi hp ih =>
    rw [mapStructure, mapVals_eq]
    exact .index (by rw [List.getElem?_map, hi]; rfl) (ih hw)

/-- A successful run of the part inside `try`. -/
theorem loadBody_ok {w : World V} {custom : Dict} {name : Option String} {f : Saved V} {r : Loaded V}
    (h : loadBody w custom name f = .ok r) : ∃ t, f.trainingConfig = some t ∧ compileArgs w.known w.unique custom t = .ok r.args := by
  unfold loadBody at h
  split at h
  · cases h
  · rename_i t ht
    refine ⟨t, ht, ?_⟩
    split at h
    · cases h
    · rename_i a ha
      rw [ha]
      dsimp only at h
      split at h
      · obtain rfl := Except.ok.inj h; rfl
      · split at h
        · cases h
        · split at h <;> · obtain rfl := Except.ok.inj h; rfl

theorem compileArgs_ok {known : String → Bool} {unique : String} {custom : Dict} {t : TrainingConfig} {a : CompileArgs}
    (h : compileArgs known unique custom t = .ok a) : t.optimizerClass = "Kfac" ∧ init unique t.optimizerConfig = .ok a.optimizer ∧
      ∃ loss, lossConfig known t.loss = .ok loss ∧ a.loss = mapStructure (lookupCustom custom) loss ∧
        a.metrics = mapStructure (lookupCustom custom) t.metrics ∧
        a.weightedMetrics = mapStructure (lookupCustom custom) t.weightedMetrics ∧ a.lossWeights = t.lossWeights ∧
        a.sampleWeightMode = t.sampleWeightMode := by
  unfold compileArgs at h
  split at h
  · rename_i hc
    split at h
    · cases h
    · rename_i o ho
      split at h
      · cases h
      · rename_i loss hl
        obtain rfl := Except.ok.inj h
        exact ⟨hc, ho, loss, hl, rfl, rfl, rfl, rfl, rfl⟩
  · cases h

/-- C101: the model is compiled with what was saved. Wherever the saved loss, metrics or weighted metrics name an object,
the custom object of that name is put, if there is one, and everything else is kept; a loss class of Keras is restored. -/
theorem C101_compiled (w : World V) (path : Bool) (custom : Option (List (String × Val))) (name : Option String) (f : Saved V)
    (r : Loaded V) (h : (loadModel w path custom name f).result = .ok r) : ∃ t, f.trainingConfig = some t ∧
      r.args.lossWeights = t.lossWeights ∧ r.args.sampleWeightMode = t.sampleWeightMode ∧
      (∀ p n, At t.metrics p (.str n) → n ≠ "Kfac" → At r.args.metrics p (((custom.getD []).lookup n).getD (.str n))) ∧
      (∀ p n, At t.weightedMetrics p (.str n) → n ≠ "Kfac" → At r.args.weightedMetrics p (((custom.getD []).lookup n).getD (.str n))) ∧
      ((∀ items, t.loss = .dict items → items.lookup "class_name" = none) →
        ∀ p n, At t.loss p (.str n) → n ≠ "Kfac" → At r.args.loss p (((custom.getD []).lookup n).getD (.str n))) ∧
      (∀ cls config, t.loss = .dict [("class_name", .str cls), ("config", .dict config)] → r.args.loss = .inst cls config) := by
  have hb : loadBody w (customDict custom) name f = .ok r := by
    unfold loadModel at h
    cases hm : f.model with
    | error e => rw [hm] at h; cases h
    | ok u => rw [hm] at h; exact h
  obtain ⟨t, ht, ha⟩ := loadBody_ok hb
  obtain ⟨-, -, loss, hl, h1, h2, h3, h4, h5⟩ := compileArgs_ok ha
  have hc : ∀ n, n ≠ "Kfac" → lookupCustom (customDict custom) (.str n) = ((custom.getD []).lookup n).getD (.str n) := by
    intro n hn
    have : (n == "Kfac") = false := by simpa using hn
    simp [lookupCustom, customDict, Dict.lit, List.lookup_cons, this]
  refine ⟨t, ht, h4, h5, fun p n hp hn => ?_, fun p n hp hn => ?_, fun hd p n hp hn => ?_, fun cls config hd => ?_⟩
  · rw [h2, ← hc n hn]; exact at_map _ hp trivial
  · rw [h3, ← hc n hn]; exact at_map _ hp trivial
  · have : loss = t.loss := by
      cases htl : t.loss with
      | dict items =>
        rw [htl] at hl
        simp only [lossConfig, hd items htl, Option.isSome_none, Bool.false_eq_true, if_false] at hl
        exact (Except.ok.inj hl).symm
      | _ => rw [htl] at hl; exact (Except.ok.inj hl).symm
    rw [h1, this, ← hc n hn]; exact at_map _ hp trivial
  · rw [hd] at hl
    have e1 : List.lookup "class_name" [("class_name", Val.str cls), ("config", Val.dict config)] = some (.str cls) := rfl
    have e2 : List.lookup "config" [("class_name", Val.str cls), ("config", Val.dict config)] = some (.dict config) := rfl
    simp only [lossConfig, lossesGet, e1, e2, Option.isSome_some, if_true] at hl
    split at hl
    · obtain rfl := Except.ok.inj hl
      rw [h1]; rfl
    · cases hl

/-- Changing the name of an optimizer changes nothing else in the optimizer it creates. -/
theorem create_setName {o : KOpt} {collection vars lossFn : Val} {d : Dict} (n : String) (hn : o.hyper "name" = none)
    (h : create o collection vars lossFn none = .ok d) :
    create (setName o n) collection vars lossFn none = .ok (d.set "name" (.str n)) := by
  have hne : ∀ k, k ≠ "name" → (setName o n).kwargs k = o.kwargs k := fun k hk => by simp [setName, Dict.set, hk]
  have hcf : (setName o n).config.get "adapt_damping" = o.config.get "adapt_damping" := by
    simp [setName, Dict.get, Dict.set]
  unfold create at h ⊢
  simp only [attachBatch] at h ⊢
  have e1 : ∀ X : Dict, (X.set "var_list" vars) "train_batch" = X "train_batch" := fun X => by simp [Dict.set]
  have e2 : ∀ X : Dict, (X.set "var_list" vars) "loss_fn" = X "loss_fn" := fun X => by simp [Dict.set]
  simp only [hcf, e1, e2, hne "train_batch" (by decide), hne "loss_fn" (by decide)] at h ⊢
  split at h
  · cases h
  · rename_i h1
    rw [if_neg h1]
    obtain rfl := Except.ok.inj h
    congr 1
    have key : ∀ (X Y : Dict), (∀ k, Y k = if k = "name" then some (.str n) else X k) → ∀ k,
        effective Y k = (Dict.set (effective X) "name" (.str n)) k := by
      intro X Y hXY k
      by_cases hk : k = "name"
      · subst hk; simp [effective, Dict.set, hXY]
      · simp [effective, Dict.set, hXY, hk]
    funext k
    refine key _ _ (fun k => ?_) k
    by_cases hk : k = "name"
    · subst hk
      split <;> simp [Dict.set, Dict.update, hn, setName]
    · by_cases h2 : ((o.config.get "adapt_damping").truthy && (o.kwargs "loss_fn").isNone) = true
      · simp only [h2, if_true]
        simp [Dict.set, Dict.update, hk, setName]
      · simp only [h2]
        simp [Dict.set, Dict.update, hk, setName]

/-- The name asked for, if there is one. -/
def renamed (name : Option String) (d : Dict) : Dict := if name.getD "" = "" then d else d.set "name" (.str (name.getD ""))

/-- C101 (partial): after loading, training continues where it was when the model was saved. The optimizer has the settings
of the saved one (but for the name, if one is given) with the hyperparameters' current values, and all its variables have
the saved values, for optimizers without adaptive damping whose configuration can be restored (see C58) and losses that are
functions (missing: adaptive damping, see `C101_adaptive_counterexample`; what C58 misses). -/
theorem C101_resumed_partial (w : World V) (path : Bool) (custom : Option (List (String × Val))) (name : Option String)
    (unique : String) (hu : unique ≠ "") (args : Dict) (o : KOpt) (hi : init unique args = .ok o) (h : Dict)
    (hh : ∀ k, (h k).isSome = (o.hyper k).isSome) (hh' : ∀ k, h k ≠ some .none)
    (hcov : (args "cov_ema_decay").isSome ∨ args "cov_update_every" = none ∨ args "cov_update_every" = some (.int 1))
    (hmom : (args "momentum").isSome ∨ startsQmodel ((args "momentum_type").getD (.str "adam")) = .ok false)
    (hfn : (args.get "adapt_damping").truthy = false ∧ (args.get "adaptive").truthy = false)
    (hloss : PlainLoss (args.get "loss")) (settings : Dict)
    (hs : create { o with hyper := h } w.collection w.vars w.lossFn none = .ok settings) (vals : List V)
    (hvals : vals.map w.shape = (w.fresh (renamed name settings)).map w.shape)
    (t : TrainingConfig) (ht : t.optimizerClass = "Kfac") (hto : t.optimizerConfig = getConfig { o with hyper := h })
    (htl : ∀ items, t.loss = .dict items → items.lookup "class_name" = none) :
    ∃ r, (loadModel w path custom name ⟨.ok (), some t, some vals⟩).result = .ok r ∧
      r.built = some (renamed name settings, vals) := by
  obtain ⟨o', h1, h2⟩ := C58_restored_partial unique w.unique hu args o hi h hh hh' hcov (hmom.imp id .inr) (.inl hfn) hloss
    w.collection w.vars w.lossFn none (.inl rfl)
  rw [hs] at h2
  have hl : lossConfig w.known t.loss = .ok t.loss := by
    cases htl' : t.loss with
    | dict items => simp [lossConfig, htl items htl']
    | _ => rfl
  have hname : o'.hyper "name" = none := by
    exact init_hyper h1 (by decide)
  have ha : compileArgs w.known w.unique (customDict custom) t = .ok
      { optimizer := o'
        loss := mapStructure (lookupCustom (customDict custom)) t.loss
        metrics := mapStructure (lookupCustom (customDict custom)) t.metrics
        weightedMetrics := mapStructure (lookupCustom (customDict custom)) t.weightedMetrics
        lossWeights := t.lossWeights
        sampleWeightMode := t.sampleWeightMode } := by
    rw [compileArgs, if_pos ht, hto, h1]
    simp only [hl]
  have hcr : create (withName name o') w.collection w.vars w.lossFn none = .ok (renamed name settings) := by
    cases name with
    | none => simpa [renamed, withName] using h2
    | some n =>
      by_cases hn : n = ""
      · simpa [renamed, withName, hn] using h2
      · simpa [renamed, withName, hn] using create_setName n hname h2
  simp only [loadModel, loadBody, ha, hcr, setWeights, hvals, if_true]
  exact ⟨_, rfl, rfl⟩

/-- C101: a saved model whose optimizer adapts the damping cannot be loaded: the train function is built before a train batch
can be registered. -/
theorem C101_adaptive_counterexample (w : World V) (path : Bool) (custom : Option (List (String × Val))) (name : Option String)
    (unique : String) (args : Dict) (o : KOpt) (hi : init unique args = .ok o)
    (had : (o.config.get "adapt_damping").truthy = true) (t : TrainingConfig) (hto : t.optimizerConfig = getConfig o)
    (vals : List V) : ∃ e, (loadModel w path custom name ⟨.ok (), some t, some vals⟩).result = .error e := by
  cases ha : compileArgs w.known w.unique (customDict custom) t with
  | error e => exact ⟨e, by simp [loadModel, loadBody, ha]⟩
  | ok a =>
    obtain ⟨-, h1, -⟩ := compileArgs_ok ha
    rw [hto] at h1
    have hg : getConfig o "adapt_damping" = o.config "adapt_damping" := by
      obtain ⟨K, loss, q, hm, rfl⟩ := (init_iff _ _ _).1 hi
      simp only [getConfig, Dict.update, hypersOf_mutable (show "adapt_damping" ∉ mutableHypers by decide), Option.none_or]
    have htr : (a.optimizer.config.get "adapt_damping").truthy = true := by
      obtain ⟨K, loss, q, hm, ho⟩ := (init_iff _ _ _).1 h1
      have hc : a.optimizer.config "adapt_damping" = (K "adapt_damping").or (defaults "adapt_damping") := by
        rw [ho]; simp [startConfig_eq]
      have hK := configure_ok hm.configured
      have hK' := congrFun hK "adapt_damping"
      rw [configureDamping_other (by decide)] at hK'
      have hkw : startKw w.unique (getConfig o) "adapt_damping" = o.config "adapt_damping" := by
        rw [startKw_eq, ← hg]; simp [named]
      have hsome : ∃ v, o.config "adapt_damping" = some v ∧ v.truthy = true := by
        cases hx : o.config "adapt_damping" with
        | some v => exact ⟨v, rfl, by simpa [Dict.get, hx] using had⟩
        | none => simp [Dict.get, hx, Val.truthy] at had
      obtain ⟨v, hv, hvt⟩ := hsome
      rw [Dict.get, hc, hK']
      split
      · simp [Dict.update, adaptiveKwargs_eq, Val.truthy]
      · simp [hkw, hv, hvt]
    have key : ∀ o' : KOpt, o'.config.get "adapt_damping" = a.optimizer.config.get "adapt_damping" →
        o'.kwargs "train_batch" = none → ∃ e, create o' w.collection w.vars w.lossFn none = .error e := by
      intro o' hc hk
      refine ⟨"ValueError: Must provide a train_batch tuple", ?_⟩
      unfold create
      have h3 : (o'.config.get "adapt_damping").truthy = true := by rw [hc]; exact htr
      simp [attachBatch, h3, Dict.set, hk]
    have hkw : a.optimizer.kwargs "train_batch" = none := by
      obtain ⟨K, loss, q, hm, ho⟩ := (init_iff _ _ _).1 h1
      rw [ho]
      show moveLoss K "train_batch" = none
      rw [show (moveLoss K) "train_batch" = K "train_batch" by rw [moveLoss_eq]; simp]
      exact configured_dropped hm.configured (by decide)
    have hall : ∃ e, create (withName name a.optimizer) w.collection w.vars w.lossFn none = .error e := by
      cases name with
      | none => exact key _ rfl hkw
      | some n =>
        by_cases hn : n = ""
        · simpa [withName, hn] using key _ rfl hkw
        · simp only [withName, hn, if_false]
          exact key _ (by simp [setName, Dict.get, Dict.set]) (by simpa [setName, Dict.set] using hkw)
    obtain ⟨e, he⟩ := hall
    exact ⟨e, by simp only [loadModel, loadBody, ha, he]⟩

/-- C101: a loss that is a class of the user's own cannot be restored even if it is among the custom objects. -/
theorem C101_custom_loss_counterexample (w : World V) (path : Bool) (cls : String) (config : List (String × Val)) (v : Val)
    (hk : w.known cls = false) (name : Option String) (t : TrainingConfig)
    (hl : t.loss = .dict [("class_name", .str cls), ("config", .dict config)]) (weights : Option (List V)) :
    ∃ e, (loadModel w path (some [(cls, v)]) name ⟨.ok (), some t, weights⟩).result = .error e := by
  cases h : (loadModel w path (some [(cls, v)]) name ⟨.ok (), some t, weights⟩).result with
  | error e => exact ⟨e, rfl⟩
  | ok r =>
    exfalso
    obtain ⟨t', ht', ha⟩ := loadBody_ok (show loadBody w (customDict (some [(cls, v)])) name ⟨.ok (), some t, weights⟩ = .ok r from h)
    obtain rfl := Option.some.inj ht'
    obtain ⟨-, -, loss, hl', -⟩ := compileArgs_ok ha
    rw [hl] at hl'
    have e1 : List.lookup "class_name" [("class_name", Val.str cls), ("config", Val.dict config)] = some (.str cls) := rfl
    have e2 : List.lookup "config" [("class_name", Val.str cls), ("config", Val.dict config)] = some (.dict config) := rfl
    simp [lossConfig, lossesGet, e1, e2, hk] at hl'

/-- C101 (partial): a file that `load_model` opened is closed, whatever fails later, if Keras could read the model (missing:
see `C101_leak_counterexample`); a file passed in is never closed. -/
theorem C101_closed_partial (w : World V) (path : Bool) (custom : Option (List (String × Val))) (name : Option String)
    (f : Saved V) (h : f.model = .ok () ∨ path = false) : (loadModel w path custom name f).leftOpen = false := by
  unfold loadModel
  cases hm : f.model with
  | error e => rcases h with h | h
               · rw [hm] at h; cases h
               · exact h
  | ok u => rfl

/-- C101: if Keras cannot read the model, the file stays open. -/
theorem C101_leak_counterexample (w : World V) (custom : Option (List (String × Val))) (name : Option String) (f : Saved V)
    (e : String) (h : f.model = .error e) :
    (loadModel w true custom name f).leftOpen = true ∧ (loadModel w true custom name f).result = .error e := by
  simp [loadModel, h]

/-- C101: a model saved without having been compiled is rejected. -/
theorem C101_not_compiled (w : World V) (path : Bool) (custom : Option (List (String × Val))) (name : Option String)
    (f : Saved V) (hm : f.model = .ok ()) (h : f.trainingConfig = none) :
    ∃ e, (loadModel w path custom name f).result = .error e := by
  simp [loadModel, loadBody, hm, h]

/-- C101: saved variables that do not fit (another number or other shapes) are ignored as a whole; those that fit are used. -/
theorem C101_all_or_nothing (w : World V) (path : Bool) (custom : Option (List (String × Val))) (name : Option String)
    (f : Saved V) (r : Loaded V) (h : (loadModel w path custom name f).result = .ok r) (settings : Dict) (vals : List V)
    (hb : r.built = some (settings, vals)) :
    vals.map w.shape = (w.fresh settings).map w.shape ∧ ∃ saved, f.optimizerWeights = some saved ∧
      (saved.map w.shape = (w.fresh settings).map w.shape → vals = saved) ∧
      (saved.map w.shape ≠ (w.fresh settings).map w.shape → vals = w.fresh settings) := by
  have hb' : loadBody w (customDict custom) name f = .ok r := by
    unfold loadModel at h
    cases hm : f.model with
    | error e => rw [hm] at h; cases h
    | ok u => rw [hm] at h; exact h
  unfold loadBody at hb'
  split at hb'
  · cases hb'
  · split at hb'
    · cases hb'
    · dsimp only at hb'
      split at hb'
      · obtain rfl := Except.ok.inj hb'; cases hb
      · rename_i vs hvs
        split at hb'
        · cases hb'
        · split at hb'
          · rename_i hset
            obtain rfl := Except.ok.inj hb'
            cases hb
            unfold setWeights at hset
            split at hset
            · cases hset
            · rename_i hne
              exact ⟨rfl, vs, hvs, fun h => absurd h hne, fun _ => rfl⟩
          · rename_i vs' hset
            obtain rfl := Except.ok.inj hb'
            cases hb
            unfold setWeights at hset
            split at hset
            · rename_i heq
              obtain rfl := Except.ok.inj hset; exact ⟨heq, vs, hvs, fun _ => rfl, fun h => absurd heq h⟩
            · cases hset

/-- C101: the caller's dictionary of custom objects gets an entry "Kfac" (replacing their own), unless it is empty. -/
theorem C101_caller_counterexample (w : World V) (path : Bool) (k : String) (v : Val) (hk : k ≠ "Kfac") (name : Option String)
    (f : Saved V) : (loadModel w path (some [(k, v)]) name f).custom = some [("Kfac", kfacClass), (k, v)] := by
  have : (loadModel w path (some [(k, v)]) name f).custom = addKfac (some [(k, v)]) := by
    unfold loadModel; cases f.model <;> rfl
  rw [this]
  simp [addKfac, hk]

/-- An optimizer with a momentum and a nested list of metrics, loaded under a new name with two variables. -/
example : ∃ o settings r, init "kfac" (Dict.lit [("learning_rate", .float 1), ("damping", .float 1), ("momentum", .float 0.8)]) =
      .ok o ∧ create o (.obj 0) (.obj 1) (.obj 2) none = .ok settings ∧
    (loadModel (⟨fun _ => false, "kfac_1", .obj 0, .obj 1, .obj 2, fun l => [l.length], fun _ => [[0, 0], [0]]⟩ : World (List ℕ)) true
      (some [("mine", .func "mine")]) (some "new") ⟨.ok (), some ⟨"Kfac", getConfig o, .str "mse",
        .list [.list [.str "acc", .str "mine"]], .none, .none, .none⟩, some [[1, 2], [3]]⟩).result = .ok r ∧
      r.built = some (settings.set "name" (.str "new"), [[1, 2], [3]]) ∧
      At r.args.metrics [.inr 0, .inr 1] (.func "mine") ∧ At r.args.metrics [.inr 0, .inr 0] (.str "acc") := by
  set args := Dict.lit [("learning_rate", .float 1), ("damping", .float 1), ("momentum", .float 0.8)] with hargs
  have ha : ∀ k, k ∉ ["learning_rate", "damping", "momentum"] → args k = none := by
    intro k hk
    simp only [List.mem_cons, List.not_mem_nil, or_false, not_or] at hk
    simp [hargs, Dict.lit, lookup_cons', hk]
  obtain ⟨o, ho⟩ := init_of (unique := "kfac") (args := args) (by simp [Dict.get, ha, Val.truthy])
    (by simp [hargs, Dict.get, Dict.lit, lookup_cons']) (ha _ (by decide)) (ha _ (by decide))
    (by simp [Dict.get, ha, Val.truthy]) (.inl (ha _ (by decide))) (by simp [Dict.get, ha])
  have hcfg : (o.config.get "adapt_damping").truthy = false := by
    obtain ⟨K, loss, q, hm, rfl⟩ := (init_iff _ _ _).1 ho
    have hK := congrFun (configure_ok hm.configured) "adapt_damping"
    rw [configureDamping_other (by decide)] at hK
    simp only [Dict.get, ha _ (show "adaptive" ∉ _ by decide), Option.getD_none, Val.truthy, Bool.false_eq_true, if_false,
      startKw_eq, ha _ (show "adapt_damping" ∉ _ by decide)] at hK
    have hK' : K "adapt_damping" = none := by simpa [named] using hK
    simp [Dict.get, startConfig_eq, hK', defaults, Dict.lit, lookup_cons', Val.truthy]
  have hs : ∃ settings, create o (.obj 0) (.obj 1) (.obj 2) none = .ok settings := by
    unfold create
    simp only [attachBatch, hcfg, Bool.false_and, Bool.false_eq_true, if_false]
    exact ⟨_, rfl⟩
  obtain ⟨settings, hs⟩ := hs
  have hne : ∀ k, o.hyper k ≠ some .none := by
    intro k
    obtain ⟨K, loss, q, hm, rfl⟩ := (init_iff _ _ _).1 ho
    exact hypersOf_ne_none _ _ _
  obtain ⟨r, hr, hb⟩ := C101_resumed_partial
    (⟨fun _ => false, "kfac_1", .obj 0, .obj 1, .obj 2, fun l => [l.length], fun _ => [[0, 0], [0]]⟩ : World (List ℕ)) true
    (some [("mine", .func "mine")]) (some "new") "kfac" (by decide) args o ho o.hyper (fun _ => rfl) hne
    (.inr (.inl (ha _ (by decide)))) (.inl (by simp [hargs, Dict.lit, lookup_cons'])) (by simp [Dict.get, ha, Val.truthy])
    (by simp [Dict.get, ha, PlainLoss]) settings hs [[1, 2], [3]] rfl ⟨"Kfac", getConfig o, .str "mse",
        .list [.list [.str "acc", .str "mine"]], .none, .none, .none⟩ rfl rfl (by simp)
  obtain ⟨t, ht, -, -, hm, -⟩ := C101_compiled _ _ _ _ _ _ hr
  obtain rfl := Option.some.inj ht
  refine ⟨o, settings, r, ho, hs, hr, by simpa [renamed] using hb, ?_, ?_⟩
  · exact hm _ "mine" (.index rfl (.index rfl (.here _))) (by decide)
  · exact hm _ "acc" (.index rfl (.index rfl (.here _))) (by decide)

end Kfac.Keras
