import Verif.Reg.Props

/-! # Properties of the layer collection: losses, approximations, use counts, links (C29–C32) -/

namespace Kfac.Reg

/-! ## C29 -/

/-- The name under which a loss is registered: the user's, if given and nonempty, else the graph's. -/
def chosenName : Option String → String → String
  | some n, graphName => if n = "" then graphName else n
  | none, graphName => graphName

/-- The successful loss registrations of a history, in order: name and coefficient. -/
def lossEvents (g : Var → Nat) : LC → List Op → List (String × ℚ)
  | _, [] => []
  | lc, op :: ops =>
    (match op, (step g lc op).2 with
      | .loss n gn c _, .ok _ => [(chosenName n gn, c)]
      | _, _ => []) ++ lossEvents g (step g lc op).1 ops

/-- Positions (creation numbers) of the losses registered under a name. -/
def positions (ev : List (String × ℚ)) (n : String) : List Nat :=
  (List.range ev.length).filter fun i => decide ((ev[i]?).map (·.1) = some n)

theorem positions_append (ev : List (String × ℚ)) (e : String × ℚ) (n : String) :
    positions (ev ++ [e]) n = positions ev n ++ if e.1 = n then [ev.length] else [] := by
  unfold positions
  rw [List.length_append, List.length_singleton, List.range_succ, List.filter_append]
  congr 1
  · apply List.filter_congr
    intro i hi
    rw [List.getElem?_append_left (by simpa using hi)]
  · by_cases h : e.1 = n <;> simp [h]

theorem positions_eq_nil {ev : List (String × ℚ)} {n : String} :
    positions ev n = [] ↔ ∀ e ∈ ev, e.1 ≠ n := by
  unfold positions
  rw [List.filter_eq_nil_iff]
  constructor
  · intro h e he hn
    obtain ⟨i, hi, rfl⟩ := List.mem_iff_getElem.1 he
    exact h i (by simpa using hi) (by simp [hi, hn])
  · intro h i hi hc
    have hi' : i < ev.length := by simpa using hi
    simp only [List.getElem?_eq_getElem hi', Option.map_some, Option.some.injEq, decide_eq_true_eq] at hc
    exact h _ (List.getElem_mem hi') hc

/-- `registerLoss` with the name resolved. -/
theorem registerLoss_eq (lc : LC) (n : Option String) (gn : String) (c : ℚ) (r : ReuseArg) :
    registerLoss lc n gn c r =
      if lc.finalized then (lc, .error "ValueError: You cannot register additional losses or layers")
      else if r.resolve ≠ .no then
        match lookup lc.lossDict (chosenName n gn) with
        | none => (lc, .error "KeyError: Unable to find loss function")
        | some losses =>
          if (losses.head?.bind (lookup lc.lossCoeffs)) ≠ some c then
            (lc, .error "ValueError: Reused loss function's coeff didn't match")
          else
            ({ lc with lossDict := upsert lc.lossDict (chosenName n gn) (losses ++ [lc.nextLoss])
                       lossCoeffs := upsert lc.lossCoeffs lc.nextLoss c
                       nextLoss := lc.nextLoss + 1 }, .ok ())
      else if chosenName n gn ∈ lc.lossDict.map (·.1) then
        (lc, .error "KeyError: Loss function already exists")
      else
        ({ lc with lossDict := upsert lc.lossDict (chosenName n gn) [lc.nextLoss]
                   lossCoeffs := upsert lc.lossCoeffs lc.nextLoss c
                   nextLoss := lc.nextLoss + 1 }, .ok ()) := by
  cases n <;> rfl

/-- The invariant that links the state with the successful registrations. -/
structure LossInv (lc : LC) (ev : List (String × ℚ)) : Prop where
  next : lc.nextLoss = ev.length
  nodup : (lc.lossDict.map (·.1)).Nodup
  dict : ∀ n, lookup lc.lossDict n = if positions ev n = [] then none else some (positions ev n)
  coeff : ∀ i e, ev[i]? = some e → lookup lc.lossCoeffs i = some e.2
  same : ∀ e ∈ ev, ∀ e' ∈ ev, e.1 = e'.1 → e.2 = e'.2

theorem LossInv.append {lc : LC} {ev : List (String × ℚ)} (h : LossInv lc ev) (nm : String) (c : ℚ)
    (hc : ∀ e ∈ ev, e.1 = nm → e.2 = c) {d : List (String × List Nat)}
    (hd : d = upsert lc.lossDict nm (positions ev nm ++ [ev.length])) (fin : Bool) :
    LossInv { lc with lossDict := d, lossCoeffs := upsert lc.lossCoeffs lc.nextLoss c
                      nextLoss := lc.nextLoss + 1, finalized := fin } (ev ++ [(nm, c)]) := by
  subst hd
  refine ⟨by simp [h.next], nodup_upsert h.nodup _ _, ?_, ?_, ?_⟩
  · intro n
    simp only [lookup_upsert, positions_append]
    by_cases hn : n = nm
    · subst hn; simp
    · rw [if_neg hn, h.dict]
      simp [Ne.symm hn]
  · intro i e he
    simp only [lookup_upsert, h.next]
    rcases Nat.lt_trichotomy i ev.length with hi | hi | hi
    · rw [List.getElem?_append_left hi] at he
      rw [if_neg (by omega), h.coeff i e he]
    · subst hi
      simp only [List.getElem?_concat_length, Option.some.injEq] at he
      subst he
      simp
    · rw [List.getElem?_eq_none (by simp; omega)] at he
      exact absurd he (by simp)
  · intro e he e' he' hne
    simp only [List.mem_append, List.mem_singleton] at he he'
    rcases he with he | rfl <;> rcases he' with he' | rfl
    · exact h.same e he e' he' hne
    · exact hc e he hne
    · exact (hc e' he' hne.symm).symm
    · rfl

theorem LossInv.head {lc : LC} {ev : List (String × ℚ)} (h : LossInv lc ev) {nm : String}
    {ls : List Nat} (hl : lookup lc.lossDict nm = some ls) :
    ls = positions ev nm ∧ ∃ c, (ls.head?.bind (lookup lc.lossCoeffs)) = some c ∧
      (∀ e ∈ ev, e.1 = nm → e.2 = c) ∧ ∃ e ∈ ev, e.1 = nm := by
  rw [h.dict] at hl
  split at hl
  · exact absurd hl (by simp)
  rename_i hp
  simp only [Option.some.injEq] at hl
  refine ⟨hl.symm, ?_⟩
  obtain ⟨i, rest, hir⟩ := List.exists_cons_of_ne_nil hp
  have himem : i ∈ positions ev nm := by rw [hir]; simp
  unfold positions at himem
  rw [List.mem_filter] at himem
  obtain ⟨hi, hin⟩ := himem
  have hi' : i < ev.length := by simpa using hi
  simp only [List.getElem?_eq_getElem hi', Option.map_some, Option.some.injEq, decide_eq_true_eq] at hin
  refine ⟨ev[i].2, ?_, ?_, ev[i], List.getElem_mem hi', hin⟩
  · rw [← hl, hir]
    simp only [List.head?_cons, Option.bind_some]
    exact h.coeff i _ (List.getElem?_eq_getElem hi')
  · intro e he hen
    exact h.same e he _ (List.getElem_mem hi') (hen.trans hin.symm)

theorem LossInv.step {lc : LC} {ev : List (String × ℚ)} (h : LossInv lc ev) (g : Var → Nat) (op : Op) :
    LossInv (step g lc op).1 (ev ++ (match op, (step g lc op).2 with
      | .loss n gn c _, .ok _ => [(chosenName n gn, c)]
      | _, _ => [])) := by
  have hsame : ∀ lc' : LC, lc'.lossDict = lc.lossDict → lc'.lossCoeffs = lc.lossCoeffs →
      lc'.nextLoss = lc.nextLoss → LossInv lc' ev := by
    intro lc' h1 h2 h3
    exact ⟨by rw [h3, h.next], by rw [h1]; exact h.nodup, by rw [h1]; exact h.dict,
      by rw [h2]; exact h.coeff, h.same⟩
  have hreg : ∀ (l l' : LC) k s r, registerBlock l k s r = .ok l' →
      l'.lossDict = l.lossDict ∧ l'.lossCoeffs = l.lossCoeffs ∧ l'.nextLoss = l.nextLoss := by
    intro l l' k s r hr
    rcases (registerBlock_ok hr).2 with ⟨rfl, _⟩ | ⟨_, _, _, bs, _, rfl⟩ <;> exact ⟨rfl, rfl, rfl⟩
  have hlayer : ∀ (l : LC) c, (runLayer l c).1.lossDict = l.lossDict ∧
      (runLayer l c).1.lossCoeffs = l.lossCoeffs ∧ (runLayer l c).1.nextLoss = l.nextLoss := by
    intro l c
    unfold runLayer
    split
    · exact ⟨rfl, rfl, rfl⟩
    · split
      · exact ⟨rfl, rfl, rfl⟩
      · rename_i l1 hr
        have := hreg _ _ _ _ _ hr
        split
        · exact this
        · split <;> exact this
  cases op with
  | layer op =>
    obtain ⟨h1, h2, h3⟩ := hlayer lc (op.call lc)
    simp only [List.append_nil]
    exact hsame _ h1 h2 h3
  | separable d p f i m o a r =>
    simp only [List.append_nil]
    obtain ⟨h1, h2, h3⟩ := hlayer lc ((LayerOp.depthwise d f i m (some "diagonal") r).call lc)
    simp only [Reg.step, registerSeparable]
    split
    · rename_i lc1 e hr
      rw [hr] at h1 h2 h3
      exact hsame _ h1 h2 h3
    · rename_i lc1 u hr
      rw [hr] at h1 h2 h3
      obtain ⟨i1, i2, i3⟩ := hlayer lc1 ((LayerOp.conv2d p [1, 1, 1, 1] f m o a r).call lc1)
      exact hsame _ (i1.trans h1) (i2.trans h2) (i3.trans h3)
  | setDefault t v =>
    simp only [List.append_nil, Reg.step, setDefault]
    split <;> exact hsame _ rfl rfl rfl
  | link p a =>
    simp only [List.append_nil, Reg.step, link]
    repeat' split
    all_goals exact hsame _ rfl rfl rfl
  | finalize =>
    simp only [List.append_nil, Reg.step, finalize]
    repeat' split
    all_goals exact hsame _ rfl rfl rfl
  | checkRegistration vs =>
    simp only [List.append_nil, Reg.step, checkRegistration]
    repeat' split
    all_goals exact hsame _ rfl rfl rfl
  | loss n gn c r =>
    simp only [Reg.step, registerLoss_eq]
    by_cases hf : lc.finalized = true
    · simp only [hf, if_true, List.append_nil]; exact h
    simp only [hf, Bool.false_eq_true, if_false]
    by_cases hr : r.resolve = .no
    · simp only [hr, ne_eq, not_true_eq_false, if_false]
      by_cases hm : chosenName n gn ∈ lc.lossDict.map (·.1)
      · simp only [hm, if_true, List.append_nil]; exact h
      · simp only [hm, if_false]
        have hl := (lookup_eq_none lc.lossDict (chosenName n gn)).2 hm
        have hpos : positions ev (chosenName n gn) = [] := by
          by_contra hp
          rw [h.dict, if_neg hp] at hl
          exact absurd hl (by simp)
        apply h.append
        · intro e he hen
          exact absurd hen (positions_eq_nil.1 hpos e he)
        · rw [hpos, h.next]; rfl
    · simp only [hr, ne_eq, not_false_eq_true, if_true]
      cases hl : lookup lc.lossDict (chosenName n gn) with
      | none => simp only [List.append_nil]; exact h
      | some ls =>
        obtain ⟨hls, c0, hc0, hall, _⟩ := h.head hl
        simp only
        by_cases hcc : (ls.head?.bind (lookup lc.lossCoeffs)) = some c
        · simp only [hcc, not_true_eq_false, if_false]
          have : c0 = c := by rw [hc0] at hcc; exact Option.some.inj hcc
          subst this
          apply h.append
          · exact hall
          · rw [hls, h.next]
        · simp only [hcc, not_false_eq_true, if_true, List.append_nil]; exact h

theorem lossInv_runAll {lc : LC} {ev : List (String × ℚ)} (h : LossInv lc ev) (g : Var → Nat)
    (ops : List Op) : LossInv (runAll g lc ops) (ev ++ lossEvents g lc ops) := by
  induction ops generalizing lc ev with
  | nil => simpa [lossEvents, runAll] using h
  | cons op ops ih =>
    have := ih (h.step g op)
    rw [List.append_assoc] at this
    exact this

theorem lossInv_init : LossInv LC.init [] :=
  ⟨rfl, by simp [LC.init], by intro n; rfl, by simp, by simp⟩

theorem lossInv_reachable (g : Var → Nat) (ops : List Op) :
    LossInv (runAll g LC.init ops) (lossEvents g LC.init ops) := by
  simpa using lossInv_runAll lossInv_init g ops

/-- After any history the towers of a name are exactly the losses successfully registered under it, in
registration order, and every name in the dictionary has at least one; every loss has the coefficient it was
registered with, and all losses of one name have the same. -/
theorem C29_towers (g : Var → Nat) (ops : List Op) :
    let lc := runAll g LC.init ops
    let ev := lossEvents g LC.init ops
    (lc.lossDict.map (·.1)).Nodup ∧
    (∀ n ts, (n, ts) ∈ lc.lossDict ↔ ts = positions ev n ∧ ts ≠ []) ∧
    (∀ i e, ev[i]? = some e → lookup lc.lossCoeffs i = some e.2) ∧
    (∀ e ∈ ev, ∀ e' ∈ ev, e.1 = e'.1 → e.2 = e'.2) := by
  intro lc ev
  have h : LossInv lc ev := lossInv_reachable g ops
  refine ⟨h.nodup, ?_, h.coeff, h.same⟩
  intro n ts
  constructor
  · intro hm
    have := lookup_of_mem h.nodup hm
    rw [h.dict] at this
    split at this
    · exact absurd this (by simp)
    · rename_i hp
      simp only [Option.some.injEq] at this
      exact ⟨this.symm, this ▸ hp⟩
  · rintro ⟨rfl, hp⟩
    apply mem_of_lookup
    rw [h.dict, if_neg hp]

/-- The outcome of a loss registration on a collection that is not finalised, in terms of the history. With
reuse (`True` or `AUTO_REUSE`) an unknown name and a different coefficient are rejected, and otherwise the loss
becomes the last tower of its name; without reuse a known name is rejected and a new one registered. A
rejected call changes nothing. Missing for the full claim: `AUTO_REUSE` does not register new names, see
`C29_auto_reuse_counterexample`. -/
theorem C29_outcome_partial (g : Var → Nat) (ops : List Op) (n : Option String) (gn : String) (c : ℚ)
    (r : ReuseArg) (hf : (runAll g LC.init ops).finalized = false) :
    let lc := runAll g LC.init ops
    let ev := lossEvents g LC.init ops
    let nm := chosenName n gn
    let res := step g lc (.loss n gn c r)
    ((r.resolve ≠ .no ∧ ∀ e ∈ ev, e.1 ≠ nm) → (∃ e, res = (lc, .error e))) ∧
    ((r.resolve ≠ .no ∧ ∃ e ∈ ev, e.1 = nm ∧ e.2 ≠ c) → (∃ e, res = (lc, .error e))) ∧
    ((r.resolve = .no ∧ ∃ e ∈ ev, e.1 = nm) → (∃ e, res = (lc, .error e))) ∧
    ((r.resolve ≠ .no ∧ ∃ e ∈ ev, e.1 = nm ∧ e.2 = c) → res.2 = .ok () ∧
      lookup res.1.lossDict nm = some (positions ev nm ++ [ev.length])) ∧
    ((r.resolve = .no ∧ ∀ e ∈ ev, e.1 ≠ nm) → res.2 = .ok () ∧
      lookup res.1.lossDict nm = some [ev.length]) := by
  intro lc ev nm res
  have h : LossInv lc ev := lossInv_reachable g ops
  have hres : res = registerLoss lc n gn c r := rfl
  have hf' : lc.finalized = false := hf
  rw [registerLoss_eq, if_neg (by rw [hf']; simp)] at hres
  have hmem : nm ∈ lc.lossDict.map (·.1) ↔ ∃ e ∈ ev, e.1 = nm := by
    rw [← lookup_isSome, h.dict]
    constructor
    · intro hs
      by_contra hc
      rw [if_pos (positions_eq_nil.2 (fun e he hn => hc ⟨e, he, hn⟩))] at hs
      exact absurd hs (by simp)
    · rintro ⟨e, he, hn⟩
      rw [if_neg (fun hp => positions_eq_nil.1 hp e he hn)]
      rfl
  have hnone : (∀ e ∈ ev, e.1 ≠ nm) → lookup lc.lossDict nm = none := fun hall => by
    rw [h.dict, if_pos (positions_eq_nil.2 hall)]
  have hsome : (∃ e ∈ ev, e.1 = nm) → lookup lc.lossDict nm = some (positions ev nm) := by
    rintro ⟨e, he, hn⟩
    rw [h.dict, if_neg (fun hp => positions_eq_nil.1 hp e he hn)]
  refine ⟨?_, ?_, ?_, ?_, ?_⟩
  · rintro ⟨hr, hall⟩
    rw [if_pos hr, hnone hall] at hres
    exact ⟨_, hres⟩
  · rintro ⟨hr, e, he, hn, hne⟩
    have hl := hsome ⟨e, he, hn⟩
    obtain ⟨_, c0, hc0, hall, _⟩ := h.head hl
    rw [if_pos hr, hl] at hres
    simp only [hc0, ne_eq, Option.some.injEq] at hres
    rw [if_pos (by rw [← hall e he hn]; exact hne)] at hres
    exact ⟨_, hres⟩
  · rintro ⟨hr, hex⟩
    rw [if_neg (by simp [hr]), if_pos (hmem.2 hex)] at hres
    exact ⟨_, hres⟩
  · rintro ⟨hr, e, he, hn, heq⟩
    have hl := hsome ⟨e, he, hn⟩
    obtain ⟨_, c0, hc0, hall, _⟩ := h.head hl
    rw [if_pos hr, hl] at hres
    simp only [hc0, ne_eq, Option.some.injEq] at hres
    rw [if_neg (by rw [← hall e he hn]; simpa using heq)] at hres
    rw [hres]
    exact ⟨rfl, by
      change lookup (upsert lc.lossDict nm _) nm = _
      rw [lookup_upsert, if_pos rfl, h.next]⟩
  · rintro ⟨hr, hall⟩
    rw [if_neg (by simp [hr]), if_neg (fun hm => by obtain ⟨e, he, hn⟩ := hmem.1 hm; exact hall e he hn)] at hres
    rw [hres]
    exact ⟨rfl, by
      change lookup (upsert lc.lossDict nm _) nm = _
      rw [lookup_upsert, if_pos rfl, h.next]⟩

/-- Under `AUTO_REUSE` (here: from the variable scope) the first registration of a loss is rejected. -/
theorem C29_auto_reuse_counterexample (g : Var → Nat) (n : Option String) (gn : String) (c : ℚ) :
    step g LC.init (.loss n gn c (.variableScope .auto))
      = (LC.init, .error "KeyError: Unable to find loss function") := by
  cases n <;> rfl

/-- Two losses, one with two towers; a mismatching coefficient in between. -/
example :
    let s := runAll (fun _ => 1) LC.init [.loss (some "a") "g" 1 (.explicit .no),
      .loss none "squared_error_loss" 3 (.explicit .no), .loss (some "a") "g" 2 (.explicit .yes),
      .loss (some "a") "g" 1 (.variableScope .auto)]
    s.lossDict = [("a", [0, 2]), ("squared_error_loss", [1])] := by
  decide

/-! ## C30 -/

/-- The layer types whose approximation can be chosen. -/
def LayerOp.kind : LayerOp → Option LayerType
  | .fullyConnected .. => some .fullyConnected
  | .conv2d .. => some .conv2d
  | .generic .. => some .generic
  | .fullyConnectedMulti .. => some .fullyConnectedMulti
  | .conv2dMulti .. => some .conv2dMulti
  | .scaleAndShift .. => some .scaleAndShift
  | .conv1d .. | .convolution .. | .depthwise .. => none

/-- The explicit approximation argument. -/
def LayerOp.approx : LayerOp → Option String
  | .fullyConnected _ _ _ a _ _ => a
  | .conv1d _ _ _ a _ => a
  | .conv2d _ _ _ _ _ a _ => a
  | .convolution _ _ _ a _ => a
  | .depthwise _ _ _ _ a _ => a
  | .generic _ _ a _ => a
  | .fullyConnectedMulti _ _ _ a _ _ => a
  | .conv2dMulti _ _ _ _ a _ => a
  | .scaleAndShift _ _ _ _ _ a _ => a

/-- The name used: explicit, else the approximation given when exactly these parameters were linked, else the
default of the layer type. -/
def UsesApprox (lc : LC) (op : LayerOp) (ty : LayerType) (a : String) : Prop :=
  op.approx = some a ∨
  (op.approx = none ∧ (op.params.vars.toFinset, some a) ∈ lc.linked) ∨
  (op.approx = none ∧ (∀ b, (op.params.vars.toFinset, some b) ∉ lc.linked) ∧ a = lc.defaults ty)

/-- Groups are linked at most once, and defaults are supported. -/
structure ApproxInv (lc : LC) : Prop where
  nodup : (lc.linked.map (·.1)).Nodup
  defaults : ∀ ty, lc.defaults ty ∈ (table ty).map (·.1)

theorem approxInv_runLayer {lc : LC} (c : LayerCall) :
    (runLayer lc c).1.linked = lc.linked ∧ (runLayer lc c).1.defaults = lc.defaults := by
  unfold runLayer
  split
  · exact ⟨rfl, rfl⟩
  · split
    · exact ⟨rfl, rfl⟩
    · rename_i l1 hr
      have : l1.linked = lc.linked ∧ l1.defaults = lc.defaults := by
        rcases (registerBlock_ok hr).2 with ⟨rfl, _⟩ | ⟨_, _, _, bs, _, rfl⟩ <;> exact ⟨rfl, rfl⟩
      split
      · exact this
      · split <;> exact this

/-- Only `link` changes the links, and only by adding a group; only `setDefault` changes the defaults. -/
theorem step_links (g : Var → Nat) (lc : LC) (op : Op) :
    ((step g lc op).1.linked = lc.linked ∨ ∃ p a, op = .link p a ∧
        (step g lc op).1.linked = upsert lc.linked p.vars.toFinset a) ∧
    ((step g lc op).1.defaults = lc.defaults ∨ ∃ ty v, op = .setDefault ty v ∧
        v ∈ (table ty).map (·.1) ∧
        (step g lc op).1.defaults = fun t => if t = ty then v else lc.defaults t) := by
  cases op with
  | layer op =>
    obtain ⟨h1, h2⟩ := approxInv_runLayer (lc := lc) (op.call lc)
    exact ⟨.inl h1, .inl h2⟩
  | separable d p f i m o a r =>
    obtain ⟨h1, h2⟩ := approxInv_runLayer (lc := lc) ((LayerOp.depthwise d f i m (some "diagonal") r).call lc)
    simp only [step, registerSeparable]
    split
    · rename_i hr
      rw [hr] at h1 h2
      exact ⟨.inl h1, .inl h2⟩
    · rename_i lc1 u hr
      rw [hr] at h1 h2
      obtain ⟨i1, i2⟩ := approxInv_runLayer (lc := lc1) ((LayerOp.conv2d p [1, 1, 1, 1] f m o a r).call lc1)
      exact ⟨.inl (i1.trans h1), .inl (i2.trans h2)⟩
  | loss n gn c r =>
    simp only [step, registerLoss]
    repeat' split
    all_goals exact ⟨.inl rfl, .inl rfl⟩
  | setDefault ty v =>
    simp only [step, setDefault]
    split
    · rename_i hv
      exact ⟨.inl rfl, .inr ⟨ty, v, rfl, hv, rfl⟩⟩
    · exact ⟨.inl rfl, .inl rfl⟩
  | link p a =>
    simp only [step, link]
    split
    · exact ⟨.inl rfl, .inl rfl⟩
    · split
      · exact ⟨.inl rfl, .inl rfl⟩
      · exact ⟨.inr ⟨p, a, rfl, rfl⟩, .inl rfl⟩
  | finalize =>
    simp only [step, finalize]
    repeat' split
    all_goals exact ⟨.inl rfl, .inl rfl⟩
  | checkRegistration vs =>
    simp only [step, checkRegistration]
    repeat' split
    all_goals exact ⟨.inl rfl, .inl rfl⟩

theorem ApproxInv.step {lc : LC} (h : ApproxInv lc) (g : Var → Nat) (op : Op) :
    ApproxInv (step g lc op).1 := by
  obtain ⟨h1, h2⟩ := step_links g lc op
  constructor
  · rcases h1 with h1 | ⟨p, a, _, h1⟩
    · rw [h1]; exact h.nodup
    · rw [h1]; exact nodup_upsert h.nodup _ _
  · intro ty
    rcases h2 with h2 | ⟨ty', v, _, hv, h2⟩
    · rw [h2]; exact h.defaults ty
    · rw [h2]
      simp only
      split
      · rename_i h; subst h; exact hv
      · exact h.defaults ty

theorem approxInv_reachable (g : Var → Nat) (ops : List Op) : ApproxInv (runAll g LC.init ops) := by
  have : ∀ lc, ApproxInv lc → ApproxInv (runAll g lc ops) := by
    induction ops with
    | nil => exact fun lc h => h
    | cons op ops ih => exact fun lc h => ih _ (h.step g op)
  exact this _ ⟨by simp [LC.init], by intro ty; cases ty <;> decide⟩

/-- After any history every default is a supported approximation; setting an unsupported default raises and
changes nothing, setting a supported one changes just that default. -/
theorem C30_defaults_supported (g : Var → Nat) (ops : List Op) :
    let lc := runAll g LC.init ops
    (∀ ty, lc.defaults ty ∈ (table ty).map (·.1)) ∧
    (∀ ty v, v ∉ (table ty).map (·.1) → ∃ e, step g lc (.setDefault ty v) = (lc, .error e)) ∧
    (∀ ty v, v ∈ (table ty).map (·.1) → (step g lc (.setDefault ty v)).2 = .ok () ∧
      (step g lc (.setDefault ty v)).1.defaults ty = v ∧
      ∀ ty', ty' ≠ ty → (step g lc (.setDefault ty v)).1.defaults ty' = lc.defaults ty') := by
  refine ⟨(approxInv_reachable g ops).defaults, ?_, ?_⟩
  · intro ty v hv
    simp only [step, setDefault, if_neg hv]
    exact ⟨_, rfl⟩
  · intro ty v hv
    simp only [step, setDefault, if_pos hv, if_true]
    exact ⟨trivial, trivial, fun ty' h => by simp [h]⟩

/-- Which name `_get_block_type` uses. -/
theorem getBlockType_spec {lc : LC} (h : ApproxInv lc) (op : LayerOp) (ty : LayerType) :
    ∃ a, UsesApprox lc op ty a ∧
      getBlockType lc ty op.params op.approx =
        match lookup (table ty) a with
        | some s => .ok (s, a)
        | none => .error "ValueError: Bad value for approx." := by
  unfold getBlockType
  cases ha : op.approx with
  | some a => exact ⟨a, .inl ha, rfl⟩
  | none =>
    cases hl : linkedApprox lc op.params with
    | some a =>
      refine ⟨a, .inr (.inl ⟨ha, ?_⟩), rfl⟩
      unfold linkedApprox at hl
      cases hk : lookup lc.linked op.params.vars.toFinset with
      | none => rw [hk] at hl; exact absurd hl (by simp)
      | some o =>
        rw [hk] at hl
        simp only [Option.join_some] at hl
        rw [hl] at hk
        exact mem_of_lookup hk
    | none =>
      refine ⟨lc.defaults ty, .inr (.inr ⟨ha, ?_, rfl⟩), rfl⟩
      intro b hb
      unfold linkedApprox at hl
      rw [lookup_of_mem h.nodup hb] at hl
      exact absurd hl (by simp)

/-- The approximation in use is unique. -/
theorem usesApprox_unique {lc : LC} (h : ApproxInv lc) {op : LayerOp} {ty : LayerType} {a b : String}
    (ha : UsesApprox lc op ty a) (hb : UsesApprox lc op ty b) : a = b := by
  rcases ha with h1 | ⟨h1, h2⟩ | ⟨h1, h2, h3⟩ <;> rcases hb with k1 | ⟨k1, k2⟩ | ⟨k1, k2, k3⟩
  · rw [h1] at k1; exact Option.some.inj k1
  · rw [h1] at k1; exact absurd k1 (by simp)
  · rw [h1] at k1; exact absurd k1 (by simp)
  · rw [h1] at k1; exact absurd k1 (by simp)
  · have e1 := lookup_of_mem h.nodup h2
    have e2 := lookup_of_mem h.nodup k2
    rw [e1] at e2
    exact Option.some.inj (Option.some.inj e2)
  · exact absurd h2 (k2 a)
  · rw [h1] at k1; exact absurd k1 (by simp)
  · exact absurd k2 (h2 b)
  · rw [h3, k3]

/-- `call` on a kind with a table goes through `_get_block_type`. -/
theorem call_block {lc : LC} {op : LayerOp} {ty : LayerType} (hk : op.kind = some ty) :
    (∀ s a, getBlockType lc ty op.params op.approx = .ok (s, a) →
      (op.call lc).block = .ok s ∨ ∃ e, (op.call lc).block = .error e) ∧
    (∀ e, getBlockType lc ty op.params op.approx = .error e → ∃ e', (op.call lc).block = .error e') := by
  cases op with
  | fullyConnected p i o a d r =>
    cases hk
    exact ⟨fun s a' h => .inl (by
        change (getBlockType lc .fullyConnected p a).map _ = _
        erw [h]; rfl),
      fun e h => ⟨e, by
        change (getBlockType lc .fullyConnected p a).map _ = _
        erw [h]; rfl⟩⟩
  | fullyConnectedMulti p i o a d r =>
    cases hk
    exact ⟨fun s a' h => .inl (by
        change (getBlockType lc .fullyConnectedMulti p a).map _ = _
        erw [h]; rfl),
      fun e h => ⟨e, by
        change (getBlockType lc .fullyConnectedMulti p a).map _ = _
        erw [h]; rfl⟩⟩
  | conv2d p st f i o a r =>
    cases hk
    simp only [LayerOp.call, LayerOp.params, LayerOp.approx]
    constructor
    · intro s a' h
      rw [h]
      split
      · simp only
        split
        · exact .inr ⟨_, rfl⟩
        · exact .inl rfl
      · exact .inr ⟨_, rfl⟩
    · intro e h
      rw [h]
      split <;> exact ⟨_, rfl⟩
  | generic p n a r =>
    cases hk
    simp only [LayerOp.call, LayerOp.params, LayerOp.approx]
    constructor
    · intro s a' h
      rw [h]
      simp only
      split
      · exact .inr ⟨_, rfl⟩
      · exact .inl rfl
    · intro e h
      rw [h]
      exact ⟨_, rfl⟩
  | conv2dMulti p f i o a r =>
    cases hk
    simp only [LayerOp.call, LayerOp.params, LayerOp.approx]
    constructor
    · intro s a' h
      rw [h]
      split
      · exact .inl rfl
      · exact .inr ⟨_, rfl⟩
    · intro e h
      rw [h]
      split <;> exact ⟨_, rfl⟩
  | scaleAndShift p i o si so a r =>
    cases hk
    simp only [LayerOp.call, LayerOp.params, LayerOp.approx]
    constructor
    · intro s a' h
      rw [h]
      split
      · exact .inr ⟨_, rfl⟩
      · exact .inl rfl
    · intro e h
      rw [h]
      split <;> exact ⟨_, rfl⟩
  | _ => simp [LayerOp.kind] at hk

/-- For every layer type with a choice of approximations there is exactly one name in use (explicit, else
linked, else default). If the table of the type does not contain it the call raises; a call that succeeds
requires that it does, and a newly built block is the one the table gives for that name. -/
theorem C30_precedence (g : Var → Nat) (ops : List Op) (op : LayerOp) (ty : LayerType)
    (hk : op.kind = some ty) :
    let lc := runAll g LC.init ops
    ∃ a, UsesApprox lc op ty a ∧ (∀ b, UsesApprox lc op ty b → b = a) ∧
      (a ∉ (table ty).map (·.1) → ∃ e, step g lc (.layer op) = (lc, .error e)) ∧
      (∀ lc', step g lc (.layer op) = (lc', .ok ()) → ∃ spec, (a, spec) ∈ table ty ∧
        (op.params ∉ lc.blocks.keys → lc'.blocks.get op.params = some ⟨spec, [givenData op]⟩)) := by
  intro lc
  have hinv : ApproxInv lc := approxInv_reachable g ops
  obtain ⟨a, hua, hgb⟩ := getBlockType_spec hinv op ty
  refine ⟨a, hua, fun b hb => usesApprox_unique hinv hb hua, ?_, ?_⟩
  · intro hna
    rw [(lookup_eq_none _ _).2 hna] at hgb
    obtain ⟨e', he'⟩ := (call_block hk).2 _ hgb
    simp only [step, runLayer, he']
    exact ⟨_, rfl⟩
  · intro lc' hok
    obtain ⟨s0, lc1, hs0, _⟩ := runLayer_ok hok
    cases hl : lookup (table ty) a with
    | none =>
      rw [hl] at hgb
      obtain ⟨e', he'⟩ := (call_block hk).2 _ hgb
      rw [hs0] at he'
      exact absurd he' (by simp)
    | some spec =>
      rw [hl] at hgb
      have hs : s0 = spec := by
        rcases (call_block hk).1 _ _ hgb with h | ⟨e, h⟩
        · rw [hs0] at h; exact Except.ok.inj h
        · rw [hs0] at h; exact absurd h (by simp)
      subst hs
      refine ⟨s0, mem_of_lookup hl, ?_⟩
      intro hnew
      rcases (runLayer_blocks (wf_reachable g ops) hok).2 with ⟨_, hp, _⟩ | ⟨_, _, spec', hsp, hget, _⟩
      · exact absurd hp hnew
      · rw [hs0] at hsp
        rw [← Except.ok.inj hsp] at hget
        exact hget

/-- The block a layer gets if nobody asks for an approximation. -/
def publishedDefault : LayerType → BlockSpec
  | .generic => { cls := "NaiveDiagonalFB" }
  | .fullyConnected => { cls := "FullyConnectedKFACBasicFB" }
  | .conv2d => { cls := "ConvKFCBasicFB" }
  | .fullyConnectedMulti => { cls := "FullyConnectedMultiIndepFB" }
  | .conv2dMulti => { cls := "ConvKFCBasicMultiIndepFB" }
  | .scaleAndShift => { cls := "ScaleAndShiftFullFB" }

/-- As long as no default has been set and nothing linked, a layer registered without an approximation gets the block
that is the default of its type. -/
theorem C30_initial (g : Var → Nat) (ops : List Op) (hops : ∀ o ∈ ops, (∀ ty v, o ≠ .setDefault ty v) ∧ ∀ p a, o ≠ .link p a)
    (op : LayerOp) (ty : LayerType) (hk : op.kind = some ty) (ha : op.approx = none) (lc' : LC)
    (hnew : op.params ∉ (runAll g LC.init ops).blocks.keys)
    (hok : step g (runAll g LC.init ops) (.layer op) = (lc', .ok ())) :
    lc'.blocks.get op.params = some ⟨publishedDefault ty, [givenData op]⟩ := by
  have hinit : ∀ ops lc, (∀ o ∈ ops, (∀ ty v, o ≠ .setDefault ty v) ∧ ∀ p a, o ≠ .link p a) →
      (runAll g lc ops).linked = lc.linked ∧ (runAll g lc ops).defaults = lc.defaults := by
    intro ops
    induction ops with
    | nil => exact fun lc _ => ⟨rfl, rfl⟩
    | cons o ops ih =>
      intro lc h
      obtain ⟨h1, h2⟩ := step_links g lc o
      obtain ⟨i1, i2⟩ := ih (step g lc o).1 fun o' ho' => h o' (List.mem_cons_of_mem _ ho')
      have ho := h o (List.mem_cons_self ..)
      refine ⟨i1.trans ?_, i2.trans ?_⟩
      · rcases h1 with h1 | ⟨p, a, e, -⟩
        · exact h1
        · exact absurd e (ho.2 p a)
      · rcases h2 with h2 | ⟨ty, v, e, -⟩
        · exact h2
        · exact absurd e (ho.1 ty v)
  obtain ⟨h1, h2⟩ := hinit ops LC.init hops
  obtain ⟨a, hu, -, -, hres⟩ := C30_precedence g ops op ty hk
  obtain ⟨spec, hspec, hget⟩ := hres lc' hok
  rw [hget hnew]
  rcases hu with h | ⟨-, h⟩ | ⟨-, -, rfl⟩
  · rw [ha] at h; exact absurd h (by simp)
  · rw [h1] at h; exact absurd h (by simp [LC.init])
  · rw [h2] at hspec
    cases ty <;> simp [LC.init, initialDefault, table] at hspec <;> rw [hspec] <;> rfl

/-- The three layer types with a single approximation accept only that one. -/
theorem C30_fixed_types (g : Var → Nat) (lc : LC) (op : LayerOp) (hk : op.kind = none) (a : String)
    (ha : op.approx = some a)
    (hbad : match op with | .depthwise .. => a ≠ "diagonal" | _ => a ≠ "kron") :
    ∃ e, step g lc (.layer op) = (lc, .error e) := by
  cases op with
  | conv1d p i o a' r =>
    simp only [LayerOp.approx] at ha hbad; subst ha
    simp [step, runLayer, LayerOp.call, hbad]
  | convolution p i o a' r =>
    simp only [LayerOp.approx] at ha hbad; subst ha
    simp [step, runLayer, LayerOp.call, hbad]
  | depthwise p f i o a' r =>
    simp only [LayerOp.approx] at ha hbad; subst ha
    simp [step, runLayer, LayerOp.call, hbad]
  | _ => exact absurd hk (by simp [LayerOp.kind])

/-- When a group is registered again with reuse, the block keeps the approximation of its first
registration; the explicit argument only has to name a block of the same Python class. -/
theorem C30_reuse_keeps_first (g : Var → Nat) (ops : List Op) (op : LayerOp) (lc' : LC) (b : Block)
    (hb : (runAll g LC.init ops).blocks.get op.params = some b)
    (hok : step g (runAll g LC.init ops) (.layer op) = (lc', .ok ())) :
    (lc'.blocks.get op.params).map (·.spec) = some b.spec := by
  rcases (runLayer_blocks (wf_reachable g ops) hok).2 with ⟨_, _, b', spec, hb', _, _, hget, _⟩ | ⟨_, hn, _⟩
  · rw [hb] at hb'
    rw [hget, Option.some.inj hb']
    rfl
  · exact absurd ((lookup_isSome _ _).1 (by unfold LPD.get at hb; rw [hb]; rfl)) hn

/-- A history with a linked approximation, a changed default and an explicit choice. -/
example :
    let w : Var := ⟨0, [4, 3]⟩
    let v : Var := ⟨1, [4, 3]⟩
    let u : Var := ⟨2, [4, 3]⟩
    let fc := fun x a => Op.layer (.fullyConnected (.single x) (.tensor 0) (.tensor 1) a true (.explicit .no))
    let s := runAll (fun _ => 1) LC.init [.link (.seq [w]) (some "kron_in_diag"),
      .setDefault .fullyConnected "diagonal", .setDefault .fullyConnected "full", fc w none, fc v none,
      fc u (some "kron_both_diag")]
    (s.blocks.get (.single w)).map (·.spec) = some { cls := "FullyConnectedKFACBasicFB", diagIn := true } ∧
    (s.blocks.get (.single v)).map (·.spec) = some { cls := "FullyConnectedDiagonalFB" } ∧
    (s.blocks.get (.single u)).map (·.spec)
      = some { cls := "FullyConnectedKFACBasicFB", diagIn := true, diagOut := true } := by
  decide

/-! ## C32 -/

/-- After any sequence of calls no variable is in two linked groups; links are never removed or changed, except
that of the empty group; a single variable is treated like a group of one. -/
theorem C32_disjoint (g : Var → Nat) (ops : List Op) :
    let lc := runAll g LC.init ops
    (∀ x ∈ lc.linked, ∀ y ∈ lc.linked, ∀ v, v ∈ x.1 → v ∈ y.1 → x = y) ∧
    (∀ ops' x, x ∈ lc.linked → x.1 ≠ ∅ → x ∈ (runAll g lc ops').linked) ∧
    (∀ v a, step g lc (.link (.single v) a) = step g lc (.link (.seq [v]) a)) := by
  have key : ∀ (lc : LC) op, ((∀ x ∈ lc.linked, ∀ y ∈ lc.linked, ∀ v, v ∈ x.1 → v ∈ y.1 → x = y)) →
      (∀ x ∈ (step g lc op).1.linked, ∀ y ∈ (step g lc op).1.linked, ∀ v, v ∈ x.1 → v ∈ y.1 → x = y) ∧
      (∀ x ∈ lc.linked, x.1 ≠ ∅ → x ∈ (step g lc op).1.linked) := by
    intro lc op h
    rcases (step_links g lc op).1 with h1 | ⟨p, a, rfl, h1⟩
    · rw [h1]; exact ⟨h, fun x hx _ => hx⟩
    · simp only [step, link] at h1 ⊢
      split at h1
      · rename_i hc; rw [if_pos hc]; exact ⟨h, fun x hx _ => hx⟩
      · rename_i hc
        rw [if_neg hc]
        split at h1
        · rename_i hc2; rw [if_pos hc2]; exact ⟨h, fun x hx _ => hx⟩
        · rename_i hc2
          rw [if_neg hc2]
          have hdis : ∀ x ∈ lc.linked, ∀ v, v ∈ x.1 → v ∉ p.vars.toFinset := by
            intro x hx v hv hvp
            apply hc2
            rw [List.any_eq_true]
            refine ⟨x, hx, ?_⟩
            rw [decide_eq_true_eq, ← Finset.nonempty_iff_ne_empty]
            exact ⟨v, Finset.mem_inter.2 ⟨hvp, hv⟩⟩
          have hmem : ∀ x, x ∈ upsert lc.linked p.vars.toFinset a →
              x = (p.vars.toFinset, a) ∨ x ∈ lc.linked := by
            intro x hx
            unfold upsert at hx
            split at hx
            · obtain ⟨e, he, rfl⟩ := List.mem_map.1 hx
              split
              · exact .inl rfl
              · exact .inr he
            · rcases List.mem_append.1 hx with hx | hx
              · exact .inr hx
              · exact .inl (by simpa using hx)
          constructor
          · intro x hx y hy v hvx hvy
            rcases hmem x hx with rfl | hx' <;> rcases hmem y hy with rfl | hy'
            · rfl
            · exact absurd hvx (hdis y hy' v hvy)
            · exact absurd hvy (hdis x hx' v hvx)
            · exact h x hx' y hy' v hvx hvy
          · intro x hx hne
            have hxne : x.1 ≠ p.vars.toFinset := by
              intro he
              obtain ⟨v, hv⟩ := Finset.nonempty_iff_ne_empty.2 hne
              exact hdis x hx v hv (he ▸ hv)
            simp only [upsert]
            split
            · exact List.mem_map.2 ⟨x, hx, by rw [if_neg hxne]⟩
            · exact List.mem_append_left _ hx
  have hrun : ∀ (ops : List Op) (lc : LC),
      ((∀ x ∈ lc.linked, ∀ y ∈ lc.linked, ∀ v, v ∈ x.1 → v ∈ y.1 → x = y)) →
      (∀ x ∈ (runAll g lc ops).linked, ∀ y ∈ (runAll g lc ops).linked, ∀ v, v ∈ x.1 → v ∈ y.1 → x = y) ∧
      (∀ x ∈ lc.linked, x.1 ≠ ∅ → x ∈ (runAll g lc ops).linked) := by
    intro ops
    induction ops with
    | nil => exact fun lc h => ⟨h, fun x hx _ => hx⟩
    | cons op ops ih =>
      intro lc h
      obtain ⟨k1, k2⟩ := key lc op h
      obtain ⟨i1, i2⟩ := ih _ k1
      exact ⟨i1, fun x hx hne => i2 x (k2 x hx hne) hne⟩
  have hinit := hrun ops LC.init (by simp [LC.init])
  exact ⟨hinit.1, fun ops' x hx hne => (hrun ops' _ hinit.1).2 x hx hne, fun v a => rfl⟩

/-- Linking raises, and changes nothing, exactly when the group shares a variable with a linked group or with a
registered group other than itself; otherwise the group is linked with the given approximation. -/
theorem C32_outcome_partial (g : Var → Nat) (lc : LC) (p : Params) (a : Option String) :
    ((∃ k ∈ lc.blocks.keys, (∃ v ∈ p.vars, v ∈ k.vars) ∧ p.vars.toFinset ≠ k.vars.toFinset) ∨
      (∃ x ∈ lc.linked, ∃ v ∈ p.vars, v ∈ x.1) →
        ∃ e, step g lc (.link p a) = (lc, .error e)) ∧
    ((∀ k ∈ lc.blocks.keys, (∃ v ∈ p.vars, v ∈ k.vars) → p.vars.toFinset = k.vars.toFinset) →
      (∀ x ∈ lc.linked, ∀ v ∈ p.vars, v ∉ x.1) →
        (step g lc (.link p a)).2 = .ok () ∧ (p.vars.toFinset, a) ∈ (step g lc (.link p a)).1.linked) := by
  have h1 : ∀ k : Params, (p.vars.toFinset ∩ k.vars.toFinset ≠ ∅) ↔ ∃ v ∈ p.vars, v ∈ k.vars := by
    intro k
    rw [inter_ne_empty]
    constructor
    · rintro ⟨v, hv, hvp⟩; exact ⟨v, List.mem_toFinset.1 hvp, hv⟩
    · rintro ⟨v, hv, hvk⟩; exact ⟨v, hvk, List.mem_toFinset.2 hv⟩
  have h2 : ∀ x : Finset Var × Option String, (p.vars.toFinset ∩ x.1 ≠ ∅) ↔ ∃ v ∈ p.vars, v ∈ x.1 := by
    intro x
    rw [Finset.inter_comm, inter_ne_empty]
  constructor
  · intro h
    simp only [step, link]
    split
    · exact ⟨_, rfl⟩
    · rename_i hc
      rcases h with ⟨k, hk, hov, hne⟩ | ⟨x, hx, hov⟩
      · exfalso
        apply hc
        rw [List.any_eq_true]
        exact ⟨k, hk, decide_eq_true ⟨(h1 k).2 hov, hne⟩⟩
      · rw [if_pos]
        · exact ⟨_, rfl⟩
        · rw [List.any_eq_true]
          exact ⟨x, hx, decide_eq_true ((h2 x).2 hov)⟩
  · intro hk hx
    simp only [step, link]
    rw [if_neg, if_neg]
    · refine ⟨rfl, ?_⟩
      exact mem_of_lookup (by rw [lookup_upsert]; simp)
    · rw [List.any_eq_true]
      rintro ⟨x, hxm, hd⟩
      obtain ⟨v, hv, hvx⟩ := (h2 x).1 (of_decide_eq_true hd)
      exact hx x hxm v hv hvx
    · rw [List.any_eq_true]
      rintro ⟨k, hkm, hd⟩
      obtain ⟨hov, hne⟩ := of_decide_eq_true hd
      exact hne (hk k hkm ((h1 k).1 hov))

/-- Repeating an identical link is not accepted: it raises. -/
theorem C32_repeat_counterexample (g : Var → Nat) (v : Var) (a : Option String) :
    let s := step g LC.init (.link (.single v) a)
    s.2 = .ok () ∧ ∃ e, (step g s.1 (.link (.single v) a)).2 = .error e := by
  intro s
  have h0 := (C32_outcome_partial g LC.init (.single v) a).2 (by simp [LC.init, LPD.empty, LPD.keys])
    (by simp [LC.init])
  refine ⟨h0.1, ?_⟩
  obtain ⟨e, he⟩ := (C32_outcome_partial g s.1 (.single v) a).1
    (.inr ⟨_, h0.2, v, by simp [Params.vars], by simp [Params.vars]⟩)
  exact ⟨e, by rw [he]⟩

/-- Two links, a rejected overlapping one. -/
example :
    let s := runAll (fun _ => 1) LC.init [.link (.seq [⟨0, []⟩, ⟨1, []⟩]) (some "kron"),
      .link (.single ⟨2, []⟩) none, .link (.seq [⟨1, []⟩, ⟨2, []⟩]) none]
    s.linked.length = 2 := by
  decide

end Kfac.Reg
