import Verif.Reg.Props

/-! # Properties of the layer collection: checking registrations (C31) -/

namespace Kfac.Reg

/-! ## Specification -/

/-- How many uses a registration declares: one, for the multi-use functions one per element of the list of
inputs, for generic registration any number. -/
def declaredUses : LayerOp → Uses
  | .generic .. => .inf
  | .fullyConnectedMulti _ (.list xs) _ _ _ _ => .fin xs.length
  | .conv2dMulti _ _ (.list xs) _ _ _ => .fin xs.length
  | _ => .fin 1

/-- The group and uses of one registration, if it succeeds. -/
def layerEvent (lc : LC) (op : LayerOp) : List (Params × Uses) :=
  match (runLayer lc (op.call lc)).2 with
  | .ok _ => [(op.params, declaredUses op)]
  | .error _ => []

/-- The successful layer registrations in one call (a separable convolution consists of two). -/
def opEvents (lc : LC) : Op → List (Params × Uses)
  | .layer op => layerEvent lc op
  | .separable d p f i m o a r =>
    let first := LayerOp.depthwise d f i m (some "diagonal") r
    layerEvent lc first ++
      match (runLayer lc (first.call lc)).2 with
      | .ok _ => layerEvent (runLayer lc (first.call lc)).1 (.conv2d p [1, 1, 1, 1] f m o a r)
      | .error _ => []
  | _ => []

/-- The successful layer registrations of a history. -/
def layerEvents (g : Var → Nat) : LC → List Op → List (Params × Uses)
  | _, [] => []
  | lc, op :: ops => opEvents lc op ++ layerEvents g (step g lc op).1 ops

/-- All earlier checks of the history passed. -/
def ChecksPassed (g : Var → Nat) : LC → List Op → Prop
  | _, [] => True
  | lc, op :: ops =>
    (∀ vs, op = .checkRegistration vs → (step g lc op).2 = .ok ()) ∧
      ChecksPassed g (step g lc op).1 ops

/-- The uses declared for one variable. -/
def contributions (ev : List (Params × Uses)) (v : Var) : List Uses :=
  ev.flatMap fun e => (e.1.vars.filter (· = v)).map fun _ => e.2

/-- The variable is in some registered group. -/
def Registered (ev : List (Params × Uses)) (v : Var) : Prop := ∃ e ∈ ev, v ∈ e.1.vars

/-- The declared uses agree with the number of uses in the graph: one registration declared any number, or
the declared numbers add up. -/
def UsesAgree (ev : List (Params × Uses)) (v : Var) (n : Nat) : Prop :=
  .inf ∈ contributions ev v ∨
    ((contributions ev v).map fun | .fin k => k | .inf => 0).sum = n ∧ .inf ∉ contributions ev v

/-! ## Proofs -/

theorem call_uses (lc : LC) (op : LayerOp) : (op.call lc).uses = declaredUses op := by
  cases op with
  | fullyConnectedMulti p i o a d r => cases i <;> rfl
  | conv2dMulti p f i o a r => cases i <;> rfl
  | _ => rfl

theorem contributions_append (ev ev' : List (Params × Uses)) (v : Var) :
    contributions (ev ++ ev') v = contributions ev v ++ contributions ev' v := by
  simp [contributions]

theorem contributions_eq_nil {ev : List (Params × Uses)} {v : Var} :
    contributions ev v = [] ↔ ¬ Registered ev v := by
  unfold contributions Registered
  rw [List.flatMap_eq_nil_iff]
  constructor
  · rintro h ⟨e, he, hv⟩
    have := h e he
    rw [List.map_eq_nil_iff, List.filter_eq_nil_iff] at this
    exact this v hv (by simp)
  · intro h e he
    rw [List.map_eq_nil_iff, List.filter_eq_nil_iff]
    intro w hw hc
    have hwv : w = v := by simpa using hc
    exact h ⟨e, he, hwv ▸ hw⟩

/-- The sum of uses as the code computes it. -/
def totalUses (l : List Uses) : Uses := l.foldl Uses.add (.fin 0)

theorem add_inf (a : Uses) : a.add .inf = .inf := by cases a <;> rfl
theorem inf_add (a : Uses) : Uses.inf.add a = .inf := rfl

theorem foldl_inf (l : List Uses) : l.foldl Uses.add .inf = .inf := by
  induction l with
  | nil => rfl
  | cons a l ih => exact ih

theorem foldl_add (l : List Uses) (n : Nat) :
    l.foldl Uses.add (.fin n) =
      if .inf ∈ l then .inf else .fin (n + (l.map fun | .fin k => k | .inf => 0).sum) := by
  induction l generalizing n with
  | nil => simp
  | cons a l ih =>
    cases a with
    | fin k =>
      simp only [List.foldl_cons, Uses.add, ih, List.mem_cons, List.map_cons, List.sum_cons, reduceCtorEq,
        false_or]
      split <;> simp [Nat.add_assoc]
    | inf => simp [Uses.add, foldl_inf]

theorem foldl_bump (u : Uses) (vs : List Var) (m : List (Var × Uses)) (v : Var) :
    lookup (vs.foldl (bump u) m) v =
      if (vs.filter (· = v)) = [] then lookup m v
      else some (((vs.filter (· = v)).map fun _ => u).foldl Uses.add ((lookup m v).getD (.fin 0))) := by
  induction vs generalizing m with
  | nil => simp
  | cons w vs ih =>
    rw [List.foldl_cons, ih]
    unfold bump
    rw [lookup_upsert]
    by_cases hw : w = v
    · subst hw
      simp only [if_true, List.filter_cons, decide_true, Option.getD_some, List.map_cons, List.foldl_cons,
        reduceCtorEq, if_false]
      split
      · rename_i h; rw [h]; rfl
      · rfl
    · simp [hw, Ne.symm hw]

theorem nodup_bump (u : Uses) (vs : List Var) (m : List (Var × Uses)) (h : (m.map (·.1)).Nodup) :
    ((vs.foldl (bump u) m).map (·.1)).Nodup := by
  induction vs generalizing m with
  | nil => exact h
  | cons w vs ih => exact ih _ (nodup_upsert h _ _)

/-- The invariant that links the counters with the successful registrations. -/
structure UsesInv (lc : LC) (ev : List (Params × Uses)) : Prop where
  nodup : (lc.uses.map (·.1)).Nodup
  uses : ∀ v, lookup lc.uses v =
    if contributions ev v = [] then none else some (totalUses (contributions ev v))

theorem UsesInv.add {lc : LC} {ev : List (Params × Uses)} (h : UsesInv lc ev) (p : Params) (u : Uses) :
    UsesInv (addUses lc p u) (ev ++ [(p, u)]) := by
  constructor
  · exact nodup_bump u p.vars lc.uses h.nodup
  · intro v
    simp only [addUses, foldl_bump, contributions_append]
    have hc : contributions [(p, u)] v = (p.vars.filter (· = v)).map fun _ => u := by
      simp [contributions]
    rw [hc]
    by_cases hf : p.vars.filter (· = v) = []
    · simp [hf, h.uses v]
    · rw [if_neg hf, if_neg (by simp [hf]), h.uses v]
      unfold totalUses
      rw [List.foldl_append]
      split
      · rename_i hn; rw [hn]; rfl
      · rfl

theorem registerBlock_uses {l l' : LC} {k s r} (hr : registerBlock l k s r = .ok l') : l'.uses = l.uses := by
  rcases (registerBlock_ok hr).2 with ⟨rfl, _⟩ | ⟨_, _, _, bs, _, rfl⟩ <;> rfl

theorem UsesInv.of_eq {lc lc' : LC} {ev : List (Params × Uses)} (h : UsesInv lc ev) (he : lc'.uses = lc.uses) :
    UsesInv lc' ev := ⟨by rw [he]; exact h.nodup, by rw [he]; exact h.uses⟩

theorem UsesInv.layer {lc : LC} {ev : List (Params × Uses)} (h : UsesInv lc ev) (op : LayerOp) :
    UsesInv (runLayer lc (op.call lc)).1 (ev ++ layerEvent lc op) := by
  unfold layerEvent
  rcases hr : runLayer lc (op.call lc) with ⟨lc', _ | u⟩
  · simp only [List.append_nil]
    apply h.of_eq
    unfold runLayer at hr
    split at hr
    · simp only [Prod.mk.injEq] at hr; rw [← hr.1]
    · split at hr
      · simp only [Prod.mk.injEq] at hr; rw [← hr.1]
      · rename_i lc1 hb
        have := registerBlock_uses hb
        split at hr
        · simp only [Prod.mk.injEq] at hr; rw [← hr.1, this]
        · split at hr
          · simp only [Prod.mk.injEq] at hr; rw [← hr.1]; exact this
          · exact absurd hr (by simp)
  · obtain ⟨spec, lc1, _, hb, _, _, rfl⟩ := runLayer_ok (by rw [hr])
    simp only
    rw [call_params, call_uses]
    apply UsesInv.add
    have hu := registerBlock_uses hb
    exact h.of_eq (lc' := addTower lc1 _ _) hu

theorem checkLoop_spec (g : Var → Nat) (vs : List Var) (m : List (Var × Uses)) :
    ((checkLoop g vs m).2 = true ↔
      ∀ v ∈ vs, lookup m v = some .inf ∨ (g v ≠ 0 ∧ lookup m v = some (.fin (g v)))) ∧
    ((checkLoop g vs m).2 = true → (checkLoop g vs m).1 = m) := by
  induction vs generalizing m with
  | nil => simp [checkLoop]
  | cons v vs ih =>
    have e2 : (checkLoop g (v :: vs) m).2 = ((match lookup (touch m v) v with
      | some (.fin n) => decide (n ≠ 0 ∧ n = g v)
      | some .inf => true
      | none => false) && (checkLoop g vs (touch m v)).2) := rfl
    have e1 : (checkLoop g (v :: vs) m).1 = (checkLoop g vs (touch m v)).1 := rfl
    rw [e1, e2]
    by_cases hm : v ∈ m.map (·.1)
    · have ht : touch m v = m := if_pos hm
      rw [ht]
      have hgood : ((match lookup m v with
          | some (.fin n) => decide (n ≠ 0 ∧ n = g v)
          | some .inf => true
          | none => false) = true) ↔
          (lookup m v = some .inf ∨ (g v ≠ 0 ∧ lookup m v = some (.fin (g v)))) := by
        cases hl : lookup m v with
        | none => simp
        | some u =>
          cases u with
          | inf => simp
          | fin n =>
            simp only [decide_eq_true_eq, Option.some.injEq, reduceCtorEq, false_or, Uses.fin.injEq]
            constructor
            · rintro ⟨a, rfl⟩; exact ⟨a, rfl⟩
            · rintro ⟨a, rfl⟩; exact ⟨a, rfl⟩
      rw [Bool.and_eq_true, hgood, (ih m).1]
      constructor
      · simp
      · intro h; exact (ih m).2 ((ih m).1.2 h.2)
    · have ht : touch m v = m ++ [(v, .fin 0)] := if_neg hm
      have hl : lookup m v = none := (lookup_eq_none m v).2 hm
      have hl2 : lookup (touch m v) v = some (.fin 0) := by
        rw [ht, lookup_append, hl, lookup_cons]; simp
      rw [hl2]
      simp [hl]

theorem UsesInv.step {lc : LC} {ev : List (Params × Uses)} (h : UsesInv lc ev) (g : Var → Nat) (op : Op)
    (hc : ∀ vs, op = .checkRegistration vs → (step g lc op).2 = .ok ()) :
    UsesInv (step g lc op).1 (ev ++ opEvents lc op) := by
  cases op with
  | layer op => exact h.layer op
  | separable d p f i m o a r =>
    have h1 := h.layer (LayerOp.depthwise d f i m (some "diagonal") r)
    simp only [Reg.step, registerSeparable, opEvents]
    rcases hr : runLayer lc ((LayerOp.depthwise d f i m (some "diagonal") r).call lc) with ⟨lc1, _ | u⟩
    · rw [hr] at h1
      simpa using h1
    · rw [hr] at h1
      simp only
      rw [← List.append_assoc]
      exact h1.layer _
  | loss n gn c r =>
    simp only [Reg.step, registerLoss, opEvents, List.append_nil]
    repeat' split
    all_goals exact h.of_eq rfl
  | setDefault ty v =>
    simp only [Reg.step, setDefault, opEvents, List.append_nil]
    split <;> exact h.of_eq rfl
  | link p a =>
    simp only [Reg.step, link, opEvents, List.append_nil]
    repeat' split
    all_goals exact h.of_eq rfl
  | finalize =>
    simp only [Reg.step, finalize, opEvents, List.append_nil]
    repeat' split
    all_goals exact h.of_eq rfl
  | checkRegistration vs =>
    have hok := hc vs rfl
    simp only [Reg.step, checkRegistration, opEvents, List.append_nil] at hok ⊢
    split
    · exact h
    · rename_i hnf
      rw [if_neg hnf] at hok
      rcases hl : checkLoop g vs lc.uses with ⟨m, good⟩
      simp only [hl] at hok ⊢
      by_cases hg : good = true ∧ ¬ m.length > vs.length
      · rw [if_pos hg]
        apply h.of_eq
        have := (checkLoop_spec g vs lc.uses).2 (by rw [hl]; exact hg.1)
        rw [hl] at this
        exact this
      · rw [if_neg hg] at hok
        exact absurd hok (by simp)

theorem usesInv_runAll {lc : LC} {ev : List (Params × Uses)} (h : UsesInv lc ev) (g : Var → Nat)
    (ops : List Op) (hc : ChecksPassed g lc ops) : UsesInv (runAll g lc ops) (ev ++ layerEvents g lc ops) := by
  induction ops generalizing lc ev with
  | nil => simpa [layerEvents, runAll] using h
  | cons op ops ih =>
    have := ih (h.step g op hc.1) hc.2
    rw [List.append_assoc] at this
    exact this

/-- After any history in which earlier checks passed and which finalised the collection, and for any list of
distinct variables, `check_registration` passes exactly when every variable of the list is registered, is
used in the graph or registered generically, its declared uses agree with the graph, and every registered
variable is in the list. Missing for the full claim: lists with repetitions
(`C31_repeated_variable_counterexample`), states after a failed check
(`C31_failed_check_counterexample`), and a variable registered by a multi-use call with no uses, which the
check rejects even if the graph has none. -/
theorem C31_check_partial (g : Var → Nat) (ops : List Op) (vars : List Var) (hnd : vars.Nodup)
    (hc : ChecksPassed g LC.init ops) (hf : (runAll g LC.init ops).finalized = true) :
    let ev := layerEvents g LC.init ops
    (step g (runAll g LC.init ops) (.checkRegistration vars)).2 = .ok () ↔
      (∀ v ∈ vars, Registered ev v ∧ UsesAgree ev v (g v) ∧ (g v ≠ 0 ∨ .inf ∈ contributions ev v)) ∧
      ∀ v, Registered ev v → v ∈ vars := by
  intro ev
  have h : UsesInv (runAll g LC.init ops) ev := by
    have := usesInv_runAll (lc := LC.init) (ev := [])
      ⟨by simp [LC.init], by intro v; rfl⟩ g ops hc
    simpa using this
  generalize runAll g LC.init ops = lc at h hf
  have hreg : ∀ v, v ∈ lc.uses.map (·.1) ↔ Registered ev v := by
    intro v
    rw [← lookup_isSome, h.uses v]
    by_cases hr : Registered ev v
    · rw [if_neg (fun hn => contributions_eq_nil.1 hn hr)]; simp [hr]
    · rw [if_pos (contributions_eq_nil.2 hr)]; simp [hr]
  have hgood : ∀ v, (lookup lc.uses v = some .inf ∨ (g v ≠ 0 ∧ lookup lc.uses v = some (.fin (g v)))) ↔
      (Registered ev v ∧ UsesAgree ev v (g v) ∧ (g v ≠ 0 ∨ .inf ∈ contributions ev v)) := by
    intro v
    rw [h.uses v]
    by_cases hr : Registered ev v
    · rw [if_neg (fun hn => contributions_eq_nil.1 hn hr)]
      unfold totalUses UsesAgree
      rw [foldl_add]
      by_cases hi : .inf ∈ contributions ev v
      · simp [hi, hr]
      · simp only [hi, if_false, Nat.zero_add, Option.some.injEq, reduceCtorEq, false_or, Uses.fin.injEq, hr,
          not_false_eq_true, and_true, true_and, or_false]
        exact And.comm
    · rw [if_pos (contributions_eq_nil.2 hr)]; simp [hr]
  simp only [step, checkRegistration, hf, Bool.true_eq_false, false_and, if_false]
  rcases hl : checkLoop g vars lc.uses with ⟨m, good⟩
  obtain ⟨hs1, hs2⟩ := checkLoop_spec g vars lc.uses
  rw [hl] at hs1 hs2
  simp only at hs1 hs2 ⊢
  have hlen : ∀ hm : (∀ v ∈ vars, v ∈ lc.uses.map (·.1)),
      (¬ lc.uses.length > vars.length) ↔ ∀ v, v ∈ lc.uses.map (·.1) → v ∈ vars := by
    intro hm
    have hsub : vars.Subperm (lc.uses.map (·.1)) := List.subperm_of_subset hnd hm
    constructor
    · intro hle v hv
      have hp := hsub.perm_of_length_le (by rw [List.length_map]; omega)
      exact hp.mem_iff.2 hv
    · intro hall
      have := (List.subperm_of_subset h.nodup hall).length_le
      rw [List.length_map] at this
      omega
  constructor
  · intro hok
    by_cases hg : good = true ∧ ¬ m.length > vars.length
    · have hall := hs1.1 hg.1
      have hm : m = lc.uses := hs2 hg.1
      refine ⟨fun v hv => (hgood v).1 (hall v hv), fun v hv => ?_⟩
      have hm1 : ∀ v ∈ vars, v ∈ lc.uses.map (·.1) := fun v hv =>
        (hreg v).2 ((hgood v).1 (hall v hv)).1
      exact (hlen hm1).1 (by rw [← hm]; exact hg.2) v ((hreg v).2 hv)
    · rw [if_neg hg] at hok
      exact absurd hok (by simp)
  · rintro ⟨h1, h2⟩
    have hg : good = true := hs1.2 (fun v hv => (hgood v).2 (h1 v hv))
    have hm : m = lc.uses := hs2 hg
    rw [if_pos]
    refine ⟨hg, ?_⟩
    rw [hm]
    exact (hlen (fun v hv => (hreg v).2 (h1 v hv).1)).2 (fun v hv => h2 v ((hreg v).1 hv))

/-- A passing check leaves the collection as it was. -/
theorem C31_pass_unchanged (g : Var → Nat) (lc : LC) (vars : List Var)
    (hok : (step g lc (.checkRegistration vars)).2 = .ok ()) :
    (step g lc (.checkRegistration vars)).1 = lc := by
  simp only [step, checkRegistration] at hok ⊢
  split
  · rfl
  · rename_i hnf
    rw [if_neg hnf] at hok
    rcases hl : checkLoop g vars lc.uses with ⟨m, good⟩
    simp only [hl] at hok ⊢
    by_cases hg : good = true ∧ ¬ m.length > vars.length
    · rw [if_pos hg]
      have := (checkLoop_spec g vars lc.uses).2 (by rw [hl]; exact hg.1)
      rw [hl] at this
      simp only at this
      rw [this]
    · rw [if_neg hg] at hok
      exact absurd hok (by simp)

section Examples

private def w : Var := ⟨0, [4, 3]⟩
private def b : Var := ⟨1, [3]⟩
private def graph : Var → Nat := fun v => if v.id = 0 then 2 else 1
private def fc (p : Params) (reuse : Reuse) : Op :=
  .layer (.fullyConnected p (.tensor 0) (.tensor 1) none true (.explicit reuse))
private def model : List Op :=
  [fc (.single w) .no, fc (.single w) .yes, fc (.single b) .no, .loss none "l" 1 (.explicit .no), .finalize]

/-- The premises hold for a model with a variable used twice, and the check passes for its variables. -/
example : ChecksPassed graph LC.init model ∧ (runAll graph LC.init model).finalized = true ∧
    (step graph (runAll graph LC.init model) (.checkRegistration [b, w])).2 = .ok () := by
  refine ⟨?_, ?_, ?_⟩
  · simp [ChecksPassed, model, fc]
  · decide
  · decide

/-- A list that repeats a variable hides a registered variable that is missing from the list. -/
theorem C31_repeated_variable_counterexample :
    (step graph (runAll graph LC.init model) (.checkRegistration [w, w])).2 = .ok () ∧
    Registered (layerEvents graph LC.init model) b ∧ b ∉ [w, w] := by
  refine ⟨by decide, ⟨(.single b, .fin 1), by decide, by decide⟩, by decide⟩

/-- A failed check counts the variables it looked at as registered, so that a later correct one fails. -/
theorem C31_failed_check_counterexample :
    let s := runAll graph LC.init model
    let x : Var := ⟨7, []⟩
    (step graph s (.checkRegistration [w, b])).2 = .ok () ∧
    let s' := (step graph s (.checkRegistration [w, b, x])).1
    ∃ e, (step graph s' (.checkRegistration [w, b])).2 = .error e := by
  refine ⟨by decide, _, rfl⟩

end Examples

end Kfac.Reg
