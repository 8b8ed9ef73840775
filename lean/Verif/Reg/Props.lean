import Verif.Reg.Lemmas

/-! # Properties of the layer collection: dictionaries, blocks, rejection, finalisation (C25–C28) -/

namespace Kfac.Reg

variable {V : Type}

/-! ## C25 -/

/-- A deletion that does not name a single variable belonging to a tuple key. -/
def Safe (d : LPD V) : DictOp V → Prop
  | .del (.single v) => ∀ vs, Params.seq vs ∈ d.keys → v ∉ vs
  | _ => True

/-- Every deletion of the sequence is safe at the time it happens. -/
def SafeRun (d : LPD V) : List (DictOp V) → Prop
  | [] => True
  | op :: ops => Safe d op ∧ SafeRun (d.step op).1 ops

/-- The dictionary after a sequence of operations, any of which may have raised. -/
def dictRun (d : LPD V) (ops : List (DictOp V)) : LPD V := ops.foldl (fun d op => (d.step op).1) d

theorem WF.delItem {d : LPD V} (h : WF d) (v : Var) (hs : ∀ vs, Params.seq vs ∈ d.keys → v ∉ vs) :
    WF (d.delItem (.single v)).1 := by
  unfold LPD.delItem
  simp only
  split
  · rename_i hv
    obtain ⟨k, hk, hvk⟩ := (h.tensors v).1 hv
    have hks : k = .single v := by
      cases k with
      | single w => simp only [Params.vars, List.mem_singleton] at hvk; rw [hvk]
      | seq vs => exact absurd hvk (hs vs hk)
    subst hks
    rw [if_pos hk]
    have hkeys : ∀ a, a ∈ (d.entries.filter fun e => e.1 ≠ Params.single v).map (·.1) ↔
        a ∈ d.keys ∧ a ≠ .single v := by
      intro a
      simp only [LPD.keys, List.mem_map, List.mem_filter, decide_eq_true_eq]
      constructor
      · rintro ⟨e, ⟨h1, h2⟩, rfl⟩; exact ⟨⟨e, h1, rfl⟩, h2⟩
      · rintro ⟨⟨e, h1, rfl⟩, h2⟩; exact ⟨e, ⟨h1, h2⟩, rfl⟩
    refine ⟨?_, ?_, ?_⟩
    · exact h.nodup.sublist (List.Sublist.map _ List.filter_sublist)
    · intro a ha b hb x hxa hxb
      exact h.owner a ((hkeys a).1 ha).1 b ((hkeys b).1 hb).1 x hxa hxb
    · intro x
      simp only [Finset.mem_erase, h.tensors]
      constructor
      · rintro ⟨hx, k', hk', hxk⟩
        refine ⟨k', (hkeys k').2 ⟨hk', ?_⟩, hxk⟩
        rintro rfl
        simp only [Params.vars, List.mem_singleton] at hxk
        exact hx hxk
      · rintro ⟨k', hk', hxk⟩
        obtain ⟨h1, h2⟩ := (hkeys k').1 hk'
        refine ⟨?_, k', h1, hxk⟩
        rintro rfl
        exact h2 (h.owner k' h1 _ hk x hxk hvk)
  · exact h

theorem WF.dictStep {d : LPD V} (h : WF d) (op : DictOp V) (hs : Safe d op) : WF (d.step op).1 := by
  cases op with
  | set k v =>
    simp only [LPD.step]
    split
    · rename_i hk
      exact h.setItem hk
    · exact h
  | del k =>
    cases k with
    | single v => exact h.delItem v hs
    | seq vs => exact h

theorem WF.dictRun {d : LPD V} (h : WF d) (ops : List (DictOp V)) (hs : SafeRun d ops) :
    WF (dictRun d ops) := by
  induction ops generalizing d with
  | nil => exact h
  | cons op ops ih => exact ih (h.dictStep op hs.1) hs.2

/-- After any sequence of insertions and of deletions that do not name a component of a tuple key — whether
they raise or not — no variable belongs to two keys. Missing for the full claim: deleting a component of a
tuple key, see `C25_component_delete_counterexample`. -/
theorem C25_one_key_per_variable_partial (ops : List (DictOp V)) (hs : SafeRun LPD.empty ops) :
    ∀ v, ∀ k ∈ (dictRun LPD.empty ops).keys, ∀ k' ∈ (dictRun LPD.empty ops).keys,
      v ∈ k.vars → v ∈ k'.vars → k = k' :=
  fun v k hk k' hk' h h' => (WF.empty.dictRun ops hs).owner k hk k' hk' v h h'

/-- An insertion raises exactly when one of its variables belongs to a key, and then the dictionary is
unchanged; otherwise the value is stored under the key, and what other keys hold is unchanged. -/
theorem C25_insert_partial (ops : List (DictOp V)) (hs : SafeRun LPD.empty ops) (k : Params) (x : V) :
    let d := dictRun LPD.empty ops
    let r := d.step (.set k x)
    ((∃ k' ∈ d.keys, ∃ v ∈ k.vars, v ∈ k'.vars) → (∃ e, r.2 = .error e) ∧ r.1 = d) ∧
    ((∀ k' ∈ d.keys, ∀ v ∈ k.vars, v ∉ k'.vars) →
      r.2 = .ok () ∧ r.1.get k = some x ∧ ∀ k', k' ≠ k → r.1.get k' = d.get k') := by
  intro d r
  have h : WF d := WF.empty.dictRun ops hs
  constructor
  · intro hc
    have hr : r = (d, .error "ValueError: Key(s) already present") := by
      simp only [r, LPD.step, (setItem_error h k x).1 hc]
    rw [hr]
    exact ⟨⟨_, rfl⟩, rfl⟩
  · intro hc
    have hr : r = (⟨upsert d.entries k x, d.tensors ∪ k.vars.toFinset⟩, .ok ()) := by
      simp only [r, LPD.step, setItem_ok h k x hc]
    rw [hr]
    refine ⟨rfl, ?_, ?_⟩
    · simp [LPD.get, lookup_upsert]
    · intro k' hk'
      simp [LPD.get, lookup_upsert, hk']

/-- Deleting a single-variable key succeeds and makes the variable available again: it belongs to no key, and
any group whose other variables are free can be inserted. Missing: tuple keys, see
`C25_tuple_delete_counterexample`. -/
theorem C25_delete_partial (ops : List (DictOp V)) (hs : SafeRun LPD.empty ops) (v : Var)
    (hv : Params.single v ∈ (dictRun LPD.empty ops).keys) :
    let d := dictRun LPD.empty ops
    let r := d.step (.del (.single v))
    r.2 = .ok () ∧ (∀ k ∈ r.1.keys, v ∉ k.vars) ∧
      (∀ k, k ≠ Params.single v → r.1.get k = d.get k) ∧
      ∀ k x, (∀ k' ∈ d.keys, ∀ w ∈ k.vars, w ≠ v → w ∉ k'.vars) → (r.1.step (.set k x)).2 = .ok () := by
  intro d r
  have h : WF d := WF.empty.dictRun ops hs
  have hsafe : ∀ vs, Params.seq vs ∈ d.keys → v ∉ vs := by
    intro vs hvs hvv
    have := h.owner _ hvs _ hv v hvv (by simp [Params.vars])
    exact absurd this (by simp)
  have hvt : v ∈ d.tensors := (h.tensors v).2 ⟨_, hv, by simp [Params.vars]⟩
  have hr : r = (⟨d.entries.filter fun e => e.1 ≠ Params.single v, d.tensors.erase v⟩, .ok ()) := by
    simp only [r, LPD.step, LPD.delItem]
    rw [if_pos hvt, if_pos hv]
  have hkeys : ∀ a, a ∈ r.1.keys ↔ a ∈ d.keys ∧ a ≠ .single v := by
    intro a
    rw [hr]
    simp only [LPD.keys, List.mem_map, List.mem_filter, decide_eq_true_eq]
    constructor
    · rintro ⟨e, ⟨h1, h2⟩, rfl⟩; exact ⟨⟨e, h1, rfl⟩, h2⟩
    · rintro ⟨⟨e, h1, rfl⟩, h2⟩; exact ⟨e, ⟨h1, h2⟩, rfl⟩
  have hwf : WF r.1 := h.delItem v hsafe
  have hfree : ∀ k ∈ r.1.keys, v ∉ k.vars := by
    intro k hk hvk
    obtain ⟨h1, h2⟩ := (hkeys k).1 hk
    exact h2 (h.owner k h1 _ hv v hvk (by simp [Params.vars]))
  refine ⟨by rw [hr], hfree, ?_, ?_⟩
  · intro k hk
    rw [hr]
    simp only [LPD.get]
    clear hr hkeys hwf hfree
    generalize d.entries = l
    induction l with
    | nil => rfl
    | cons e l ih =>
      by_cases he : e.1 = Params.single v
      · have : ¬ e.1 = k := fun hc => hk (hc.symm.trans he)
        rw [List.filter_cons_of_neg (by simpa using he), lookup_cons, if_neg this, ih]
      · rw [List.filter_cons_of_pos (by simpa using he), lookup_cons, lookup_cons, ih]
  · intro k x hk
    simp only [LPD.step]
    rw [setItem_ok hwf k x]
    intro k' hk' w hw
    by_cases hwv : w = v
    · rw [hwv]; exact hfree k' hk'
    · exact hk k' ((hkeys k').1 hk').1 w hw hwv

/-- Deleting a tuple key that is present raises and deletes nothing. -/
theorem C25_tuple_delete_counterexample (d : LPD V) (vs : List Var) :
    d.step (.del (.seq vs)) = (d, .error "KeyError") := rfl

/-- Deleting a component of a tuple key raises, but frees the variable: it can then be inserted again and
belongs to two keys. -/
theorem C25_component_delete_counterexample :
    ∃ (w b : Var) (ops : List (DictOp Nat)) (k k' : Params), k ≠ k' ∧
      k ∈ (dictRun LPD.empty ops).keys ∧ k' ∈ (dictRun LPD.empty ops).keys ∧
      w ∈ k.vars ∧ w ∈ k'.vars ∧ ops = [.set (.seq [w, b]) 0, .del (.single w), .set (.single w) 1] :=
  ⟨⟨0, [2, 2]⟩, ⟨1, [2]⟩, [.set (.seq [⟨0, [2, 2]⟩, ⟨1, [2]⟩]) 0, .del (.single ⟨0, [2, 2]⟩),
    .set (.single ⟨0, [2, 2]⟩) 1], .seq [⟨0, [2, 2]⟩, ⟨1, [2]⟩], .single ⟨0, [2, 2]⟩,
    by decide, by decide, by decide, by decide, by decide, rfl⟩

/-- A run with a collision, a deletion and a reinsertion is safe. -/
example : SafeRun (V := Nat) LPD.empty
    [.set (.seq [⟨0, [2, 2]⟩, ⟨1, [2]⟩]) 0, .set (.single ⟨2, [3]⟩) 1, .set (.single ⟨0, [2, 2]⟩) 5,
      .del (.single ⟨2, [3]⟩), .set (.seq [⟨2, [3]⟩, ⟨3, []⟩]) 2] := by
  refine ⟨trivial, trivial, trivial, ?_, trivial, trivial⟩
  intro vs hvs
  have : vs = [⟨0, [2, 2]⟩, ⟨1, [2]⟩] := by
    have h : Params.seq vs ∈ [Params.seq [⟨0, [2, 2]⟩, ⟨1, [2]⟩], .single ⟨2, [3]⟩] := hvs
    simpa using h
  subst this
  decide

/-! ## C26 -/

/-- After any sequence of calls on a new collection — succeeding or not — a variable belongs to at most one
registered group, and the groups are distinct. -/
theorem C26_one_block_per_variable (g : Var → Nat) (ops : List Op) :
    let lc := runAll g LC.init ops
    lc.blocks.keys.Nodup ∧
    ∀ v, ∀ k ∈ lc.blocks.keys, ∀ k' ∈ lc.blocks.keys, v ∈ k.vars → v ∈ k'.vars → k = k' :=
  ⟨(wf_reachable g ops).nodup,
    fun v k hk k' hk' h h' => (wf_reachable g ops).owner k hk k' hk' v h h'⟩

theorem runLayer_ok {lc lc' : LC} {c : LayerCall} (h : runLayer lc c = (lc', .ok ())) :
    ∃ spec lc1, c.block = .ok spec ∧ registerBlock lc c.params spec c.reuse = .ok lc1 ∧
      c.mid = none ∧ c.post = none ∧ lc' = addUses (addTower lc1 c.params c.data) c.params c.uses := by
  unfold runLayer at h
  split at h
  · exact absurd h (by simp)
  · rename_i spec hspec
    split at h
    · exact absurd h (by simp)
    · rename_i lc1 hr
      split at h
      · exact absurd h (by simp)
      · rename_i hmid
        split at h
        · exact absurd h (by simp)
        · rename_i hpost
          simp only [Prod.mk.injEq, and_true] at h
          exact ⟨spec, lc1, hspec, hr, hmid, hpost, h.symm⟩

/-- Registering a group that shares a variable with a different registered group raises, whatever the reuse
setting. -/
theorem C26_overlap_rejected (g : Var → Nat) (ops : List Op) (op : LayerOp) (k : Params)
    (hk : k ∈ (runAll g LC.init ops).blocks.keys) (hne : k ≠ op.params)
    (hov : ∃ v ∈ op.params.vars, v ∈ k.vars) :
    ∃ e, (step g (runAll g LC.init ops) (.layer op)).2 = .error e := by
  set lc := runAll g LC.init ops with hlc
  rcases hres : runLayer lc (op.call lc) with ⟨lc', res⟩
  cases res with
  | error e => exact ⟨e, by simp [step, hres]⟩
  | ok u =>
    exfalso
    obtain ⟨spec, lc1, _, hr, _⟩ := runLayer_ok hres
    rw [call_params] at hr
    obtain ⟨v, hv, hvk⟩ := hov
    rcases (registerBlock_ok hr).2 with ⟨_, hp, _⟩ | ⟨_, _, hno, _⟩
    · exact hne ((wf_reachable g ops).owner k hk _ hp v hvk hv)
    · exact hno k hk v hv hvk

/-- The data a layer call hands over. -/
def givenData : LayerOp → Data
  | .fullyConnected _ i o _ _ _ => .io i o
  | .conv1d _ i o _ _ => .io i o
  | .conv2d _ _ _ i o _ _ => .io i o
  | .convolution _ i o _ _ => .io i o
  | .depthwise _ _ i o _ _ => .io i o
  | .generic _ n _ _ => .batch n
  | .fullyConnectedMulti _ i o _ _ _ => .io i o
  | .conv2dMulti _ _ i o _ _ => .io i o
  | .scaleAndShift _ i o _ _ _ _ => .io i o

theorem call_data (lc : LC) (op : LayerOp) : (op.call lc).data = givenData op := by cases op <;> rfl

theorem get_addTower (l : LC) (p : Params) (data : Data) (k : Params) :
    (addTower l p data).blocks.get k =
      (l.blocks.get k).map fun b => if k = p then ⟨b.spec, b.towers ++ [data]⟩ else b := by
  simp only [addTower, LPD.get]
  generalize l.blocks.entries = es
  induction es with
  | nil => rfl
  | cons e es ih =>
    rw [List.map_cons, lookup_cons, lookup_cons, ih]
    by_cases h1 : e.1 = p
    · simp only [h1, if_true]
      by_cases h2 : p = k
      · simp [h2]
      · simp [h2]
    · simp only [h1, if_false]
      by_cases h2 : e.1 = k
      · have : k ≠ p := fun h => h1 (h2.trans h)
        simp [h2, this]
      · simp [h2]

theorem runLayer_blocks {lc lc' : LC} (hwf : WF lc.blocks) {op : LayerOp}
    (hok : runLayer lc (op.call lc) = (lc', .ok ())) :
    (∀ k, k ≠ op.params → lc'.blocks.get k = lc.blocks.get k) ∧
    ((op.reuse.resolve ≠ .no ∧ op.params ∈ lc.blocks.keys ∧
        ∃ b spec, lc.blocks.get op.params = some b ∧ (op.call lc).block = .ok spec ∧
          b.spec.cls = spec.cls ∧
          lc'.blocks.get op.params = some ⟨b.spec, b.towers ++ [givenData op]⟩ ∧
          lc'.blocks.keys = lc.blocks.keys) ∨
     (op.reuse.resolve ≠ .yes ∧ op.params ∉ lc.blocks.keys ∧
        ∃ spec, (op.call lc).block = .ok spec ∧
          lc'.blocks.get op.params = some ⟨spec, [givenData op]⟩ ∧
          lc'.blocks.keys = lc.blocks.keys ++ [op.params])) := by
  obtain ⟨spec, lc1, hspec, hr, _, _, rfl⟩ := runLayer_ok hok
  rw [call_params, call_reuse] at hr
  have hkeys := keys_addTower lc1 op.params (givenData op)
  have hb : ∀ (l : LC) (u : Uses), (addUses l op.params u).blocks = l.blocks := fun _ _ => rfl
  rw [call_params, call_data, hb]
  rcases (registerBlock_ok hr).2 with ⟨rfl, hp, hno, b, hbg, hcls⟩ | ⟨hp, hyes, hdisj, bs, hbs, rfl⟩
  · refine ⟨?_, .inl ⟨hno, hp, b, spec, hbg, hspec, hcls, ?_, hkeys⟩⟩
    · intro k hk
      rw [get_addTower]
      cases lc1.blocks.get k <;> simp [hk]
    · rw [get_addTower, hbg]; simp
  · rw [setItem_ok hwf _ _ hdisj] at hbs
    simp only [Except.ok.injEq] at hbs
    subst hbs
    refine ⟨?_, .inr ⟨hyes, hp, spec, hspec, ?_, ?_⟩⟩
    · intro k hk
      rw [get_addTower]
      simp only [LPD.get, lookup_upsert, if_neg hk]
      cases lookup lc.blocks.entries k <;> simp
    · rw [get_addTower]
      simp [LPD.get, lookup_upsert]
    · rw [hkeys]
      simp only [LPD.keys, keys_upsert]
      rw [if_neg (show op.params ∉ lc.blocks.entries.map (·.1) from hp)]

/-- What a successful registration does to the blocks. With reuse enabled by `True` the group must have been
registered with a block of the same class, and that block gets the data as one more tower; with `False` the
group must be new; with `AUTO_REUSE` one or the other. All other blocks are untouched, so a block is never
replaced. -/
theorem C26_reuse (g : Var → Nat) (ops : List Op) (op : LayerOp) (lc' : LC)
    (hok : step g (runAll g LC.init ops) (.layer op) = (lc', .ok ())) :
    let lc := runAll g LC.init ops
    (∀ k, k ≠ op.params → lc'.blocks.get k = lc.blocks.get k) ∧
    ((op.reuse.resolve ≠ .no ∧ op.params ∈ lc.blocks.keys ∧
        ∃ b spec, lc.blocks.get op.params = some b ∧ (op.call lc).block = .ok spec ∧
          b.spec.cls = spec.cls ∧
          lc'.blocks.get op.params = some ⟨b.spec, b.towers ++ [givenData op]⟩ ∧
          lc'.blocks.keys = lc.blocks.keys) ∨
     (op.reuse.resolve ≠ .yes ∧ op.params ∉ lc.blocks.keys ∧
        ∃ spec, (op.call lc).block = .ok spec ∧
          lc'.blocks.get op.params = some ⟨spec, [givenData op]⟩ ∧
          lc'.blocks.keys = lc.blocks.keys ++ [op.params])) :=
  runLayer_blocks (wf_reachable g ops) hok

/-- A concrete history: two layers, a second tower for the first, a rejected overlap. -/
example :
    let w : Var := ⟨0, [4, 3]⟩
    let b : Var := ⟨1, [3]⟩
    let c : Var := ⟨2, [3, 3, 1, 8]⟩
    let fc := fun r t => Op.layer (.fullyConnected (.seq [w, b]) (.tensor t) (.tensor (t + 1)) none true (.explicit r))
    let s := runAll (fun _ => 1) LC.init [fc .no 0,
      .layer (.conv2d (.single c) [1, 1, 1, 1] none (.tensor 5) (.tensor 6) none (.variableScope .auto)),
      fc .yes 10, .layer (.generic (.single b) 32 none (.explicit .no))]
    s.blocks.keys = [.seq [w, b], .single c] ∧
      s.blocks.get (.seq [w, b]) = some ⟨{ cls := "FullyConnectedKFACBasicFB" },
        [.io (.tensor 0) (.tensor 1), .io (.tensor 10) (.tensor 11)]⟩ := by
  decide

/-! ## C27 -/

/-- If the inputs are a sequence, the outputs are a sequence of the same length. -/
def SameLength (inputs outputs : TensorArg) : Prop :=
  ∀ xs, inputs = .list xs → ∃ ys, outputs = .list ys ∧ xs.length = ys.length

/-- Sparse inputs are only declared for layers without a bias, and sequences of inputs and outputs have the
same length. -/
def WellFormedArgs : LayerOp → Prop
  | .fullyConnected p _ _ _ dense _ => dense = true ∨ ∃ v, p = .single v
  | .fullyConnectedMulti p i o _ dense _ => (dense = true ∨ ∃ v, p = .single v) ∧ SameLength i o
  | .conv2dMulti _ _ i o _ _ => SameLength i o
  | _ => True

theorem lengthError_none {i o : TensorArg} (h : SameLength i o) : lengthError i o = none := by
  unfold lengthError
  cases i with
  | tensor _ => rfl
  | list xs =>
    obtain ⟨ys, rfl, hl⟩ := h xs rfl
    simp [hl]

theorem WellFormedArgs.late {op : LayerOp} (h : WellFormedArgs op) (lc : LC) :
    (op.call lc).mid = none ∧ (op.call lc).post = none := by
  cases op with
  | fullyConnected p i o a dense r =>
    rcases h with h | ⟨v, rfl⟩
    · simp [LayerOp.call, h]
    · simp [LayerOp.call, sparseError, Params.isSeq]
  | fullyConnectedMulti p i o a dense r =>
    refine ⟨?_, lengthError_none h.2⟩
    rcases h.1 with h | ⟨v, rfl⟩
    · simp [LayerOp.call, h]
    · simp only [LayerOp.call, sparseError, Params.isSeq]
      split
      · rfl
      · split <;> simp
  | conv2dMulti p f i o a r => exact ⟨rfl, lengthError_none h⟩
  | _ => exact ⟨rfl, rfl⟩

/-- A layer registration with well-formed arguments that raises leaves the whole collection unchanged; so does
a loss registration that raises. Missing for the full claim: `register_separable_conv2d` and malformed
arguments, see the counterexamples. -/
theorem C27_unchanged_partial (g : Var → Nat) (lc lc' : LC) (e : String) :
    (∀ op, WellFormedArgs op → step g lc (.layer op) = (lc', .error e) → lc' = lc) ∧
    (∀ n gn c r, step g lc (.loss n gn c r) = (lc', .error e) → lc' = lc) := by
  constructor
  · intro op hop h
    obtain ⟨hm, hp⟩ := hop.late lc
    simp only [step, runLayer, hm, hp] at h
    split at h
    · exact (Prod.mk.inj h).1.symm
    · split at h
      · exact (Prod.mk.inj h).1.symm
      · exact absurd (Prod.mk.inj h).2 (by simp)
  · intro n gn c r h
    simp only [step, registerLoss] at h
    repeat' split at h
    all_goals first
      | exact (Prod.mk.inj h).1.symm
      | exact absurd (Prod.mk.inj h).2 (by simp)

/-- Each of the reasons for rejection does make the call raise: a bad approximation, a collision with another
group, a reuse setting that does not fit, a finalised collection. -/
theorem C27_rejections (g : Var → Nat) (ops : List Op) (op : LayerOp) :
    let lc := runAll g LC.init ops
    ((∃ e, (op.call lc).block = .error e) ∨
     (∃ k ∈ lc.blocks.keys, k ≠ op.params ∧ ∃ v ∈ op.params.vars, v ∈ k.vars) ∨
     (op.reuse.resolve = .yes ∧ op.params ∉ lc.blocks.keys) ∨
     (op.reuse.resolve = .no ∧ op.params ∈ lc.blocks.keys) ∨
     (∃ b spec, lc.blocks.get op.params = some b ∧ (op.call lc).block = .ok spec ∧
        b.spec.cls ≠ spec.cls) ∨
     lc.finalized = true) →
    ∃ e, (step g lc (.layer op)).2 = .error e := by
  intro lc h
  rcases hres : runLayer lc (op.call lc) with ⟨lc', res⟩
  cases res with
  | error e => exact ⟨e, by simp [step, hres]⟩
  | ok u =>
    exfalso
    obtain ⟨spec, lc1, hspec, hr, _⟩ := runLayer_ok hres
    rw [call_params, call_reuse] at hr
    obtain ⟨hfin, hcases⟩ := registerBlock_ok hr
    rcases h with ⟨e, he⟩ | ⟨k, hk, hne, v, hv, hvk⟩ | ⟨hy, hn⟩ | ⟨hn, hp⟩ | ⟨b, s, hb, hs, hc⟩ | hf
    · rw [hspec] at he; exact absurd he (by simp)
    · rcases hcases with ⟨_, hp, _⟩ | ⟨_, _, hno, _⟩
      · exact hne ((wf_reachable g ops).owner k hk _ hp v hvk hv)
      · exact hno k hk v hv hvk
    · rcases hcases with ⟨_, hp, _⟩ | ⟨_, hny, _⟩
      · exact hn hp
      · exact hny hy
    · rcases hcases with ⟨_, _, hnn, _⟩ | ⟨hnp, _⟩
      · exact hnn hn
      · exact hnp hp
    · rw [hspec] at hs
      simp only [Except.ok.injEq] at hs
      subst hs
      rcases hcases with ⟨_, _, _, b', hb', hc'⟩ | ⟨hnp, _⟩
      · rw [hb] at hb'
        simp only [Option.some.injEq] at hb'
        subst hb'
        exact hc hc'
      · exact hnp ((lookup_isSome _ _).1 (by unfold LPD.get at hb; rw [hb]; rfl))
    · rw [hfin] at hf; exact absurd hf (by simp)

/-- Malformed arguments are refused: sequences of different lengths (or a sequence and a tensor), and sparse inputs for
a layer with a bias. -/
theorem C27_malformed (g : Var → Nat) (lc : LC) :
    (∀ op, (∃ p i o a d r, op = .fullyConnectedMulti p i o a d r ∧ ¬SameLength i o) ∨
      (∃ p f i o a r, op = .conv2dMulti p f i o a r ∧ ¬SameLength i o) ∨
      (∃ vs i o a r, op = .fullyConnected (.seq vs) i o a false r) →
    ∃ e, (step g lc (.layer op)).2 = .error e) := by
  have key : ∀ {i o : TensorArg}, ¬SameLength i o → ∃ e, lengthError i o = some e := by
    intro i o h
    cases i with
    | tensor _ => exact absurd (fun xs hx => by simp at hx) h
    | list xs =>
      cases o with
      | tensor _ => exact ⟨_, rfl⟩
      | list ys =>
        refine ⟨"AssertionError", ?_⟩
        rw [lengthError, if_neg]
        intro e
        exact h fun zs hz => ⟨ys, rfl, by cases hz; exact e⟩
  intro op h
  have hlate : (∃ e, (op.call lc).mid = some e) ∨ ∃ e, (op.call lc).post = some e := by
    rcases h with ⟨p, i, o, a, d, r, rfl, h⟩ | ⟨p, f, i, o, a, r, rfl, h⟩ | ⟨vs, i, o, a, r, rfl⟩
    · exact .inr (key h)
    · exact .inr (key h)
    · exact .inl ⟨_, rfl⟩
  rcases hres : runLayer lc (op.call lc) with ⟨lc', res⟩
  cases res with
  | error e => exact ⟨e, by simp [step, hres]⟩
  | ok u =>
    exfalso
    unfold runLayer at hres
    rcases hlate with ⟨e, he⟩ | ⟨e, he⟩ <;> simp only [he] at hres <;> repeat' split at hres
    all_goals exact absurd (Prod.mk.inj hres).2 (by simp)

/-- `register_separable_conv2d` with an unsupported approximation raises after the depthwise filter has been
registered, and the depthwise registration stays. -/
theorem C27_separable_counterexample :
    ∃ (d p : Var) (lc' : LC) (e : String),
      step (fun _ => 1) LC.init (.separable (.single d) (.single p) none (.tensor 0) (.tensor 1) (.tensor 2)
        (some "no_such_approximation") (.explicit .no)) = (lc', .error e) ∧
      lc'.blocks.keys = [.single d] ∧ lc'.uses = [(d, .fin 1)] ∧ LC.init.blocks.keys = [] :=
  ⟨⟨0, [3, 3, 4, 1]⟩, ⟨1, [1, 1, 4, 8]⟩, _, _, rfl, rfl, rfl, rfl⟩

/-- Multi-use inputs and outputs of different lengths are rejected only after the block and a tower have been
registered. -/
theorem C27_lengths_counterexample :
    ∃ (w : Var) (lc' : LC) (e : String),
      step (fun _ => 1) LC.init (.layer (.fullyConnectedMulti (.single w) (.list [0, 1]) (.list [2]) none true
        (.explicit .no))) = (lc', .error e) ∧
      lc'.blocks.entries = [(.single w, ⟨{ cls := "FullyConnectedMultiIndepFB" },
        [.io (.list [0, 1]) (.list [2])]⟩)] ∧ lc'.uses = [] :=
  ⟨⟨0, [3, 3]⟩, _, _, rfl, rfl, rfl⟩

/-- Sparse inputs for a layer with a bias are rejected only after the block has been registered (without any
tower). -/
theorem C27_sparse_bias_counterexample :
    ∃ (w b : Var) (lc' : LC) (e : String),
      step (fun _ => 1) LC.init (.layer (.fullyConnected (.seq [w, b]) (.tensor 0) (.tensor 1) none false
        (.explicit .no))) = (lc', .error e) ∧
      lc'.blocks.entries = [(.seq [w, b], ⟨{ cls := "FullyConnectedKFACBasicFB" }, []⟩)] ∧ lc'.uses = [] :=
  ⟨⟨0, [3, 3]⟩, ⟨1, [3]⟩, _, _, rfl, rfl, rfl⟩

/-- A well-formed registration that is rejected. -/
example : WellFormedArgs (.fullyConnectedMulti (.single ⟨0, [3, 3]⟩) (.list [0, 1]) (.list [2, 3])
      (some "kron") false (.explicit .no)) ∧
    (step (fun _ => 1) LC.init (.layer (.fullyConnectedMulti (.single ⟨0, [3, 3]⟩) (.list [0, 1])
      (.list [2, 3]) (some "kron") false (.explicit .no)))).2 = .error "ValueError: Bad value for approx." :=
  ⟨⟨.inr ⟨_, rfl⟩, fun xs h => ⟨_, rfl, by cases h; rfl⟩⟩, rfl⟩

/-! ## C28 -/

theorem registerBlock_finalized {lc : LC} (h : lc.finalized = true) (k : Params) (s : BlockSpec)
    (r : ReuseArg) : ∃ e, registerBlock lc k s r = .error e := by
  unfold registerBlock
  rw [if_pos h]
  exact ⟨_, rfl⟩

theorem runLayer_finalized {lc : LC} (h : lc.finalized = true) (c : LayerCall) :
    ∃ e, runLayer lc c = (lc, .error e) := by
  unfold runLayer
  split
  · exact ⟨_, rfl⟩
  · rename_i spec _
    obtain ⟨e, he⟩ := registerBlock_finalized h c.params spec c.reuse
    rw [he]
    exact ⟨_, rfl⟩

/-- Calls that register something, or finalise. -/
def Op.registers : Op → Prop
  | .layer _ | .separable .. | .loss .. | .finalize => True
  | _ => False

/-- Once the collection is finalised, every attempt to register a layer or a loss or to finalise again raises,
and after any further sequence of calls the collection is still finalised with the same blocks (and towers)
and losses. -/
theorem C28_frozen (g : Var → Nat) (lc : LC) (h : lc.finalized = true) (ops : List Op) :
    (runAll g lc ops).finalized = true ∧ (runAll g lc ops).blocks = lc.blocks ∧
    (runAll g lc ops).lossDict = lc.lossDict ∧ (runAll g lc ops).lossCoeffs = lc.lossCoeffs ∧
    ∀ op : Op, op.registers → ∃ e, step g (runAll g lc ops) op = (runAll g lc ops, .error e) := by
  have hstep : ∀ (s : LC), s.finalized = true → ∀ op,
      (step g s op).1.finalized = true ∧ (step g s op).1.blocks = s.blocks ∧
      (step g s op).1.lossDict = s.lossDict ∧ (step g s op).1.lossCoeffs = s.lossCoeffs ∧
      (op.registers → ∃ e, step g s op = (s, .error e)) := by
    intro s hs op
    cases op with
    | layer op =>
      obtain ⟨e, he⟩ := runLayer_finalized hs (op.call s)
      simp only [step, he]
      exact ⟨hs, trivial, trivial, trivial, fun _ => ⟨e, rfl⟩⟩
    | separable d p f i m o a r =>
      obtain ⟨e, he⟩ := runLayer_finalized hs ((LayerOp.depthwise d f i m (some "diagonal") r).call s)
      simp only [step, registerSeparable, he]
      exact ⟨hs, trivial, trivial, trivial, fun _ => ⟨e, rfl⟩⟩
    | loss n gn c r =>
      simp only [step, registerLoss, hs, if_true]
      exact ⟨trivial, trivial, trivial, trivial, fun _ => ⟨_, rfl⟩⟩
    | finalize =>
      simp only [step, finalize, hs, if_true]
      exact ⟨trivial, trivial, trivial, trivial, fun _ => ⟨_, rfl⟩⟩
    | setDefault t v =>
      simp only [step, setDefault]
      split <;> exact ⟨hs, rfl, rfl, rfl, fun h => h.elim⟩
    | link p a =>
      simp only [step, link]
      repeat' split
      all_goals exact ⟨hs, rfl, rfl, rfl, fun h => h.elim⟩
    | checkRegistration vs =>
      simp only [step, checkRegistration]
      repeat' split
      all_goals exact ⟨hs, rfl, rfl, rfl, fun h => h.elim⟩
  induction ops generalizing lc with
  | nil => exact ⟨h, rfl, rfl, rfl, fun op => (hstep lc h op).2.2.2.2⟩
  | cons op ops ih =>
    obtain ⟨h1, h2, h3, h4, _⟩ := hstep lc h op
    obtain ⟨i1, i2, i3, i4, i5⟩ := ih (step g lc op).1 h1
    exact ⟨i1, i2.trans h2, i3.trans h3, i4.trans h4, i5⟩

theorem checkRegistration_finalized (g : Var → Nat) (lc : LC) (vars : List Var) :
    (checkRegistration g lc vars).1.finalized = lc.finalized := by
  unfold checkRegistration
  split
  · rfl
  · simp only
    split <;> rfl

theorem estimatorFinalize_finalized (g : Var → Nat) (vars : List Var) (lc : LC) (h : lc.losses ≠ []) :
    (estimatorFinalize g vars lc false).1.finalized = true := by
  unfold estimatorFinalize
  rw [if_neg (by simp)]
  by_cases h1 : lc.finalized = true
  · have : finalize lc = (lc, .error "ValueError: LayerCollection was finalized a second time") := by
      unfold finalize; rw [if_pos h1]
    rw [this]
    exact h1
  · have : finalize lc = ({ lc with finalized := true }, .ok ()) := by
      unfold finalize; rw [if_neg h1, if_neg h]
    rw [this]
    have hc := checkRegistration_finalized g { lc with finalized := true } vars
    simp only
    rcases hr : checkRegistration g { lc with finalized := true } vars with ⟨lc2, res⟩
    rw [hr] at hc
    cases res <;> exact hc

/-- `finalize` succeeds exactly on a collection that is not finalised and has a loss, and changes nothing but
the flag. When an estimator first uses the collection it is finalised, also if the registration check then
fails; in that case every later attempt to use it, by this or another estimator, raises. -/
theorem C28_finalize (g : Var → Nat) (vars : List Var) (lc : LC) :
    ((finalize lc).2 = .ok () ↔ lc.finalized = false ∧ lc.losses ≠ []) ∧
    ((finalize lc).2 = .ok () → (finalize lc).1 = { lc with finalized := true }) ∧
    ((estimatorFinalize g vars lc false).2.2 = .ok () → (estimatorFinalize g vars lc false).1.finalized = true) ∧
    (lc.losses ≠ [] → (estimatorFinalize g vars lc false).1.finalized = true) ∧
    (∀ vars', lc.finalized = true → ∃ e, (estimatorFinalize g vars' lc false).2.2 = .error e) := by
  refine ⟨?_, ?_, ?_, ?_, ?_⟩
  · unfold finalize
    by_cases h1 : lc.finalized = true
    · simp [h1]
    · by_cases h2 : lc.losses = [] <;> simp [h1, h2]
  · unfold finalize
    by_cases h1 : lc.finalized = true
    · simp [h1]
    · by_cases h2 : lc.losses = [] <;> simp [h1, h2]
  · intro hok
    apply estimatorFinalize_finalized
    intro hl
    unfold estimatorFinalize finalize at hok
    by_cases h1 : lc.finalized = true <;> simp [h1, hl] at hok
  · exact estimatorFinalize_finalized g vars lc
  · intro vars' h1
    unfold estimatorFinalize finalize
    simp [h1]

/-- The estimator itself counts as finalised exactly if everything went well, so that a failure is reported by each
later use instead of being forgotten; an estimator that is finalised touches nothing. -/
theorem C28_estimator (g : Var → Nat) (vars : List Var) (lc : LC) :
    ((estimatorFinalize g vars lc false).2.1 = true ↔ (estimatorFinalize g vars lc false).2.2 = .ok ()) ∧
    ((estimatorFinalize g vars lc false).2.1 = false → lc.losses ≠ [] → ∀ vars', ∃ e,
      (estimatorFinalize g vars' (estimatorFinalize g vars lc false).1 false).2.2 = .error e) ∧
    estimatorFinalize g vars lc true = (lc, true, .ok ()) := by
  refine ⟨?_, ?_, rfl⟩
  · unfold estimatorFinalize
    rcases finalize lc with ⟨lc1, e | u⟩
    · simp
    · simp only [Bool.false_eq_true, if_false]
      rcases checkRegistration g lc1 vars with ⟨lc2, e | u⟩ <;> simp
  · intro _ hl vars'
    exact (C28_finalize g vars' _).2.2.2.2 vars' (estimatorFinalize_finalized g vars lc hl)

/-- A finalised collection with a block and a loss, reached by calls. -/
example :
    let s := runAll (fun _ => 1) LC.init [.layer (.fullyConnected (.single ⟨0, [4, 3]⟩) (.tensor 0) (.tensor 1)
      none true (.explicit .no)), .loss none "squared_error_loss" 1 (.explicit .no), .finalize]
    s.finalized = true ∧ s.blocks.keys ≠ [] ∧ s.losses = [0] := by
  decide

end Kfac.Reg
