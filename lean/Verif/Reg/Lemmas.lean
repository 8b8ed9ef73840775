import Verif.Reg.Model

/-! # Helper lemmas for the layer collection -/

namespace Kfac.Reg

section Assoc
variable {K V : Type} [DecidableEq K]

theorem lookup_nil (k : K) : lookup ([] : List (K × V)) k = none := rfl

theorem lookup_cons (e : K × V) (l : List (K × V)) (k : K) :
    lookup (e :: l) k = if e.1 = k then some e.2 else lookup l k := by
  unfold lookup
  by_cases h : e.1 = k <;> simp [h]

theorem lookup_append (l l' : List (K × V)) (k : K) :
    lookup (l ++ l') k = (lookup l k).or (lookup l' k) := by
  induction l with
  | nil => simp [lookup_nil]
  | cons e l ih =>
    simp only [List.cons_append, lookup_cons, ih]
    split <;> simp

theorem lookup_eq_none (l : List (K × V)) (k : K) : lookup l k = none ↔ k ∉ l.map (·.1) := by
  induction l with
  | nil => simp [lookup_nil]
  | cons e l ih =>
    simp only [lookup_cons, List.map_cons, List.mem_cons, not_or]
    by_cases h : e.1 = k
    · simp [h]
    · simp [h, ih, Ne.symm h]

theorem lookup_isSome (l : List (K × V)) (k : K) : (lookup l k).isSome ↔ k ∈ l.map (·.1) := by
  have h := lookup_eq_none l k
  cases hl : lookup l k with
  | none => simpa using h.1 hl
  | some v =>
    simp only [Option.isSome_some, true_iff]
    by_contra hc
    rw [h.2 hc] at hl
    exact absurd hl (by simp)

theorem mem_of_lookup {l : List (K × V)} {k : K} {v : V} (h : lookup l k = some v) : (k, v) ∈ l := by
  induction l with
  | nil => simp [lookup_nil] at h
  | cons e l ih =>
    rw [lookup_cons] at h
    split at h
    · rename_i he
      obtain ⟨a, b⟩ := e
      simp only at he
      simp only [Option.some.injEq] at h
      subst he h
      simp
    · exact List.mem_cons_of_mem _ (ih h)

theorem lookup_of_mem {l : List (K × V)} (hn : (l.map (·.1)).Nodup) {k : K} {v : V} (h : (k, v) ∈ l) :
    lookup l k = some v := by
  induction l with
  | nil => simp at h
  | cons e l ih =>
    simp only [List.map_cons, List.nodup_cons] at hn
    rw [lookup_cons]
    rcases List.mem_cons.1 h with rfl | h
    · simp
    · have : e.1 ≠ k := by
        rintro rfl
        exact hn.1 (List.mem_map_of_mem (f := (·.1)) h)
      rw [if_neg this, ih hn.2 h]

theorem keys_upsert (l : List (K × V)) (k : K) (v : V) :
    (upsert l k v).map (·.1) = if k ∈ l.map (·.1) then l.map (·.1) else l.map (·.1) ++ [k] := by
  unfold upsert
  split
  · rw [List.map_map]
    apply List.map_congr_left
    intro e _
    simp only [Function.comp]
    split
    · rename_i h; exact h.symm
    · rfl
  · simp

theorem lookup_upsert (l : List (K × V)) (k k' : K) (v : V) :
    lookup (upsert l k v) k' = if k' = k then some v else lookup l k' := by
  unfold upsert
  split
  · rename_i hk
    induction l with
    | nil => simp at hk
    | cons e l ih =>
      simp only [List.map_cons, lookup_cons]
      by_cases he : e.1 = k
      · simp only [he, if_true]
        by_cases hk' : k' = k
        · simp [hk']
        · simp only [Ne.symm hk', hk', if_false]
          by_cases hm : k ∈ l.map (·.1)
          · rw [ih hm, if_neg hk']
          · congr 1
            conv_rhs => rw [← List.map_id l]
            apply List.map_congr_left
            intro e' he'
            have : e'.1 ≠ k := by
              rintro rfl
              exact hm (List.mem_map_of_mem (f := (·.1)) he')
            simp [this]
      · have hm : k ∈ l.map (·.1) := by
          rcases List.mem_cons.1 hk with h | h
          · exact absurd h.symm he
          · exact h
        simp only [he, if_false, ih hm]
        by_cases h1 : e.1 = k'
        · have : k' ≠ k := fun h => he (h1.trans h)
          simp [h1, this]
        · simp [h1]
  · rename_i hk
    rw [lookup_append]
    by_cases h : k' = k
    · subst h
      rw [(lookup_eq_none _ _).2 hk]
      simp [lookup_cons]
    · simp [h, lookup_cons, lookup_nil, Ne.symm h]

theorem nodup_upsert {l : List (K × V)} (h : (l.map (·.1)).Nodup) (k : K) (v : V) :
    ((upsert l k v).map (·.1)).Nodup := by
  rw [keys_upsert]
  split
  · exact h
  · rename_i hk
    exact List.nodup_append.2 ⟨h, by simp, by
      intro a ha b hb
      simp only [List.mem_singleton] at hb
      subst hb
      rintro rfl
      exact hk ha⟩

end Assoc

/-! ### Well-formed dictionaries -/

variable {V : Type}

/-- Keys are distinct, no variable belongs to two keys, and the private set holds exactly the variables of
the keys. -/
structure WF (d : LPD V) : Prop where
  nodup : d.keys.Nodup
  owner : ∀ k ∈ d.keys, ∀ k' ∈ d.keys, ∀ v, v ∈ k.vars → v ∈ k'.vars → k = k'
  tensors : ∀ v, v ∈ d.tensors ↔ ∃ k ∈ d.keys, v ∈ k.vars

theorem WF.empty : WF (LPD.empty : LPD V) :=
  ⟨by simp [LPD.keys, LPD.empty], by simp [LPD.keys, LPD.empty], by simp [LPD.keys, LPD.empty]⟩

theorem inter_ne_empty {s : Finset Var} {l : List Var} :
    s ∩ l.toFinset ≠ ∅ ↔ ∃ v ∈ l, v ∈ s := by
  rw [← Finset.nonempty_iff_ne_empty]
  constructor
  · rintro ⟨v, hv⟩
    rw [Finset.mem_inter, List.mem_toFinset] at hv
    exact ⟨v, hv.2, hv.1⟩
  · rintro ⟨v, h1, h2⟩
    exact ⟨v, by rw [Finset.mem_inter, List.mem_toFinset]; exact ⟨h2, h1⟩⟩

theorem setItem_error {d : LPD V} (h : WF d) (k : Params) (v : V) :
    (∃ k' ∈ d.keys, ∃ x ∈ k.vars, x ∈ k'.vars) ↔
      d.setItem k v = .error "ValueError: Key(s) already present" := by
  unfold LPD.setItem
  constructor
  · rintro ⟨k', hk', x, hx, hx'⟩
    rw [if_pos]
    exact inter_ne_empty.2 ⟨x, hx, (h.tensors x).2 ⟨k', hk', hx'⟩⟩
  · intro he
    split at he
    · rename_i hc
      obtain ⟨x, hx, hx'⟩ := inter_ne_empty.1 hc
      obtain ⟨k', hk', hxk⟩ := (h.tensors x).1 hx'
      exact ⟨k', hk', x, hx, hxk⟩
    · exact absurd he (by simp)

theorem setItem_ok {d : LPD V} (h : WF d) (k : Params) (v : V)
    (hd : ∀ k' ∈ d.keys, ∀ x ∈ k.vars, x ∉ k'.vars) :
    d.setItem k v = .ok ⟨upsert d.entries k v, d.tensors ∪ k.vars.toFinset⟩ := by
  unfold LPD.setItem
  rw [if_neg]
  intro hc
  obtain ⟨x, hx, hx'⟩ := inter_ne_empty.1 hc
  obtain ⟨k', hk', hxk⟩ := (h.tensors x).1 hx'
  exact hd k' hk' x hx hxk

theorem WF.setItem {d d' : LPD V} (h : WF d) {k : Params} {v : V} (hs : d.setItem k v = .ok d') :
    WF d' := by
  have hno : ∀ k' ∈ d.keys, ∀ x ∈ k.vars, x ∉ k'.vars := by
    intro k' hk' x hx hx'
    rw [(setItem_error h k v).1 ⟨k', hk', x, hx, hx'⟩] at hs
    exact absurd hs (by simp)
  rw [setItem_ok h k v hno] at hs
  simp only [Except.ok.injEq] at hs
  subst hs
  have hkeys : ∀ a, a ∈ (upsert d.entries k v).map (·.1) ↔ a ∈ d.keys ∨ a = k := by
    intro a
    rw [keys_upsert]
    split
    · rename_i hk
      constructor
      · exact Or.inl
      · rintro (h | rfl)
        · exact h
        · exact hk
    · simp [LPD.keys]
  refine ⟨nodup_upsert h.nodup k v, ?_, ?_⟩
  · intro a ha b hb x hxa hxb
    rcases (hkeys a).1 ha with ha' | ha' <;> rcases (hkeys b).1 hb with hb' | hb'
    · exact h.owner a ha' b hb' x hxa hxb
    · exact absurd hxa (hno a ha' x (hb' ▸ hxb))
    · exact absurd hxb (hno b hb' x (ha' ▸ hxa))
    · rw [ha', hb']
  · intro x
    simp only [Finset.mem_union, List.mem_toFinset, h.tensors]
    constructor
    · rintro (⟨k', hk', hx⟩ | hx)
      · exact ⟨k', (hkeys k').2 (.inl hk'), hx⟩
      · exact ⟨k, (hkeys k).2 (.inr rfl), hx⟩
    · rintro ⟨k', hk', hx⟩
      rcases (hkeys k').1 hk' with hk' | rfl
      · exact .inl ⟨k', hk', hx⟩
      · exact .inr hx

/-! ### `_register_block` -/

/-- The two ways in which `_register_block` succeeds. -/
theorem registerBlock_ok {lc lc1 : LC} {key : Params} {spec : BlockSpec} {reuse : ReuseArg}
    (h : registerBlock lc key spec reuse = .ok lc1) :
    lc.finalized = false ∧
    ((lc1 = lc ∧ key ∈ lc.blocks.keys ∧ reuse.resolve ≠ .no ∧
        ∃ b, lc.blocks.get key = some b ∧ b.spec.cls = spec.cls) ∨
     (key ∉ lc.blocks.keys ∧ reuse.resolve ≠ .yes ∧
        (∀ k ∈ lc.blocks.keys, ∀ v ∈ key.vars, v ∉ k.vars) ∧
        ∃ bs, lc.blocks.setItem key ⟨spec, []⟩ = .ok bs ∧ lc1 = { lc with blocks := bs })) := by
  unfold registerBlock at h
  split at h
  · exact absurd h (by simp)
  rename_i hf
  refine ⟨by simpa using hf, ?_⟩
  simp only at h
  split at h
  · rename_i hr
    split at h
    · exact absurd h (by simp)
    rename_i b hb
    split at h
    · exact absurd h (by simp)
    rename_i hcls
    simp only [Except.ok.injEq] at h
    left
    refine ⟨h.symm, ?_, ?_, b, hb, by simpa using hcls⟩
    · exact (lookup_isSome _ _).1 (by unfold LPD.get at hb; rw [hb]; rfl)
    · rcases hr with hr | hr
      · rw [hr]; simp
      · rw [hr.1]; simp
  · rename_i hr
    split at h
    · exact absurd h (by simp)
    split at h
    · exact absurd h (by simp)
    rename_i hk
    split at h
    · exact absurd h (by simp)
    rename_i hany
    split at h
    · exact absurd h (by simp)
    rename_i bs hbs
    simp only [Except.ok.injEq] at h
    right
    refine ⟨hk, fun hy => hr (.inl hy), ?_, bs, hbs, h.symm⟩
    intro k hkm v hv hvk
    apply hany
    rw [List.any_eq_true]
    exact ⟨v, hv, by
      rw [List.contains_iff_mem, List.mem_flatMap]
      exact ⟨k, hkm, hvk⟩⟩

theorem keys_addTower (lc : LC) (key : Params) (data : Data) :
    (addTower lc key data).blocks.keys = lc.blocks.keys := by
  simp only [addTower, LPD.keys, List.map_map]
  apply List.map_congr_left
  intro e _
  simp only [Function.comp]
  split <;> rfl

theorem WF.addTower {lc : LC} (h : WF lc.blocks) (key : Params) (data : Data) :
    WF (addTower lc key data).blocks := by
  refine ⟨?_, ?_, ?_⟩
  · rw [keys_addTower]; exact h.nodup
  · rw [keys_addTower]; exact h.owner
  · intro v
    rw [keys_addTower]
    exact h.tensors v

theorem WF.registerBlock {lc lc1 : LC} {key : Params} {spec : BlockSpec} {reuse : ReuseArg}
    (h : WF lc.blocks) (hr : registerBlock lc key spec reuse = .ok lc1) : WF lc1.blocks := by
  rcases (registerBlock_ok hr).2 with ⟨rfl, _⟩ | ⟨_, _, _, bs, hbs, rfl⟩
  · exact h
  · exact h.setItem hbs

theorem WF.runLayer {lc : LC} (h : WF lc.blocks) (c : LayerCall) : WF (runLayer lc c).1.blocks := by
  unfold Reg.runLayer
  split
  · exact h
  · split
    · exact h
    · rename_i lc1 hr
      have h1 := h.registerBlock hr
      split
      · exact h1
      · split
        · exact h1.addTower _ _
        · exact h1.addTower _ _

theorem WF.step {lc : LC} (h : WF lc.blocks) (g : Var → Nat) (op : Op) :
    WF (step g lc op).1.blocks := by
  cases op with
  | layer op => exact h.runLayer _
  | separable d p f i m o a r =>
    simp only [Reg.step, registerSeparable]
    split
    · rename_i lc1 e hr
      have := h.runLayer ((LayerOp.depthwise d f i m (some "diagonal") r).call lc)
      rw [hr] at this
      exact this
    · rename_i lc1 u hr
      have := h.runLayer ((LayerOp.depthwise d f i m (some "diagonal") r).call lc)
      rw [hr] at this
      exact WF.runLayer this _
  | loss n gn c r =>
    simp only [Reg.step, registerLoss]
    repeat' split
    all_goals exact h
  | setDefault t v =>
    simp only [Reg.step, setDefault]
    split <;> exact h
  | link p a =>
    simp only [Reg.step, link]
    repeat' split
    all_goals exact h
  | finalize =>
    simp only [Reg.step, finalize]
    repeat' split
    all_goals exact h
  | checkRegistration vs =>
    simp only [Reg.step, checkRegistration]
    repeat' split
    all_goals exact h

theorem WF.runAll {lc : LC} (h : WF lc.blocks) (g : Var → Nat) (ops : List Op) :
    WF (runAll g lc ops).blocks := by
  induction ops generalizing lc with
  | nil => exact h
  | cons op ops ih => exact ih (h.step g op)

theorem wf_reachable (g : Var → Nat) (ops : List Op) : WF (runAll g LC.init ops).blocks :=
  WF.runAll WF.empty g ops

theorem call_params (lc : LC) (op : LayerOp) : (op.call lc).params = op.params := by cases op <;> rfl

theorem call_reuse (lc : LC) (op : LayerOp) : (op.call lc).reuse = op.reuse := by cases op <;> rfl

end Kfac.Reg
