import Verif.Auto.Lemmas

/-! # C54, C55, C65: automatic registration -/

namespace Kfac.Auto

open Kfac.Reg

/-! ### Specification of the filters -/

/-- Parameters that automatic registration may use: no variable of the user's, and no user-specified group is
split. -/
def Allowed (linked : List (Finset Var)) (user : List Var) (p : Params) : Prop :=
  (∀ v ∈ p.vars, v ∉ user) ∧ ∀ g ∈ linked, (∃ v ∈ p.vars, v ∈ g) → ∀ v, v ∈ p.vars ↔ v ∈ g

/-- A match that must survive: its parameters are allowed, and it is not a strict part of another match with allowed
parameters that shares a variable with it. -/
def Survives (linked : List (Finset Var)) (user : List Var) (rs : List Record) (r : Record) : Prop :=
  r ∈ rs ∧ Allowed linked user r.params ∧
  ∀ o ∈ rs, Allowed linked user o.params → (∃ v ∈ r.params.vars, v ∈ o.params.vars) → ¬ r.tensors ⊂ o.tensors

theorem group_ok_iff (vs : List Var) (g : Finset Var) :
    ¬(vs.toFinset ∩ g ≠ ∅ ∧ vs.toFinset ≠ g) ↔ ((∃ v ∈ vs, v ∈ g) → ∀ v, v ∈ vs ↔ v ∈ g) := by
  rw [Finset.inter_comm, inter_ne_empty]
  constructor
  · intro h hex v
    by_contra hv
    refine h ⟨hex, ?_⟩
    rintro rfl
    exact hv (by simp)
  · rintro h ⟨hex, hne⟩
    refine hne ?_
    ext v
    rw [List.mem_toFinset]
    exact h hex v

theorem filters_eq (linked : List (Finset Var)) (user : List Var) (d : RDict) :
    ∃ f : Params → Bool, filterGrouped linked (filterUser d user) = d.filter (fun e => f e.1) ∧
      ∀ p, f p = true ↔ Allowed linked user p := by
  refine ⟨fun p => (!(linked.any fun g => decide (p.vars.toFinset ∩ g ≠ ∅ ∧ p.vars.toFinset ≠ g))) &&
    !(p.vars.any fun v => user.contains v), ?_, ?_⟩
  · simp only [filterGrouped, filterUser, List.filter_filter]
  · intro p
    rw [Bool.and_eq_true, Bool.not_eq_true', Bool.not_eq_true', List.any_eq_false, List.any_eq_false, And.comm]
    unfold Allowed
    constructor
    · rintro ⟨h1, h2⟩
      refine ⟨fun v hv => by simpa using h1 v hv, fun g hg => ?_⟩
      have := h2 g hg
      rw [decide_eq_true_eq] at this
      exact (group_ok_iff _ _).1 this
    · rintro ⟨h1, h2⟩
      refine ⟨fun v hv => by simpa using h1 v hv, fun g hg => ?_⟩
      rw [decide_eq_true_eq]
      exact (group_ok_iff _ _).2 (h2 g hg)

/-- The filtered dictionary is the grouping of the surviving records. -/
theorem filtered_isGroup (linked : List (Finset Var)) (user : List Var) (rs : List Record) :
    ∃ fs, (∀ r, r ∈ fs ↔ Survives linked user rs r) ∧
      filterSubgraph (filterGrouped linked (filterUser (group rs) user)) = group fs := by
  obtain ⟨f, hf, hA⟩ := filters_eq linked user (group rs)
  rw [hf]
  unfold filterSubgraph
  refine ⟨_, ?_, rfl⟩
  intro r
  simp only [List.mem_filter, mem_flat_filter, hA, Bool.not_eq_true', List.contains_eq_mem, decide_eq_false_iff_not,
    List.any_eq_true, decide_eq_true_eq]
  unfold Survives
  constructor
  · rintro ⟨⟨h1, h2⟩, h3⟩
    refine ⟨h1, h2, fun o ho hoA hsh hsub => h3 ⟨⟨h1, h2⟩, ?_⟩⟩
    obtain ⟨v, hv, hv'⟩ := hsh
    exact ⟨v, hv, o, ⟨⟨ho, hoA⟩, hv'⟩, hsub⟩
  · rintro ⟨h1, h2, h3⟩
    refine ⟨⟨h1, h2⟩, ?_⟩
    rintro ⟨_, v, hv, o, ⟨⟨ho, hoA⟩, hv'⟩, hsub⟩
    exact h3 o ho hoA ⟨v, hv, hv'⟩ hsub

/-- C54: the groups that are left after filtering consist exactly of the matches that must survive, each in the group
of its parameters; no group is empty or occurs twice, and no variable is in two groups, or twice in one. -/
theorem C54_groups (linked : List (Finset Var)) (user : List Var) (rs : List Record) (d : RDict)
    (h : filterRecords linked (group rs) user = .ok d) :
    (∀ p l, (p, l) ∈ d → l ≠ [] ∧ ∀ r ∈ l, r.params = p ∧ Survives linked user rs r) ∧
    (∀ r, Survives linked user rs r → ∃ l, (r.params, l) ∈ d ∧ r ∈ l) ∧
    (d.map (·.1)).Nodup ∧
    (∀ p ∈ d.map (·.1), p.vars.Nodup) ∧
    ∀ p ∈ d.map (·.1), ∀ q ∈ d.map (·.1), p ≠ q → ∀ v ∈ p.vars, v ∉ q.vars := by
  obtain ⟨fs, hfs, he⟩ := filtered_isGroup linked user rs
  unfold filterRecords at h
  simp only [he] at h
  split at h
  · exact absurd h (by simp)
  rename_i ha
  simp only [Except.ok.injEq] at h
  subst h
  have hg := isGroup_group fs
  rw [ambiguous_iff, not_not, nodup_flatMap_vars hg.nodup] at ha
  refine ⟨?_, ?_, hg.nodup, ha⟩
  · intro p l hm
    obtain ⟨hl, hne⟩ := (hg.mem p l).1 hm
    refine ⟨hne, fun r hr => ?_⟩
    rw [hl, List.mem_filter] at hr
    exact ⟨of_decide_eq_true hr.2, (hfs r).1 hr.1⟩
  · intro r hr
    have hmem : r ∈ fs.filter (fun x => decide (x.params = r.params)) :=
      List.mem_filter.2 ⟨(hfs r).2 hr, decide_eq_true rfl⟩
    exact ⟨_, (hg.mem _ _).2 ⟨rfl, List.ne_nil_of_mem hmem⟩, hmem⟩

/-- C54: the filter raises exactly when two surviving matches with different parameters share a variable, or one has a
variable twice; and the only error is the ambiguity error. -/
theorem C54_ambiguous (linked : List (Finset Var)) (user : List Var) (rs : List Record) :
    (filterRecords linked (group rs) user = .error "AmbiguousRegistrationError" ↔
      (∃ r, Survives linked user rs r ∧ ¬ r.params.vars.Nodup) ∨
      ∃ r r', Survives linked user rs r ∧ Survives linked user rs r' ∧ r.params ≠ r'.params ∧
        ∃ v ∈ r.params.vars, v ∈ r'.params.vars) ∧
    ∀ e, filterRecords linked (group rs) user = .error e → e = "AmbiguousRegistrationError" := by
  obtain ⟨fs, hfs, he⟩ := filtered_isGroup linked user rs
  have hg := isGroup_group fs
  have hkey : ∀ p, p ∈ (group fs).map (·.1) ↔ ∃ r, Survives linked user rs r ∧ r.params = p := by
    intro p
    rw [hg.key]
    constructor
    · rintro ⟨r, hr, hp⟩; exact ⟨r, (hfs r).1 hr, hp⟩
    · rintro ⟨r, hr, hp⟩; exact ⟨r, (hfs r).2 hr, hp⟩
  have hamb := ambiguous_iff (group fs)
  rw [nodup_flatMap_vars hg.nodup] at hamb
  unfold filterRecords
  simp only [he]
  refine ⟨?_, ?_⟩
  · constructor
    · intro h
      split at h
      · rename_i ha
        by_contra hno
        rw [not_or] at hno
        refine hamb.1 ha ⟨?_, ?_⟩
        · intro p hp
          obtain ⟨r, hr, rfl⟩ := (hkey p).1 hp
          by_contra hn
          exact hno.1 ⟨r, hr, hn⟩
        · intro p hp q hq hpq v hv hv'
          obtain ⟨r, hr, rfl⟩ := (hkey p).1 hp
          obtain ⟨r', hr', rfl⟩ := (hkey q).1 hq
          exact hno.2 ⟨r, r', hr, hr', hpq, v, hv, hv'⟩
      · exact absurd h (by simp)
    · intro h
      rw [if_pos]
      rw [hamb]
      rintro ⟨h1, h2⟩
      rcases h with ⟨r, hr, hn⟩ | ⟨r, r', hr, hr', hne, v, hv, hv'⟩
      · exact hn (h1 _ ((hkey _).2 ⟨r, hr, rfl⟩))
      · exact h2 _ ((hkey _).2 ⟨r, hr, rfl⟩) _ ((hkey _).2 ⟨r', hr', rfl⟩) hne v hv hv'
  · intro e h
    split at h
    · simpa using h.symm
    · exact absurd h (by simp)

/-! ### The collection -/

/-- The towers' orders of groups are enumerations of the groups (`sorted` of the keys). -/
def Orders (t : Tower) : Prop := ∀ d, (t.order d).Perm (d.map (·.1))

/-- Parameters under which tower `t` may register something. -/
def TowerPart (lc : LC) (varlist user : List Var) (t : Tower) (k : Params) : Prop :=
  (∃ r, Survives (lc.linked.map (·.1)) user t.records r ∧ Part r.params k) ∨
  ∃ v ∈ varlist, v ∉ user ∧ k = .single v

theorem registerSubgraph_spec (lc : LC) (varlist : List Var) (t : Tower) (ht : Orders t) (user : List Var)
    (reuse : Bool) (batch : Option Nat) :
    Ran (TowerPart lc varlist user t) lc (registerSubgraph lc varlist t user reuse batch).1 ∧
    ((registerSubgraph lc varlist t user reuse batch).2 = .ok () →
      (∀ r, Survives (lc.linked.map (·.1)) user t.records r → ∀ v ∈ r.params.vars,
        Covered (registerSubgraph lc varlist t user reuse batch).1 v) ∧
      ∀ v ∈ varlist, v ∉ user → Covered (registerSubgraph lc varlist t user reuse batch).1 v) := by
  unfold registerSubgraph
  split
  · exact ⟨Ran.refl, by simp⟩
  rename_i d hd
  obtain ⟨hg1, hg2, _⟩ := C54_groups _ _ _ _ hd
  have h1 := registerRecords_spec lc d (t.order d) reuse batch
  have hord : ∀ p, p ∈ t.order d ↔ p ∈ d.map (·.1) := fun p => (ht d).mem_iff
  have hpart : ∀ k, (∃ p ∈ t.order d, Part p k) → TowerPart lc varlist user t k := by
    rintro k ⟨p, hp, hk⟩
    rw [hord, List.mem_map] at hp
    obtain ⟨⟨q, l⟩, hm, rfl⟩ := hp
    obtain ⟨hne, hl⟩ := hg1 q l hm
    obtain ⟨r, hr⟩ := List.exists_mem_of_ne_nil l hne
    exact .inl ⟨r, (hl r hr).2, by rw [(hl r hr).1]; exact hk⟩
  generalize registerRecords lc d (t.order d) reuse batch = x at h1
  cases hx : x.2 with
  | error e => rw [andThen_error hx]; exact ⟨h1.1.mono hpart, by simp⟩
  | ok u =>
    rw [andThen_ok hx]
    have h2 := genericLoop_spec ((d.flatMap fun e => e.1.vars) ++ user) reuse batch varlist x.1
    have hcov : ∀ p ∈ d.map (·.1), ∀ v ∈ p.vars,
        Covered (genericLoop ((d.flatMap fun e => e.1.vars) ++ user) reuse batch varlist x.1).1 v :=
      fun p hp v hv => h2.1.covered (h1.2 hx p ((hord p).2 hp) v hv)
    refine ⟨(h1.1.mono hpart).trans (h2.1.mono ?_), fun h => ⟨?_, ?_⟩⟩
    · rintro k ⟨v, hv, hn, hk⟩
      exact .inr ⟨v, hv, fun hu => hn (List.mem_append_right _ hu), hk⟩
    · intro r hr v hv
      obtain ⟨l, hl, _⟩ := hg2 r hr
      exact hcov r.params (List.mem_map.2 ⟨_, hl, rfl⟩) v hv
    · intro v hv hu
      by_cases hd' : v ∈ d.flatMap fun e => e.1.vars
      · obtain ⟨e, he, hve⟩ := List.mem_flatMap.1 hd'
        exact hcov e.1 (List.mem_map.2 ⟨e, he, rfl⟩) v hve
      · exact h2.2 h v hv (by
          rw [List.mem_append]
          rintro (h | h)
          · exact hd' h
          · exact hu h)

theorem towerLoop_spec (varlist user : List Var) (batch : Option Nat) (ts : List Tower) (hts : ∀ t ∈ ts, Orders t) :
    ∀ (reuse : Bool) (lc : LC),
    Ran (fun k => ∃ t ∈ ts, TowerPart lc varlist user t k) lc (towerLoop varlist user batch ts reuse lc).1 ∧
    ((towerLoop varlist user batch ts reuse lc).2 = .ok () → ∀ t ∈ ts,
      (∀ r, Survives (lc.linked.map (·.1)) user t.records r → ∀ v ∈ r.params.vars,
        Covered (towerLoop varlist user batch ts reuse lc).1 v) ∧
      ∀ v ∈ varlist, v ∉ user → Covered (towerLoop varlist user batch ts reuse lc).1 v) := by
  induction ts with
  | nil => exact fun _ _ => ⟨Ran.refl, by simp⟩
  | cons t ts ih =>
    intro reuse lc
    simp only [towerLoop]
    have h1 := registerSubgraph_spec lc varlist t (hts t (by simp)) user reuse batch
    have hm : ∀ k, TowerPart lc varlist user t k → ∃ t' ∈ t :: ts, TowerPart lc varlist user t' k :=
      fun k hk => ⟨t, by simp, hk⟩
    generalize registerSubgraph lc varlist t user reuse batch = x at h1
    cases hx : x.2 with
    | error e => rw [andThen_error hx]; exact ⟨h1.1.mono hm, by simp⟩
    | ok u =>
      rw [andThen_ok hx]
      have h2 := ih (fun t' ht' => hts t' (List.mem_cons_of_mem _ ht')) true x.1
      have hl : x.1.linked = lc.linked := h1.1.same.1
      simp only [TowerPart, hl] at h2
      refine ⟨(h1.1.mono hm).trans (h2.1.mono ?_), fun h t' ht' => ?_⟩
      · rintro k ⟨t', ht', hk⟩; exact ⟨t', List.mem_cons_of_mem _ ht', hk⟩
      · rcases List.mem_cons.1 ht' with rfl | ht'
        · exact ⟨fun r hr v hv => h2.1.covered ((h1.2 hx).1 r hr v hv),
            fun v hv hu => h2.1.covered ((h1.2 hx).2 v hv hu)⟩
        · exact h2.2 h t' ht'

theorem registerLayers_spec (g : Var → Nat) (ops : List Op) (varlist : List Var) (batch : Option Nat)
    (towers : Nat → Tower) (ht : ∀ n, Orders (towers n)) :
    let lc := runAll g LC.init ops
    let user := lc.blocks.keys.flatMap Params.vars
    Ran (fun k => ∃ n, TowerPart lc varlist user (towers n) k) lc (registerLayers lc varlist batch towers).1 ∧
    ((registerLayers lc varlist batch towers).2 = .ok () →
      (∀ n, (∃ l ∈ lc.towersByLoss, n < l.length) →
        ∀ r, Survives (lc.linked.map (·.1)) user (towers n).records r → ∀ v ∈ r.params.vars,
          Covered (registerLayers lc varlist batch towers).1 v) ∧
      ∀ v ∈ varlist, v ∉ user → Covered (registerLayers lc varlist batch towers).1 v) := by
  intro lc user
  unfold registerLayers
  simp only
  split
  · exact ⟨Ran.refl, by simp⟩
  rename_i hne
  split
  · exact ⟨Ran.refl, by simp⟩
  rename_i hsame
  rw [Bool.not_eq_true, List.any_eq_false] at hsame
  have h := towerLoop_spec varlist user batch ((List.range (lc.towersByLoss.headD []).length).map towers)
    (by
      intro t htm
      obtain ⟨n, _, rfl⟩ := List.mem_map.1 htm
      exact ht n) false lc
  refine ⟨h.1.mono ?_, fun hok => ?_⟩
  · rintro k ⟨t, htm, hk⟩
    obtain ⟨n, _, rfl⟩ := List.mem_map.1 htm
    exact ⟨n, hk⟩
  have h2 := h.2 hok
  refine ⟨?_, ?_⟩
  · rintro n ⟨l, hl, hn⟩
    have := hsame l hl
    rw [decide_eq_true_eq, not_not] at this
    exact (h2 (towers n) (List.mem_map.2 ⟨n, List.mem_range.2 (this ▸ hn), rfl⟩)).1
  · -- there is a first tower
    have hpos : 0 < (lc.towersByLoss.headD []).length := by
      cases hd : lc.towersByLoss with
      | nil => simp [LC.losses, hd] at hne
      | cons l ls =>
        have hl : l ∈ lc.towersByLoss := by rw [hd]; simp
        unfold LC.towersByLoss at hl
        obtain ⟨⟨n, ts⟩, hm, rfl⟩ := List.mem_map.1 hl
        have := (((C29_towers g ops).2.1 n ts).1 hm).2
        simpa using List.length_pos_iff.2 this
    exact (h2 (towers 0) (List.mem_map.2 ⟨0, List.mem_range.2 hpos, rfl⟩)).2

/-- C54: whatever the search finds, and whether or not automatic registration raises, the blocks registered by the user
are left exactly as they were, and everything new is registered under parameters that share no variable with them. -/
theorem C54_user_blocks (g : Var → Nat) (ops : List Op) (varlist : List Var) (batch : Option Nat)
    (towers : Nat → Tower) (ht : ∀ n, Orders (towers n)) :
    let lc := runAll g LC.init ops
    let lc' := (registerLayers lc varlist batch towers).1
    (∀ k ∈ lc.blocks.keys, k ∈ lc'.blocks.keys ∧ (k.vars ≠ [] → lc'.blocks.get k = lc.blocks.get k)) ∧
    ∀ k ∈ lc'.blocks.keys, k ∉ lc.blocks.keys → ∀ v ∈ k.vars, ∀ k' ∈ lc.blocks.keys, v ∉ k'.vars := by
  intro lc lc'
  have h := (registerLayers_spec g ops varlist batch towers ht).1
  have hpart : ∀ k, (∃ n, TowerPart lc varlist (lc.blocks.keys.flatMap Params.vars) (towers n) k) →
      ∀ v ∈ k.vars, v ∉ lc.blocks.keys.flatMap Params.vars := by
    rintro k ⟨n, ⟨r, hr, rfl | ⟨w, hw, rfl⟩⟩ | ⟨w, _, hu, rfl⟩⟩ v hv
    · exact hr.2.1.1 v hv
    · simp only [Params.vars, List.mem_singleton] at hv
      exact hv ▸ hr.2.1.1 w hw
    · simp only [Params.vars, List.mem_singleton] at hv
      exact hv ▸ hu
  refine ⟨fun k hk => ⟨h.keys k hk, fun hv => h.get ?_⟩, ?_⟩
  · intro hP
    obtain ⟨v, hv⟩ := List.exists_mem_of_ne_nil _ hv
    exact hpart k hP v hv (List.mem_flatMap.2 ⟨k, hk, hv⟩)
  · intro k hk hkn v hv k' hk' hv'
    have hwf := h.wf (wf_reachable g ops)
    exact hkn (hwf.owner k hk k' (h.keys k' hk') v hv hv' ▸ hk')

/-- C55: if automatic registration returns, every variable of the list belongs to a block, and so does every variable
of every match that survives in any tower. -/
theorem C55_covered (g : Var → Nat) (ops : List Op) (varlist : List Var) (batch : Option Nat)
    (towers : Nat → Tower) (ht : ∀ n, Orders (towers n))
    (hok : (registerLayers (runAll g LC.init ops) varlist batch towers).2 = .ok ()) :
    let lc := runAll g LC.init ops
    let lc' := (registerLayers lc varlist batch towers).1
    (∀ v ∈ varlist, ∃ k ∈ lc'.blocks.keys, v ∈ k.vars) ∧
    ∀ n, (∃ l ∈ lc.towersByLoss, n < l.length) →
      ∀ r, Survives (lc.linked.map (·.1)) (lc.blocks.keys.flatMap Params.vars) (towers n).records r →
        ∀ v ∈ r.params.vars, ∃ k ∈ lc'.blocks.keys, v ∈ k.vars := by
  intro lc lc'
  obtain ⟨hR, h⟩ := registerLayers_spec g ops varlist batch towers ht
  obtain ⟨h1, h2⟩ := h hok
  refine ⟨fun v hv => ?_, h1⟩
  by_cases hu : v ∈ lc.blocks.keys.flatMap Params.vars
  · obtain ⟨k, hk, hvk⟩ := List.mem_flatMap.1 hu
    exact ⟨k, hR.keys k hk, hvk⟩
  · exact h2 v hv hu

/-- C55: the new blocks hold only variables of surviving matches, and variables of the list; each variable is in one
block. -/
theorem C55_nothing_else (g : Var → Nat) (ops : List Op) (varlist : List Var) (batch : Option Nat)
    (towers : Nat → Tower) (ht : ∀ n, Orders (towers n)) :
    let lc := runAll g LC.init ops
    let lc' := (registerLayers lc varlist batch towers).1
    (∀ k ∈ lc'.blocks.keys, k ∉ lc.blocks.keys → (∃ v ∈ varlist, k = .single v) ∨
      ∃ n r, r ∈ (towers n).records ∧ (k = r.params ∨ ∃ v ∈ r.params.vars, k = .single v)) ∧
    ∀ k ∈ lc'.blocks.keys, ∀ k' ∈ lc'.blocks.keys, ∀ v, v ∈ k.vars → v ∈ k'.vars → k = k' := by
  intro lc lc'
  have h := (registerLayers_spec g ops varlist batch towers ht).1
  refine ⟨fun k hk hkn => ?_, (h.wf (wf_reachable g ops)).owner⟩
  by_contra hno
  have : lc'.blocks.get k = lc.blocks.get k := by
    refine h.get ?_
    rintro ⟨n, ⟨r, hr, hp⟩ | ⟨v, hv, _, hk⟩⟩
    · exact hno (.inr ⟨n, r, hr.1, hp⟩)
    · exact hno (.inl ⟨v, hv, hk⟩)
  have h1 : (lc.blocks.get k).isSome := by
    rw [← this]
    exact (lookup_isSome _ _).2 hk
  exact hkn ((lookup_isSome _ _).1 h1)

/-! ### Which block a detected layer gets -/

/-- Nothing stands in the way of registering `p` as new. -/
def Free (lc : LC) (p : Params) : Prop :=
  lc.finalized = false ∧ p.vars ≠ [] ∧ ∀ k ∈ lc.blocks.keys, ∀ v ∈ p.vars, v ∉ k.vars

/-- The approximation the user wants for `p` as a layer of type `ty`: the linked one, or the default. -/
def Wanted (lc : LC) (ty : LayerType) (p : Params) (a : String) : Prop :=
  linkedApprox lc p = some a ∨ linkedApprox lc p = none ∧ a = lc.defaults ty

theorem runOp_free {lc : LC} (hwf : WF lc.blocks) {op : LayerOp} {spec : BlockSpec} (hf : Free lc op.params)
    (hr : op.reuse.resolve = .no) (hb : (op.call lc).block = .ok spec) (hm : (op.call lc).mid = none)
    (hp : (op.call lc).post = none) :
    (runOp lc op).2 = .ok () ∧ (runOp lc op).1.blocks.get op.params = some ⟨spec, [givenData op]⟩ := by
  have hk : op.params ∉ lc.blocks.keys := by
    intro hk
    obtain ⟨v, hv⟩ := List.exists_mem_of_ne_nil _ hf.2.1
    exact hf.2.2 _ hk v hv hv
  have hany : (op.params.vars.any fun v => (lc.blocks.keys.flatMap Params.vars).contains v) = false := by
    rw [List.any_eq_false]
    intro v hv h
    rw [List.contains_iff_mem, List.mem_flatMap] at h
    obtain ⟨k, hk, hvk⟩ := h
    exact hf.2.2 k hk v hv hvk
  have hreg : registerBlock lc op.params spec op.reuse =
      .ok { lc with blocks := ⟨upsert lc.blocks.entries op.params ⟨spec, []⟩,
        lc.blocks.tensors ∪ op.params.vars.toFinset⟩ } := by
    unfold registerBlock
    simp only [hf.1, hr, hk, hany, setItem_ok hwf _ _ hf.2.2]
    simp
  have hrun : runOp lc op = runLayer lc (op.call lc) := rfl
  have hok : (runOp lc op).2 = .ok () := by
    rw [hrun]
    unfold runLayer
    rw [hb, call_params, call_reuse]
    simp only [hreg, hm, hp]
  refine ⟨hok, ?_⟩
  have h2 : runLayer lc (op.call lc) = ((runOp lc op).1, .ok ()) := by rw [← hok, ← hrun]
  rcases (runLayer_blocks hwf h2).2 with ⟨_, h, _⟩ | ⟨_, _, spec', h1, h3, _⟩
  · exact absurd h hk
  · rw [hb] at h1
    simp only [Except.ok.injEq] at h1
    rw [h3, h1]

theorem getBlockType_wanted {lc : LC} {ty : LayerType} {p : Params} {a : String} {spec : BlockSpec}
    (hw : Wanted lc ty p a) (ht : (a, spec) ∈ table ty) : getBlockType lc ty p none = .ok (spec, a) := by
  have hn : ((table ty).map (·.1)).Nodup := by cases ty <;> decide
  have hl := lookup_of_mem hn ht
  unfold getBlockType
  rcases hw with h | ⟨h, rfl⟩ <;> simp only [h, hl]

/-- The first dimension is the batch size as far as known. -/
def SingleUse (batch first : Option Nat) : Prop := batch = none ∨ first = none ∨ first = batch

theorem foldedUses_single {batch first : Option Nat} {rest : List (Option Nat)} {limit : Nat}
    {sep : Except String (Option Nat)} (h : SingleUse batch first) (hl : (first :: rest).length ≤ limit) :
    foldedUses (first :: rest) limit batch sep = .ok none := by
  have : ¬ limit < rest.length + 1 := by simp only [List.length_cons] at hl; omega
  unfold foldedUses
  rcases h with rfl | rfl | rfl
  · simp [this]
  · cases batch <;> simp [this]
  · cases first <;> simp [this]

theorem foldedUses_folded {b f : Nat} {rest : List (Option Nat)} {limit : Nat}
    {sep : Except String (Option Nat)} (hb : 0 < b) (hd : b ∣ f) (hne : f ≠ b)
    (hl : (some f :: rest).length ≤ limit) :
    foldedUses (some f :: rest) limit (some b) sep = .ok (some (some (f / b))) := by
  have h0 : f % b = 0 := Nat.mod_eq_zero_of_dvd hd
  have hb' : b ≠ 0 := by omega
  unfold foldedUses
  simp only [List.length_cons] at hl
  simp [hne, hl, h0, hb']

/-- C65, dense fully connected layers and convolutions: a layer used once whose variables are free is registered, with
the class its linked or default approximation stands for and with its tensors as the only tower; used several times,
in separate operations or folded into the batch dimension, it is registered as the multi-use type. Missing: embedding
layers used once and batch normalisation, where the claim is false. -/
theorem C65_registered_partial (g : Var → Nat) (ops : List Op) (p : Params) (r : Record) (rest : List Record)
    (batch first : Option Nat) (dims : List (Option Nat)) (a : String) (spec : BlockSpec) :
    let lc := runAll g LC.init ops
    Free lc p → r.inShape = first :: dims →
    (r.ty = .fullyConnected → r.dense = true → dims.length = 1 →
      (rest = [] → SingleUse batch first → Wanted lc .fullyConnected p a → (a, spec) ∈ table .fullyConnected →
        (registerGroup lc p [r] false batch).2 = .ok () ∧ (registerGroup lc p [r] false batch).1.blocks.get p =
          some ⟨spec, [.io (.tensor r.inputs) (.tensor r.outputs)]⟩) ∧
      (rest = [] → (∃ b f, batch = some b ∧ first = some f ∧ 0 < b ∧ b ∣ f ∧ f ≠ b) →
        Wanted lc .fullyConnectedMulti p a → (a, spec) ∈ table .fullyConnectedMulti →
        (registerGroup lc p [r] false batch).2 = .ok () ∧ (registerGroup lc p [r] false batch).1.blocks.get p =
          some ⟨spec, [.io (.tensor r.inputs) (.tensor r.outputs)]⟩) ∧
      (rest ≠ [] → Wanted lc .fullyConnectedMulti p a → (a, spec) ∈ table .fullyConnectedMulti →
        (registerGroup lc p (r :: rest) false batch).2 = .ok () ∧
        (registerGroup lc p (r :: rest) false batch).1.blocks.get p =
          some ⟨spec, [.io (.list ((r :: rest).map (·.inputs))) (.list ((r :: rest).map (·.outputs)))]⟩)) ∧
    (r.ty = .conv2d → dims.length = 3 → (r.format = none ∨ r.format = some "NHWC") →
      (rest = [] → SingleUse batch first → Wanted lc .conv2d p a → (a, spec) ∈ table .conv2d →
        (a = "diagonal" → r.strides.head? = some 1 ∧ r.strides.getLast? = some 1) →
        (registerGroup lc p [r] false batch).2 = .ok () ∧ (registerGroup lc p [r] false batch).1.blocks.get p =
          some ⟨spec, [.io (.tensor r.inputs) (.tensor r.outputs)]⟩) ∧
      (rest ≠ [] → Wanted lc .conv2dMulti p a → (a, spec) ∈ table .conv2dMulti →
        (registerGroup lc p (r :: rest) false batch).2 = .ok () ∧
        (registerGroup lc p (r :: rest) false batch).1.blocks.get p =
          some ⟨spec, [.io (.list ((r :: rest).map (·.inputs))) (.list ((r :: rest).map (·.outputs)))]⟩)) := by
  intro lc hf hs
  have hwf : WF lc.blocks := wf_reachable g ops
  refine ⟨fun hty hdense hdims => ⟨?_, ?_, ?_⟩, fun hty hdims hfmt => ⟨?_, ?_⟩⟩
  · intro _ hsu hw hspec
    have hfold := foldedUses_single (limit := 2) (sep := .ok (r.inShape[1]?.getD none)) hsu
      (rest := dims) (by simp [hdims])
    rw [← hs] at hfold
    have hg : registerGroup lc p [r] false batch =
        runOp lc (.fullyConnected p (.tensor r.inputs) (.tensor r.outputs) none true (.explicit .no)) := by
      simp [registerGroup, fcUses, hty, hdense, hfold]
    rw [hg]
    exact runOp_free hwf (op := .fullyConnected p _ _ none true _) hf rfl
      (by simp [LayerOp.call, getBlockType_wanted hw hspec, Except.map]) rfl rfl
  · rintro _ ⟨b, f, rfl, rfl, hb, hd, hne⟩ hw hspec
    have hfold := foldedUses_folded (limit := 2) (sep := .ok (r.inShape[1]?.getD none)) hb hd hne
      (rest := dims) (by simp [hdims])
    rw [← hs] at hfold
    have hg : registerGroup lc p [r] false (some b) =
        runOp lc (.fullyConnectedMulti p (.tensor r.inputs) (.tensor r.outputs) none true (.explicit .no)) := by
      simp [registerGroup, fcUses, hty, hdense, hfold]
    rw [hg]
    exact runOp_free hwf (op := .fullyConnectedMulti p _ _ none true _) hf rfl
      (by simp [LayerOp.call, getBlockType_wanted hw hspec, Except.map]) rfl rfl
  · intro hrest hw hspec
    have hg : registerGroup lc p (r :: rest) false batch =
        runOp lc (.fullyConnectedMulti p (.list ((r :: rest).map (·.inputs))) (.list ((r :: rest).map (·.outputs)))
          none true (.explicit .no)) := by
      simp [registerGroup, hty, hdense, hrest]
    rw [hg]
    exact runOp_free hwf (op := .fullyConnectedMulti p _ _ none true _) hf rfl
      (by simp [LayerOp.call, getBlockType_wanted hw hspec, Except.map]) rfl
      (by simp [LayerOp.call, lengthError])
  · intro _ hsu hw hspec hstr
    have hfold := foldedUses_single (limit := 4)
      (sep := .error "ValueError: Currently not supporting conv layers") hsu (rest := dims) (by simp [hdims])
    rw [← hs] at hfold
    have hg : registerGroup lc p [r] false batch =
        runOp lc (.conv2d p r.strides r.format (.tensor r.inputs) (.tensor r.outputs) none (.explicit .no)) := by
      simp [registerGroup, hty, hfold]
    rw [hg]
    refine runOp_free hwf (op := .conv2d p _ _ _ _ none _) hf rfl ?_ rfl rfl
    have hfo : formatOk r.format = true := by simpa [formatOk] using hfmt
    simp only [LayerOp.call, getBlockType_wanted hw hspec, hfo, if_true]
    rw [if_neg]
    rintro ⟨h1, h2⟩
    exact h2 (hstr h1)
  · intro hrest hw hspec
    have hg : registerGroup lc p (r :: rest) false batch =
        runOp lc (.conv2dMulti p r.format (.list ((r :: rest).map (·.inputs)))
          (.list ((r :: rest).map (·.outputs))) none (.explicit .no)) := by
      simp [registerGroup, hty, hrest]
    rw [hg]
    have hfo : formatOk r.format = true := by simpa [formatOk] using hfmt
    exact runOp_free hwf (op := .conv2dMulti p _ _ _ none _) hf rfl
      (by simp [LayerOp.call, hfo, getBlockType_wanted hw hspec, Except.map]) rfl
      (by simp [LayerOp.call, lengthError])

/-- C65, violated for embedding layers: a lookup with integer inputs that is used once always makes automatic
registration raise, on every collection, unless the user linked an approximation to its variable. The reason is that
the approximation `kron_indep_in_diag` exists for multi-use layers only. -/
theorem C65_embedding_counterexample (lc : LC) (p : Params) (r : Record) (reuse : Bool)
    (batch first : Option Nat) (hty : r.ty = .fullyConnected) (hd : r.dense = false) (hs : r.inShape = [first])
    (hsu : SingleUse batch first) (hl : linkedApprox lc p = none) :
    registerGroup lc p [r] reuse batch = (lc, .error "ValueError: Bad value for approx.") := by
  have hfold := foldedUses_single (limit := 1) (sep := .ok (r.inShape[1]?.getD none)) hsu (rest := []) (by simp)
  rw [← hs] at hfold
  have hg : registerGroup lc p [r] reuse batch =
      runOp lc (.fullyConnected p (.tensor r.inputs) (.tensor r.outputs) (some "kron_indep_in_diag") false
        (.explicit (if reuse then .yes else .no))) := by
    simp [registerGroup, fcUses, hty, hd, hl, hfold]
  rw [hg]
  rfl

/-- C65, violated for batch normalisation: with the approximation `diagonal` linked to scale and offset and `full` as
generic default, the two variables get a full block each. -/
theorem C65_batch_norm_counterexample : ∃ (ops : List Op) (p : Params) (r : Record) (v w : Var),
    let lc := runAll (fun _ => 0) LC.init ops
    p = .seq [v, w] ∧ r.ty = .batchNorm ∧ Free lc p ∧ Wanted lc .generic p "diagonal" ∧
    (registerGroup lc p [r] false (some 4)).2 = .ok () ∧
    (registerGroup lc p [r] false (some 4)).1.blocks.get (.single v) = some ⟨{ cls := "NaiveFullFB" }, [.batch 4]⟩ ∧
    (registerGroup lc p [r] false (some 4)).1.blocks.get (.single w) = some ⟨{ cls := "NaiveFullFB" }, [.batch 4]⟩ := by
  refine ⟨[.link (.seq [⟨0, [3]⟩, ⟨1, [3]⟩]) (some "diagonal"), .setDefault .generic "full"],
    .seq [⟨0, [3]⟩, ⟨1, [3]⟩],
    ⟨.batchNorm, .seq [⟨0, [3]⟩, ⟨1, [3]⟩], ∅, 0, 1, [], [], true, [], none⟩, ⟨0, [3]⟩, ⟨1, [3]⟩, rfl, rfl,
    ⟨by decide, by decide, by decide⟩, .inl (by decide), by decide, by decide, by decide⟩

/-! ### The number of uses -/

/-- C66: for a layer matched once, the search passes on a number of uses exactly when the inputs have an extra dimension
or their first dimension is known and differs from the batch size; in the latter case it is the number of batches in
the first dimension, at least two for non-empty inputs, and a first dimension that is no multiple of the batch size is
rejected. Missing: the value in the case of an extra dimension. -/
theorem C66_num_uses_partial (first : Option Nat) (dims : List (Option Nat)) (limit b : Nat) (hb : 0 < b)
    (sep : Except String (Option Nat)) (hl : (first :: dims).length ≤ limit) (f : Nat) (hf : first = some f) :
    (∀ u, foldedUses (first :: dims) limit (some b) sep = .ok (some (some u)) ↔ f ≠ b ∧ u * b = f) ∧
    (foldedUses (first :: dims) limit (some b) sep = .ok none ↔ f = b) ∧
    ((∃ e, foldedUses (first :: dims) limit (some b) sep = .error e) ↔ ¬ b ∣ f) ∧
    ∀ u, foldedUses (first :: dims) limit (some b) sep = .ok (some (some u)) → f ≠ 0 → 2 ≤ u := by
  subst hf
  have hb' : b ≠ 0 := by omega
  have hnl : ¬ limit < dims.length + 1 := by simp only [List.length_cons] at hl; omega
  have hl' : dims.length + 1 ≤ limit := by omega
  have key : foldedUses (some f :: dims) limit (some b) sep =
      if f = b then .ok none else if b ∣ f then .ok (some (some (f / b)))
      else .error "ValueError: Passed batch_size did not divide first dimension" := by
    unfold foldedUses
    by_cases h1 : f = b
    · simp [h1, hnl]
    · by_cases h2 : b ∣ f
      · simp [h1, h2, hl', hb', Nat.mod_eq_zero_of_dvd h2]
      · have : f % b ≠ 0 := fun h => h2 (Nat.dvd_of_mod_eq_zero h)
        simp [h1, h2, hl', hb', this]
  have h1 : ∀ u, foldedUses (some f :: dims) limit (some b) sep = .ok (some (some u)) ↔ f ≠ b ∧ u * b = f := by
    intro u
    rw [key]
    constructor
    · intro h
      split at h
      · exact absurd h (by simp)
      rename_i hne
      split at h
      · rename_i hd
        simp only [Except.ok.injEq, Option.some.injEq] at h
        exact ⟨hne, by rw [← h]; exact Nat.div_mul_cancel hd⟩
      · exact absurd h (by simp)
    · rintro ⟨hne, rfl⟩
      rw [if_neg hne, if_pos (Nat.dvd_mul_left b u), Nat.mul_div_cancel _ hb]
  refine ⟨h1, ?_, ?_, ?_⟩
  · rw [key]
    by_cases h1 : f = b
    · simp [h1]
    · by_cases h2 : b ∣ f <;> simp [h1, h2]
  · rw [key]
    by_cases h1 : f = b
    · simp [h1]
    · by_cases h2 : b ∣ f <;> simp [h1, h2]
  · intro u hu h0
    obtain ⟨hne, rfl⟩ := (h1 u).1 hu
    rcases u with _ | _ | u
    · simp at h0
    · simp at hne
    · omega

/-- C66, violated for inputs with a separate dimension for the uses: they are documented (and treated by the blocks) as
`[num_uses, batch_size, input_size]`, but the search takes the size of the second dimension for the number of uses,
whatever it is. -/
theorem C66_separate_counterexample (r : Record) (uses b n : Nat) (batch : Option Nat) (h : uses ≠ b)
    (hd : r.dense = true) (hs : r.inShape = [some uses, some b, some n]) :
    fcUses r batch = .ok (some (some b)) ∧ b ≠ uses :=
  ⟨by cases batch <;> simp [fcUses, hd, hs, foldedUses, Except.map], Ne.symm h⟩

/-- Twelve rows with batch size four are three uses. -/
example : foldedUses [some 12, some 7] 2 (some 4) (.ok none) = .ok (some (some 3)) := by decide

/-! ### Concrete cases -/

/-- A kernel with bias matched together, and again without the bias: the second match is dropped. -/
example : filterRecords [] (group
    [⟨.fullyConnected, .single ⟨0, [2, 3]⟩, {0, 1}, 0, 1, [some 4, some 2], [], true, [], none⟩,
     ⟨.fullyConnected, .seq [⟨0, [2, 3]⟩, ⟨1, [3]⟩], {0, 1, 2}, 0, 2, [some 4, some 2], [], true, [], none⟩]) [] =
    .ok [(.seq [⟨0, [2, 3]⟩, ⟨1, [3]⟩],
      [⟨.fullyConnected, .seq [⟨0, [2, 3]⟩, ⟨1, [3]⟩], {0, 1, 2}, 0, 2, [some 4, some 2], [], true, [], none⟩])] := by
  decide

/-- The whole of `register_layers` with one loss, that match and one more variable: both end up in blocks. -/
example : let lc := runAll (fun _ => 0) LC.init [.loss (some "loss") "" 1 (.explicit .no)]
    let r : Record := ⟨.fullyConnected, .seq [⟨0, [2, 3]⟩, ⟨1, [3]⟩], {0, 1, 2}, 0, 2, [some 4, some 2], [], true, [],
      none⟩
    let t : Tower := ⟨[r], fun d => d.map (·.1)⟩
    let x := registerLayers lc [⟨0, [2, 3]⟩, ⟨1, [3]⟩, ⟨2, [5]⟩] (some 4) (fun _ => t)
    Orders t ∧ x.2 = .ok () ∧ x.1.blocks.keys = [.seq [⟨0, [2, 3]⟩, ⟨1, [3]⟩], .single ⟨2, [5]⟩] :=
  ⟨fun _ => List.Perm.refl _, by decide, by decide⟩

/-- An embedding used once cannot be registered automatically. -/
example : let lc := runAll (fun _ => 0) LC.init [.loss (some "loss") "" 1 (.explicit .no)]
    let r : Record := ⟨.fullyConnected, .single ⟨0, [9, 3]⟩, {0, 1}, 0, 1, [some 4], [], false, [], none⟩
    (registerLayers lc [⟨0, [9, 3]⟩] (some 4) (fun _ => ⟨[r], fun d => d.map (·.1)⟩)).2 =
      .error "ValueError: Bad value for approx." := by
  decide

end Kfac.Auto
