import Verif.Auto.Model
import Verif.Reg.Props
import Verif.Reg.PropsLoss

/-! # Lemmas about automatic registration -/

namespace Kfac.Auto

open Kfac.Reg

/-! ### Grouping records -/

/-- What `group` computes. -/
structure IsGroup (rs : List Record) (d : RDict) : Prop where
  nodup : (d.map (·.1)).Nodup
  mem : ∀ p l, (p, l) ∈ d ↔ l = rs.filter (fun r => decide (r.params = p)) ∧ l ≠ []

theorem IsGroup.key {rs : List Record} {d : RDict} (h : IsGroup rs d) (p : Params) :
    p ∈ d.map (·.1) ↔ ∃ r ∈ rs, r.params = p := by
  rw [List.mem_map]
  constructor
  · rintro ⟨⟨q, l⟩, hm, rfl⟩
    obtain ⟨hl, hne⟩ := (h.mem q l).1 hm
    obtain ⟨r, hr⟩ := List.exists_mem_of_ne_nil l hne
    rw [hl, List.mem_filter] at hr
    exact ⟨r, hr.1, of_decide_eq_true hr.2⟩
  · rintro ⟨r, hr, hp⟩
    refine ⟨(p, rs.filter (fun r => decide (r.params = p))), (h.mem _ _).2 ⟨rfl, ?_⟩, rfl⟩
    exact List.ne_nil_of_mem (List.mem_filter.2 ⟨hr, decide_eq_true hp⟩)

theorem isGroup_addRecord {rs : List Record} {d : RDict} (h : IsGroup rs d) (r : Record) :
    IsGroup (rs ++ [r]) (addRecord d r) := by
  unfold addRecord
  by_cases hk : r.params ∈ d.map (·.1)
  · rw [if_pos hk]
    refine ⟨?_, ?_⟩
    · rw [List.map_map]
      have : ((fun e : Params × List Record => e.1) ∘
          fun e => if e.1 = r.params then (e.1, e.2 ++ [r]) else e) = (·.1) := by
        funext e; simp only [Function.comp]; split <;> rfl
      rw [this]
      exact h.nodup
    · intro p l
      rw [List.mem_map, List.filter_append]
      constructor
      · rintro ⟨⟨q, m⟩, hm, he⟩
        obtain ⟨hl, hne⟩ := (h.mem q m).1 hm
        by_cases hq : q = r.params
        · rw [if_pos hq] at he
          obtain ⟨rfl, rfl⟩ := Prod.mk.inj he
          exact ⟨by simp [hl, hq], by simp⟩
        · rw [if_neg hq] at he
          obtain ⟨rfl, rfl⟩ := Prod.mk.inj he
          exact ⟨by simp [hl, Ne.symm hq], hne⟩
      · rintro ⟨hl, hne⟩
        by_cases hq : p = r.params
        · obtain ⟨r', hr', hp'⟩ := (h.key r.params).1 hk
          refine ⟨(p, rs.filter (fun r => decide (r.params = p))), (h.mem _ _).2 ⟨rfl, ?_⟩, ?_⟩
          · exact List.ne_nil_of_mem (List.mem_filter.2 ⟨hr', decide_eq_true (hp'.trans hq.symm)⟩)
          · rw [if_pos hq, hl]
            simp [hq]
        · refine ⟨(p, l), (h.mem _ _).2 ⟨?_, hne⟩, by rw [if_neg hq]⟩
          rw [hl]
          simp [Ne.symm hq]
  · rw [if_neg hk]
    refine ⟨?_, ?_⟩
    · rw [List.map_append, List.nodup_append]
      refine ⟨h.nodup, by simp, ?_⟩
      intro a ha b hb
      simp only [List.map_cons, List.map_nil, List.mem_singleton] at hb
      subst hb
      rintro rfl
      exact hk ha
    · intro p l
      have hno : rs.filter (fun x => decide (x.params = r.params)) = [] := by
        rw [List.filter_eq_nil_iff]
        intro x hx hp
        exact hk ((h.key _).2 ⟨x, hx, of_decide_eq_true hp⟩)
      rw [List.mem_append, List.filter_append, List.mem_singleton, h.mem]
      by_cases hq : p = r.params
      · subst hq
        rw [hno]
        constructor
        · rintro (⟨rfl, hne⟩ | he)
          · exact absurd rfl hne
          · obtain ⟨_, rfl⟩ := Prod.mk.inj he
            simp
        · rintro ⟨hl, _⟩
          right
          simp [hl]
      · have : [r].filter (fun x => decide (x.params = p)) = [] := by simp [Ne.symm hq]
        rw [this, List.append_nil]
        constructor
        · rintro (hm | he)
          · exact hm
          · exact absurd (Prod.mk.inj he).1 hq
        · exact Or.inl

theorem isGroup_group (rs : List Record) : IsGroup rs (group rs) := by
  induction rs using List.reverseRecOn with
  | nil =>
    refine ⟨by simp [group], ?_⟩
    intro p l
    simp only [group, List.foldl_nil, List.not_mem_nil, List.filter_nil, false_iff]
    rintro ⟨rfl, h⟩
    exact h rfl
  | append_singleton rs r ih =>
    have : group (rs ++ [r]) = addRecord (group rs) r := by simp [group]
    rw [this]
    exact isGroup_addRecord ih r

/-- The records of the groups whose parameters satisfy a condition. -/
theorem mem_flat_filter (rs : List Record) (f : Params → Bool) (r : Record) :
    r ∈ ((group rs).filter (fun e => f e.1)).flatMap (·.2) ↔ r ∈ rs ∧ f r.params = true := by
  have h := isGroup_group rs
  rw [List.mem_flatMap]
  constructor
  · rintro ⟨⟨p, l⟩, hm, hr⟩
    rw [List.mem_filter] at hm
    obtain ⟨hl, _⟩ := (h.mem p l).1 hm.1
    simp only at hr
    rw [hl, List.mem_filter] at hr
    have hp := of_decide_eq_true hr.2
    exact ⟨hr.1, by rw [hp]; exact hm.2⟩
  · rintro ⟨hr, hf⟩
    have hmem : r ∈ rs.filter (fun x => decide (x.params = r.params)) :=
      List.mem_filter.2 ⟨hr, decide_eq_true rfl⟩
    exact ⟨(r.params, _), List.mem_filter.2 ⟨(h.mem _ _).2 ⟨rfl, List.ne_nil_of_mem hmem⟩, hf⟩, hmem⟩

/-! ### The consistency check -/

theorem ambiguous_fold (vs : List Var) : ∀ seen : List Var, seen.Nodup → ∀ b : Bool,
    (vs.foldl (fun (s : List Var × Bool) (v : Var) => if s.1.contains v then (s.1, true) else (s.1 ++ [v], s.2))
      (seen, b)).2 = (b || decide ¬ (seen ++ vs).Nodup) := by
  induction vs with
  | nil =>
    intro seen hs b
    simp [hs]
  | cons v vs ih =>
    intro seen hs b
    rw [List.foldl_cons]
    by_cases hv : v ∈ seen
    · rw [if_pos (by simpa using hv), ih seen hs true]
      have : ¬ (seen ++ v :: vs).Nodup := by
        rw [List.nodup_append]
        rintro ⟨_, _, h⟩
        exact h v hv v (by simp) rfl
      simp [this]
    · rw [if_neg (by simpa using hv), ih (seen ++ [v]) ?_ b]
      · simp
      · rw [List.nodup_append]
        refine ⟨hs, by simp, ?_⟩
        intro a ha b hb
        simp only [List.mem_singleton] at hb
        subst hb
        rintro rfl
        exact hv ha

theorem ambiguous_iff (d : RDict) : ambiguous d = true ↔ ¬ (d.flatMap fun e => e.1.vars).Nodup := by
  unfold ambiguous
  rw [ambiguous_fold _ [] (by simp) false]
  simp

theorem nodup_flatMap_vars {d : RDict} (hn : (d.map (·.1)).Nodup) :
    (d.flatMap fun e => e.1.vars).Nodup ↔
      (∀ p ∈ d.map (·.1), p.vars.Nodup) ∧
      ∀ p ∈ d.map (·.1), ∀ q ∈ d.map (·.1), p ≠ q → ∀ v ∈ p.vars, v ∉ q.vars := by
  induction d with
  | nil => simp
  | cons e d ih =>
    rw [List.map_cons, List.nodup_cons] at hn
    rw [List.flatMap_cons, List.nodup_append, ih hn.2, List.map_cons]
    constructor
    · rintro ⟨h1, ⟨h2, h3⟩, h4⟩
      have h4' : ∀ v ∈ e.1.vars, ∀ p ∈ d.map (·.1), v ∉ p.vars := by
        intro v hv p hp hvp
        obtain ⟨e', he', rfl⟩ := List.mem_map.1 hp
        exact h4 v hv v (List.mem_flatMap.2 ⟨e', he', hvp⟩) rfl
      refine ⟨?_, ?_⟩
      · intro p hp
        rcases List.mem_cons.1 hp with rfl | hp
        · exact h1
        · exact h2 p hp
      · intro p hp q hq hpq v hv
        rcases List.mem_cons.1 hp with rfl | hp <;> rcases List.mem_cons.1 hq with rfl | hq
        · exact absurd rfl hpq
        · exact h4' v hv q hq
        · exact fun hv' => h4' v hv' p hp hv
        · exact h3 p hp q hq hpq v hv
    · rintro ⟨h1, h2⟩
      refine ⟨h1 _ (by simp), ⟨fun p hp => h1 p (List.mem_cons_of_mem _ hp), fun p hp q hq =>
        h2 p (List.mem_cons_of_mem _ hp) q (List.mem_cons_of_mem _ hq)⟩, ?_⟩
      intro v hv w hw
      obtain ⟨e', he', hw'⟩ := List.mem_flatMap.1 hw
      rintro rfl
      have hm := List.mem_map_of_mem (f := (·.1)) he'
      exact h2 e.1 (by simp) e'.1 (List.mem_cons_of_mem _ hm)
        (fun h => hn.1 (h ▸ hm)) v hv hw'

/-! ### Effects of registrations on the blocks -/

/-- The collection after the layer registrations `ops`, whether they raised or not. -/
def after (lc : LC) (ops : List LayerOp) : LC := ops.foldl (fun l op => (runOp l op).1) lc

/-- `lc'` is reached from `lc` by layer registrations for parameters satisfying `P`. -/
def Ran (P : Params → Prop) (lc lc' : LC) : Prop := ∃ ops, lc' = after lc ops ∧ ∀ op ∈ ops, P op.params

variable {P Q : Params → Prop} {lc lc1 lc2 : LC}

theorem Ran.refl : Ran P lc lc := ⟨[], rfl, by simp⟩

theorem Ran.trans (h1 : Ran P lc lc1) (h2 : Ran P lc1 lc2) : Ran P lc lc2 := by
  obtain ⟨o1, rfl, p1⟩ := h1
  obtain ⟨o2, rfl, p2⟩ := h2
  refine ⟨o1 ++ o2, by simp [after], ?_⟩
  intro op hop
  rcases List.mem_append.1 hop with h | h
  · exact p1 op h
  · exact p2 op h

theorem Ran.mono (h : Ran P lc lc1) (hpq : ∀ p, P p → Q p) : Ran Q lc lc1 := by
  obtain ⟨o, h1, h2⟩ := h
  exact ⟨o, h1, fun op hop => hpq _ (h2 op hop)⟩

theorem Ran.one (op : LayerOp) (h : P op.params) : Ran P lc (runOp lc op).1 :=
  ⟨[op], rfl, by simpa using h⟩

/-- A layer registration changes no other block and only adds a key. -/
theorem runOp_effect (lc : LC) (op : LayerOp) :
    (∀ k, k ≠ op.params → (runOp lc op).1.blocks.get k = lc.blocks.get k) ∧
    (∀ k ∈ lc.blocks.keys, k ∈ (runOp lc op).1.blocks.keys) ∧
    (runOp lc op).1.linked = lc.linked ∧ (runOp lc op).1.defaults = lc.defaults ∧
    (runOp lc op).1.finalized = lc.finalized ∧
    ((runOp lc op).2 = .ok () → op.params ∈ (runOp lc op).1.blocks.keys) := by
  unfold runOp runLayer
  rw [call_params, call_reuse]
  split
  · exact ⟨fun _ _ => rfl, fun _ h => h, rfl, rfl, rfl, by simp⟩
  split
  · exact ⟨fun _ _ => rfl, fun _ h => h, rfl, rfl, rfl, by simp⟩
  rename_i lc1 hr
  have h1 : (∀ k, k ≠ op.params → lc1.blocks.get k = lc.blocks.get k) ∧
      (∀ k ∈ lc.blocks.keys, k ∈ lc1.blocks.keys) ∧ op.params ∈ lc1.blocks.keys ∧
      lc1.linked = lc.linked ∧ lc1.defaults = lc.defaults ∧ lc1.finalized = lc.finalized := by
    rcases (registerBlock_ok hr).2 with ⟨rfl, hk, _⟩ | ⟨hk, _, _, bs, hbs, rfl⟩
    · exact ⟨fun _ _ => rfl, fun _ h => h, hk, rfl, rfl, rfl⟩
    · unfold LPD.setItem at hbs
      split at hbs
      · exact absurd hbs (by simp)
      simp only [Except.ok.injEq] at hbs
      subst hbs
      refine ⟨?_, ?_, ?_, rfl, rfl, rfl⟩
      · intro k hk'
        simp only [LPD.get, lookup_upsert, if_neg hk']
      · intro k hk'
        simp only [LPD.keys, keys_upsert]
        split
        · exact hk'
        · exact List.mem_append_left _ hk'
      · simp only [LPD.keys, keys_upsert]
        rw [if_neg (show op.params ∉ lc.blocks.entries.map (·.1) from hk)]
        simp
  have h2 : ∀ data k, k ≠ op.params → (addTower lc1 op.params data).blocks.get k = lc.blocks.get k := by
    intro data k hk
    rw [get_addTower, h1.1 k hk]
    cases lc.blocks.get k <;> simp [hk]
  have h3 : ∀ data, ∀ k ∈ lc.blocks.keys, k ∈ (addTower lc1 op.params data).blocks.keys := by
    intro data k hk
    rw [keys_addTower]
    exact h1.2.1 k hk
  split
  · exact ⟨h1.1, h1.2.1, h1.2.2.2.1, h1.2.2.2.2.1, h1.2.2.2.2.2, by simp⟩
  split
  · exact ⟨h2 _, h3 _, h1.2.2.2.1, h1.2.2.2.2.1, h1.2.2.2.2.2, by simp⟩
  · refine ⟨h2 _, h3 _, h1.2.2.2.1, h1.2.2.2.2.1, h1.2.2.2.2.2, fun _ => ?_⟩
    show op.params ∈ (addTower lc1 op.params _).blocks.keys
    rw [keys_addTower]
    exact h1.2.2.1

theorem runOp_wf (h : WF lc.blocks) (op : LayerOp) : WF (runOp lc op).1.blocks := h.runLayer _

theorem Ran.wf (h : WF lc.blocks) (hr : Ran P lc lc1) : WF lc1.blocks := by
  obtain ⟨ops, rfl, hp⟩ := hr
  induction ops generalizing lc with
  | nil => exact h
  | cons op ops ih => exact ih (runOp_wf h op) (fun o ho => hp o (List.mem_cons_of_mem _ ho))

/-- Blocks under other parameters are untouched. -/
theorem Ran.get (hr : Ran P lc lc1) {k : Params} (hk : ¬ P k) : lc1.blocks.get k = lc.blocks.get k := by
  obtain ⟨ops, rfl, hp⟩ := hr
  induction ops generalizing lc with
  | nil => rfl
  | cons op ops ih =>
    show (after (runOp lc op).1 ops).blocks.get k = _
    rw [ih (fun o ho => hp o (List.mem_cons_of_mem _ ho))]
    exact (runOp_effect lc op).1 k (fun h => hk (h ▸ hp op (by simp)))

theorem Ran.keys (hr : Ran P lc lc1) : ∀ k ∈ lc.blocks.keys, k ∈ lc1.blocks.keys := by
  obtain ⟨ops, rfl, hp⟩ := hr
  induction ops generalizing lc with
  | nil => exact fun _ h => h
  | cons op ops ih =>
    intro k hk
    exact ih (fun o ho => hp o (List.mem_cons_of_mem _ ho)) k ((runOp_effect lc op).2.1 k hk)

theorem Ran.same (hr : Ran P lc lc1) :
    lc1.linked = lc.linked ∧ lc1.defaults = lc.defaults ∧ lc1.finalized = lc.finalized := by
  obtain ⟨ops, rfl, hp⟩ := hr
  induction ops generalizing lc with
  | nil => exact ⟨rfl, rfl, rfl⟩
  | cons op ops ih =>
    obtain ⟨h1, h2, h3⟩ := ih (lc := (runOp lc op).1) (fun o ho => hp o (List.mem_cons_of_mem _ ho))
    have := runOp_effect lc op
    exact ⟨h1.trans this.2.2.1, h2.trans this.2.2.2.1, h3.trans this.2.2.2.2.1⟩

/-- Variable `v` belongs to some block. -/
def Covered (lc : LC) (v : Var) : Prop := ∃ k ∈ lc.blocks.keys, v ∈ k.vars

theorem Ran.covered (hr : Ran P lc lc1) {v : Var} (h : Covered lc v) : Covered lc1 v := by
  obtain ⟨k, hk, hv⟩ := h
  exact ⟨k, hr.keys k hk, hv⟩

/-! ### The registration loops -/

/-- Parameters under which a group `p` may be registered: itself, or (batch normalisation) its variables. -/
def Part (p k : Params) : Prop := k = p ∨ ∃ v ∈ p.vars, k = .single v

theorem runOp_spec (lc : LC) (op : LayerOp) :
    Ran (Part op.params) lc (runOp lc op).1 ∧
    ((runOp lc op).2 = .ok () → ∀ v ∈ op.params.vars, Covered (runOp lc op).1 v) := by
  refine ⟨Ran.one op (.inl rfl), fun h v hv => ⟨_, (runOp_effect lc op).2.2.2.2.2 h, hv⟩⟩

theorem andThen_error {x : LC × Except String Unit} {f : LC → LC × Except String Unit} {e : String}
    (h : x.2 = .error e) : andThen x f = (x.1, .error e) := by
  unfold andThen; rw [h]

theorem andThen_ok {x : LC × Except String Unit} {f : LC → LC × Except String Unit}
    (h : x.2 = .ok ()) : andThen x f = f x.1 := by
  unfold andThen; rw [h]

theorem separate_spec (b : Nat) (ru : ReuseArg) (p : Params) (vs : List Var) (hvs : ∀ v ∈ vs, v ∈ p.vars) :
    ∀ x : LC × Except String Unit,
    let y := vs.foldl (fun x v => andThen x fun lc => runOp lc (.generic (.single v) b none ru)) x
    Ran (Part p) x.1 y.1 ∧ (y.2 = .ok () → x.2 = .ok () ∧ ∀ v ∈ vs, Covered y.1 v) := by
  induction vs with
  | nil => exact fun x => ⟨Ran.refl, fun h => ⟨h, by simp⟩⟩
  | cons v vs ih =>
    intro x
    simp only [List.foldl_cons]
    have ih' := ih (fun w hw => hvs w (List.mem_cons_of_mem _ hw))
      (andThen x fun lc => runOp lc (.generic (.single v) b none ru))
    cases hx : x.2 with
    | error e =>
      rw [andThen_error hx] at ih' ⊢
      refine ⟨ih'.1, fun h => ?_⟩
      exact absurd (ih'.2 h).1 (by simp)
    | ok u =>
      rw [andThen_ok hx] at ih' ⊢
      have h1 := runOp_spec x.1 (.generic (.single v) b none ru)
      have h1' : Ran (Part p) x.1 (runOp x.1 (.generic (.single v) b none ru)).1 := by
        refine Ran.one _ (.inr ⟨v, hvs v (by simp), rfl⟩)
      refine ⟨h1'.trans ih'.1, fun h => ⟨rfl, ?_⟩⟩
      obtain ⟨h2, h3⟩ := ih'.2 h
      intro w hw
      rcases List.mem_cons.1 hw with rfl | hw
      · exact ih'.1.covered (h1.2 h2 w (by simp [LayerOp.params, LayerOp.call, Params.vars]))
      · exact h3 w hw

/-- A group is registered under parts of its parameters, and on success all its variables are. -/
theorem registerGroup_spec (lc : LC) (p : Params) (recs : List Record) (reuse : Bool) (batch : Option Nat) :
    Ran (Part p) lc (registerGroup lc p recs reuse batch).1 ∧
    ((registerGroup lc p recs reuse batch).2 = .ok () →
      ∀ v ∈ p.vars, Covered (registerGroup lc p recs reuse batch).1 v) := by
  have hfail : ∀ e : String, Ran (Part p) lc (lc, (Except.error e : Except String Unit)).1 ∧
      ((lc, (Except.error e : Except String Unit)).2 = .ok () → ∀ v ∈ p.vars, Covered lc v) :=
    fun e => ⟨Ran.refl, by simp⟩
  unfold registerGroup
  simp only
  split
  · exact hfail _
  · split
    · split
      · exact runOp_spec lc (.fullyConnectedMulti p _ _ _ _ _)
      · split
        · exact hfail _
        · exact runOp_spec lc (.fullyConnectedMulti p _ _ _ _ _)
        · exact runOp_spec lc (.fullyConnected p _ _ _ _ _)
    · split
      · exact runOp_spec lc (.conv2dMulti p _ _ _ _ _)
      · split
        · exact hfail _
        · exact runOp_spec lc (.conv2dMulti p _ _ _ _ _)
        · exact runOp_spec lc (.conv2d p _ _ _ _ _ _)
    · split
      · exact hfail _
      · exact runOp_spec lc (.scaleAndShift p _ _ _ _ _ _)
    · split
      · exact hfail _
      · rename_i b
        split
        · have := separate_spec b (.explicit (if reuse then .yes else .no)) p p.vars (fun v hv => hv) (lc, .ok ())
          exact ⟨this.1, fun h => (this.2 h).2⟩
        · exact runOp_spec lc (.generic p _ _ _)

theorem registerLoop_spec (d : RDict) (reuse : Bool) (batch : Option Nat) (order : List Params) :
    ∀ (lc : LC) (mixed : Bool),
    Ran (fun k => ∃ p ∈ order, Part p k) lc (registerLoop d reuse batch order lc mixed).1 ∧
    ((registerLoop d reuse batch order lc mixed).2 = .ok false → mixed = false ∧
      ∀ p ∈ order, ∀ v ∈ p.vars, Covered (registerLoop d reuse batch order lc mixed).1 v) := by
  induction order with
  | nil =>
    intro lc mixed
    simp only [registerLoop]
    exact ⟨Ran.refl, fun h => ⟨by simpa using h, by simp⟩⟩
  | cons p ps ih =>
    intro lc mixed
    have hmono : ∀ k, (∃ q ∈ ps, Part q k) → ∃ q ∈ p :: ps, Part q k := by
      rintro k ⟨q, hq, hk⟩; exact ⟨q, List.mem_cons_of_mem _ hq, hk⟩
    simp only [registerLoop]
    split
    · obtain ⟨h1, h2⟩ := ih lc true
      exact ⟨h1.mono hmono, fun h => absurd (h2 h).1 (by simp)⟩
    · have hg := registerGroup_spec lc p ((lookup d p).getD []) reuse batch
      split
      · rename_i lc1 e he
        rw [he] at hg
        exact ⟨hg.1.mono fun k hk => ⟨p, by simp, hk⟩, by simp⟩
      · rename_i lc1 u he
        rw [he] at hg
        obtain ⟨h1, h2⟩ := ih lc1 mixed
        refine ⟨(hg.1.mono fun k hk => ⟨p, by simp, hk⟩).trans (h1.mono hmono), fun h => ?_⟩
        obtain ⟨h3, h4⟩ := h2 h
        refine ⟨h3, ?_⟩
        intro q hq v hv
        rcases List.mem_cons.1 hq with rfl | hq
        · exact h1.covered (hg.2 rfl v hv)
        · exact h4 q hq v hv

theorem registerRecords_spec (lc : LC) (d : RDict) (order : List Params) (reuse : Bool) (batch : Option Nat) :
    Ran (fun k => ∃ p ∈ order, Part p k) lc (registerRecords lc d order reuse batch).1 ∧
    ((registerRecords lc d order reuse batch).2 = .ok () →
      ∀ p ∈ order, ∀ v ∈ p.vars, Covered (registerRecords lc d order reuse batch).1 v) := by
  have h := registerLoop_spec d reuse batch order lc false
  unfold registerRecords
  split
  · rename_i he; rw [he] at h; exact ⟨h.1, by simp⟩
  · rename_i he; rw [he] at h; exact ⟨h.1, by simp⟩
  · rename_i he; rw [he] at h; exact ⟨h.1, fun _ => (h.2 rfl).2⟩

theorem genericLoop_spec (registered : List Var) (reuse : Bool) (batch : Option Nat) (vs : List Var) :
    ∀ lc : LC,
    Ran (fun k => ∃ v ∈ vs, v ∉ registered ∧ k = .single v) lc (genericLoop registered reuse batch vs lc).1 ∧
    ((genericLoop registered reuse batch vs lc).2 = .ok () →
      ∀ v ∈ vs, v ∉ registered → Covered (genericLoop registered reuse batch vs lc).1 v) := by
  induction vs with
  | nil => exact fun lc => ⟨Ran.refl, by simp⟩
  | cons v vs ih =>
    intro lc
    have hmono : ∀ k, (∃ w ∈ vs, w ∉ registered ∧ k = Params.single w) →
        ∃ w ∈ v :: vs, w ∉ registered ∧ k = Params.single w := by
      rintro k ⟨q, hq, hk⟩; exact ⟨q, List.mem_cons_of_mem _ hq, hk⟩
    simp only [genericLoop]
    split
    · rename_i hv
      obtain ⟨h1, h2⟩ := ih lc
      refine ⟨h1.mono hmono, fun h w hw hn => ?_⟩
      rcases List.mem_cons.1 hw with rfl | hw
      · exact absurd (by simpa using hv) hn
      · exact h2 h w hw hn
    · rename_i hv
      split
      · exact ⟨Ran.refl, by simp⟩
      · split
        · exact ⟨Ran.refl, by simp⟩
        · rename_i b
          have h1 := runOp_spec lc (.generic (.single v) b none (.explicit (if reuse then .yes else .no)))
          have h1' : Ran (fun k => ∃ w ∈ v :: vs, w ∉ registered ∧ k = Params.single w) lc
              (runOp lc (.generic (.single v) b none (.explicit (if reuse then .yes else .no)))).1 :=
            Ran.one _ ⟨v, by simp, by simpa using hv, rfl⟩
          generalize runOp lc (.generic (.single v) b none (.explicit (if reuse then .yes else .no))) = x at h1 h1'
          cases hx : x.2 with
          | error e => rw [andThen_error hx]; exact ⟨h1', by simp⟩
          | ok u =>
            rw [andThen_ok hx]
            obtain ⟨h2, h3⟩ := ih x.1
            refine ⟨h1'.trans (h2.mono hmono), fun h w hw hn => ?_⟩
            rcases List.mem_cons.1 hw with rfl | hw
            · exact h2.covered (h1.2 hx w (by simp [LayerOp.params, LayerOp.call, Params.vars]))
            · exact h3 h w hw hn

end Kfac.Auto
