import Verif.Reg.Listing
import Verif.Reg.PropsVars
import Verif.Stats.Model
import Mathlib.Tactic.Module
import Mathlib.Tactic.Abel

/-! # C130: the lists of variables -/

namespace Kfac.Reg.Vars

theorem insertAll_ok {κ β : Type} [DecidableEq κ] {kvs : List (κ × β)} : ∀ {d : List (κ × β)},
    (kvs.map Prod.fst).Nodup → (∀ k ∈ kvs.map Prod.fst, k ∉ d.map Prod.fst) → insertAll d kvs = .ok (d ++ kvs) := by
  induction kvs with
  | nil => intro d _ _; simp [insertAll]
  | cons p kvs ih =>
    obtain ⟨k, v⟩ := p
    intro d hn hd
    rw [List.map_cons, List.nodup_cons] at hn
    rw [insertAll, if_neg (hd k (by simp)), ih hn.2]
    · simp
    · intro k' hk' hm
      rw [List.map_append, List.mem_append] at hm
      rcases hm with hm | hm
      · exact hd k' (by simp only [List.map_cons, List.mem_cons]; exact .inr hk') hm
      · have : k' = k := by simpa using hm
        exact hn.1 (this ▸ hk')

theorem insertAll_nil {κ β : Type} [DecidableEq κ] {kvs : List (κ × β)} (h : (kvs.map Prod.fst).Nodup) :
    insertAll [] kvs = .ok kvs := by
  rw [insertAll_ok h (by simp)]; rfl

theorem matpower_keys {c : Coll} (h : c.Ok) (f : FDecl) : ((matpowerEntries c f).map Prod.fst).Nodup := by
  have e : (matpowerEntries c f).map Prod.fst = c.exps.flatMap fun e => (c.ids .powers f).map fun i => (e, i) := by
    simp [matpowerEntries, List.map_flatMap, Function.comp_def]
  rw [e, List.nodup_flatMap]
  refine ⟨fun e _ => (ids_nodup c _ f).map fun i i' hi => (Prod.mk.inj hi).2, ?_⟩
  refine h.expsNodup.imp ?_
  intro e e' hne x hx hx'
  obtain ⟨i, -, rfl⟩ := List.mem_map.mp hx
  obtain ⟨i', -, hi'⟩ := List.mem_map.mp hx'
  exact hne (Prod.mk.inj hi').1.symm

/-- What the two methods leave in a fresh factor. -/
def filled (c : Coll) (f : FDecl) : FObj where
  decl := f
  cov := some (f.scope ++ "/cov/var".toList, f.scope ++ "/cov/total_weight".toList)
  covDt1 := match f.kind with
    | .multi true => some (f.scope ++ "/cov_dt1/var".toList, f.scope ++ "/cov_dt1/total_weight".toList)
    | _ => none
  matpowers := if f.kind = .diagonal then [] else matpowerEntries c f
  chols := match f.kind with
    | .dense | .multi _ =>
      if c.chol then (c.ids .powers f).map fun i => (i, ⟨f.scope, .chol, i, f.covShape⟩) else []
    | _ => []
  cholInvs := match f.kind with
    | .dense | .multi _ =>
      if c.cholInv then (c.ids .powers f).map fun i => (i, ⟨f.scope, .cholInv, i, f.covShape⟩) else []
    | _ => []
  option1 := match f.kind with
    | .multi _ => (c.ids .option1 f).map fun i =>
      (i, (⟨f.scope, .lmat, i, f.covShape⟩, ⟨f.scope, .psi, i, f.covShape.take 1⟩))
    | _ => []
  option2 := match f.kind with
    | .multi _ => (c.ids .option2 f).map fun i =>
      (i, (⟨f.scope, .pmat, i, f.covShape⟩, ⟨f.scope, .kmat, i, f.covShape⟩, ⟨f.scope, .mu, i, f.covShape.take 1⟩))
    | _ => []

theorem keys_if {β : Type} (b : Bool) {l : List DId} (hl : l.Nodup) (g : DId → β) :
    ((if b then l.map fun i => (i, g i) else []).map Prod.fst).Nodup := by
  cases b
  · simp
  · simpa [Function.comp_def] using hl

theorem keys_map {β : Type} {l : List DId} (hl : l.Nodup) (g : DId → β) :
    ((l.map fun i => (i, g i)).map Prod.fst).Nodup := by simpa [Function.comp_def] using hl

theorem filled_ok {c : Coll} (h : c.Ok) (f : FDecl) :
    (FObj.instantiateCov { decl := f } >>= fun o => o.instantiateInv c) = .ok (filled c f) := by
  obtain ⟨sc, k, sh⟩ := f
  have hm := fun f => insertAll_nil (matpower_keys h f)
  rcases k with _ | _ | (_ | _) | z
  · rfl
  · have hc := insertAll_nil (keys_if c.chol (ids_nodup c .powers ⟨sc, .dense, sh⟩)
      fun i => (⟨sc, .chol, i, sh⟩ : VarReq))
    have hi := insertAll_nil (keys_if c.cholInv (ids_nodup c .powers ⟨sc, .dense, sh⟩)
      fun i => (⟨sc, .cholInv, i, sh⟩ : VarReq))
    simp only [FObj.instantiateCov, FObj.instantiateInv, FObj.instantiateDense, bind, Except.bind, hm, hc, hi,
      Option.isSome_none, Bool.false_eq_true, or_self, if_false, pure, Except.pure]
    rfl
  · have hc := insertAll_nil (keys_if c.chol (ids_nodup c .powers ⟨sc, .multi false, sh⟩)
      fun i => (⟨sc, .chol, i, sh⟩ : VarReq))
    have hi := insertAll_nil (keys_if c.cholInv (ids_nodup c .powers ⟨sc, .multi false, sh⟩)
      fun i => (⟨sc, .cholInv, i, sh⟩ : VarReq))
    have h1 := insertAll_nil (keys_map (ids_nodup c .option1 ⟨sc, .multi false, sh⟩)
      fun i => ((⟨sc, .lmat, i, sh⟩, ⟨sc, .psi, i, sh.take 1⟩) : VarReq × VarReq))
    have h2 := insertAll_nil (keys_map (ids_nodup c .option2 ⟨sc, .multi false, sh⟩)
      fun i => ((⟨sc, .pmat, i, sh⟩, ⟨sc, .kmat, i, sh⟩, ⟨sc, .mu, i, sh.take 1⟩) : VarReq × VarReq × VarReq))
    simp only [FObj.instantiateCov, FObj.instantiateInv, FObj.instantiateDense, bind, Except.bind, hm, hc, hi, h1, h2,
      Option.isSome_none, Bool.false_eq_true, or_self, if_false, pure, Except.pure]
    rfl
  · have hc := insertAll_nil (keys_if c.chol (ids_nodup c .powers ⟨sc, .multi true, sh⟩)
      fun i => (⟨sc, .chol, i, sh⟩ : VarReq))
    have hi := insertAll_nil (keys_if c.cholInv (ids_nodup c .powers ⟨sc, .multi true, sh⟩)
      fun i => (⟨sc, .cholInv, i, sh⟩ : VarReq))
    have h1 := insertAll_nil (keys_map (ids_nodup c .option1 ⟨sc, .multi true, sh⟩)
      fun i => ((⟨sc, .lmat, i, sh⟩, ⟨sc, .psi, i, sh.take 1⟩) : VarReq × VarReq))
    have h2 := insertAll_nil (keys_map (ids_nodup c .option2 ⟨sc, .multi true, sh⟩)
      fun i => ((⟨sc, .pmat, i, sh⟩, ⟨sc, .kmat, i, sh⟩, ⟨sc, .mu, i, sh.take 1⟩) : VarReq × VarReq × VarReq))
    simp only [FObj.instantiateCov, FObj.instantiateInv, FObj.instantiateDense, bind, Except.bind, hm, hc, hi, h1, h2,
      Option.isSome_none, Bool.false_eq_true, or_self, if_false, pure, Except.pure]
    rfl
  · simp only [FObj.instantiateCov, FObj.instantiateInv, bind, Except.bind, hm,
      Option.isSome_none, Bool.false_eq_true, or_self, if_false, pure, Except.pure]
    rfl

theorem mapM_ok {α β : Type} {g : α → Except String β} {k : α → β} {l : List α} (h : ∀ a ∈ l, g a = .ok (k a)) :
    l.mapM g = .ok (l.map k) := by
  induction l with
  | nil => rfl
  | cons a l ih =>
    rw [List.mapM_cons, h a (by simp), ih fun b hb => h b (by simp [hb])]
    rfl

theorem objects_ok {c : Coll} (h : c.Ok) : c.objects = .ok (c.factors.map (filled c)) := by
  let mid : FDecl → FObj := fun f => match FObj.instantiateCov { decl := f } with
    | .ok o => o
    | .error _ => { decl := f }
  have h1 : ∀ f ∈ c.factors, FObj.instantiateCov { decl := f } = .ok (mid f) := by
    intro f _
    simp only [mid, FObj.instantiateCov, Option.isSome_none, Bool.false_eq_true, or_self, if_false]
  rw [Coll.objects, mapM_ok h1]
  have h2 : ∀ f, FObj.instantiateInv c (mid f) = .ok (filled c f) := by
    intro f
    have := filled_ok h f
    simpa only [FObj.instantiateCov, Option.isSome_none, Bool.false_eq_true, or_self, if_false, bind, Except.bind,
      mid] using this
  show (c.factors.map mid).mapM _ = _
  rw [mapM_ok (k := fun o => filled c o.decl)]
  · rw [List.map_map]
    refine congrArg _ (List.map_congr_left fun f _ => ?_)
    simp only [Function.comp, mid, FObj.instantiateCov, Option.isSome_none, Bool.false_eq_true, or_self, if_false]
  · intro o ho
    obtain ⟨f, -, rfl⟩ := List.mem_map.mp ho
    rw [h2]
    simp only [mid, FObj.instantiateCov, Option.isSome_none, Bool.false_eq_true, or_self, if_false]

theorem filled_names (c : Coll) (f : FDecl) (hk : ∀ z, f.kind ≠ .sua z) :
    (filled c f).getInvVars.flatMap Listed.names = (invRequests c f).map VarReq.name := by
  obtain ⟨sc, k, sh⟩ := f
  rcases k with _ | _ | x | z
  · rfl
  · simp only [FObj.getInvVars, filled, invRequests, denseRequests, matpowerEntries, List.flatMap_append,
      List.map_append, List.flatMap_map, Listed.names, List.map_flatMap, List.map_map, reduceCtorEq, if_false]
    cases c.chol <;> cases c.cholInv <;>
      simp [List.flatMap_map, Listed.names, Function.comp_def, List.flatMap_assoc, ← List.map_eq_flatMap]
  · simp only [FObj.getInvVars, filled, invRequests, multiRequests, denseRequests, matpowerEntries,
      List.flatMap_append, List.map_append, List.flatMap_map, Listed.names, List.map_flatMap, List.map_map,
      reduceCtorEq, if_false]
    cases c.chol <;> cases c.cholInv <;>
      simp [List.flatMap_map, Listed.names, Function.comp_def, List.flatMap_assoc, ← List.map_eq_flatMap]
  · exact absurd rfl (hk z)

theorem sua_names (c : Coll) (f : FDecl) (z : Bool) (hk : f.kind = .sua z) :
    (filled c f).getInvVars.flatMap Listed.names = (matpowerEntries c f).map fun p => p.2.name := by
  simp only [FObj.getInvVars, filled, hk, reduceCtorEq, if_false]
  simp [List.flatMap_map, Listed.names, ← List.map_eq_flatMap]

theorem listed_sub {c : Coll} {f : FDecl} {n : Str} (hn : n ∈ (filled c f).getInvVars.flatMap Listed.names) :
    ∃ v ∈ invRequests c f, v.name = n ∧ v.kind.scoped = true := by
  by_cases hk : ∃ z, f.kind = .sua z
  · obtain ⟨z, hk⟩ := hk
    rw [sua_names c f z hk] at hn
    obtain ⟨p, hp, rfl⟩ := List.mem_map.mp hn
    obtain ⟨e, he, hp⟩ := List.mem_flatMap.mp hp
    obtain ⟨i, hi, rfl⟩ := List.mem_map.mp hp
    refine ⟨⟨f.scope, .matpower e, i, f.covShape⟩, ?_, rfl, rfl⟩
    simp only [invRequests, hk, suaRequests]
    exact List.mem_flatMap.mpr ⟨e, he, List.mem_flatMap.mpr ⟨i, hi, by simp⟩⟩
  · push Not at hk
    rw [filled_names c f hk] at hn
    obtain ⟨v, hv, rfl⟩ := List.mem_map.mp hn
    refine ⟨v, hv, rfl, ?_⟩
    unfold invRequests at hv
    split at hv
    · simp at hv
    · simp only [denseRequests, List.mem_append, List.mem_flatMap, List.mem_map] at hv
      rcases hv with (⟨e, -, i, -, rfl⟩ | hv) | hv
      · rfl
      · split at hv
        · obtain ⟨i, -, rfl⟩ := List.mem_map.mp hv; rfl
        · simp at hv
      · split at hv
        · obtain ⟨i, -, rfl⟩ := List.mem_map.mp hv; rfl
        · simp at hv
    · simp only [multiRequests, denseRequests, List.mem_append, List.mem_flatMap, List.mem_map, List.mem_cons,
        List.not_mem_nil, or_false] at hv
      rcases hv with (((⟨e, -, i, -, rfl⟩ | hv) | hv) | ⟨i, -, rfl | rfl⟩) | ⟨i, -, rfl | rfl | rfl⟩
      · rfl
      · split at hv
        · obtain ⟨i, -, rfl⟩ := List.mem_map.mp hv; rfl
        · simp at hv
      · split at hv
        · obtain ⟨i, -, rfl⟩ := List.mem_map.mp hv; rfl
        · simp at hv
      all_goals rfl
    · rename_i z hz
      exact absurd hz (hk z)

theorem scoped_prefix {c : Coll} {f : FDecl} {v : VarReq} (hv : v ∈ invRequests c f) (hs : v.kind.scoped = true) :
    f.scope ++ ['/'] <+: v.name := by
  have := (inv_allowed hv).1
  refine ⟨v.kind.localName v.id, ?_⟩
  simp [VarReq.name, hs, this]

/-- The listing of inverses is complete for all factors but those of the SUA approximation: there is one inner list for
each factor, in the order of the factors and with variables under the scope of that factor only; no variable is listed
twice; and the variables listed, some of them in tuples, are exactly those that were made, except for the two variables
of each moving average. -/
theorem C130_inverses_partial {c : Coll} (h : c.Ok) (hk : ∀ f ∈ c.factors, ∀ z, f.kind ≠ .sua z) (s : Store)
    (hs : ∀ v ∈ c.requests, v.name ∉ s.map Prod.fst) :
    ∃ t os, makeVars s c.requests = .ok t ∧ c.objects = .ok os ∧ (estInvVars os).length = c.factors.length ∧
    (∀ (k : ℕ) (f : FDecl), c.factors[k]? = some f → ∃ l, (estInvVars os)[k]? = some l ∧
      ∀ n ∈ l.flatMap Listed.names, f.scope ++ ['/'] <+: n) ∧
    ((estInvVars os).flatten.flatMap Listed.names).Nodup ∧
    ∀ n, n ∈ (estInvVars os).flatten.flatMap Listed.names ↔
      n ∈ t.map Prod.fst ∧ n ∉ s.map Prod.fst ∧ ∀ f ∈ c.factors,
        n ≠ f.scope ++ "/cov/var".toList ∧ n ≠ f.scope ++ "/cov/total_weight".toList ∧
        (f.kind = .multi true →
          n ≠ f.scope ++ "/cov_dt1/var".toList ∧ n ≠ f.scope ++ "/cov_dt1/total_weight".toList) := by
  obtain ⟨hm, hn⟩ := C129_created_partial h s hs
  refine ⟨_, _, hm, objects_ok h, by simp [estInvVars], ?_, ?_⟩
  · intro k f hf
    refine ⟨(filled c f).getInvVars, by simp [estInvVars, hf], fun n hn => ?_⟩
    obtain ⟨v, hv, rfl, hsc⟩ := listed_sub hn
    exact scoped_prefix hv hsc
  have e : (estInvVars (c.factors.map (filled c))).flatten.flatMap Listed.names =
      (c.factors.flatMap (invRequests c)).map VarReq.name := by
    have : ∀ l : List FDecl, (∀ f ∈ l, ∀ z, f.kind ≠ .sua z) →
        (estInvVars (l.map (filled c))).flatten.flatMap Listed.names = (l.flatMap (invRequests c)).map VarReq.name := by
      intro l hl
      induction l with
      | nil => rfl
      | cons f l ih =>
        have := ih fun g hg => hl g (by simp [hg])
        simp only [estInvVars, List.map_map] at this
        simp only [estInvVars, List.map_cons, List.flatten_cons, List.flatMap_append, List.flatMap_cons,
          List.map_append, filled_names c f (hl f (by simp)), List.map_map, this]
    exact this c.factors hk
  rw [e]
  rw [Coll.requests, List.map_append, List.nodup_append] at hn
  refine ⟨hn.2.1, fun n => ⟨fun hmem => ⟨?_, ?_, ?_⟩, ?_⟩⟩
  · obtain ⟨v, hv, rfl⟩ := List.mem_map.mp hmem
    simp only [List.map_append, List.map_map, List.mem_append, Coll.requests]
    exact .inr (.inr (List.mem_map.mpr ⟨v, hv, rfl⟩))
  · obtain ⟨v, hv, rfl⟩ := List.mem_map.mp hmem
    exact hs v (List.mem_append.mpr (.inr hv))
  · intro f hf
    have ne : ∀ w ∈ covRequests f, n ≠ w.name := fun w hw e =>
      hn.2.2 w.name (List.mem_map.mpr ⟨w, List.mem_flatMap.mpr ⟨f, hf, hw⟩, rfl⟩) n hmem e.symm
    refine ⟨ne ⟨f.scope, .covVar, [], f.covShape⟩ (by simp [covRequests]),
      ne ⟨f.scope, .covWeight, [], []⟩ (by simp [covRequests]), fun hd => ⟨?_, ?_⟩⟩
    · exact ne ⟨f.scope, .dt1Var, [], f.covShape⟩ (by simp [covRequests, hd])
    · exact ne ⟨f.scope, .dt1Weight, [], []⟩ (by simp [covRequests, hd])
  · rintro ⟨h1, h2, h3⟩
    rw [List.map_append, List.mem_append] at h1
    rcases h1 with h1 | h1
    · exact absurd h1 h2
    · rw [List.map_map, Coll.requests] at h1
      obtain ⟨v, hv, rfl⟩ := List.mem_map.mp h1
      rcases List.mem_append.mp hv with hv | hv
      · exfalso
        obtain ⟨f, hf, hv⟩ := List.mem_flatMap.mp hv
        obtain ⟨a1, a2, a3⟩ := h3 f hf
        unfold covRequests at hv
        rcases List.mem_append.mp hv with hv | hv
        · rcases List.mem_cons.mp hv with rfl | hv
          · exact a1 rfl
          · rw [List.mem_singleton.mp hv] at a2
            exact a2 rfl
        · split at hv
          · rename_i hz; exact hk f hf _ hz
          · rename_i hd
            rcases List.mem_cons.mp hv with rfl | hv
            · exact (a3 hd).1 rfl
            · have := (a3 hd).2
              rw [List.mem_singleton.mp hv] at this
              exact this rfl
          · simp at hv
      · exact List.mem_map.mpr ⟨v, hv, rfl⟩

/-- The SUA factor lists the inverse of its covariance only. The damping that its inverse was computed with and the two
variables of the rank one correction are made, and the inverse update assigns them, but they are in none of the lists. -/
theorem C130_sua_counterexample {c : Coll} (h : c.Ok) (s : Store) (hs : ∀ v ∈ c.requests, v.name ∉ s.map Prod.fst)
    (b : BDecl) (hb : b ∈ c.blocks) (hp : b.served = .powers) (z : Bool) (hk : b.inp.kind = .sua z)
    (e : Str) (he : e ∈ c.exps) :
    ∃ t os, makeVars s c.requests = .ok t ∧ c.objects = .ok os ∧
      let d := idString (pairId b.inp.scope b.out.scope c.damping b.norm 0)
      ∀ n, n = "damping_var_".toList ++ e ++ "_".toList ++ d ∨ (z = false ∧
          (n = "cov_inv_mu_".toList ++ e ++ "_".toList ++ d ∨ n = "rank_one_update_scale_".toList ++ e ++ "_".toList ++ d)) →
        n ∈ t.map Prod.fst ∧ n ∉ (estInvVars os).flatten.flatMap Listed.names := by
  obtain ⟨hm, hn⟩ := C129_created_partial h s hs
  refine ⟨_, _, hm, objects_ok h, ?_⟩
  have hi : pairId b.inp.scope b.out.scope c.damping b.norm 0 ∈ c.ids .powers b.inp :=
    mem_ids.mpr (.inl ⟨b, hb, hp, .inl ⟨rfl, rfl⟩⟩)
  generalize pairId b.inp.scope b.out.scope c.damping b.norm 0 = i at hi
  intro d n hd
  obtain ⟨w, hw, rfl, hsc⟩ : ∃ w ∈ invRequests c b.inp, w.name = n ∧ w.kind.scoped = false := by
    simp only [invRequests, hk, suaRequests]
    rcases hd with rfl | ⟨rfl, rfl | rfl⟩
    · exact ⟨⟨b.inp.scope, .dampingVar e, _, []⟩,
        List.mem_flatMap.mpr ⟨e, he, List.mem_flatMap.mpr ⟨_, hi, by simp⟩⟩, rfl, rfl⟩
    · exact ⟨⟨b.inp.scope, .covInvMu e, _, b.inp.covShape.take 1 ++ [1]⟩,
        List.mem_flatMap.mpr ⟨e, he, List.mem_flatMap.mpr ⟨_, hi, by simp⟩⟩, rfl, rfl⟩
    · exact ⟨⟨b.inp.scope, .rankOne e, _, []⟩,
        List.mem_flatMap.mpr ⟨e, he, List.mem_flatMap.mpr ⟨_, hi, by simp⟩⟩, rfl, rfl⟩
  have hw' : w ∈ c.requests := List.mem_append.mpr (.inr (List.mem_flatMap.mpr ⟨_, (h.used b hb).1, hw⟩))
  refine ⟨?_, fun hl => ?_⟩
  · simp only [List.map_append, List.map_map, List.mem_append]
    exact .inr (List.mem_map.mpr ⟨w, hw', rfl⟩)
  · obtain ⟨l, hl, hn'⟩ := List.mem_flatMap.mp hl
    obtain ⟨ls, hls, hl⟩ := List.mem_flatten.mp hl
    simp only [estInvVars, List.map_map, List.mem_map, Function.comp] at hls
    obtain ⟨f, hf, rfl⟩ := hls
    obtain ⟨v, hv, hv', hvs⟩ := listed_sub (List.mem_flatMap.mpr ⟨l, hl, hn'⟩)
    have := List.inj_on_of_nodup_map hn (List.mem_append.mpr (.inr (List.mem_flatMap.mpr ⟨f, hf, hv⟩))) hw' hv'
    rw [this, hsc] at hvs
    exact absurd hvs (by simp)

/-- What is listed for the covariances: one inner list for each factor, with the current estimate of the covariance and
for recurrent factors that of the covariance of successive steps. These are tensors: none of the lists has a variable.
The total weights and the mean of the SUA factor cannot be found from them at all. -/
theorem C130_covariances_counterexample {c : Coll} (h : c.Ok) :
    ∃ os, c.objects = .ok os ∧ estCovVars os = .ok (c.factors.map fun f =>
      .value (f.scope ++ "/cov/var".toList) (f.scope ++ "/cov/total_weight".toList) ::
      if f.kind = .multi true then
        [.value (f.scope ++ "/cov_dt1/var".toList) (f.scope ++ "/cov_dt1/total_weight".toList)] else []) ∧
    ∀ l, estCovVars os = .ok l → l.flatten.flatMap Listed.names = [] := by
  have key : estCovVars (c.factors.map (filled c)) = .ok (c.factors.map fun f =>
      .value (f.scope ++ "/cov/var".toList) (f.scope ++ "/cov/total_weight".toList) ::
      if f.kind = .multi true then
        [.value (f.scope ++ "/cov_dt1/var".toList) (f.scope ++ "/cov_dt1/total_weight".toList)] else []) := by
    rw [estCovVars, List.mapM_map]
    refine mapM_ok fun f _ => ?_
    obtain ⟨sc, k, sh⟩ := f
    rcases k with _ | _ | (_ | _) | z <;> rfl
  refine ⟨_, objects_ok h, key, fun l hl => ?_⟩
  rw [key] at hl
  obtain rfl := Except.ok.inj hl
  rw [List.flatMap_eq_nil_iff]
  intro x hx
  obtain ⟨l, hl, hx⟩ := List.mem_flatten.mp hx
  obtain ⟨f, -, rfl⟩ := List.mem_map.mp hl
  rcases List.mem_cons.mp hx with rfl | hx
  · rfl
  · split at hx
    · rw [List.mem_singleton.mp hx]; rfl
    · simp at hx

open Kfac.Stats in
/-- With `ZERO_DEBIAS` the listed estimates do not determine the state: two moving averages with the same estimate `x` but
different total weights have different estimates after every update of positive decay and weight by anything else. So
estimates that were saved cannot be used to continue as before. -/
theorem C130_weight_counterexample {V : Type} [AddCommGroup V] [Module ℝ V] (x v : V) (hxv : x ≠ v) (a b d w : ℝ)
    (ha : 0 < a) (hb : 0 < b) (hab : a ≠ b) (hd : 0 < d) (hw : 0 < w) :
    (MovAvg.value true ⟨a • x, a⟩ = some x ∧ MovAvg.value true ⟨b • x, b⟩ = some x) ∧
    MovAvg.value true (MovAvg.add ⟨a • x, a⟩ v d w) ≠ MovAvg.value true (MovAvg.add ⟨b • x, b⟩ v d w) := by
  have hval : ∀ a : ℝ, 0 < a → MovAvg.value true (MovAvg.add ⟨a • x, a⟩ v d w) = some (x + (w / (d * a + w)) • (v - x)) := by
    intro a ha
    have h0 : d * a + w ≠ 0 := by positivity
    simp only [MovAvg.value, MovAvg.add, if_true, h0, if_false]
    congr 1
    have : x = (d * a + w)⁻¹ • ((d * a + w) • x) := by rw [smul_smul, inv_mul_cancel₀ h0, one_smul]
    rw [div_eq_inv_mul, ← smul_smul]
    nth_rewrite 2 [this]
    rw [← smul_add]
    congr 1
    module
  refine ⟨⟨?_, ?_⟩, ?_⟩
  · simp [MovAvg.value, ha.ne']
  · simp [MovAvg.value, hb.ne']
  · rw [hval a ha, hval b hb]
    intro h
    have h := add_left_cancel (Option.some.inj h)
    rw [← sub_eq_zero, ← sub_smul, smul_eq_zero] at h
    rcases h with h | h
    · have h1 : d * a + w ≠ 0 := by positivity
      have h2 : d * b + w ≠ 0 := by positivity
      rw [sub_eq_zero, div_eq_div_iff h1 h2] at h
      have h3 := mul_left_cancel₀ hw.ne' h
      have h4 : d * a = d * b := by linarith
      exact hab (mul_left_cancel₀ hd.ne' h4)
    · exact hxv (sub_eq_zero.mp h).symm

open Kfac.Stats in
/-- Estimate two from weights one and three, then an update by five: the estimates differ. -/
example : MovAvg.value true (MovAvg.add (V := ℝ) ⟨(1 : ℝ) • 2, 1⟩ 5 (9 / 10) 1) ≠
    MovAvg.value true (MovAvg.add ⟨(3 : ℝ) • 2, 3⟩ 5 (9 / 10) 1) :=
  (C130_weight_counterexample (V := ℝ) 2 5 (by norm_num) 1 3 (9 / 10) 1 (by norm_num) (by norm_num) (by norm_num)
    (by norm_num) (by norm_num)).2

open Kfac.Stats in
/-- Without `ZERO_DEBIAS` the estimates do determine all later ones. -/
theorem C130_unnormalised {V : Type} [AddCommGroup V] [Module ℝ V] (m m' : MovAvg V)
    (h : MovAvg.value false m = MovAvg.value false m') (ops : List (MovOp V)) :
    MovAvg.value false (ops.foldl MovAvg.step m) = MovAvg.value false (ops.foldl MovAvg.step m') := by
  induction ops generalizing m m' with
  | nil => exact h
  | cons o ops ih =>
    refine ih _ _ ?_
    have hv : m.var = m'.var := by simpa [MovAvg.value] using h
    cases o <;> simp [MovAvg.step, MovAvg.add, MovAvg.reset, MovAvg.value, hv]

/-- Two layers with a common input, a layer with a diagonal input factor and a generic parameter. -/
def sampleE : FDecl := ⟨"ff_diagkron_ids_0".toList, .diagonal, [5]⟩
def sampleList : Coll :=
  ⟨[sampleX, sampleG, sampleH, sampleE, sampleN],
   [⟨sampleX, sampleG, none, .powers⟩, ⟨sampleX, sampleH, none, .powers⟩, ⟨sampleE, sampleG, none, .powers⟩],
   [sampleN], "0.001".toList, ["-1.0".toList], true, false⟩

theorem sampleList_ok : sampleList.Ok where
  scopes := by decide
  plain := by
    intro f hf
    simp only [sampleList, List.mem_cons, List.not_mem_nil, or_false] at hf
    rcases hf with rfl | rfl | rfl | rfl | rfl <;> (refine ⟨?_, ?_, ?_⟩ <;> decide)
  damping := by decide
  expsNodup := by decide
  exps := by decide
  used := by
    intro b hb
    simp only [sampleList, List.mem_cons, List.not_mem_nil, or_false] at hb
    rcases hb with rfl | rfl | rfl <;> simp [sampleList]
  alike := by
    intro b hb b' hb' _
    simp only [sampleList, List.mem_cons, List.not_mem_nil, or_false] at hb hb'
    rcases hb with rfl | rfl | rfl <;> rcases hb' with rfl | rfl | rfl <;> rfl
  sua := by
    intro b hb z
    simp only [sampleList, List.mem_cons, List.not_mem_nil, or_false] at hb
    rcases hb with rfl | rfl | rfl
    · exact ⟨fun h => FKind.noConfusion (h : FKind.dense = _), fun h => FKind.noConfusion (h : FKind.dense = _)⟩
    · exact ⟨fun h => FKind.noConfusion (h : FKind.dense = _), fun h => FKind.noConfusion (h : FKind.dense = _)⟩
    · exact ⟨fun h => FKind.noConfusion (h : FKind.diagonal = _), fun h => FKind.noConfusion (h : FKind.dense = _)⟩
  options := by
    intro b hb b' hb' _ _ _ h
    simp only [sampleList, List.mem_cons, List.not_mem_nil, or_false] at hb
    rcases hb with rfl | rfl | rfl <;> simp at h
  singles := by
    intro f hf
    rw [List.mem_singleton.mp hf]
    refine ⟨by simp [sampleList], fun z h => FKind.noConfusion (h : FKind.dense = _), fun b hb => ?_⟩
    simp only [sampleList, List.mem_cons, List.not_mem_nil, or_false] at hb
    rcases hb with rfl | rfl | rfl <;>
      exact ⟨fun h => absurd (congrArg FDecl.scope h) (by decide), fun h => absurd (congrArg FDecl.scope h) (by decide)⟩

/-- The conditions of the first theorem can be met: five inner lists with twelve variables, while those of the second are met
by `sampleColl`. -/
example : (∃ t os, makeVars [] sampleList.requests = .ok t ∧ sampleList.objects = .ok os ∧
    (estInvVars os).map List.length = [4, 4, 2, 0, 2]) ∧ sampleColl.Ok := by
  refine ⟨⟨_, _, (C129_created_partial sampleList_ok [] (by simp)).1, objects_ok sampleList_ok, ?_⟩, sampleColl_ok⟩
  decide

end Kfac.Reg.Vars
