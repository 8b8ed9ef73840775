import Verif.Reg.Names
import Verif.Reg.Lemmas
import Mathlib.Data.List.Infix

/-! # Properties of the layer collection: factors and the default collection (C33, C34) -/

namespace Kfac.Reg

/-! ## C33 -/

section Share
variable {K : Type} [DecidableEq K]

/-- Keys distinct, factors numbered in order. -/
def TableInv (f : List (K × Nat)) : Prop := (f.map (·.1)).Nodup ∧ f.map (·.2) = List.range f.length

theorem TableInv.request {f : List (K × Nat)} (h : TableInv f) (k : K) :
    TableInv (makeOrGetFactor f k).1 ∧ lookup (makeOrGetFactor f k).1 k = some (makeOrGetFactor f k).2 ∧
    f <+: (makeOrGetFactor f k).1 ∧
    (∀ k', k' ∈ (makeOrGetFactor f k).1.map (·.1) ↔ k' ∈ f.map (·.1) ∨ k' = k) := by
  unfold makeOrGetFactor
  cases hl : lookup f k with
  | some r =>
    refine ⟨h, hl, List.prefix_rfl, fun k' => ?_⟩
    have hk : k ∈ f.map (·.1) := (lookup_isSome f k).1 (by rw [hl]; rfl)
    constructor
    · exact .inl
    · rintro (h | rfl)
      · exact h
      · exact hk
  | none =>
    have hk := (lookup_eq_none f k).1 hl
    refine ⟨⟨?_, ?_⟩, ?_, List.prefix_append _ _, fun k' => by simp⟩
    · rw [List.map_append, List.nodup_append]
      exact ⟨h.1, by simp, by
        intro a ha b hb
        have : b = k := by simpa using hb
        subst this
        rintro rfl
        exact hk ha⟩
    · rw [List.map_append, h.2, List.length_append]
      simp [List.range_succ]
    · simp only
      rw [lookup_append, hl, lookup_cons]; simp

theorem requestAll_spec {f : List (K × Nat)} (h : TableInv f) (ks : List K) :
    TableInv (requestAll f ks).1 ∧ f <+: (requestAll f ks).1 ∧
    (∀ k', k' ∈ (requestAll f ks).1.map (·.1) ↔ k' ∈ f.map (·.1) ∨ k' ∈ ks) ∧
    (requestAll f ks).2.map some = ks.map (lookup (requestAll f ks).1) := by
  induction ks generalizing f with
  | nil => exact ⟨h, List.prefix_rfl, by simp [requestAll], by simp [requestAll]⟩
  | cons k ks ih =>
    obtain ⟨h1, h2, h3, h4⟩ := h.request k
    obtain ⟨i1, i2, i3, i4⟩ := ih h1
    have e1 : (requestAll f (k :: ks)).1 = (requestAll (makeOrGetFactor f k).1 ks).1 := rfl
    have e2 : (requestAll f (k :: ks)).2 =
      (makeOrGetFactor f k).2 :: (requestAll (makeOrGetFactor f k).1 ks).2 := rfl
    rw [e1, e2]
    refine ⟨i1, h3.trans i2, fun k' => ?_, ?_⟩
    · rw [i3, h4, List.mem_cons, or_assoc]
    · rw [List.map_cons, List.map_cons, i4]
      congr 1
      exact (lookup_of_mem i1.1 (i2.subset (mem_of_lookup h2))).symm

/-- For any sequence of requests: two of them return the same factor exactly when class and arguments are the
same; the collection's factors are exactly the distinct requests, each once; and a factor, once created,
stays. -/
theorem C33_sharing (ks : List K) :
    let (table, results) := requestAll ([] : List (K × Nat)) ks
    results.length = ks.length ∧
    (∀ i j (hi : i < ks.length) (hj : j < ks.length), results[i]? = results[j]? ↔ ks[i] = ks[j]) ∧
    (table.map (·.1)).Nodup ∧ (table.map (·.2)).Nodup ∧ (∀ k, k ∈ table.map (·.1) ↔ k ∈ ks) ∧
    (∀ r, r ∈ table.map (·.2) ↔ r ∈ results) ∧
    ∀ ks', table <+: (requestAll table ks').1 := by
  have h0 : TableInv ([] : List (K × Nat)) := ⟨by simp, by simp⟩
  obtain ⟨h1, h2, h3, h4⟩ := requestAll_spec h0 ks
  rcases hr : requestAll ([] : List (K × Nat)) ks with ⟨table, results⟩
  rw [hr] at h1 h2 h3 h4
  simp only at h1 h2 h3 h4 ⊢
  have hlen : results.length = ks.length := by
    have := congrArg List.length h4
    simpa using this
  have hres : ∀ i (hi : i < ks.length), results[i]? = lookup table ks[i] := by
    intro i hi
    have := congrArg (·[i]?) h4
    simp only [List.getElem?_map, List.getElem?_eq_getElem hi, Option.map_some] at this
    rw [List.getElem?_eq_getElem (hlen ▸ hi)] at this ⊢
    simpa using this
  have hvals : (table.map (·.2)).Nodup := by rw [h1.2]; exact List.nodup_range
  refine ⟨hlen, ?_, h1.1, hvals, by simpa using h3, ?_, fun ks' => (requestAll_spec h1 ks').2.1⟩
  · intro i j hi hj
    rw [hres i hi, hres j hj]
    constructor
    · intro h
      have hki : ks[i] ∈ table.map (·.1) := by rw [h3]; exact .inr (List.getElem_mem hi)
      obtain ⟨r, hr'⟩ := Option.isSome_iff_exists.1 ((lookup_isSome table ks[i]).2 hki)
      have m1 := mem_of_lookup hr'
      have m2 := mem_of_lookup (h ▸ hr')
      have := List.inj_on_of_nodup_map hvals m1 m2 rfl
      exact congrArg Prod.fst this
    · intro h; rw [h]
  · intro r
    constructor
    · intro hr'
      obtain ⟨⟨k, r'⟩, hm, rfl⟩ := List.mem_map.1 hr'
      have hk : k ∈ ks := by
        have := (h3 k).1 (List.mem_map_of_mem (f := (·.1)) hm)
        simpa using this
      have hl := lookup_of_mem h1.1 hm
      have : some r' ∈ results.map some := by
        rw [h4]; exact List.mem_map.2 ⟨k, hk, hl⟩
      simpa using this
    · intro hr'
      have : some r ∈ ks.map (lookup table) := by
        rw [← h4]; exact List.mem_map_of_mem hr'
      obtain ⟨k, _, hk⟩ := List.mem_map.1 this
      exact List.mem_map_of_mem (f := (·.2)) (mem_of_lookup hk)

end Share

/-- Six requests for three factors. -/
example : (requestAll [] [FactorReq.fcKron [["x:0".toList]] true, .convOutput [["g:0".toList]],
    .fcKron [["x:0".toList]] true, .fcKron [["x:0".toList]] false, .convOutput [["g:0".toList]],
    .fcKron [["x:0".toList]] true]).2 = [0, 1, 0, 2, 1, 0] := by
  decide

/-- Spec: the class of a factor, where the multi-use classes count as the class they extend. -/
def family : FactorReq → Nat
  | .naiveFull .. => 0
  | .naiveDiagonal .. => 1
  | .diagonalKron .. => 2
  | .diagonalMulti .. => 2
  | .fcDiagonal .. => 3
  | .scaleShiftFull .. => 4
  | .scaleShiftDiagonal .. => 4
  | .convDiagonal .. => 5
  | .fcKron .. => 6
  | .convInput .. => 7
  | .convInputMulti .. => 7
  | .convInputSUA .. => 8
  | .convOutput .. => 9
  | .convOutputMulti .. => 9
  | .fcMulti .. => 10

/-- Factors of different classes never have the same scope, whatever the arguments. -/
theorem C33_class_partial (r r' : FactorReq) (hf : family r ≠ family r') : r.scope ≠ r'.scope := by
  have h : r.scopePrefix ≠ r'.scopePrefix := by
    revert hf
    cases r <;> cases r' <;> simp [family, FactorReq.scopePrefix]
  have key : ∀ p ∈ ["ff_naivefull_", "ff_naivediag_", "ff_diag_kron_", "ff_diagfc_", "ff_scaleshift_",
      "ff_convdiag_", "ff_fckron_", "ff_convinkron_", "ff_convinsuakron_", "ff_convoutkron_",
      "ff_fc_multi_"],
      ∀ q ∈ ["ff_naivefull_", "ff_naivediag_", "ff_diag_kron_", "ff_diagfc_", "ff_scaleshift_",
      "ff_convdiag_", "ff_fckron_", "ff_convinkron_", "ff_convinsuakron_", "ff_convoutkron_",
      "ff_fc_multi_"], p ≠ q → ¬ p.toList <+: q.toList := by
    decide
  have hmem : ∀ r : FactorReq, r.scopePrefix ∈ ["ff_naivefull_", "ff_naivediag_", "ff_diag_kron_",
      "ff_diagfc_", "ff_scaleshift_", "ff_convdiag_", "ff_fckron_", "ff_convinkron_", "ff_convinsuakron_",
      "ff_convoutkron_", "ff_fc_multi_"] := by
    intro r; cases r <;> simp [FactorReq.scopePrefix]
  intro he
  unfold FactorReq.scope at he
  have h1 : r.scopePrefix.toList <+: r.scopePrefix.toList ++ scopeString r.parts := List.prefix_append _ _
  have h2 : r'.scopePrefix.toList <+: r.scopePrefix.toList ++ scopeString r.parts := by
    rw [he]; exact List.prefix_append _ _
  rcases List.prefix_or_prefix_of_prefix h1 h2 with hp | hp
  · exact key _ (hmem r) _ (hmem r') h hp
  · exact key _ (hmem r') _ (hmem r) (Ne.symm h) hp

/-- The full and the diagonal factor of a scale-and-shift layer never share a scope. -/
theorem C33_scale_shift_partial (i i' : List TName) (g g' : List (List TName)) (sd sd' : List Nat)
    (hd hd' : Option (List Nat)) (hs hs' : Bool) :
    (FactorReq.scaleShiftFull i g sd hd hs).scope ≠ (FactorReq.scaleShiftDiagonal i' g' sd' hd' hs').scope := by
  intro h
  have := congrArg (fun l => l.reverse.take 5) h
  simp [FactorReq.scope, FactorReq.scopePrefix, FactorReq.parts, scopeString, joinWith, Part.string,
    List.intercalate, List.intersperse] at this

theorem sanitize_inj {s t : TName} (hs : '/' ∉ s ∧ ':' ∉ s ∧ '_' ∉ s) (ht : '/' ∉ t ∧ ':' ∉ t ∧ '_' ∉ t)
    (h : sanitize s = sanitize t) : s = t := by
  have : ∀ u : TName, '/' ∉ u ∧ ':' ∉ u ∧ '_' ∉ u → sanitize u = u := by
    intro u hu
    unfold sanitize
    conv_rhs => rw [← List.map_id u]
    apply List.map_congr_left
    intro c hc
    rw [if_neg]
    · rfl
    · rintro (rfl | rfl)
      · exact hu.1 hc
      · exact hu.2.1 hc
  rwa [this s hs, this t ht] at h

/-- For the Kronecker factor of a fully-connected layer with one source and one tower: the scopes agree exactly
when the sanitised names and the bias flags agree; in particular factors of differently named tensors (names
without `/`, `:` and `_`, followed by the same output index) differ. -/
theorem C33_fc_names_partial (t t' : TName) (bias bias' : Bool) :
    ((FactorReq.fcKron [[t]] bias).scope = (FactorReq.fcKron [[t']] bias').scope ↔
      sanitize t = sanitize t' ∧ bias = bias') ∧
    ('/' ∉ t ∧ ':' ∉ t ∧ '_' ∉ t → '/' ∉ t' ∧ ':' ∉ t' ∧ '_' ∉ t' → ∀ idx : List Char,
      (FactorReq.fcKron [[t ++ ':' :: idx]] bias).scope = (FactorReq.fcKron [[t' ++ ':' :: idx]] bias').scope →
        t = t' ∧ bias = bias') := by
  have hscope : ∀ (t : TName) (b : Bool), (FactorReq.fcKron [[t]] b).scope =
      "ff_fckron_".toList ++ (sanitize t ++ '_' :: (if b then "True" else "False").toList) := by
    intro t b
    simp [FactorReq.scope, FactorReq.scopePrefix, FactorReq.parts, scopeString, joinWith, Part.string,
      List.intercalate, List.intersperse]
  have first : ∀ (t t' : TName) (bias bias' : Bool),
      (FactorReq.fcKron [[t]] bias).scope = (FactorReq.fcKron [[t']] bias').scope ↔
      sanitize t = sanitize t' ∧ bias = bias' := by
    intro t t' bias bias'
    rw [hscope, hscope, List.append_cancel_left_eq]
    constructor
    · intro h
      have hrev := congrArg List.reverse h
      cases bias <;> cases bias' <;> simp at hrev ⊢
      · exact hrev
      · exact hrev
    · rintro ⟨h1, rfl⟩; rw [h1]
  refine ⟨first t t' bias bias', ?_⟩
  intro h1 h2 idx he
  obtain ⟨hs, hb⟩ := (first _ _ _ _).1 he
  refine ⟨?_, hb⟩
  unfold sanitize at hs
  rw [List.map_append, List.map_append, List.append_cancel_right_eq] at hs
  exact sanitize_inj h1 h2 hs

/-- Names are not distinct in general: the bias flag is missing from the scope of diagonal Kronecker factors,
so two layers with the same input of which one has a bias collide; so do the single- and multi-use versions of
convolution input factors; and tensors whose names differ in `/` and `_`, or two tensors and one whose name
looks like both. -/
theorem C33_names_counterexample :
    (∀ tensors, (FactorReq.diagonalKron tensors true).scope = (FactorReq.diagonalKron tensors false).scope) ∧
    (∀ inputs fs pad st dil fmt b n, (FactorReq.convInput inputs fs pad st dil fmt b none none).scope =
      (FactorReq.convInputMulti inputs fs pad n st dil fmt b).scope) ∧
    (FactorReq.fcKron [["a/b:0".toList]] true).scope = (FactorReq.fcKron [["a_b:0".toList]] true).scope ∧
    (FactorReq.fcKron [["x:0".toList, "y:0".toList]] true).scope =
      (FactorReq.fcKron [["x_0_y:0".toList]] true).scope := by
  refine ⟨fun _ => rfl, fun _ _ _ _ _ _ _ _ => rfl, by decide, by decide⟩

/-! ## C34 -/

/-- While a default collection is set it stays the default whatever runs, and every read returns it. -/
theorem run_some (p : Prog) (c : Nat) : (p.run (some c)).1 = some c ∧ ∀ x ∈ (p.run (some c)).2.1, x = c := by
  induction p with
  | skip => simp [Prog.run]
  | fail => simp [Prog.run]
  | get => simp [Prog.run]
  | seq p q ihp ihq =>
    simp only [Prog.run]
    rcases hp : p.run (some c) with ⟨g1, o1, _ | _⟩
    · rw [hp] at ihp
      simp only at ihp ⊢
      obtain ⟨rfl, h1⟩ := ihp
      rcases hq : q.run (some c) with ⟨g2, o2, e⟩
      rw [hq] at ihq
      simp only at ihq ⊢
      refine ⟨ihq.1, ?_⟩
      intro x hx
      rcases List.mem_append.1 hx with h | h
      · exact h1 x h
      · exact ihq.2 x h
    · rw [hp] at ihp
      exact ihp
  | withDefault lc body ih => simp [Prog.run]
  | attempt p ih =>
    simp only [Prog.run]
    rcases hp : p.run (some c) with ⟨g1, o1, e⟩
    rw [hp] at ih
    exact ih

/-- In `with lc.as_default(): body` every read of the default in the body returns `lc`, and after a normal exit
the default is unset again. With a default set, the statement raises and changes nothing; in particular a
nested one always raises. Missing for the full claim: exits by exception, see
`C34_exception_counterexample`. -/
theorem C34_restored_partial (lc : Nat) (body : Prog) :
    (∀ x ∈ ((Prog.withDefault lc body).run none).2.1, x = lc) ∧
    (((Prog.withDefault lc body).run none).2.2 = false → ((Prog.withDefault lc body).run none).1 = none) ∧
    (((Prog.withDefault lc body).run none).2.2 = false ↔ (body.run (some lc)).2.2 = false) ∧
    (∀ c, (Prog.withDefault lc body).run (some c) = (some c, [], true)) ∧
    (∀ a p q, (body = .seq p (.withDefault a q)) → ((Prog.withDefault lc body).run none).2.2 = true) := by
  have hb := run_some body lc
  refine ⟨?_, ?_, ?_, fun c => rfl, ?_⟩
  · simp only [Prog.run]
    rcases hr : body.run (some lc) with ⟨g1, o1, _ | _⟩ <;> rw [hr] at hb <;> exact hb.2
  · simp only [Prog.run]
    rcases hr : body.run (some lc) with ⟨g1, o1, _ | _⟩ <;> simp
  · simp only [Prog.run]
    rcases hr : body.run (some lc) with ⟨g1, o1, _ | _⟩ <;> simp
  · rintro a p q rfl
    have hp := run_some p lc
    simp only [Prog.run]
    rcases hr : p.run (some lc) with ⟨g1, o1, _ | _⟩
    · rw [hr] at hp
      simp only at hp
      obtain ⟨rfl, _⟩ := hp
      rfl
    · rfl

/-- If the body raises, the collection stays the default, for whatever runs afterwards: every later read
returns it and every later `with` raises. -/
theorem C34_exception_counterexample (lc : Nat) (body rest : Prog) (h : (body.run (some lc)).2.2 = true) :
    ((Prog.withDefault lc body).run none).1 = some lc ∧
    (∀ x ∈ ((Prog.seq (.attempt (.withDefault lc body)) rest).run none).2.1, x = lc) ∧
    (∀ lc' q, ((Prog.seq (.attempt (.withDefault lc body)) (.withDefault lc' q)).run none).2.2 = true) := by
  have hb := run_some body lc
  rcases hr : body.run (some lc) with ⟨g1, o1, e⟩
  rw [hr] at h hb
  simp only at h hb
  subst h
  obtain ⟨rfl, ho⟩ := hb
  have hw : (Prog.withDefault lc body).run none = (some lc, o1, true) := by simp only [Prog.run, hr]
  refine ⟨by rw [hw], ?_, ?_⟩
  · have hrest := run_some rest lc
    simp only [Prog.run, hr]
    rcases hq : rest.run (some lc) with ⟨g2, o2, e2⟩
    rw [hq] at hrest
    intro x hx
    rcases List.mem_append.1 hx with hx | hx
    · exact ho x hx
    · exact hrest.2 x hx
  · intro lc' q
    simp only [Prog.run, hr]

/-- A body that reads the default twice. -/
example : (Prog.seq (.withDefault 3 (.seq .get .get)) (.withDefault 4 .get)).run none
    = (none, [3, 3, 4], false) := rfl

end Kfac.Reg
