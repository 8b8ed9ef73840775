import Verif.Reg.Vars
import Verif.Reg.Names
import Mathlib.Tactic.Basic
import Mathlib.Data.List.Nodup
import Mathlib.Data.List.Infix

/-! # C129: every variable has its own name -/

namespace Kfac.Reg.Vars

/-! ## Strings -/

theorem split_first {c : Char} {e e' s s' : Str} (he : c ∉ e) (he' : c ∉ e') (h : e ++ c :: s = e' ++ c :: s') :
    e = e' ∧ s = s' := by
  induction e generalizing e' with
  | nil =>
    cases e' with
    | nil => simpa using h
    | cons a t => simp at h he'; exact absurd h.1 he'.1
  | cons a t ih =>
    cases e' with
    | nil => simp at h he; exact absurd h.1.symm he.1
    | cons b u =>
      simp only [List.cons_append, List.cons.injEq, List.mem_cons, not_or] at h he he'
      obtain ⟨h1, h2⟩ := ih he.2 he'.2 h.2
      exact ⟨by rw [h.1, h1], h2⟩

theorem split_last {c : Char} {x x' d d' : Str} (hd : c ∉ d) (hd' : c ∉ d') (h : x ++ c :: d = x' ++ c :: d') :
    x = x' ∧ d = d' := by
  have h' := congrArg List.reverse h
  simp only [List.reverse_append, List.reverse_cons, List.append_assoc, List.singleton_append] at h'
  obtain ⟨h1, h2⟩ := split_first (by simpa using hd) (by simpa using hd') h'
  exact ⟨List.reverse_injective h2, List.reverse_injective h1⟩

theorem digits_chars (n : ℕ) {c : Char} (hc : c.isDigit = false) : c ∉ (toString n).toList := by
  intro h
  have : c ∈ Nat.toDigits 10 n := by simpa [toString, Nat.toList_repr] using h
  simp [Nat.isDigit_of_mem_toDigits (by decide) (by decide) this] at hc

theorem digits_inj {n m : ℕ} (h : (toString n).toList = (toString m).toList) : n = m := by
  have h' : Nat.toDigits 10 n = Nat.toDigits 10 m := by simpa [toString, Nat.toList_repr] using h
  have := congrArg (fun l => Nat.ofDigitChars 10 l 0) h'
  simpa [Nat.ofDigitChars_toDigits] using this

/-- A factor name that cannot be confused with the words around it. -/
def Plain (s : Str) : Prop := '/' ∉ s ∧ ¬ "_cov_ff".toList <:+: s ∧ "ff".toList <+: s

theorem sep_aux {a r x y : Str} (hn : ¬ "_cov_ff".toList <:+: a ++ r)
    (h : "_cov_ff".toList ++ x = r ++ ("_cov_ff".toList ++ y)) : r = [] := by
  match r, hn, h with
  | [], _, _ => rfl
  | [_], _, h => simp at h
  | [_, _], _, h => simp at h
  | [_, _, _], _, h => simp at h
  | [_, _, _, _], _, h => simp at h
  | [_, _, _, _, _], _, h => simp at h
  | [_, _, _, _, _, _], _, h => simp at h
  | r1 :: r2 :: r3 :: r4 :: r5 :: r6 :: r7 :: t, hn, h =>
    simp at h
    refine absurd ?_ hn
    obtain ⟨h1, h2, h3, h4, h5, h6, h7, -⟩ := h
    exact ⟨a, t, by simp [← h1, ← h2, ← h3, ← h4, ← h5, ← h6, ← h7]⟩

theorem sep_inj {a a' g g' : Str} (ha : ¬ "_cov_ff".toList <:+: a) (ha' : ¬ "_cov_ff".toList <:+: a')
    (hg : "ff".toList <+: g) (hg' : "ff".toList <+: g')
    (h : a ++ ("_cov_".toList ++ g) = a' ++ ("_cov_".toList ++ g')) : a = a' ∧ g = g' := by
  obtain ⟨x, rfl⟩ := hg
  obtain ⟨y, rfl⟩ := hg'
  have e : ∀ z : Str, "_cov_".toList ++ ("ff".toList ++ z) = "_cov_ff".toList ++ z := fun z => by simp
  rw [e, e] at h
  have key : a = a' := by
    rcases List.append_eq_append_iff.mp h with ⟨r, h1, h2⟩ | ⟨r, h1, h2⟩
    · subst h1
      rw [sep_aux ha' h2, List.append_nil]
    · subst h1
      rw [sep_aux ha h2, List.append_nil]
  subst key
  exact ⟨rfl, by simpa using h⟩

/-- What follows the names of the factors in the string of a damping. -/
def tailString (damping : Str) (norm : Option ℕ) : Str :=
  match norm with
  | some n => ('_' :: "normalize_damping".toList) ++ (('_' :: damping) ++ '_' :: (toString n).toList)
  | none => '_' :: damping

theorem idString_pair (a g d : Str) (norm : Option ℕ) (r : ℕ) :
    idString (pairId a g d norm r) = ("compute_pi_adjusted_damping".toList ++ '_' :: ("cov".toList ++ ['_'])) ++
      ((a ++ (('_' :: ("cov".toList ++ ['_'])) ++ g)) ++ (tailString d norm ++
        (('_' :: ("power".toList ++ ('_' :: ("0.5".toList ++ '_' :: "ref".toList)))) ++ '_' :: (toString r).toList))) := by
  generalize h1 : "compute_pi_adjusted_damping".toList = w1
  generalize h2 : "cov".toList = w2
  generalize h3 : "power".toList = w3
  generalize h4 : "0.5".toList = w4
  generalize h5 : "ref".toList = w5
  generalize h6 : (toString r).toList = w6
  generalize h7 : "normalize_damping".toList = w7
  cases norm with
  | none =>
    simp only [idString, pairId, tailString, h1, h2, h3, h4, h5, h6]
    simp [List.intercalate, List.intersperse]
  | some n =>
    simp only [idString, pairId, tailString, h1, h2, h3, h4, h5, h6, h7]
    simp [List.intercalate, List.intersperse]

/-- The string of a damping determines the factors, the normalisation and the side. -/
theorem idString_inj {a a' g g' d : Str} {n n' : Option ℕ} {r r' : ℕ} (ha : Plain a) (ha' : Plain a') (hg : Plain g)
    (hg' : Plain g') (hn : n.isSome = n'.isSome)
    (h : idString (pairId a g d n r) = idString (pairId a' g' d n' r')) :
    a = a' ∧ g = g' ∧ n = n' ∧ r = r' := by
  rw [idString_pair, idString_pair, List.append_cancel_left_eq] at h
  have hs : '_' :: ("cov".toList ++ ['_']) = "_cov_".toList := by simp
  rw [hs] at h
  generalize '_' :: ("power".toList ++ ('_' :: ("0.5".toList ++ '_' :: "ref".toList))) = w at h
  simp only [← List.append_assoc] at h
  obtain ⟨h1, h2⟩ := split_last (digits_chars r (by decide)) (digits_chars r' (by decide)) h
  have hr := digits_inj h2
  have h3 := List.append_cancel_right h1
  have h4 : n = n' ∧ a ++ ("_cov_".toList ++ g) = a' ++ ("_cov_".toList ++ g') := by
    simp only [← List.append_assoc]
    generalize a ++ "_cov_".toList ++ g = x at h3 ⊢
    generalize a' ++ "_cov_".toList ++ g' = x' at h3 ⊢
    cases n with
    | none =>
      cases n' with
      | some _ => simp at hn
      | none => exact ⟨rfl, List.append_cancel_right h3⟩
    | some m =>
      cases n' with
      | none => simp at hn
      | some m' =>
        unfold tailString at h3
        generalize '_' :: "normalize_damping".toList = w' at h3
        simp only [← List.append_assoc] at h3
        obtain ⟨h5, h6⟩ := split_last (digits_chars m (by decide)) (digits_chars m' (by decide)) h3
        exact ⟨congrArg some (digits_inj h6), List.append_cancel_right (List.append_cancel_right h5)⟩
  obtain ⟨h5, h6⟩ := sep_inj ha.2.1 ha'.2.1 hg.2.2 hg'.2.2 h4.2
  exact ⟨h5, h6, h4.1, hr⟩

/-! ## Requests -/

/-- What is assumed of a collection: factors have different scopes (C33), whose names start with `ff`, as all do
(`Reg/Names.lean`), and cannot be confused with the words around them; exponents and the damping print without the
separators; blocks that share a factor all normalise the damping or none does, and those with a SUA factor do
(fisher_blocks.py 976, 1087, 1543, 1625-1626, 1705); SUA factors are input factors; no two blocks with the same two
factors use different options of the recurrent approximation; and factors of blocks with one factor, which are of other
classes, are not those of blocks with two. -/
structure Coll.Ok (c : Coll) : Prop where
  scopes : (c.factors.map (·.scope)).Nodup
  plain : ∀ f ∈ c.factors, Plain f.scope
  damping : '/' ∉ c.damping
  expsNodup : c.exps.Nodup
  exps : ∀ e ∈ c.exps, '/' ∉ e ∧ '_' ∉ e
  used : ∀ b ∈ c.blocks, b.inp ∈ c.factors ∧ b.out ∈ c.factors
  alike : ∀ b ∈ c.blocks, ∀ b' ∈ c.blocks, (b.inp = b'.inp ∨ b.inp = b'.out ∨ b.out = b'.out) →
    b.norm.isSome = b'.norm.isSome
  sua : ∀ b ∈ c.blocks, ∀ z, (b.inp.kind = .sua z → b.norm.isSome = true) ∧ b.out.kind ≠ .sua z
  options : ∀ b ∈ c.blocks, ∀ b' ∈ c.blocks, b.inp = b'.inp → b.out = b'.out → b.norm = b'.norm →
    b.served = .option1 → b'.served ≠ .option2
  singles : ∀ f ∈ c.singles, f ∈ c.factors ∧ (∀ z, f.kind ≠ .sua z) ∧ ∀ b ∈ c.blocks, b.inp ≠ f ∧ b.out ≠ f

theorem mem_ids {c : Coll} {s : Served} {f : FDecl} {i : DId} : i ∈ c.ids s f ↔ (∃ b ∈ c.blocks, b.served = s ∧
    ((b.inp = f ∧ i = pairId b.inp.scope b.out.scope c.damping b.norm 0) ∨
     (b.out = f ∧ i = pairId b.inp.scope b.out.scope c.damping b.norm 1))) ∨
    (s = .powers ∧ f ∈ c.singles) ∧ i = [c.damping] := by
  simp only [Coll.ids, List.mem_dedup, List.mem_append, List.mem_flatMap, BDecl.ids]
  refine or_congr (exists_congr fun b => and_congr_right fun _ => ?_) ?_
  swap
  · by_cases h : s = .powers ∧ f ∈ c.singles
    · rw [if_pos h]; simp [h]
    · rw [if_neg h]; simp [h]
  by_cases h1 : b.served = s <;> by_cases h2 : b.inp = f <;> by_cases h3 : b.out = f <;> simp [h1, h2, h3]

theorem Coll.Ok.scope_inj {c : Coll} (h : c.Ok) {f f' : FDecl} (hf : f ∈ c.factors) (hf' : f' ∈ c.factors)
    (he : f.scope = f'.scope) : f = f' := List.inj_on_of_nodup_map h.scopes hf hf' he

/-- The string of a registered damping determines the identifier, if the factor is known or both are SUA factors. -/
theorem ids_inj {c : Coll} (h : c.Ok) {s s' : Served} {f f' : FDecl} {i i' : DId} (hi : i ∈ c.ids s f)
    (hi' : i' ∈ c.ids s' f') (hf : f = f' ∨ ((∃ z, f.kind = .sua z) ∧ ∃ z, f'.kind = .sua z))
    (he : idString i = idString i') : i = i' ∧ f = f' ∧ (s = .option1 → s' ≠ .option2) := by
  rcases mem_ids.mp hi with ⟨b, hb, rfl, hbi⟩ | ⟨⟨rfl, hs⟩, rfl⟩
  swap
  · obtain ⟨-, hns, hnb⟩ := h.singles f hs
    have hff : f = f' := hf.resolve_right fun ⟨⟨z, hz⟩, _⟩ => hns z hz
    subst hff
    rcases mem_ids.mp hi' with ⟨b', hb', -, hbi'⟩ | ⟨⟨rfl, -⟩, rfl⟩
    · rcases hbi' with ⟨e, -⟩ | ⟨e, -⟩
      · exact absurd e (hnb b' hb').1
      · exact absurd e (hnb b' hb').2
    · exact ⟨rfl, rfl, by simp⟩
  rcases mem_ids.mp hi' with ⟨b', hb', rfl, hbi'⟩ | ⟨⟨rfl, hs⟩, rfl⟩
  swap
  · obtain ⟨-, hns, hnb⟩ := h.singles f' hs
    have hff : f = f' := hf.resolve_right fun ⟨_, ⟨z, hz⟩⟩ => hns z hz
    subst hff
    rcases hbi with ⟨e, -⟩ | ⟨e, -⟩
    · exact absurd e (hnb b hb).1
    · exact absurd e (hnb b hb).2
  have hn : b.norm.isSome = b'.norm.isSome := by
    rcases hf with rfl | ⟨⟨z, hz⟩, z', hz'⟩
    · rcases hbi with ⟨h1, -⟩ | ⟨h1, -⟩ <;> rcases hbi' with ⟨h2, -⟩ | ⟨h2, -⟩
      · exact h.alike b hb b' hb' (.inl (h1.trans h2.symm))
      · exact h.alike b hb b' hb' (.inr (.inl (h1.trans h2.symm)))
      · exact (h.alike b' hb' b hb (.inr (.inl (h2.trans h1.symm)))).symm
      · exact h.alike b hb b' hb' (.inr (.inr (h1.trans h2.symm)))
    · rcases hbi with ⟨h1, -⟩ | ⟨h1, -⟩
      · rcases hbi' with ⟨h2, -⟩ | ⟨h2, -⟩
        · rw [(h.sua b hb z).1 (h1 ▸ hz), (h.sua b' hb' z').1 (h2 ▸ hz')]
        · exact absurd (h2 ▸ hz') (h.sua b' hb' z').2
      · exact absurd (h1 ▸ hz) (h.sua b hb z).2
  have hu := h.used b hb
  have hu' := h.used b' hb'
  have key : ∀ r r', i = pairId b.inp.scope b.out.scope c.damping b.norm r →
      i' = pairId b'.inp.scope b'.out.scope c.damping b'.norm r' →
      b.inp = b'.inp ∧ b.out = b'.out ∧ b.norm = b'.norm ∧ r = r' := by
    intro r r' e1 e2
    rw [e1, e2] at he
    obtain ⟨h1, h2, h3, h4⟩ := idString_inj (h.plain _ hu.1) (h.plain _ hu'.1) (h.plain _ hu.2) (h.plain _ hu'.2) hn he
    exact ⟨h.scope_inj hu.1 hu'.1 h1, h.scope_inj hu.2 hu'.2 h2, h3, h4⟩
  rcases hbi with ⟨h1, e1⟩ | ⟨h1, e1⟩ <;> rcases hbi' with ⟨h2, e2⟩ | ⟨h2, e2⟩
  · obtain ⟨k1, k2, k3, -⟩ := key 0 0 e1 e2
    exact ⟨by rw [e1, e2, k1, k2, k3], by rw [← h1, ← h2, k1], h.options b hb b' hb' k1 k2 k3⟩
  · simpa using (key 0 1 e1 e2).2.2.2
  · simpa using (key 1 0 e1 e2).2.2.2
  · obtain ⟨k1, k2, k3, -⟩ := key 1 1 e1 e2
    exact ⟨by rw [e1, e2, k1, k2, k3], by rw [← h1, ← h2, k2], h.options b hb b' hb' k1 k2 k3⟩

theorem ids_noslash {c : Coll} (h : c.Ok) {s : Served} {f : FDecl} {i : DId} (hi : i ∈ c.ids s f) :
    '/' ∉ idString i := by
  rcases mem_ids.mp hi with ⟨b, hb, -, hbi⟩ | ⟨-, rfl⟩
  swap
  · simpa [idString] using h.damping
  have hu := h.used b hb
  have p1 := (h.plain _ hu.1).1
  have p2 := (h.plain _ hu.2).1
  have key : ∀ r, '/' ∉ idString (pairId b.inp.scope b.out.scope c.damping b.norm r) := by
    intro r
    have d1 := digits_chars r (c := '/') (by decide)
    have hd := h.damping
    rw [idString_pair]
    generalize (toString r).toList = w at d1
    cases hn : b.norm with
    | none => simp [tailString, p1, p2, d1, hd]
    | some n =>
      have d2 := digits_chars n (c := '/') (by decide)
      simp only [tailString]
      generalize (toString n).toList = w' at d2
      simp [p1, p2, d1, d2, hd]
  rcases hbi with ⟨-, rfl⟩ | ⟨-, rfl⟩ <;> exact key _

/-- The shape of a variable of a factor. -/
def shapeOf (f : FDecl) : VarKind → List ℕ
  | .covVar | .dt1Var | .matpower _ | .chol | .cholInv | .lmat | .pmat | .kmat => f.covShape
  | .psi | .mu => f.covShape.take 1
  | .muVar | .covInvMu _ => f.covShape.take 1 ++ [1]
  | _ => []

/-- The identifiers that can come with a kind of variable. -/
def Allowed (c : Coll) (f : FDecl) (i : DId) : VarKind → Prop
  | .covVar | .covWeight | .muVar | .muWeight | .dt1Var | .dt1Weight => i = []
  | .matpower e => e ∈ c.exps ∧ i ∈ c.ids .powers f
  | .chol | .cholInv => i ∈ c.ids .powers f
  | .lmat | .psi => i ∈ c.ids .option1 f
  | .pmat | .kmat | .mu => i ∈ c.ids .option2 f
  | .dampingVar e | .covInvMu e | .rankOne e => e ∈ c.exps ∧ i ∈ c.ids .powers f ∧ ∃ z, f.kind = .sua z

theorem cov_allowed {c : Coll} {f : FDecl} {v : VarReq} (hv : v ∈ covRequests f) :
    v.scope = f.scope ∧ v.shape = shapeOf f v.kind ∧ Allowed c f v.id v.kind := by
  rcases f with ⟨sc, k, sh⟩
  simp only [covRequests] at hv
  split at hv <;> simp at hv <;> rcases hv with rfl | rfl | rfl | rfl <;> simp [shapeOf, Allowed]

theorem dense_allowed {c : Coll} {f : FDecl} {v : VarReq} (hv : v ∈ denseRequests c f) :
    v.scope = f.scope ∧ v.shape = shapeOf f v.kind ∧ Allowed c f v.id v.kind := by
  simp only [denseRequests, List.mem_append, List.mem_flatMap, List.mem_map] at hv
  rcases hv with (⟨e, he, i, hi, rfl⟩ | hv) | hv
  · exact ⟨rfl, rfl, he, hi⟩
  · split at hv
    · obtain ⟨i, hi, rfl⟩ := List.mem_map.mp hv; exact ⟨rfl, rfl, hi⟩
    · simp at hv
  · split at hv
    · obtain ⟨i, hi, rfl⟩ := List.mem_map.mp hv; exact ⟨rfl, rfl, hi⟩
    · simp at hv

theorem inv_allowed {c : Coll} {f : FDecl} {v : VarReq} (hv : v ∈ invRequests c f) :
    v.scope = f.scope ∧ v.shape = shapeOf f v.kind ∧ Allowed c f v.id v.kind := by
  simp only [invRequests] at hv
  split at hv
  · simp at hv
  · exact dense_allowed hv
  · simp only [multiRequests, List.mem_append, List.mem_flatMap] at hv
    rcases hv with (hv | ⟨i, hi, hv⟩) | ⟨i, hi, hv⟩
    · exact dense_allowed hv
    · simp at hv
      rcases hv with rfl | rfl <;> exact ⟨rfl, rfl, hi⟩
    · simp at hv
      rcases hv with rfl | rfl | rfl <;> exact ⟨rfl, rfl, hi⟩
  · rename_i z hz
    simp only [suaRequests, List.mem_flatMap] at hv
    obtain ⟨e, he, i, hi, hv⟩ := hv
    cases z <;> simp at hv
    · rcases hv with rfl | rfl | rfl | rfl
      · exact ⟨rfl, rfl, he, hi⟩
      all_goals exact ⟨rfl, rfl, he, hi, _, hz⟩
    · rcases hv with rfl | rfl
      · exact ⟨rfl, rfl, he, hi⟩
      · exact ⟨rfl, rfl, he, hi, _, hz⟩

/-- The kind of a variable, read off its name. -/
def code : Str → ℕ
  | 'c' :: 'o' :: 'v' :: '/' :: 'v' :: _ => 0
  | 'c' :: 'o' :: 'v' :: '/' :: 't' :: _ => 1
  | 'm' :: 'u' :: '/' :: 'v' :: _ => 2
  | 'm' :: 'u' :: '/' :: 't' :: _ => 3
  | 'c' :: 'o' :: 'v' :: '_' :: 'd' :: 't' :: '1' :: '/' :: 'v' :: _ => 4
  | 'c' :: 'o' :: 'v' :: '_' :: 'd' :: 't' :: '1' :: '/' :: 't' :: _ => 5
  | 'm' :: 'a' :: _ => 6
  | 'c' :: 'h' :: 'o' :: 'l' :: 'e' :: 's' :: 'k' :: 'y' :: '_' :: 'd' :: _ => 7
  | 'c' :: 'h' :: 'o' :: 'l' :: 'e' :: 's' :: 'k' :: 'y' :: '_' :: 'i' :: _ => 8
  | 'L' :: _ => 9
  | 'p' :: _ => 10
  | 'K' :: _ => 11
  | 'm' :: 'u' :: '_' :: _ => 12
  | 'd' :: _ => 13
  | 'c' :: 'o' :: 'v' :: '_' :: 'i' :: _ => 14
  | 'r' :: _ => 15
  | _ => 16

def tag : VarKind → ℕ
  | .covVar => 0
  | .covWeight => 1
  | .muVar => 2
  | .muWeight => 3
  | .dt1Var => 4
  | .dt1Weight => 5
  | .matpower _ => 6
  | .chol => 7
  | .cholInv => 8
  | .lmat => 9
  | .pmat => 9
  | .psi => 10
  | .kmat => 11
  | .mu => 12
  | .dampingVar _ => 13
  | .covInvMu _ => 14
  | .rankOne _ => 15

theorem code_local (k : VarKind) (i : DId) : code (k.localName i) = tag k := by
  unfold VarKind.localName
  generalize idString i = w
  cases k <;> rfl

theorem exp_inj {c : Coll} (h : c.Ok) {p q q' e e' : Str} {i i' : DId} (hq : q' = '_' :: q) (he : e ∈ c.exps)
    (he' : e' ∈ c.exps) (hh : p ++ e ++ q' ++ idString i = p ++ e' ++ q' ++ idString i') :
    e = e' ∧ idString i = idString i' := by
  subst hq
  simp only [List.append_assoc, List.append_cancel_left_eq, List.cons_append] at hh
  obtain ⟨h1, h2⟩ := split_first (h.exps e he).2 (h.exps e' he').2 hh
  exact ⟨h1, List.append_cancel_left h2⟩

theorem local_inj {c : Coll} (h : c.Ok) {f f' : FDecl} {k k' : VarKind} {i i' : DId}
    (hk : k.scoped = k'.scoped) (hf : k.scoped = true → f = f') (ha : Allowed c f i k) (ha' : Allowed c f' i' k')
    (he : k.localName i = k'.localName i') : k = k' ∧ i = i' ∧ f.scope = f'.scope := by
  have ht : tag k = tag k' := by rw [← code_local k i, ← code_local k' i', he]
  have hd : "_damp".toList = '_' :: "damp".toList := by simp
  have hu : "_".toList = '_' :: ([] : Str) := by simp
  have h0 : f = f' → i = [] → i' = [] → i = i' ∧ f.scope = f'.scope := fun e a b => ⟨a.trans b.symm, by rw [e]⟩
  have h1 : ∀ s p, f = f' → i ∈ c.ids s f → i' ∈ c.ids s f' → p ++ idString i = p ++ idString i' →
      i = i' ∧ f.scope = f'.scope := fun s p e a b q => by
    obtain ⟨x, y, -⟩ := ids_inj h a b (.inl e) (List.append_cancel_left q)
    exact ⟨x, by rw [y]⟩
  have h2 : ∀ p e e', (e ∈ c.exps ∧ i ∈ c.ids .powers f ∧ ∃ z, f.kind = .sua z) →
      (e' ∈ c.exps ∧ i' ∈ c.ids .powers f' ∧ ∃ z, f'.kind = .sua z) →
      p ++ e ++ "_".toList ++ idString i = p ++ e' ++ "_".toList ++ idString i' →
      e = e' ∧ i = i' ∧ f.scope = f'.scope := fun p e e' a b q => by
    obtain ⟨x, y⟩ := exp_inj h hu a.1 b.1 q
    obtain ⟨x', y', -⟩ := ids_inj h a.2.1 b.2.1 (.inr ⟨a.2.2, b.2.2⟩) y
    exact ⟨x, x', by rw [y']⟩
  have h3 : ∀ p e e', f = f' → (e ∈ c.exps ∧ i ∈ c.ids .powers f) → (e' ∈ c.exps ∧ i' ∈ c.ids .powers f') →
      p ++ e ++ "_damp".toList ++ idString i = p ++ e' ++ "_damp".toList ++ idString i' →
      e = e' ∧ i = i' ∧ f.scope = f'.scope := fun p e e' r a b q => by
    obtain ⟨x, y⟩ := exp_inj h hd a.1 b.1 q
    obtain ⟨x', y', -⟩ := ids_inj h a.2 b.2 (.inl r) y
    exact ⟨x, x', by rw [y']⟩
  clear hd hu
  cases k
  case covVar => cases k' <;> first | (simp [tag] at ht; done) | exact ⟨rfl, h0 (hf rfl) ha ha'⟩
  case covWeight => cases k' <;> first | (simp [tag] at ht; done) | exact ⟨rfl, h0 (hf rfl) ha ha'⟩
  case muVar => cases k' <;> first | (simp [tag] at ht; done) | exact ⟨rfl, h0 (hf rfl) ha ha'⟩
  case muWeight => cases k' <;> first | (simp [tag] at ht; done) | exact ⟨rfl, h0 (hf rfl) ha ha'⟩
  case dt1Var => cases k' <;> first | (simp [tag] at ht; done) | exact ⟨rfl, h0 (hf rfl) ha ha'⟩
  case dt1Weight => cases k' <;> first | (simp [tag] at ht; done) | exact ⟨rfl, h0 (hf rfl) ha ha'⟩
  case chol => cases k' <;> first | (simp [tag] at ht; done) | exact ⟨rfl, h1 _ _ (hf rfl) ha ha' he⟩
  case cholInv => cases k' <;> first | (simp [tag] at ht; done) | exact ⟨rfl, h1 _ _ (hf rfl) ha ha' he⟩
  case psi => cases k' <;> first | (simp [tag] at ht; done) | exact ⟨rfl, h1 _ _ (hf rfl) ha ha' he⟩
  case kmat => cases k' <;> first | (simp [tag] at ht; done) | exact ⟨rfl, h1 _ _ (hf rfl) ha ha' he⟩
  case mu => cases k' <;> first | (simp [tag] at ht; done) | exact ⟨rfl, h1 _ _ (hf rfl) ha ha' he⟩
  case lmat =>
    cases k'
    case lmat => exact ⟨rfl, h1 _ _ (hf rfl) ha ha' he⟩
    case pmat => exact absurd rfl ((ids_inj h ha ha' (.inl (hf rfl)) (List.append_cancel_left he)).2.2 rfl)
    all_goals exact absurd ht (by simp [tag])
  case pmat =>
    cases k'
    case pmat => exact ⟨rfl, h1 _ _ (hf rfl) ha ha' he⟩
    case lmat =>
      exact absurd rfl ((ids_inj h ha' ha (.inl (hf rfl).symm) (List.append_cancel_left he).symm).2.2 rfl)
    all_goals exact absurd ht (by simp [tag])
  case matpower e =>
    cases k'
    case matpower e' =>
      obtain ⟨x, y⟩ := h3 _ e e' (hf rfl) ha ha' he
      exact ⟨by rw [x], y⟩
    all_goals exact absurd ht (by simp [tag])
  case dampingVar e =>
    cases k'
    case dampingVar e' => obtain ⟨x, y⟩ := h2 _ e e' ha ha' he; exact ⟨by rw [x], y⟩
    all_goals exact absurd ht (by simp [tag])
  case covInvMu e =>
    cases k'
    case covInvMu e' => obtain ⟨x, y⟩ := h2 _ e e' ha ha' he; exact ⟨by rw [x], y⟩
    all_goals exact absurd ht (by simp [tag])
  case rankOne e =>
    cases k'
    case rankOne e' => obtain ⟨x, y⟩ := h2 _ e e' ha ha' he; exact ⟨by rw [x], y⟩
    all_goals exact absurd ht (by simp [tag])

theorem unscoped_noslash {c : Coll} (h : c.Ok) {f : FDecl} {k : VarKind} {i : DId} (hk : k.scoped = false)
    (ha : Allowed c f i k) : '/' ∉ k.localName i := by
  have key : ∀ p e : Str, '/' ∉ p → e ∈ c.exps → i ∈ c.ids .powers f → '/' ∉ p ++ e ++ "_".toList ++ idString i := by
    intro p e hp he hi
    have h1 := ids_noslash h hi
    have h2 := (h.exps _ he).1
    generalize idString i = w at h1
    simp [hp, h1, h2]
  cases k
  case dampingVar e => exact key _ e (by decide) ha.1 ha.2.1
  case covInvMu e => exact key _ e (by decide) ha.1 ha.2.1
  case rankOne e => exact key _ e (by decide) ha.1 ha.2.1
  all_goals simp [VarKind.scoped] at hk

/-- Requests of a collection with the same name are the same request. -/
theorem name_inj {c : Coll} (h : c.Ok) {v v' : VarReq} {f f' : FDecl} (hf : f ∈ c.factors) (hf' : f' ∈ c.factors)
    (hv : v.scope = f.scope ∧ v.shape = shapeOf f v.kind ∧ Allowed c f v.id v.kind)
    (hv' : v'.scope = f'.scope ∧ v'.shape = shapeOf f' v'.kind ∧ Allowed c f' v'.id v'.kind)
    (he : v.name = v'.name) : v = v' := by
  have fin : v.kind = v'.kind ∧ v.id = v'.id ∧ f.scope = f'.scope → v = v' := by
    rintro ⟨h1, h2, h3⟩
    have h4 := h.scope_inj hf hf' h3
    subst h4
    rcases v with ⟨a, b, d, e⟩
    rcases v' with ⟨a', b', d', e'⟩
    simp only at h1 h2 hv hv'
    subst h1 h2
    rw [hv.1, hv.2.1, hv'.1, hv'.2.1]
  have p := (h.plain f hf).1
  have p' := (h.plain f' hf').1
  unfold VarReq.name at he
  by_cases hk : v.kind.scoped = true <;> by_cases hk' : v'.kind.scoped = true
  · rw [if_pos hk, if_pos hk', hv.1, hv'.1] at he
    obtain ⟨h1, h2⟩ := split_first p p' he
    exact fin (local_inj h (hk.trans hk'.symm) (fun _ => h.scope_inj hf hf' h1) hv.2.2 hv'.2.2 h2)
  · rw [if_pos hk, if_neg hk'] at he
    exact absurd (he ▸ by simp) (unscoped_noslash h (by simpa using hk') hv'.2.2)
  · rw [if_neg hk, if_pos hk'] at he
    exact absurd (he ▸ by simp) (unscoped_noslash h (by simpa using hk) hv.2.2)
  · rw [if_neg hk, if_neg hk'] at he
    exact fin (local_inj h (by simp_all) (fun hs => absurd hs hk) hv.2.2 hv'.2.2 he)

theorem requests_allowed {c : Coll} {v : VarReq} (hv : v ∈ c.requests) : ∃ f ∈ c.factors,
    v.scope = f.scope ∧ v.shape = shapeOf f v.kind ∧ Allowed c f v.id v.kind := by
  simp only [Coll.requests, List.mem_append, List.mem_flatMap] at hv
  rcases hv with ⟨f, hf, hv⟩ | ⟨f, hf, hv⟩
  · exact ⟨f, hf, cov_allowed hv⟩
  · exact ⟨f, hf, inv_allowed hv⟩

/-! ## No request is made twice -/

theorem ids_nodup (c : Coll) (s : Served) (f : FDecl) : (c.ids s f).Nodup := List.nodup_dedup _

theorem dense_nodup {c : Coll} (h : c.Ok) (f : FDecl) : (denseRequests c f).Nodup := by
  have hm : ∀ (k : VarKind) (sh : List ℕ), ((c.ids .powers f).map fun i => (⟨f.scope, k, i, sh⟩ : VarReq)).Nodup :=
    fun k sh => (ids_nodup c _ f).map fun i i' e => by simpa using e
  unfold denseRequests
  refine List.Nodup.append (List.Nodup.append ?_ ?_ ?_) ?_ ?_
  · refine List.nodup_flatMap.mpr ⟨fun e _ => hm _ _, h.expsNodup.imp ?_⟩
    intro e e' hne v h1 h2
    simp only [List.mem_map] at h1 h2
    obtain ⟨i, -, rfl⟩ := h1
    obtain ⟨i', -, h3⟩ := h2
    simp at h3
    exact hne h3.1.symm
  · split
    · exact hm _ _
    · simp
  · intro v h1 h2
    split at h2 <;> simp at h1 h2
    obtain ⟨e, -, i, -, rfl⟩ := h1
    simp at h2
  · split
    · exact hm _ _
    · simp
  · intro v h1 h2
    split at h2 <;> simp at h1 h2
    obtain ⟨i', -, rfl⟩ := h2
    rcases h1 with h1 | h1
    · simp at h1
    · simp at h1

theorem flat_nodup {l : List DId} (hl : l.Nodup) {g : DId → List VarReq} (h1 : ∀ i, (g i).Nodup)
    (h2 : ∀ i, ∀ v ∈ g i, v.id = i) : (l.flatMap g).Nodup := by
  refine List.nodup_flatMap.mpr ⟨fun i _ => h1 i, hl.imp ?_⟩
  intro i i' hne v h3 h4
  exact hne ((h2 i v h3).symm.trans (h2 i' v h4))

theorem dense_kinds {c : Coll} {f : FDecl} {v : VarReq} (hv : v ∈ denseRequests c f) :
    tag v.kind = 6 ∨ tag v.kind = 7 ∨ tag v.kind = 8 := by
  simp only [denseRequests, List.mem_append, List.mem_flatMap, List.mem_map] at hv
  rcases hv with (⟨e, he, i, hi, rfl⟩ | hv) | hv
  · simp [tag]
  · split at hv
    · obtain ⟨i, hi, rfl⟩ := List.mem_map.mp hv; simp [tag]
    · simp at hv
  · split at hv
    · obtain ⟨i, hi, rfl⟩ := List.mem_map.mp hv; simp [tag]
    · simp at hv

theorem inv_nodup {c : Coll} (h : c.Ok) (f : FDecl) : (invRequests c f).Nodup := by
  unfold invRequests
  split
  · simp
  · exact dense_nodup h f
  · unfold multiRequests
    refine List.Nodup.append (List.Nodup.append (dense_nodup h f) ?_ ?_) ?_ ?_
    · exact flat_nodup (ids_nodup _ _ _) (by simp) (by simp)
    · intro v h1 h2
      have := dense_kinds h1
      simp only [List.mem_flatMap] at h2
      obtain ⟨i, -, h2⟩ := h2
      simp at h2
      rcases h2 with rfl | rfl <;> simp [tag] at this
    · exact flat_nodup (ids_nodup _ _ _) (by simp) (by simp)
    · intro v h1 h2
      simp only [List.mem_flatMap] at h2
      obtain ⟨i, -, h2⟩ := h2
      rcases List.mem_append.mp h1 with h1 | h1
      · have := dense_kinds h1
        simp at h2
        rcases h2 with rfl | rfl | rfl <;> simp [tag] at this
      · simp only [List.mem_flatMap] at h1
        obtain ⟨i', -, h1⟩ := h1
        simp at h1 h2
        rcases h1 with rfl | rfl <;> simp at h2
  · rename_i z hz
    unfold suaRequests
    refine List.nodup_flatMap.mpr ⟨fun e _ => flat_nodup (ids_nodup _ _ _) ?_ ?_, h.expsNodup.imp ?_⟩
    · intro i; cases z <;> simp
    · intro i v; cases z <;> simp <;> grind
    · intro e e' hne v h1 h2
      simp only [List.mem_flatMap] at h1 h2
      obtain ⟨i, -, h1⟩ := h1
      obtain ⟨i', -, h2⟩ := h2
      cases z <;> simp at h1 h2
      · rcases h1 with rfl | rfl | rfl | rfl <;> simp at h2 <;> exact hne h2.1
      · rcases h1 with rfl | rfl <;> simp at h2 <;> exact hne h2.1

theorem cov_kinds {f : FDecl} {v : VarReq} (hv : v ∈ covRequests f) : v.kind.reuses = true := by
  simp only [covRequests] at hv
  split at hv <;> simp at hv <;> rcases hv with rfl | rfl | rfl | rfl <;> simp [VarKind.reuses]

theorem inv_kinds {c : Coll} {f : FDecl} {v : VarReq} (hv : v ∈ invRequests c f) : v.kind.reuses = false := by
  simp only [invRequests] at hv
  have hd : ∀ v ∈ denseRequests c f, v.kind.reuses = false := by
    intro v hv
    have := dense_kinds hv
    rcases v with ⟨a, k, i, sh⟩
    cases k <;> simp [tag] at this <;> rfl
  split at hv
  · simp at hv
  · exact hd v hv
  · simp only [multiRequests, List.mem_append, List.mem_flatMap] at hv
    rcases hv with (hv | ⟨i, hi, hv⟩) | ⟨i, hi, hv⟩
    · exact hd v hv
    · simp at hv
      rcases hv with rfl | rfl <;> rfl
    · simp at hv
      rcases hv with rfl | rfl | rfl <;> rfl
  · rename_i z hz
    simp only [suaRequests, List.mem_flatMap] at hv
    obtain ⟨e, he, i, hi, hv⟩ := hv
    cases z <;> simp at hv
    · rcases hv with rfl | rfl | rfl | rfl <;> rfl
    · rcases hv with rfl | rfl <;> rfl

theorem requests_nodup {c : Coll} (h : c.Ok) : c.requests.Nodup := by
  have hs : c.factors.Pairwise fun f f' => f.scope ≠ f'.scope := by
    have := h.scopes
    rwa [List.Nodup, List.pairwise_map] at this
  unfold Coll.requests
  refine List.Nodup.append ?_ ?_ ?_
  · refine List.nodup_flatMap.mpr ⟨fun f _ => ?_, hs.imp ?_⟩
    · unfold covRequests
      split <;> simp
    · intro f f' hne v h1 h2
      exact hne ((cov_allowed (c := c) h1).1.symm.trans (cov_allowed (c := c) h2).1)
  · refine List.nodup_flatMap.mpr ⟨fun f _ => inv_nodup h f, hs.imp ?_⟩
    intro f f' hne v h1 h2
    exact hne ((inv_allowed h1).1.symm.trans (inv_allowed h2).1)
  · intro v h1 h2
    simp only [List.mem_flatMap] at h1 h2
    obtain ⟨f, -, h1⟩ := h1
    obtain ⟨f', -, h2⟩ := h2
    have e1 := cov_kinds h1
    rw [inv_kinds h2] at e1
    simp at e1

/-! ## Making the variables -/

theorem lookup_none {s : Store} {n : Str} : s.lookup n = none ↔ n ∉ s.map Prod.fst := by
  simp only [List.lookup_eq_none_iff, List.mem_map, not_exists, not_and, bne_iff_ne]
  exact ⟨fun h p hp e => h p hp e.symm, fun h p hp e => h p hp e.symm⟩

theorem getVariable_fresh {s : Store} {v : VarReq} (h : v.name ∉ s.map Prod.fst) :
    getVariable s v = .ok (s ++ [(v.name, v.shape)]) := by
  simp only [getVariable, lookup_none.mpr h]

theorem makeVars_fresh {vs : List VarReq} {s : Store} (hn : (vs.map VarReq.name).Nodup)
    (hs : ∀ v ∈ vs, v.name ∉ s.map Prod.fst) :
    makeVars s vs = .ok (s ++ vs.map fun v => (v.name, v.shape)) := by
  induction vs generalizing s with
  | nil => simp [makeVars]
  | cons v vs ih =>
    simp only [List.map_cons, List.nodup_cons] at hn
    rw [makeVars, getVariable_fresh (hs v (by simp))]
    show makeVars (s ++ [(v.name, v.shape)]) vs = _
    rw [ih hn.2 ?_]
    · simp
    · intro w hw hm
      simp only [List.map_append, List.mem_append, List.map_cons, List.map_nil, List.mem_singleton] at hm
      rcases hm with hm | hm
      · exact hs w (by simp [hw]) hm
      · exact hn.1 (hm ▸ List.mem_map_of_mem hw)

/-- What is in the graph stays, and the variable asked for is there with its shape; a variable that is not reused was
not there before. -/
theorem getVariable_ok {s t : Store} {v : VarReq} (h : getVariable s v = .ok t) :
    (∀ n x, s.lookup n = some x → t.lookup n = some x) ∧ t.lookup v.name = some v.shape ∧
    (v.kind.reuses = false → s.lookup v.name = none) := by
  unfold getVariable at h
  cases hl : s.lookup v.name with
  | none =>
    rw [hl] at h
    obtain rfl := Except.ok.inj h
    refine ⟨fun n x hx => ?_, ?_, fun _ => rfl⟩
    · rw [List.lookup_append, hx]; rfl
    · rw [List.lookup_append, hl]; simp
  | some x =>
    rw [hl] at h
    simp only at h
    split at h
    · rename_i hr
      split at h
      · rename_i hx
        obtain rfl := Except.ok.inj h
        exact ⟨fun n x hx => hx, by rw [hl, hx], fun hf => by rw [hr] at hf; cases hf⟩
      · cases h
    · cases h

theorem makeVars_ok {vs : List VarReq} {s t : Store} (h : makeVars s vs = .ok t) :
    (∀ n x, s.lookup n = some x → t.lookup n = some x) ∧ (∀ v ∈ vs, t.lookup v.name = some v.shape) ∧
    (∀ v ∈ vs, v.kind.reuses = false → s.lookup v.name = none) ∧
    ((vs.filter fun v => !v.kind.reuses).map VarReq.name).Nodup := by
  induction vs generalizing s with
  | nil =>
    obtain rfl := Except.ok.inj h
    simp
  | cons v vs ih =>
    cases hg : getVariable s v with
    | error e => rw [makeVars, hg] at h; cases h
    | ok s1 =>
      rw [makeVars, hg] at h
      obtain ⟨g1, g2, g3⟩ := getVariable_ok hg
      obtain ⟨i1, i2, i3, i4⟩ := ih h
      refine ⟨fun n x hx => i1 n x (g1 n x hx), ?_, ?_, ?_⟩
      · intro w hw
        rcases List.mem_cons.mp hw with rfl | hw
        · exact i1 _ _ g2
        · exact i2 w hw
      · intro w hw hr
        rcases List.mem_cons.mp hw with rfl | hw
        · exact g3 hr
        · cases hl : s.lookup w.name with
          | none => rfl
          | some x =>
            have := i3 w hw hr
            rw [g1 _ _ hl] at this
            cases this
      · by_cases hr : v.kind.reuses = true
        · rw [List.filter_cons_of_neg (by simp [hr])]
          exact i4
        · rw [List.filter_cons_of_pos (by simp [hr]), List.map_cons, List.nodup_cons]
          refine ⟨?_, i4⟩
          intro hm
          obtain ⟨w, hw, he⟩ := List.mem_map.mp hm
          obtain ⟨hw1, hw2⟩ := List.mem_filter.mp hw
          have := i3 w hw1 (by simpa using hw2)
          rw [he, g2] at this
          cases this

/-! ## C129 -/

/-- The variables of a collection are made without an error in every graph that has none of their names: one variable
for every request, with the shape that was asked for, and no two with the same name. -/
theorem C129_created_partial {c : Coll} (h : c.Ok) (s : Store) (hs : ∀ v ∈ c.requests, v.name ∉ s.map Prod.fst) :
    makeVars s c.requests = .ok (s ++ c.requests.map fun v => (v.name, v.shape)) ∧
    (c.requests.map VarReq.name).Nodup := by
  have hn : (c.requests.map VarReq.name).Nodup := by
    refine List.Nodup.map_on (fun v hv v' hv' he => ?_) (requests_nodup h)
    obtain ⟨f, hf, ha⟩ := requests_allowed hv
    obtain ⟨f', hf', ha'⟩ := requests_allowed hv'
    exact name_inj h hf hf' ha ha' he
  exact ⟨makeVars_fresh hn hs, hn⟩

/-- Every block finds the powers of its two factors for its own damping: they are in the graph with the shape of the
covariance. Blocks that share a factor but not the other one have different variables, so that each reads the power for
the damping it asked for. -/
theorem C129_served_partial {c : Coll} (h : c.Ok) (s : Store) (hs : ∀ v ∈ c.requests, v.name ∉ s.map Prod.fst)
    (b : BDecl) (hb : b ∈ c.blocks) (hp : b.served = .powers) (e : Str) (he : e ∈ c.exps) :
    ∃ t, makeVars s c.requests = .ok t ∧
    (b.inp.kind ≠ .diagonal → t.lookup (b.inp.scope ++ ("/matpower_exp".toList ++ e ++ "_damp".toList ++
      idString (pairId b.inp.scope b.out.scope c.damping b.norm 0))) = some b.inp.covShape) ∧
    (b.out.kind ≠ .diagonal → t.lookup (b.out.scope ++ ("/matpower_exp".toList ++ e ++ "_damp".toList ++
      idString (pairId b.inp.scope b.out.scope c.damping b.norm 1))) = some b.out.covShape) ∧
    ∀ b' ∈ c.blocks, b'.inp = b.inp → b'.out ≠ b.out →
      b.inp.scope ++ ("/matpower_exp".toList ++ e ++ "_damp".toList ++
        idString (pairId b.inp.scope b.out.scope c.damping b.norm 0)) ≠
      b.inp.scope ++ ("/matpower_exp".toList ++ e ++ "_damp".toList ++
        idString (pairId b'.inp.scope b'.out.scope c.damping b'.norm 0)) := by
  have hm := (C129_created_partial h s hs).1
  have hl := (makeVars_ok hm).2.1
  have hu := h.used b hb
  have mem : ∀ f ∈ c.factors, f.kind ≠ .diagonal → ∀ i ∈ c.ids .powers f,
      (⟨f.scope, .matpower e, i, f.covShape⟩ : VarReq) ∈ c.requests := by
    intro f hf hk i hi
    have hd : (⟨f.scope, .matpower e, i, f.covShape⟩ : VarReq) ∈ denseRequests c f := by
      simp only [denseRequests, List.mem_append, List.mem_flatMap, List.mem_map]
      exact .inl (.inl ⟨e, he, i, hi, rfl⟩)
    refine List.mem_append.mpr (.inr (List.mem_flatMap.mpr ⟨f, hf, ?_⟩))
    unfold invRequests
    split
    · rename_i hk'; exact absurd hk' hk
    · exact hd
    · exact List.mem_append.mpr (.inl (List.mem_append.mpr (.inl hd)))
    · exact List.mem_flatMap.mpr ⟨e, he, List.mem_flatMap.mpr ⟨i, hi, by simp⟩⟩
  have hname : ∀ (f : FDecl) (i : DId), (⟨f.scope, .matpower e, i, f.covShape⟩ : VarReq).name =
      f.scope ++ ("/matpower_exp".toList ++ e ++ "_damp".toList ++ idString i) := fun f i => rfl
  refine ⟨_, hm, fun hk => ?_, fun hk => ?_, ?_⟩
  · rw [← hname b.inp]
    exact hl _ (mem _ hu.1 hk _ (mem_ids.mpr (.inl ⟨b, hb, hp, .inl ⟨rfl, rfl⟩⟩)))
  · rw [← hname b.out]
    exact hl _ (mem _ hu.2 hk _ (mem_ids.mpr (.inl ⟨b, hb, hp, .inr ⟨rfl, rfl⟩⟩)))
  · intro b' hb' h1 h2 h3
    have hu' := h.used b' hb'
    have h4 := List.append_cancel_left (List.append_cancel_left h3)
    have := idString_inj (h.plain _ hu.1) (h.plain _ hu'.1) (h.plain _ hu.2) (h.plain _ hu'.2)
      (h.alike b hb b' hb' (.inl h1.symm)) h4
    exact h2 (h.scope_inj hu'.2 hu.2 this.2.1.symm)

/-- The other variables: the statistics of every factor, and for every block and each of its two factors `f` the Cholesky
factors that were asked for, the variables of the rank one correction of SUA factors, and the quantities of the
option of a recurrent layer, all for the damping of the block. -/
theorem C129_complete_partial {c : Coll} (h : c.Ok) (s : Store) (hs : ∀ v ∈ c.requests, v.name ∉ s.map Prod.fst) :
    ∃ t, makeVars s c.requests = .ok t ∧
    (∀ f ∈ c.factors, t.lookup (f.scope ++ "/cov/var".toList) = some f.covShape ∧
      t.lookup (f.scope ++ "/cov/total_weight".toList) = some [] ∧
      (f.kind = .sua false → t.lookup (f.scope ++ "/mu/var".toList) = some (f.covShape.take 1 ++ [1]) ∧
        t.lookup (f.scope ++ "/mu/total_weight".toList) = some []) ∧
      (f.kind = .multi true → t.lookup (f.scope ++ "/cov_dt1/var".toList) = some f.covShape ∧
        t.lookup (f.scope ++ "/cov_dt1/total_weight".toList) = some [])) ∧
    ∀ b ∈ c.blocks, ∀ f r, (f = b.inp ∧ r = 0) ∨ (f = b.out ∧ r = 1) →
      let d := idString (pairId b.inp.scope b.out.scope c.damping b.norm r)
      (b.served = .powers → (f.kind = .dense ∨ ∃ x, f.kind = .multi x) →
        (c.chol = true → t.lookup (f.scope ++ ("/cholesky_damp".toList ++ d)) = some f.covShape) ∧
        (c.cholInv = true → t.lookup (f.scope ++ ("/cholesky_inverse_damp".toList ++ d)) = some f.covShape)) ∧
      (b.served = .powers → ∀ z, f.kind = .sua z → ∀ e ∈ c.exps,
        t.lookup ("damping_var_".toList ++ e ++ "_".toList ++ d) = some [] ∧
        (z = false → t.lookup ("cov_inv_mu_".toList ++ e ++ "_".toList ++ d) = some (f.covShape.take 1 ++ [1]) ∧
          t.lookup ("rank_one_update_scale_".toList ++ e ++ "_".toList ++ d) = some [])) ∧
      (b.served = .option1 → (∃ x, f.kind = .multi x) →
        t.lookup (f.scope ++ ("/Lmat_damp".toList ++ d)) = some f.covShape ∧
        t.lookup (f.scope ++ ("/psi_damp".toList ++ d)) = some (f.covShape.take 1)) ∧
      (b.served = .option2 → (∃ x, f.kind = .multi x) →
        t.lookup (f.scope ++ ("/Lmat_damp".toList ++ d)) = some f.covShape ∧
        t.lookup (f.scope ++ ("/Kmat_damp".toList ++ d)) = some f.covShape ∧
        t.lookup (f.scope ++ ("/mu_damp".toList ++ d)) = some (f.covShape.take 1)) := by
  have hm := (C129_created_partial h s hs).1
  refine ⟨_, hm, ?_, ?_⟩
  all_goals
    have hl := (makeVars_ok hm).2.1
    revert hl
    generalize (s ++ c.requests.map fun v => (v.name, v.shape)) = t
    intro hl
  · intro f hf
    have m : ∀ v ∈ covRequests f, t.lookup v.name = some v.shape := fun v hv =>
      hl v (List.mem_append.mpr (.inl (List.mem_flatMap.mpr ⟨f, hf, hv⟩)))
    refine ⟨m ⟨f.scope, .covVar, [], f.covShape⟩ (by simp [covRequests]),
      m ⟨f.scope, .covWeight, [], []⟩ (by simp [covRequests]), fun hk => ⟨?_, ?_⟩, fun hk => ⟨?_, ?_⟩⟩
    · exact m ⟨f.scope, .muVar, [], f.covShape.take 1 ++ [1]⟩ (by simp [covRequests, hk])
    · exact m ⟨f.scope, .muWeight, [], []⟩ (by simp [covRequests, hk])
    · exact m ⟨f.scope, .dt1Var, [], f.covShape⟩ (by simp [covRequests, hk])
    · exact m ⟨f.scope, .dt1Weight, [], []⟩ (by simp [covRequests, hk])
  · intro b hb f r hfr d
    have hu := h.used b hb
    have hf : f ∈ c.factors := by rcases hfr with ⟨rfl, -⟩ | ⟨rfl, -⟩; exacts [hu.1, hu.2]
    let i := pairId b.inp.scope b.out.scope c.damping b.norm r
    have hi : ∀ s, b.served = s → i ∈ c.ids s f := by
      intro s hs
      rcases hfr with ⟨rfl, rfl⟩ | ⟨rfl, rfl⟩
      · exact mem_ids.mpr (.inl ⟨b, hb, hs, .inl ⟨rfl, rfl⟩⟩)
      · exact mem_ids.mpr (.inl ⟨b, hb, hs, .inr ⟨rfl, rfl⟩⟩)
    have m : ∀ v ∈ invRequests c f, t.lookup v.name = some v.shape := fun v hv =>
      hl v (List.mem_append.mpr (.inr (List.mem_flatMap.mpr ⟨f, hf, hv⟩)))
    have md : (f.kind = .dense ∨ ∃ x, f.kind = .multi x) → ∀ v ∈ denseRequests c f, t.lookup v.name = some v.shape := by
      rintro (hk | ⟨x, hk⟩) v hv
      · exact m v (by simpa only [invRequests, hk] using hv)
      · refine m v ?_
        simp only [invRequests, hk, multiRequests]
        exact List.mem_append.mpr (.inl (List.mem_append.mpr (.inl hv)))
    refine ⟨fun hp hk => ⟨fun hc => ?_, fun hc => ?_⟩, fun hp z hk e he => ⟨?_, ?_⟩, ?_, ?_⟩
    · refine md hk ⟨f.scope, .chol, i, f.covShape⟩ ?_
      simp only [denseRequests, hc, if_true]
      exact List.mem_append.mpr (.inl (List.mem_append.mpr (.inr (List.mem_map.mpr ⟨i, hi _ hp, rfl⟩))))
    · refine md hk ⟨f.scope, .cholInv, i, f.covShape⟩ ?_
      simp only [denseRequests, hc, if_true]
      exact List.mem_append.mpr (.inr (List.mem_map.mpr ⟨i, hi _ hp, rfl⟩))
    · refine m ⟨f.scope, .dampingVar e, i, []⟩ ?_
      simp only [invRequests, hk, suaRequests]
      exact List.mem_flatMap.mpr ⟨e, he, List.mem_flatMap.mpr ⟨i, hi _ hp, by simp⟩⟩
    · rintro rfl
      refine ⟨m ⟨f.scope, .covInvMu e, i, f.covShape.take 1 ++ [1]⟩ ?_, m ⟨f.scope, .rankOne e, i, []⟩ ?_⟩
      all_goals
        simp only [invRequests, hk, suaRequests]
        exact List.mem_flatMap.mpr ⟨e, he, List.mem_flatMap.mpr ⟨i, hi _ hp, by simp⟩⟩
    · rintro hp ⟨x, hk⟩
      refine ⟨m ⟨f.scope, .lmat, i, f.covShape⟩ ?_, m ⟨f.scope, .psi, i, f.covShape.take 1⟩ ?_⟩
      all_goals
        simp only [invRequests, hk, multiRequests]
        exact List.mem_append.mpr (.inl (List.mem_append.mpr (.inr
          (List.mem_flatMap.mpr ⟨i, hi _ hp, by simp⟩))))
    · rintro hp ⟨x, hk⟩
      refine ⟨m ⟨f.scope, .pmat, i, f.covShape⟩ ?_, m ⟨f.scope, .kmat, i, f.covShape⟩ ?_,
        m ⟨f.scope, .mu, i, f.covShape.take 1⟩ ?_⟩
      all_goals
        simp only [invRequests, hk, multiRequests]
        exact List.mem_append.mpr (.inr (List.mem_flatMap.mpr ⟨i, hi _ hp, by simp⟩))

/-- Blocks with one dense factor find its powers, Cholesky factor and inverse Cholesky factor for the damping itself. -/
theorem C129_single_partial {c : Coll} (h : c.Ok) (s : Store) (hs : ∀ v ∈ c.requests, v.name ∉ s.map Prod.fst)
    (f : FDecl) (hf : f ∈ c.singles) (hk : f.kind = .dense) :
    ∃ t, makeVars s c.requests = .ok t ∧
    (∀ e ∈ c.exps, t.lookup (f.scope ++ ("/matpower_exp".toList ++ e ++ "_damp".toList ++ c.damping)) =
      some f.covShape) ∧
    (c.chol = true → t.lookup (f.scope ++ ("/cholesky_damp".toList ++ c.damping)) = some f.covShape) ∧
    (c.cholInv = true → t.lookup (f.scope ++ ("/cholesky_inverse_damp".toList ++ c.damping)) = some f.covShape) := by
  have hm := (C129_created_partial h s hs).1
  have hl := (makeVars_ok hm).2.1
  have hi : [c.damping] ∈ c.ids .powers f := mem_ids.mpr (.inr ⟨⟨rfl, hf⟩, rfl⟩)
  have m : ∀ v ∈ denseRequests c f, v ∈ c.requests := fun v hv =>
    List.mem_append.mpr (.inr (List.mem_flatMap.mpr ⟨f, (h.singles f hf).1, by simpa only [invRequests, hk] using hv⟩))
  have ei : idString [c.damping] = c.damping := by simp [idString]
  have n1 : ∀ e i, (⟨f.scope, .matpower e, i, f.covShape⟩ : VarReq).name =
      f.scope ++ ("/matpower_exp".toList ++ e ++ "_damp".toList ++ idString i) := fun e i => rfl
  have n2 : ∀ i, (⟨f.scope, .chol, i, f.covShape⟩ : VarReq).name =
      f.scope ++ ("/cholesky_damp".toList ++ idString i) := fun i => rfl
  have n3 : ∀ i, (⟨f.scope, .cholInv, i, f.covShape⟩ : VarReq).name =
      f.scope ++ ("/cholesky_inverse_damp".toList ++ idString i) := fun i => rfl
  refine ⟨_, hm, fun e he => ?_, fun hc => ?_, fun hc => ?_⟩
  · have := hl _ (m ⟨f.scope, .matpower e, [c.damping], f.covShape⟩ ?_)
    · rwa [n1 e, ei] at this
    · simp only [denseRequests, List.mem_append, List.mem_flatMap, List.mem_map]
      exact .inl (.inl ⟨e, he, _, hi, rfl⟩)
  · have := hl _ (m ⟨f.scope, .chol, [c.damping], f.covShape⟩ ?_)
    · rwa [n2, ei] at this
    · simp only [denseRequests, hc, if_true]
      exact List.mem_append.mpr (.inl (List.mem_append.mpr (.inr (List.mem_map.mpr ⟨_, hi, rfl⟩))))
  · have := hl _ (m ⟨f.scope, .cholInv, [c.damping], f.covShape⟩ ?_)
    · rwa [n3, ei] at this
    · simp only [denseRequests, hc, if_true]
      exact List.mem_append.mpr (.inr (List.mem_map.mpr ⟨_, hi, rfl⟩))

/-- Two recurrent layers with the same factors, of which one uses option 1 and one option 2: both options call one of
their variables `Lmat`, so that the variables can never be made. -/
theorem C129_options_counterexample (c : Coll) (b b' : BDecl) (hb : b ∈ c.blocks) (hb' : b' ∈ c.blocks)
    (h1 : b.inp = b'.inp) (h2 : b.out = b'.out) (h3 : b.norm = b'.norm) (hs : b.served = .option1)
    (hs' : b'.served = .option2) (hf : b.inp ∈ c.factors) (d : Bool) (hk : b.inp.kind = .multi d) (s t : Store) :
    makeVars s c.requests ≠ .ok t := by
  intro h
  have hn := (makeVars_ok h).2.2.2
  let i := pairId b.inp.scope b.out.scope c.damping b.norm 0
  have hi : i ∈ c.ids .option1 b.inp := mem_ids.mpr (.inl ⟨b, hb, hs, .inl ⟨rfl, rfl⟩⟩)
  have hi' : i ∈ c.ids .option2 b.inp := mem_ids.mpr (.inl ⟨b', hb', hs', .inl ⟨h1.symm, by rw [← h1, ← h2, ← h3]⟩⟩)
  have m1 : (⟨b.inp.scope, .lmat, i, b.inp.covShape⟩ : VarReq) ∈ c.requests := by
    refine List.mem_append.mpr (.inr (List.mem_flatMap.mpr ⟨_, hf, ?_⟩))
    simp only [invRequests, hk, multiRequests]
    exact List.mem_append.mpr (.inl (List.mem_append.mpr (.inr (List.mem_flatMap.mpr ⟨i, hi, by simp⟩))))
  have m2 : (⟨b.inp.scope, .pmat, i, b.inp.covShape⟩ : VarReq) ∈ c.requests := by
    refine List.mem_append.mpr (.inr (List.mem_flatMap.mpr ⟨_, hf, ?_⟩))
    simp only [invRequests, hk, multiRequests]
    exact List.mem_append.mpr (.inr (List.mem_flatMap.mpr ⟨i, hi', by simp⟩))
  have := List.inj_on_of_nodup_map hn (List.mem_filter.mpr ⟨m1, rfl⟩) (List.mem_filter.mpr ⟨m2, rfl⟩) rfl
  simp at this

/-- Two layers with the same inputs and a diagonal approximation of the input factor, one with and one without a bias:
the scopes are the same (C33), the covariances have different shapes, and the variables can never be made. -/
theorem C129_diagonal_counterexample (c : Coll) (tensors : List (List TName)) (n : ℕ)
    (h1 : ⟨(FactorReq.diagonalKron tensors true).scope, .diagonal, [n + 1]⟩ ∈ c.factors)
    (h2 : ⟨(FactorReq.diagonalKron tensors false).scope, .diagonal, [n]⟩ ∈ c.factors) (s t : Store) :
    makeVars s c.requests ≠ .ok t := by
  intro h
  have hl := (makeVars_ok h).2.1
  have m : ∀ f ∈ c.factors, (⟨f.scope, .covVar, [], f.covShape⟩ : VarReq) ∈ c.requests := fun f hf =>
    List.mem_append.mpr (.inl (List.mem_flatMap.mpr ⟨f, hf, by simp [covRequests]⟩))
  have e1 := hl _ (m _ h1)
  have e2 := hl _ (m _ h2)
  have : (some [n + 1] : Option (List ℕ)) = some [n] := e1.symm.trans e2
  simp at this

/-- A convolution that is used once and one that is used several times, with the same input and the same geometry: two
factors, but the second silently gets the covariance variable of the first, which both then update. -/
theorem C129_shared_counterexample (inputs : List TName) (fs : List ℕ) (pad : String) (uses : ℕ)
    (strides dil : Option (List ℕ)) (fmt : Option String) (bias : Bool) (shape : List ℕ) :
    let f : FDecl := ⟨(FactorReq.convInput inputs fs pad strides dil fmt bias none none).scope, .dense, shape⟩
    let f' : FDecl := ⟨(FactorReq.convInputMulti inputs fs pad uses strides dil fmt bias).scope, .dense, shape⟩
    makeVars [] (covRequests f ++ covRequests f') =
      .ok [(f.scope ++ "/cov/var".toList, shape), (f.scope ++ "/cov/total_weight".toList, [])] := by
  intro f f'
  have e : f' = f := rfl
  rw [e]
  have hc : covRequests f = [⟨f.scope, .covVar, [], f.covShape⟩, ⟨f.scope, .covWeight, [], []⟩] := rfl
  have n1 : (⟨f.scope, .covVar, [], f.covShape⟩ : VarReq).name = f.scope ++ "/cov/var".toList := rfl
  have n2 : (⟨f.scope, .covWeight, [], []⟩ : VarReq).name = f.scope ++ "/cov/total_weight".toList := rfl
  have hne : f.scope ++ "/cov/var".toList ≠ f.scope ++ "/cov/total_weight".toList := fun h =>
    absurd (List.append_cancel_left h) (by decide)
  generalize "/cov/var".toList = p at *
  generalize "/cov/total_weight".toList = q at *
  rw [hc]
  have hne' : (f.scope ++ q == f.scope ++ p) = false := by
    rw [beq_eq_false_iff_ne]; exact fun h => hne h.symm
  simp only [List.cons_append, List.nil_append, makeVars, getVariable, n1, n2, List.lookup, bind, Except.bind,
    VarKind.reuses, hne', BEq.rfl, if_true]
  rfl

/-- Two fully connected layers with a common input, a convolution with a SUA factor and a generic parameter. -/
def sampleX : FDecl := ⟨"ff_fckron_x_0_True".toList, .dense, [3, 3]⟩
def sampleG : FDecl := ⟨"ff_fckron_gradients_g_0_False".toList, .dense, [2, 2]⟩
def sampleH : FDecl := ⟨"ff_fckron_gradients_h_0_False".toList, .dense, [2, 2]⟩
def sampleS : FDecl := ⟨"ff_convinsuakron_im_0_3-3-1-2_True".toList, .sua false, [1, 1]⟩
def sampleO : FDecl := ⟨"ff_convoutkron_gradients_o_0".toList, .dense, [2, 2]⟩
def sampleN : FDecl := ⟨"ff_naivefull_gradients_p_0_64".toList, .dense, [4, 4]⟩
def sampleColl : Coll :=
  ⟨[sampleX, sampleG, sampleH, sampleS, sampleO, sampleN],
   [⟨sampleX, sampleG, none, .powers⟩, ⟨sampleX, sampleH, none, .powers⟩, ⟨sampleS, sampleO, some 49, .powers⟩],
   [sampleN], "0.001".toList, ["-1.0".toList], false, false⟩

theorem sampleColl_ok : sampleColl.Ok where
  scopes := by decide
  plain := by
    intro f hf
    simp only [sampleColl, List.mem_cons, List.not_mem_nil, or_false] at hf
    rcases hf with rfl | rfl | rfl | rfl | rfl | rfl <;> (refine ⟨?_, ?_, ?_⟩ <;> decide)
  damping := by decide
  expsNodup := by decide
  exps := by decide
  used := by
    intro b hb
    simp only [sampleColl, List.mem_cons, List.not_mem_nil, or_false] at hb
    rcases hb with rfl | rfl | rfl <;> simp [sampleColl]
  alike := by
    intro b hb b' hb'
    simp only [sampleColl, List.mem_cons, List.not_mem_nil, or_false] at hb hb'
    rcases hb with rfl | rfl | rfl <;> rcases hb' with rfl | rfl | rfl <;>
      first
      | exact fun _ => rfl
      | (intro h; rcases h with h | h | h <;>
          exact absurd (congrArg FDecl.scope h) (by decide))
  sua := by
    intro b hb z
    simp only [sampleColl, List.mem_cons, List.not_mem_nil, or_false] at hb
    rcases hb with rfl | rfl | rfl
    · exact ⟨fun h => FKind.noConfusion (h : FKind.dense = _), fun h => FKind.noConfusion (h : FKind.dense = _)⟩
    · exact ⟨fun h => FKind.noConfusion (h : FKind.dense = _), fun h => FKind.noConfusion (h : FKind.dense = _)⟩
    · exact ⟨fun _ => rfl, fun h => FKind.noConfusion (h : FKind.dense = _)⟩
  options := by
    intro b hb b' hb' _ _ _ h
    simp only [sampleColl, List.mem_cons, List.not_mem_nil, or_false] at hb
    rcases hb with rfl | rfl | rfl <;> simp at h
  singles := by
    intro f hf
    rw [List.mem_singleton.mp hf]
    refine ⟨by simp [sampleColl], fun z h => FKind.noConfusion (h : FKind.dense = _), fun b hb => ?_⟩
    simp only [sampleColl, List.mem_cons, List.not_mem_nil, or_false] at hb
    rcases hb with rfl | rfl | rfl <;>
      exact ⟨fun h => absurd (congrArg FDecl.scope h) (by decide), fun h => absurd (congrArg FDecl.scope h) (by decide)⟩

/-- The conditions can be met: the variables of this collection are all made in an empty graph, the two layers read
different inverses of the input factor, and there are twenty-four variables. -/
example : (∃ t, makeVars [] sampleColl.requests = .ok t ∧ t.length = 24) ∧
    ∀ t, makeVars [] sampleColl.requests = .ok t → (t.map Prod.fst).Nodup := by
  obtain ⟨h1, h2⟩ := C129_created_partial sampleColl_ok [] (by simp)
  refine ⟨⟨_, h1, ?_⟩, fun t ht => ?_⟩
  · simp only [List.nil_append, List.length_map]; decide
  · rw [h1] at ht
    obtain rfl := Except.ok.inj ht
    simpa [Function.comp_def] using h2

end Kfac.Reg.Vars
