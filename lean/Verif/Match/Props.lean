import Verif.Match.Lemmas

/-! # C53: the matcher finds a match iff one exists -/

namespace Kfac.Match

variable {N Name : Type}

mutual
/-- Declarative reading: `Sem g ρ p d K` says that under the assignment `ρ` of names to nodes the pattern `p` describes
the node `d`, the description mentioning exactly the nodes `K` (outside negations). -/
def Sem (g : Graph N) (ρ : Name → Option N) : Pat N Name → N → Set N → Prop
  | .elem name rs, d, K => K = {d} ∧ (∀ r ∈ rs, r d = true) ∧ ∀ v, name = some v → ρ v = some d
  | .choice ps, d, K => SemChoice g ρ ps d K
  | .list _, _, _ => False
  | .not p, d, K => K = ∅ ∧ ¬ ∃ K', Sem g ρ p d K'
  | .any, d, K => K = {d}
  | .anyNoconsume, _, K => K = ∅
  | .internalIn p ins, d, K => ∃ K₁ K₂ l, K = K₁ ∪ K₂ ∧ Sem g ρ p d K₁ ∧ g.inputs d = some l ∧ SemList g ρ ins l K₂
  | .internalOut p outs, d, K =>
    ∃ K₁ K₂ l, K = K₁ ∪ K₂ ∧ Sem g ρ p d K₁ ∧ g.outputs d = some l ∧ SemList g ρ outs l K₂
  | .internalInOut p ins outs, d, K => ∃ K₁ K₂ K₃ l l', K = K₁ ∪ K₂ ∪ K₃ ∧ Sem g ρ p d K₁ ∧
      g.inputs d = some l ∧ SemList g ρ ins l K₂ ∧ g.outputs d = some l' ∧ SemList g ρ outs l' K₃
  | .eqv n, d, K => d = n ∧ K = {d}

/-- One of the alternatives describes the node. -/
def SemChoice (g : Graph N) (ρ : Name → Option N) : List (Pat N Name) → N → Set N → Prop
  | [], _, _ => False
  | p :: ps, d, K => Sem g ρ p d K ∨ SemChoice g ρ ps d K

/-- The patterns describe the nodes of the list one by one. -/
def SemList (g : Graph N) (ρ : Name → Option N) : List (Pat N Name) → List N → Set N → Prop
  | [], [], K => K = ∅
  | p :: ps, x :: xs, K => ∃ K₁ K₂, K = K₁ ∪ K₂ ∧ Sem g ρ p x K₁ ∧ SemList g ρ ps xs K₂
  | [], _ :: _, _ => False
  | _ :: _, [], _ => False
end

mutual
/-- No element of the pattern has a name. -/
def Nameless : Pat N Name → Prop
  | .elem name _ => name = none
  | .choice ps => NamelessL ps
  | .list ps => NamelessL ps
  | .not p => Nameless p
  | .any => True
  | .anyNoconsume => True
  | .internalIn p ins => Nameless p ∧ NamelessL ins
  | .internalOut p outs => Nameless p ∧ NamelessL outs
  | .internalInOut p ins outs => Nameless p ∧ NamelessL ins ∧ NamelessL outs
  | .eqv _ => True

def NamelessL : List (Pat N Name) → Prop
  | [] => True
  | p :: ps => Nameless p ∧ NamelessL ps
end

mutual
/-- Negated patterns contain no names. -/
def PlainNeg : Pat N Name → Prop
  | .elem _ _ => True
  | .choice ps => PlainNegL ps
  | .list ps => PlainNegL ps
  | .not p => Nameless p ∧ PlainNeg p
  | .any => True
  | .anyNoconsume => True
  | .internalIn p ins => PlainNeg p ∧ PlainNegL ins
  | .internalOut p outs => PlainNeg p ∧ PlainNegL outs
  | .internalInOut p ins outs => PlainNeg p ∧ PlainNegL ins ∧ PlainNegL outs
  | .eqv _ => True

def PlainNegL : List (Pat N Name) → Prop
  | [] => True
  | p :: ps => PlainNeg p ∧ PlainNegL ps
end

mutual
theorem sem_nameless (g : Graph N) : ∀ (p : Pat N Name), Nameless p → ∀ (ρ ρ' : Name → Option N) (d : N) (K : Set N),
    Sem g ρ p d K ↔ Sem g ρ' p d K
  | .elem _ _, h, _, _, _, _ => by simp only [Nameless] at h; simp [Sem, h]
  | .choice ps, h, ρ, ρ', d, K => by
    simp only [Sem]; simp only [Nameless] at h; exact semChoice_nameless g ps h ρ ρ' d K
  | .list _, _, _, _, _, _ => by simp only [Sem]
  | .not p, h, ρ, ρ', d, K => by
    simp only [Nameless] at h
    simp only [Sem]
    rw [exists_congr fun K' => sem_nameless g p h ρ ρ' d K']
  | .any, _, _, _, _, _ => by simp only [Sem]
  | .anyNoconsume, _, _, _, _, _ => by simp only [Sem]
  | .internalIn p ins, h, ρ, ρ', d, K => by
    simp only [Nameless] at h
    simp only [Sem]
    simp only [sem_nameless g p h.1 ρ ρ', semList_nameless g ins h.2 ρ ρ']
  | .internalOut p outs, h, ρ, ρ', d, K => by
    simp only [Nameless] at h
    simp only [Sem]
    simp only [sem_nameless g p h.1 ρ ρ', semList_nameless g outs h.2 ρ ρ']
  | .internalInOut p ins outs, h, ρ, ρ', d, K => by
    simp only [Nameless] at h
    simp only [Sem]
    simp only [sem_nameless g p h.1 ρ ρ', semList_nameless g ins h.2.1 ρ ρ', semList_nameless g outs h.2.2 ρ ρ']
  | .eqv _, _, _, _, _, _ => by simp only [Sem]

theorem semChoice_nameless (g : Graph N) : ∀ (ps : List (Pat N Name)), NamelessL ps →
    ∀ (ρ ρ' : Name → Option N) (d : N) (K : Set N), SemChoice g ρ ps d K ↔ SemChoice g ρ' ps d K
  | [], _, _, _, _, _ => by simp only [SemChoice]
  | p :: ps, h, ρ, ρ', d, K => by
    simp only [NamelessL] at h
    simp only [SemChoice]
    rw [sem_nameless g p h.1 ρ ρ', semChoice_nameless g ps h.2 ρ ρ']

theorem semList_nameless (g : Graph N) : ∀ (ps : List (Pat N Name)), NamelessL ps →
    ∀ (ρ ρ' : Name → Option N) (l : List N) (K : Set N), SemList g ρ ps l K ↔ SemList g ρ' ps l K
  | [], _, _, _, [], _ => by simp only [SemList]
  | [], _, _, _, _ :: _, _ => by simp only [SemList]
  | _ :: _, _, _, _, [], _ => by simp only [SemList]
  | p :: ps, h, ρ, ρ', x :: xs, K => by
    simp only [NamelessL] at h
    simp only [SemList]
    simp only [sem_nameless g p h.1 ρ ρ', semList_nameless g ps h.2 ρ ρ']
end

/-- `ρ` extends `b`. -/
def Extends (b ρ : Name → Option N) : Prop := ∀ v x, b v = some x → ρ v = some x

theorem Extends.refl (b : Name → Option N) : Extends b b := fun _ _ h => h

theorem Extends.trans {a b c : Name → Option N} (h : Extends a b) (h' : Extends b c) : Extends a c :=
  fun v x hx => h' v x (h v x hx)

mutual
theorem sem_mono (g : Graph N) : ∀ (p : Pat N Name), PlainNeg p → ∀ {ρ ρ' : Name → Option N}, Extends ρ ρ' →
    ∀ {d : N} {K : Set N}, Sem g ρ p d K → Sem g ρ' p d K
  | .elem _ _, _, _, _, he, _, _, hs => by
    simp only [Sem] at hs ⊢
    exact ⟨hs.1, hs.2.1, fun v hv => he v _ (hs.2.2 v hv)⟩
  | .choice ps, h, _, _, he, _, _, hs => by
    simp only [PlainNeg] at h; simp only [Sem] at hs ⊢
    exact semChoice_mono g ps h he hs
  | .list _, _, _, _, _, _, _, hs => by simp only [Sem] at hs
  | .not p, h, ρ, ρ', _, d, K, hs => by
    simp only [PlainNeg] at h
    exact (sem_nameless g (.not p) (by simp only [Nameless]; exact h.1) ρ ρ' d K).1 hs
  | .any, _, _, _, _, _, _, hs => by simpa only [Sem] using hs
  | .anyNoconsume, _, _, _, _, _, _, hs => by simpa only [Sem] using hs
  | .internalIn p ins, h, _, _, he, _, _, hs => by
    simp only [PlainNeg] at h; simp only [Sem] at hs ⊢
    obtain ⟨K₁, K₂, l, e, h1, h2, h3⟩ := hs
    exact ⟨K₁, K₂, l, e, sem_mono g p h.1 he h1, h2, semList_mono g ins h.2 he h3⟩
  | .internalOut p outs, h, _, _, he, _, _, hs => by
    simp only [PlainNeg] at h; simp only [Sem] at hs ⊢
    obtain ⟨K₁, K₂, l, e, h1, h2, h3⟩ := hs
    exact ⟨K₁, K₂, l, e, sem_mono g p h.1 he h1, h2, semList_mono g outs h.2 he h3⟩
  | .internalInOut p ins outs, h, _, _, he, _, _, hs => by
    simp only [PlainNeg] at h; simp only [Sem] at hs ⊢
    obtain ⟨K₁, K₂, K₃, l, l', e, h1, h2, h3, h4, h5⟩ := hs
    exact ⟨K₁, K₂, K₃, l, l', e, sem_mono g p h.1 he h1, h2, semList_mono g ins h.2.1 he h3, h4,
      semList_mono g outs h.2.2 he h5⟩
  | .eqv _, _, _, _, _, _, _, hs => by simpa only [Sem] using hs

theorem semChoice_mono (g : Graph N) : ∀ (ps : List (Pat N Name)), PlainNegL ps → ∀ {ρ ρ' : Name → Option N},
    Extends ρ ρ' → ∀ {d : N} {K : Set N}, SemChoice g ρ ps d K → SemChoice g ρ' ps d K
  | [], _, _, _, _, _, _, hs => by simp only [SemChoice] at hs
  | p :: ps, h, _, _, he, _, _, hs => by
    simp only [PlainNegL] at h; simp only [SemChoice] at hs ⊢
    exact hs.imp (sem_mono g p h.1 he) (semChoice_mono g ps h.2 he)

theorem semList_mono (g : Graph N) : ∀ (ps : List (Pat N Name)), PlainNegL ps → ∀ {ρ ρ' : Name → Option N},
    Extends ρ ρ' → ∀ {l : List N} {K : Set N}, SemList g ρ ps l K → SemList g ρ' ps l K
  | [], _, _, _, _, [], _, hs => by simpa only [SemList] using hs
  | [], _, _, _, _, _ :: _, _, hs => by simp only [SemList] at hs
  | _ :: _, _, _, _, _, [], _, hs => by simp only [SemList] at hs
  | p :: ps, h, _, _, he, x :: xs, _, hs => by
    simp only [PlainNegL] at h; simp only [SemList] at hs ⊢
    obtain ⟨K₁, K₂, e, h1, h2⟩ := hs
    exact ⟨K₁, K₂, e, sem_mono g p h.1 he h1, semList_mono g ps h.2 he h2⟩
end

variable [DecidableEq N] [DecidableEq Name]

/-- Results are right: they extend the given bindings, describe the node, and add the described nodes. -/
def Sound (S : (Name → Option N) → Set N → Prop) (b : Bind N Name) (c : Set N)
    (l : List (Bind N Name × Set N)) : Prop :=
  ∀ r ∈ l, Extends b r.1 ∧ ∃ K, r.2 = c ∪ K ∧ S r.1 K

/-- All descriptions compatible with the bindings are among the results. -/
def Complete (S : (Name → Option N) → Set N → Prop) (b : Bind N Name) (c : Set N)
    (l : List (Bind N Name × Set N)) : Prop :=
  ∀ ρ K, Extends b ρ → S ρ K → ∃ b', (b', c ∪ K) ∈ l ∧ Extends b' ρ

mutual
theorem results_spec (g : Graph N) : ∀ (p : Pat N Name), PlainNeg p → ∀ (d : N) (b : Bind N Name) (c : Set N),
    Sound (fun ρ K => Sem g ρ p d K) b c (results g p d b c) ∧
    Complete (fun ρ K => Sem g ρ p d K) b c (results g p d b c)
  | .elem name rs, _, d, b, c => by
    simp only [results]
    by_cases h : (rs.all fun r => r d) = true
    · rw [if_pos h]
      have hr : ∀ r ∈ rs, r d = true := by simpa using h
      cases name with
      | none =>
        refine ⟨fun r hr' => ?_, fun ρ K he hs => ?_⟩
        · rw [List.mem_singleton] at hr'; subst hr'
          exact ⟨.refl _, {d}, rfl, by simp only [Sem]; exact ⟨trivial, hr, by simp⟩⟩
        · simp only [Sem] at hs; rw [hs.1]
          exact ⟨b, by simp, he⟩
      | some v =>
        cases hb : b v with
        | none =>
          refine ⟨fun r hr' => ?_, fun ρ K he hs => ?_⟩
          · simp only [hb] at hr'
            rw [List.mem_singleton] at hr'; subst hr'
            refine ⟨fun w x hw => ?_, {d}, rfl, ?_⟩
            · have : w ≠ v := by rintro rfl; rw [hb] at hw; cases hw
              simp [Function.update_of_ne this, hw]
            · simp only [Sem]; refine ⟨trivial, hr, ?_⟩
              rintro w hw; cases hw; simp
          · simp only [Sem] at hs; rw [hs.1]
            refine ⟨Function.update b v (some d), by simp [hb], fun w x hw => ?_⟩
            by_cases hwv : w = v
            · subst hwv; rw [Function.update_self] at hw; rw [← hw]; exact hs.2.2 _ rfl
            · rw [Function.update_of_ne hwv] at hw; exact he _ _ hw
        | some x =>
          simp only [hb]
          by_cases hx : x = d
          · rw [if_pos hx]
            refine ⟨fun r hr' => ?_, fun ρ K he hs => ?_⟩
            · rw [List.mem_singleton] at hr'; subst hr'
              refine ⟨.refl _, {d}, rfl, ?_⟩
              simp only [Sem]; refine ⟨trivial, hr, ?_⟩
              rintro w hw; cases hw; rw [hb, hx]
            · simp only [Sem] at hs; rw [hs.1]
              exact ⟨b, by simp, he⟩
          · rw [if_neg hx]
            refine ⟨by simp [Sound], fun ρ K he hs => ?_⟩
            simp only [Sem] at hs
            have := he _ _ hb
            rw [hs.2.2 v rfl] at this
            exact absurd (Option.some.inj this).symm hx
    · rw [if_neg h]
      refine ⟨by simp [Sound], fun ρ K he hs => ?_⟩
      simp only [Sem] at hs
      exact absurd (by simpa using hs.2.1) h
  | .choice ps, h, d, b, c => by
    simp only [PlainNeg] at h
    have := resultsChoice_spec g ps h d b c
    simp only [results, Sem]; exact this
  | .list _, _, _, _, _ => by
    simp only [results, Sem]
    exact ⟨by simp [Sound], fun ρ K _ hs => hs.elim⟩
  | .not p, h, d, b, c => by
    simp only [PlainNeg] at h
    have ih := results_spec g p h.2 d b ∅
    simp only [results, Sem]
    by_cases he : (results g p d b ∅).isEmpty = true
    · rw [if_pos he]
      refine ⟨fun r hr => ?_, fun ρ K hx hs => ⟨b, by simp [hs.1], hx⟩⟩
      rw [List.mem_singleton] at hr; subst hr
      refine ⟨.refl _, ∅, by simp, rfl, ?_⟩
      rintro ⟨K', hK'⟩
      obtain ⟨b', hb', _⟩ := ih.2 b K' (.refl _) hK'
      rw [List.isEmpty_iff] at he
      rw [he] at hb'; cases hb'
    · rw [if_neg he]
      refine ⟨by simp [Sound], fun ρ K hx hs => ?_⟩
      obtain ⟨r, hr⟩ : ∃ r, r ∈ results g p d b ∅ := by
        cases hl : results g p d b ∅ with
        | nil => simp [hl] at he
        | cons a l => exact ⟨a, by simp⟩
      obtain ⟨_, K', _, hK'⟩ := ih.1 r hr
      exact absurd ⟨K', (sem_nameless g p h.1 _ _ d K').1 hK'⟩ hs.2
  | .any, _, d, b, c => by
    simp only [results, Sem]
    refine ⟨fun r hr => ?_, fun ρ K he hs => ⟨b, by simp [hs], he⟩⟩
    rw [List.mem_singleton] at hr; subst hr
    exact ⟨.refl _, {d}, rfl, rfl⟩
  | .anyNoconsume, _, d, b, c => by
    simp only [results, Sem]
    refine ⟨fun r hr => ?_, fun ρ K he hs => ⟨b, by simp [hs], he⟩⟩
    rw [List.mem_singleton] at hr; subst hr
    exact ⟨.refl _, ∅, by simp, rfl⟩
  | .internalIn p ins, h, d, b, c => by
    simp only [PlainNeg] at h
    have ih := results_spec g p h.1 d b c
    simp only [results, Sem]
    refine ⟨fun r hr => ?_, fun ρ K he hs => ?_⟩
    · obtain ⟨r1, h1, h2⟩ := List.mem_flatMap.1 hr
      obtain ⟨e1, K₁, k1, s1⟩ := ih.1 r1 h1
      cases hl : g.inputs d with
      | none => simp [hl] at h2
      | some l =>
        simp only [hl] at h2
        obtain ⟨e2, K₂, k2, s2⟩ := (resultsList_spec g ins h.2 l r1.1 r1.2).1 r h2
        exact ⟨e1.trans e2, K₁ ∪ K₂, by rw [k2, k1, Set.union_assoc],
          K₁, K₂, l, rfl, sem_mono g p h.1 e2 s1, rfl, s2⟩
    · obtain ⟨K₁, K₂, l, rfl, s1, hl, s2⟩ := hs
      obtain ⟨b1, m1, e1⟩ := ih.2 ρ K₁ he s1
      obtain ⟨b2, m2, e2⟩ := (resultsList_spec g ins h.2 l b1 (c ∪ K₁)).2 ρ K₂ e1 s2
      exact ⟨b2, List.mem_flatMap.2 ⟨_, m1, by simpa only [hl, Set.union_assoc] using m2⟩, e2⟩
  | .internalOut p outs, h, d, b, c => by
    simp only [PlainNeg] at h
    have ih := results_spec g p h.1 d b c
    simp only [results, Sem]
    refine ⟨fun r hr => ?_, fun ρ K he hs => ?_⟩
    · obtain ⟨r1, h1, h2⟩ := List.mem_flatMap.1 hr
      obtain ⟨e1, K₁, k1, s1⟩ := ih.1 r1 h1
      cases hl : g.outputs d with
      | none => simp [hl] at h2
      | some l =>
        simp only [hl] at h2
        obtain ⟨e2, K₂, k2, s2⟩ := (resultsList_spec g outs h.2 l r1.1 r1.2).1 r h2
        exact ⟨e1.trans e2, K₁ ∪ K₂, by rw [k2, k1, Set.union_assoc],
          K₁, K₂, l, rfl, sem_mono g p h.1 e2 s1, rfl, s2⟩
    · obtain ⟨K₁, K₂, l, rfl, s1, hl, s2⟩ := hs
      obtain ⟨b1, m1, e1⟩ := ih.2 ρ K₁ he s1
      obtain ⟨b2, m2, e2⟩ := (resultsList_spec g outs h.2 l b1 (c ∪ K₁)).2 ρ K₂ e1 s2
      exact ⟨b2, List.mem_flatMap.2 ⟨_, m1, by simpa only [hl, Set.union_assoc] using m2⟩, e2⟩
  | .internalInOut p ins outs, h, d, b, c => by
    simp only [PlainNeg] at h
    have ih := results_spec g p h.1 d b c
    simp only [results, Sem]
    refine ⟨fun r hr => ?_, fun ρ K he hs => ?_⟩
    · obtain ⟨r1, h1, h2⟩ := List.mem_flatMap.1 hr
      obtain ⟨e1, K₁, k1, s1⟩ := ih.1 r1 h1
      cases hl : g.inputs d with
      | none => simp [hl] at h2
      | some l =>
        simp only [hl] at h2
        obtain ⟨r2, h2, h3⟩ := List.mem_flatMap.1 h2
        obtain ⟨e2, K₂, k2, s2⟩ := (resultsList_spec g ins h.2.1 l r1.1 r1.2).1 r2 h2
        cases hl' : g.outputs d with
        | none => simp [hl'] at h3
        | some l' =>
          simp only [hl'] at h3
          obtain ⟨e3, K₃, k3, s3⟩ := (resultsList_spec g outs h.2.2 l' r2.1 r2.2).1 r h3
          exact ⟨e1.trans (e2.trans e3), K₁ ∪ K₂ ∪ K₃, by rw [k3, k2, k1]; simp only [Set.union_assoc],
            K₁, K₂, K₃, l, l', rfl, sem_mono g p h.1 (e2.trans e3) s1, rfl, semList_mono g ins h.2.1 e3 s2, rfl, s3⟩
    · obtain ⟨K₁, K₂, K₃, l, l', rfl, s1, hl, s2, hl', s3⟩ := hs
      obtain ⟨b1, m1, e1⟩ := ih.2 ρ K₁ he s1
      obtain ⟨b2, m2, e2⟩ := (resultsList_spec g ins h.2.1 l b1 (c ∪ K₁)).2 ρ K₂ e1 s2
      obtain ⟨b3, m3, e3⟩ := (resultsList_spec g outs h.2.2 l' b2 (c ∪ K₁ ∪ K₂)).2 ρ K₃ e2 s3
      refine ⟨b3, List.mem_flatMap.2 ⟨_, m1, ?_⟩, e3⟩
      simp only [hl]
      refine List.mem_flatMap.2 ⟨_, m2, ?_⟩
      simpa only [hl', Set.union_assoc] using m3
  | .eqv n, _, d, b, c => by
    simp only [results, Sem]
    by_cases hd : d = n
    · rw [if_pos hd]
      refine ⟨fun r hr => ?_, fun ρ K he hs => ⟨b, by simp [hs.2], he⟩⟩
      rw [List.mem_singleton] at hr; subst hr
      exact ⟨.refl _, {d}, rfl, hd, rfl⟩
    · rw [if_neg hd]
      exact ⟨by simp [Sound], fun ρ K he hs => absurd hs.1 hd⟩

theorem resultsChoice_spec (g : Graph N) : ∀ (ps : List (Pat N Name)), PlainNegL ps →
    ∀ (d : N) (b : Bind N Name) (c : Set N),
    Sound (fun ρ K => SemChoice g ρ ps d K) b c (resultsChoice g ps d b c) ∧
    Complete (fun ρ K => SemChoice g ρ ps d K) b c (resultsChoice g ps d b c)
  | [], _, _, _, _ => by
    simp only [resultsChoice, SemChoice]
    exact ⟨by simp [Sound], fun ρ K _ hs => hs.elim⟩
  | p :: ps, h, d, b, c => by
    simp only [PlainNegL] at h
    have h1 := results_spec g p h.1 d b c
    have h2 := resultsChoice_spec g ps h.2 d b c
    simp only [resultsChoice, SemChoice]
    refine ⟨fun r hr => ?_, fun ρ K he hs => ?_⟩
    · rcases List.mem_append.1 hr with hr | hr
      · obtain ⟨e, K, k, s⟩ := h1.1 r hr
        exact ⟨e, K, k, Or.inl s⟩
      · obtain ⟨e, K, k, s⟩ := h2.1 r hr
        exact ⟨e, K, k, Or.inr s⟩
    · rcases hs with hs | hs
      · obtain ⟨b', m, e⟩ := h1.2 ρ K he hs
        exact ⟨b', List.mem_append_left _ m, e⟩
      · obtain ⟨b', m, e⟩ := h2.2 ρ K he hs
        exact ⟨b', List.mem_append_right _ m, e⟩

theorem resultsList_spec (g : Graph N) : ∀ (ps : List (Pat N Name)), PlainNegL ps →
    ∀ (l : List N) (b : Bind N Name) (c : Set N),
    Sound (fun ρ K => SemList g ρ ps l K) b c (resultsList g ps l b c) ∧
    Complete (fun ρ K => SemList g ρ ps l K) b c (resultsList g ps l b c)
  | [], _, [], b, c => by
    simp only [resultsList, SemList]
    refine ⟨fun r hr => ?_, fun ρ K he hs => ⟨b, by simp [hs], he⟩⟩
    rw [List.mem_singleton] at hr; subst hr
    exact ⟨.refl _, ∅, by simp, rfl⟩
  | [], _, _ :: _, _, _ => by
    simp only [resultsList, SemList]
    exact ⟨by simp [Sound], fun ρ K _ hs => hs.elim⟩
  | _ :: _, _, [], _, _ => by
    simp only [resultsList, SemList]
    exact ⟨by simp [Sound], fun ρ K _ hs => hs.elim⟩
  | p :: ps, h, x :: xs, b, c => by
    simp only [PlainNegL] at h
    have ih := results_spec g p h.1 x b c
    simp only [resultsList, SemList]
    refine ⟨fun r hr => ?_, fun ρ K he hs => ?_⟩
    · obtain ⟨r1, h1, h2⟩ := List.mem_flatMap.1 hr
      obtain ⟨e1, K₁, k1, s1⟩ := ih.1 r1 h1
      obtain ⟨e2, K₂, k2, s2⟩ := (resultsList_spec g ps h.2 xs r1.1 r1.2).1 r h2
      exact ⟨e1.trans e2, K₁ ∪ K₂, by rw [k2, k1, Set.union_assoc], K₁, K₂, rfl, sem_mono g p h.1 e2 s1, s2⟩
    · obtain ⟨K₁, K₂, rfl, s1, s2⟩ := hs
      obtain ⟨b1, m1, e1⟩ := ih.2 ρ K₁ he s1
      obtain ⟨b2, m2, e2⟩ := (resultsList_spec g ps h.2 xs b1 (c ∪ K₁)).2 ρ K₂ e1 s2
      exact ⟨b2, List.mem_flatMap.2 ⟨_, m1, by simpa only [Set.union_assoc] using m2⟩, e2⟩
end

theorem matcherWithConsumed_eq (g : Graph N) (p : Pat N Name) (d : N) :
    matcherWithConsumed g p d = (results g p d (fun _ => none) ∅).head? := by
  rw [matcherWithConsumed, matchPat_eq, tryAll_first]
  cases (results g p d (fun _ => none) ∅).head? <;> rfl

theorem matcher_eq (g : Graph N) (p : Pat N Name) (d : N) :
    matcher g p d = (results g p d (fun _ => none) ∅).head?.map (·.1) := by
  rw [matcher, matchPat_eq, tryAll_first]

theorem allMatches_eq (g : Graph N) (p : Pat N Name) (s : List (Bind N Name)) (d : N) :
    allMatches g p s d = s ++ (results g p d (fun _ => none) ∅).map (·.1) := by
  rw [allMatches, matchPat_eq, tryAll_collect]

/-- C53: the matcher fails exactly when no assignment makes the pattern describe the node. Missing: patterns with
names inside a negation, whose meaning depends on the order. -/
theorem C53_iff_partial (g : Graph N) (p : Pat N Name) (hp : PlainNeg p) (d : N) :
    (∃ b, matcher g p d = some b) ↔ ∃ ρ K, Sem g ρ p d K := by
  rw [matcher_eq]
  have h := results_spec g p hp d (fun _ => none) ∅
  constructor
  · rintro ⟨b, hb⟩
    cases hl : results g p d (fun _ => none) ∅ with
    | nil => simp [hl] at hb
    | cons r l =>
      obtain ⟨_, K, _, hs⟩ := h.1 r (by simp [hl])
      exact ⟨_, _, hs⟩
  · rintro ⟨ρ, K, hs⟩
    obtain ⟨b', m, _⟩ := h.2 ρ K (fun _ _ h => by cases h) hs
    cases hl : results g p d (fun _ => none) ∅ with
    | nil => simp [hl] at m
    | cons r l => exact ⟨r.1, by simp⟩

/-- C53: what `matcher_with_consumed` returns is such an assignment, together with exactly the nodes of the
description. Missing: as above. -/
theorem C53_sound_partial (g : Graph N) (p : Pat N Name) (hp : PlainNeg p) (d : N) (b : Bind N Name) (K : Set N)
    (h : matcherWithConsumed g p d = some (b, K)) : Sem g b p d K ∧ matcher g p d = some b := by
  rw [matcherWithConsumed_eq] at h
  obtain ⟨_, K', hK, hs⟩ := (results_spec g p hp d (fun _ => none) ∅).1 (b, K) (List.mem_of_mem_head? h)
  simp only [Set.empty_union] at hK
  exact ⟨hK ▸ hs, by rw [matcher_eq, h]; rfl⟩

/-- C53: the first call of an `all_matcher` returns assignments that describe the node, and one below every
describing assignment. Missing: as above, and later calls. -/
theorem C53_all_partial (g : Graph N) (p : Pat N Name) (hp : PlainNeg p) (d : N) :
    (∀ b ∈ allMatches g p [] d, ∃ K, Sem g b p d K) ∧
      ∀ ρ K, Sem g ρ p d K → ∃ b ∈ allMatches g p [] d, Extends b ρ := by
  rw [allMatches_eq, List.nil_append]
  have h := results_spec g p hp d (fun _ => none) ∅
  refine ⟨fun b hb => ?_, fun ρ K hs => ?_⟩
  · obtain ⟨r, hr, rfl⟩ := List.mem_map.1 hb
    obtain ⟨_, K, _, hs⟩ := h.1 r hr
    exact ⟨K, hs⟩
  · obtain ⟨b', m, e⟩ := h.2 ρ K (fun _ _ h => by cases h) hs
    exact ⟨b', List.mem_map.2 ⟨_, m, rfl⟩, e⟩

/-- C53 fails for later calls of an `all_matcher`: the list of results is never emptied, so whatever an earlier call
found is returned again for every other node. -/
theorem C53_all_calls_counterexample (g : Graph N) (p : Pat N Name) (d d' : N) (b : Bind N Name)
    (hb : b ∈ allMatches g p [] d) :
    ∃ l l', allMatchesCalls g p [] [d, d'] = [l, l'] ∧ b ∈ l' ∧ l' = l ++ allMatches g p [] d' := by
  refine ⟨allMatches g p [] d, allMatches g p (allMatches g p [] d) d', rfl, ?_, ?_⟩
  · rw [allMatches_eq]; exact List.mem_append_left _ hb
  · rw [allMatches_eq g p (allMatches g p [] d) d', allMatches_eq g p [] d', List.nil_append]

/-- C53 fails for names inside negations: whenever a node has two different inputs `x`, `y`, the pattern "the first
input is not `a`, the second is `a`" never matches although the assignment `a = y` satisfies it, while the same
conditions in the other order do match. -/
theorem C53_negation_counterexample (g : Graph N) (v : Name) (d x y : N) (hxy : x ≠ y)
    (hd : g.inputs d = some [x, y]) :
    (∃ K, Sem g (fun w => if w = v then some y else none)
        (.internalIn .any [.not (.elem (some v) []), .elem (some v) []]) d K) ∧
      matcher g (.internalIn .any [.not (.elem (some v) []), .elem (some v) []]) d = none ∧
      ∃ b, matcher g (.internalIn .any [.elem (some v) [], .not (.elem (some v) [])]) d = some b ∧ b v = some x := by
  refine ⟨⟨{d} ∪ (∅ ∪ ({y} ∪ ∅)), ?_⟩, ?_, ?_⟩
  · simp only [Sem]
    refine ⟨{d}, _, [x, y], rfl, rfl, hd, ?_⟩
    simp only [SemList, Sem]
    refine ⟨∅, _, rfl, ⟨rfl, ?_⟩, {y}, ∅, rfl, ⟨rfl, by simp, ?_⟩, rfl⟩
    · rintro ⟨K', _, _, h⟩
      have := h v rfl
      simp at this
      exact hxy this.symm
    · intro w hw; cases hw; simp
  · rw [matcher_eq]
    simp [results, resultsList, hd]
  · rw [matcher_eq]
    refine ⟨Function.update (fun _ => none) v (some x), ?_, by simp⟩
    simp [results, resultsList, hd, hxy]

/-- A pattern with choice, names and a plain negation on a graph with three nodes. -/
example : ∃ b : Bind ℕ String, matcher (N := ℕ)
    ⟨fun n => if n = 0 then some [1, 2] else none, fun _ => some []⟩
    (.internalIn (.elem (some "out") []) [.choice [.eqv 5, .elem (some "a") [fun n => n == 1]],
      .not (.elem none [fun n => n == 1])]) 0 = some b ∧ b "a" = some 1 ∧ b "out" = some 0 := by
  rw [matcher_eq]
  simp [results, resultsList, resultsChoice, Function.update]

end Kfac.Match
