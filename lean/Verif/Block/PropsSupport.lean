import Verif.Block.Support
import Mathlib.Tactic.NormNum

/-! # C128: which products with the curvature matrix can be asked for -/

namespace Kfac.Block.Support

open Classical

variable {D F : Type}

/-! ## Specification -/

/-- The factors fit the block: one dense or diagonal factor for full and diagonal blocks, any input factor and an output
factor that is not of the SUA kind for Kronecker blocks, factors that keep the statistics of series for series blocks. -/
def Fits (cls : F → Cls) : Fb D F → Prop
  | .single f _ => cls f = .dense ∨ cls f = .diagonal
  | .kron _ _ o _ => cls o ≠ .sua
  | .series _ i _ o _ => cls i = .multi ∧ cls o = .multi

/-- The block can be multiplied by the matrix function: SUA blocks have the matrix and its inverse, series blocks the
inverse only, all other blocks everything. -/
def Supports (cls : F → Cls) : Fb D F → Request → Prop
  | .single _ _, _ => True
  | .kron i _ _ _, r => cls i = .sua → r = .matpower 1 ∨ r = .matpower (-1)
  | .series .., r => r = .matpower (-1)

/-- The estimator was made for the matrix function. -/
def Wanted.Asks (w : Wanted) : Request → Prop
  | .matpower exp => exp ∈ w.exps
  | .cholesky => w.chol = true
  | .choleskyInverse => w.cholInv = true

/-- All factors of the block are diagonal. -/
def AllDiagonal (cls : F → Cls) : Fb D F → Prop
  | .single f _ => cls f = .diagonal
  | .kron i _ o _ => cls i = .diagonal ∧ cls o = .diagonal
  | .series .. => False

/-! ## Lemmas -/

/-- The request a key stems from. -/
def Key.request : Key D → Request
  | .matpower e _ => .matpower e
  | .cholesky _ => .cholesky
  | .choleskyInverse _ => .choleskyInverse
  | .option1 _ => .matpower (-1)
  | .option2 _ => .matpower (-1)

/-- The keys a factor needs for a request. -/
def Cls.Needs (c : Cls) (id : D) (r : Request) (reg : Set (Key D)) : Prop :=
  c = .diagonal ∨ match r with
    | .matpower e => e = 1 ∨ Key.matpower e id ∈ reg
    | .cholesky => Key.cholesky id ∈ reg
    | .choleskyInverse => Key.choleskyInverse id ∈ reg

/-- The keys of the quantities of series blocks. -/
def SeriesOption.key (o : SeriesOption) (id : D) : Key D :=
  match o with
  | .option1 => .option1 id
  | .option2 => .option2 id

/-- One factor was registered more. -/
structure Factor.Le (r : Request) (f g : Factor D) : Prop where
  cls : g.cls = f.cls
  grows : f.registered ⊆ g.registered
  only : ∀ k ∈ g.registered, k ∈ f.registered ∨ k.request = r

theorem Factor.Le.refl (r : Request) (f : Factor D) : f.Le r f := ⟨rfl, fun _ h => h, fun _ h => .inl h⟩

theorem Factor.Le.trans {r : Request} {f g h : Factor D} (a : f.Le r g) (b : g.Le r h) : f.Le r h :=
  ⟨b.cls.trans a.cls, fun _ x => b.grows (a.grows x), fun k x => by
    rcases b.only k x with y | y
    · exact a.only k y
    · exact .inr y⟩

theorem Factor.add_le (f : Factor D) (k : Key D) : f.Le k.request (f.add k) :=
  ⟨rfl, fun _ h => Set.mem_insert_of_mem _ h, fun k' h => by
    rcases h with h | h
    · exact .inr (by rw [h])
    · exact .inl h⟩

theorem Factor.register_ok {f g : Factor D} {id : D} {r : Request} (h : f.register id r = .ok g) :
    f.Le r g ∧ f.cls.Needs id r g.registered := by
  cases r with
  | matpower e =>
    simp only [Factor.register] at h
    split at h
    · split at h
      · cases h; exact ⟨.refl _ _, .inr (.inl ‹_›)⟩
      · cases h; exact ⟨f.add_le (.matpower e id), .inr (.inr (Set.mem_insert _ _))⟩
    · split at h
      · cases h; exact ⟨.refl _ _, .inr (.inl ‹_›)⟩
      · cases h; exact ⟨f.add_le (.matpower e id), .inr (.inr (Set.mem_insert _ _))⟩
    · cases h; exact ⟨.refl _ _, .inl ‹_›⟩
    · split at h
      · cases h; exact ⟨.refl _ _, .inr (.inl ‹_›)⟩
      · split at h
        · cases h
        · cases h; exact ⟨f.add_le (.matpower e id), .inr (.inr (Set.mem_insert _ _))⟩
  | cholesky =>
    simp only [Factor.register] at h
    split at h
    · cases h; exact ⟨f.add_le (.cholesky id), .inr (Set.mem_insert _ _)⟩
    · cases h; exact ⟨f.add_le (.cholesky id), .inr (Set.mem_insert _ _)⟩
    · cases h; exact ⟨.refl _ _, .inl ‹_›⟩
    · cases h
  | choleskyInverse =>
    simp only [Factor.register] at h
    split at h
    · cases h; exact ⟨f.add_le (.choleskyInverse id), .inr (Set.mem_insert _ _)⟩
    · cases h; exact ⟨f.add_le (.choleskyInverse id), .inr (Set.mem_insert _ _)⟩
    · cases h; exact ⟨.refl _ _, .inl ‹_›⟩
    · cases h

theorem Factor.registerQuants_ok {f g : Factor D} {id : D} {o : SeriesOption} (h : f.registerQuants id o = .ok g) :
    f.Le (.matpower (-1)) g ∧ o.key id ∈ g.registered := by
  unfold Factor.registerQuants at h
  split at h
  · cases h; exact ⟨f.add_le (.option1 id), Set.mem_insert _ _⟩
  · cases h; exact ⟨f.add_le (.option2 id), Set.mem_insert _ _⟩
  · cases h

theorem Cls.Needs.mono {c : Cls} {id : D} {r : Request} {a b : Set (Key D)} (h : c.Needs id r a) (hab : a ⊆ b) :
    c.Needs id r b := by
  rcases h with h | h
  · exact .inl h
  · refine .inr ?_
    cases r with
    | matpower e => exact h.imp_right fun x => hab x
    | cholesky => exact hab h
    | choleskyInverse => exact hab h

/-- What a factor of the class can do. -/
def Cls.Can (c : Cls) (r : Request) : Prop := c = .sua → r = .matpower 1 ∨ r = .matpower (-1)

theorem Factor.lookup_ok_iff (f : Factor D) (k : Key D) : f.lookup k = .ok () ↔ k ∈ f.stored := by
  unfold Factor.lookup
  split <;> simp_all

theorem Factor.get_ok_iff (f : Factor D) (id : D) (r : Request) :
    f.instantiate.get id r = .ok () ↔ f.cls.Can r ∧ f.cls.Needs id r f.registered := by
  have hl : ∀ k, f.instantiate.lookup k = .ok () ↔ k ∈ f.registered := fun k => Factor.lookup_ok_iff _ _
  have hc : f.instantiate.cls = f.cls := rfl
  cases hcls : f.cls <;> cases r <;>
    simp only [Factor.get, hc, hcls, hl, Cls.Can, Cls.Needs, reduceCtorEq, false_or, or_false,
      false_imp_iff, true_and, true_or, and_true, forall_const, Request.matpower.injEq, false_and]
  all_goals
    repeat' split
    all_goals grind

theorem Factor.getQuants_ok_iff (f : Factor D) (id : D) (o : SeriesOption) (hc : f.cls = .multi) :
    f.instantiate.getQuants id o = .ok () ↔ o.key id ∈ f.registered := by
  have hi : f.instantiate.cls = .multi := hc
  cases o <;> simp only [Factor.getQuants, hi, Factor.lookup_ok_iff, SeriesOption.key] <;> rfl

/-- All factors were registered more. -/
def State.Le (r : Request) (s t : State D F) : Prop := ∀ f, (s f).Le r (t f)

theorem State.call_ok {s t : State D F} {f : F} {g : Factor D → Except String (Factor D)} (h : s.call f g = .ok t) :
    ∃ x, g (s f) = .ok x ∧ t f = x ∧ ∀ f', f' ≠ f → t f' = s f' := by
  unfold State.call at h
  cases hg : g (s f) with
  | error e => rw [hg] at h; cases h
  | ok x =>
    rw [hg] at h
    simp only [Except.map, Except.ok.injEq] at h
    subst h
    exact ⟨x, rfl, by simp, fun f' hf => by simp [hf]⟩

theorem State.call_le {s t : State D F} {f : F} {g : Factor D → Except String (Factor D)} {r : Request}
    (h : s.call f g = .ok t) (hg : ∀ x y, g x = .ok y → x.Le r y) : s.Le r t := by
  obtain ⟨x, hx, hf, ho⟩ := State.call_ok h
  intro f'
  by_cases hff : f' = f
  · subst hff; rw [hf]; exact hg _ _ hx
  · rw [ho f' hff]; exact .refl _ _

/-- The keys needed by a block are registered. -/
def Fb.Needs (s : State D F) : Fb D F → Request → Prop
  | .single f id, r => (s f).cls.Needs id r (s f).registered
  | .kron i idIn o idOut, r => (s i).cls.Needs idIn r (s i).registered ∧ (s o).cls.Needs idOut r (s o).registered
  | .series opt i idIn o idOut, .matpower _ => opt.key idIn ∈ (s i).registered ∧ opt.key idOut ∈ (s o).registered
  | .series .., _ => True

theorem Fb.Needs.mono {s t : State D F} {b : Fb D F} {r : Request} (h : b.Needs s r)
    (hst : ∀ f, (t f).cls = (s f).cls ∧ (s f).registered ⊆ (t f).registered) : b.Needs t r := by
  cases b with
  | single f id =>
    simp only [Fb.Needs] at h ⊢
    rw [(hst f).1]
    exact h.mono (hst f).2
  | kron i idIn o idOut => exact ⟨(hst i).1 ▸ h.1.mono (hst i).2, (hst o).1 ▸ h.2.mono (hst o).2⟩
  | series opt i idIn o idOut =>
    cases r with
    | matpower e => exact ⟨(hst i).2 h.1, (hst o).2 h.2⟩
    | cholesky => trivial
    | choleskyInverse => trivial

theorem two_calls {s t : State D F} {i o : F} {g g' : Factor D → Except String (Factor D)}
    (h : (s.call i g).bind (fun s => s.call o g') = .ok t) : ∃ u, s.call i g = .ok u ∧ u.call o g' = .ok t := by
  cases hu : s.call i g with
  | error e => rw [hu] at h; cases h
  | ok u => rw [hu] at h; exact ⟨u, rfl, h⟩

theorem Fb.register_ok {s t : State D F} {b : Fb D F} {r : Request} (h : b.register s r = .ok t) :
    s.Le r t ∧ b.Needs t r := by
  have single : ∀ {s t : State D F} {f : F} {id : D}, s.call f (·.register id r) = .ok t →
      s.Le r t ∧ (t f).cls.Needs id r (t f).registered := by
    intro s t f id h
    obtain ⟨x, hx, hf, -⟩ := State.call_ok h
    have := Factor.register_ok hx
    refine ⟨State.call_le h fun _ _ hxy => (Factor.register_ok hxy).1, ?_⟩
    rw [hf, this.1.cls]
    exact this.2
  have two : ∀ {i o : F} {idIn idOut : D},
      (s.call i (·.register idIn r)).bind (fun s => s.call o (·.register idOut r)) = .ok t →
      s.Le r t ∧ ((t i).cls.Needs idIn r (t i).registered ∧ (t o).cls.Needs idOut r (t o).registered) := by
    intro i o idIn idOut h
    obtain ⟨u, h1, h2⟩ := two_calls h
    obtain ⟨a, ha⟩ := single h1
    obtain ⟨c, hc⟩ := single h2
    exact ⟨fun f => (a f).trans (c f), by rw [(c i).cls]; exact ha.mono (c i).grows, hc⟩
  cases b with
  | single f id => exact single h
  | kron i idIn o idOut => exact two h
  | series opt i idIn o idOut =>
    cases r with
    | matpower e =>
      simp only [Fb.register] at h
      split at h
      · cases h
      · rename_i he
        obtain rfl : e = -1 := by simpa using he
        obtain ⟨u, h1, h2⟩ := two_calls h
        obtain ⟨x, hx, hi, -⟩ := State.call_ok h1
        obtain ⟨y, hy, ho, -⟩ := State.call_ok h2
        have l1 : s.Le (.matpower (-1)) u := State.call_le h1 fun _ _ hxy => (Factor.registerQuants_ok hxy).1
        have l2 : u.Le (.matpower (-1)) t := State.call_le h2 fun _ _ hxy => (Factor.registerQuants_ok hxy).1
        refine ⟨fun f => (l1 f).trans (l2 f), (l2 i).grows ?_, ?_⟩
        · rw [hi]; exact (Factor.registerQuants_ok hx).2
        · rw [ho]; exact (Factor.registerQuants_ok hy).2
    | cholesky => exact ⟨(two h).1, trivial⟩
    | choleskyInverse => exact ⟨(two h).1, trivial⟩

theorem bind_unit_ok {a b : Except String Unit} : (a.bind fun _ => b) = .ok () ↔ a = .ok () ∧ b = .ok () := by
  cases a with
  | error e => simp [Except.bind]
  | ok u => simp [Except.bind]

/-- When a multiplication with a block succeeds. -/
theorem Fb.multiply_ok_iff {s : State D F} {cls : F → Cls} (hs : ∀ f, (s f).cls = cls f) {b : Fb D F}
    (hb : Fits cls b) (r : Request) :
    b.multiply (fun f => (s f).instantiate) r = .ok () ↔ Supports cls b r ∧ b.Needs s r := by
  cases b with
  | single f id =>
    have : (s f).cls.Can r := by
      intro h; rw [hs] at h
      rcases hb with hb | hb <;> rw [hb] at h <;> cases h
    simp only [Fb.multiply, Factor.get_ok_iff, Supports, Fb.Needs, this]
  | kron i idIn o idOut =>
    have : (s o).cls.Can r := by
      intro h; rw [hs] at h; exact absurd h hb
    have h2 : (s i).cls.Can r ↔ Supports cls (.kron i idIn o idOut : Fb D F) r := by
      simp only [Cls.Can, Supports, hs]
    change ((s i).instantiate.get idIn r).bind (fun _ => (s o).instantiate.get idOut r) = .ok () ↔ _
    rw [bind_unit_ok, Factor.get_ok_iff, Factor.get_ok_iff, ← h2]
    simp only [Fb.Needs]
    tauto
  | series opt i idIn o idOut =>
    cases r with
    | matpower e =>
      simp only [Fb.multiply, Supports, Fb.Needs, Request.matpower.injEq]
      by_cases he : e = -1
      · rw [if_neg (by simpa using he)]
        change ((s i).instantiate.getQuants idIn opt).bind (fun _ => (s o).instantiate.getQuants idOut opt) = .ok () ↔ _
        rw [bind_unit_ok, Factor.getQuants_ok_iff _ _ _ ((hs i).trans hb.1),
          Factor.getQuants_ok_iff _ _ _ ((hs o).trans hb.2)]
        simp [he]
      · rw [if_pos he]; simp [he]
    | cholesky => simp [Fb.multiply, Supports]
    | choleskyInverse => simp [Fb.multiply, Supports]

/-- Registrations of one or several kinds. -/
def State.LeAll (w : Wanted) (s t : State D F) : Prop :=
  ∀ f, (t f).cls = (s f).cls ∧ (s f).registered ⊆ (t f).registered ∧
    ∀ k ∈ (t f).registered, k ∈ (s f).registered ∨ w.Asks k.request

theorem State.LeAll.refl (w : Wanted) (s : State D F) : s.LeAll w s :=
  fun _ => ⟨rfl, fun _ h => h, fun _ h => .inl h⟩

theorem State.LeAll.trans {w : Wanted} {s t u : State D F} (a : s.LeAll w t) (b : t.LeAll w u) : s.LeAll w u :=
  fun f => ⟨(b f).1.trans (a f).1, fun _ x => (b f).2.1 ((a f).2.1 x), fun k x => by
    rcases (b f).2.2 k x with y | y
    · exact (a f).2.2 k y
    · exact .inr y⟩

theorem State.Le.all {w : Wanted} {r : Request} (hr : w.Asks r) {s t : State D F} (h : s.Le r t) : s.LeAll w t :=
  fun f => ⟨(h f).cls, (h f).grows, fun k x => ((h f).only k x).imp_right fun y => by rw [y]; exact hr⟩

theorem foldlM_ok {α σ : Type} {step : σ → α → Except String σ} {R : σ → σ → Prop} (hrefl : ∀ s, R s s)
    (htrans : ∀ s t u, R s t → R t u → R s u) {l : List α} (hstep : ∀ a ∈ l, ∀ s t, step s a = .ok t → R s t) {s t : σ}
    (h : l.foldlM step s = .ok t) : R s t ∧ ∀ a ∈ l, ∃ u v, step u a = .ok v ∧ R v t := by
  induction l generalizing s with
  | nil => cases h; exact ⟨hrefl _, by simp⟩
  | cons a l ih =>
    rw [List.foldlM_cons] at h
    cases hu : step s a with
    | error e => rw [hu] at h; cases h
    | ok u =>
      rw [hu] at h
      obtain ⟨h1, h2⟩ := ih (fun b hb => hstep b (List.mem_cons_of_mem _ hb)) h
      refine ⟨htrans _ _ _ (hstep a (List.mem_cons_self ..) _ _ hu) h1, fun b hb => ?_⟩
      rcases List.mem_cons.1 hb with rfl | hb
      · exact ⟨s, u, hu, h1⟩
      · exact h2 b hb

theorem bind_ok {σ τ : Type} {a : Except String σ} {k : σ → Except String τ} {t : τ} (h : a.bind k = .ok t) :
    ∃ s, a = .ok s ∧ k s = .ok t := by
  cases a with
  | error e => cases h
  | ok s => exact ⟨s, rfl, h⟩

theorem registerBlock_ok {w : Wanted} {s t : State D F} {b : Fb D F} (h : registerBlock w s b = .ok t) :
    s.LeAll w t ∧ ∀ r, w.Asks r → b.Needs t r := by
  obtain ⟨s1, h1, h⟩ := bind_ok (show (w.exps.foldlM (fun s exp => b.register s (.matpower exp)) s).bind _ = .ok t from h)
  obtain ⟨s2, h2, h3⟩ := bind_ok (show (b.registerIf w.chol s1 .cholesky).bind _ = .ok t from h)
  obtain ⟨a1, n1⟩ := foldlM_ok (R := State.LeAll w) (.refl w) (fun _ _ _ => .trans)
    (fun e he s t hst => (Fb.register_ok hst).1.all (r := .matpower e) he) h1
  have a2 : s1.LeAll w s2 ∧ (w.chol = true → b.Needs s2 .cholesky) := by
    unfold Fb.registerIf at h2
    split at h2
    · rename_i hc
      exact ⟨(Fb.register_ok h2).1.all (r := .cholesky) hc, fun _ => (Fb.register_ok h2).2⟩
    · rename_i hc
      cases h2; exact ⟨.refl _ _, fun h => absurd h hc⟩
  have a3 : s2.LeAll w t ∧ (w.cholInv = true → b.Needs t .choleskyInverse) := by
    unfold Fb.registerIf at h3
    split at h3
    · rename_i hc
      exact ⟨(Fb.register_ok h3).1.all (r := .choleskyInverse) hc, fun _ => (Fb.register_ok h3).2⟩
    · rename_i hc
      cases h3; exact ⟨.refl _ _, fun h => absurd h hc⟩
  have a23 := a2.1.trans a3.1
  refine ⟨a1.trans a23, fun r hr => ?_⟩
  cases r with
  | matpower e =>
    obtain ⟨u, v, huv, hvt⟩ := n1 e hr
    exact (Fb.register_ok huv).2.mono fun f => ⟨((hvt.trans a23) f).1, ((hvt.trans a23) f).2.1⟩
  | cholesky => exact (a2.2 hr).mono fun f => ⟨(a3.1 f).1, (a3.1 f).2.1⟩
  | choleskyInverse => exact a3.2 hr

theorem create_ok {w : Wanted} {cls : F → Cls} {blocks : List (Fb D F)} {t : State D F}
    (h : create w cls blocks = .ok t) : ∃ s : State D F, t = (fun f => (s f).instantiate) ∧ (∀ f, (s f).cls = cls f) ∧
      (∀ f, ∀ k ∈ (s f).registered, w.Asks k.request) ∧ ∀ b ∈ blocks, ∀ r, w.Asks r → b.Needs s r := by
  unfold create at h
  cases hs : blocks.foldlM (registerBlock w) (fun f => ({ cls := cls f } : Factor D)) with
  | error e => rw [hs] at h; cases h
  | ok s =>
    rw [hs] at h
    simp only [Except.map, Except.ok.injEq] at h
    obtain ⟨a, n⟩ := foldlM_ok (R := State.LeAll w) (.refl w) (fun _ _ _ => .trans)
      (fun b _ s t hst => (registerBlock_ok hst).1) hs
    refine ⟨s, h.symm, fun f => (a f).1, fun f k hk => ?_, fun b hb r hr => ?_⟩
    · rcases (a f).2.2 k hk with x | x
      · simp at x
      · exact x
    · obtain ⟨u, v, huv, hvt⟩ := n b hb
      exact ((registerBlock_ok huv).2 r hr).mono fun f => ⟨(hvt f).1, (hvt f).2.1⟩

/-! ## Properties -/

/-- C128: whatever the estimator was made for can be asked of every block that supports it, also when factors are shared. -/
theorem C128_served {w : Wanted} {cls : F → Cls} {blocks : List (Fb D F)} {t : State D F}
    (h : create w cls blocks = .ok t) {b : Fb D F} (hb : b ∈ blocks) (hf : Fits cls b) {r : Request} (hr : w.Asks r)
    (hsup : Supports cls b r) : b.multiply t r = .ok () := by
  obtain ⟨s, rfl, hc, -, hn⟩ := create_ok h
  exact (Fb.multiply_ok_iff hc hf r).2 ⟨hsup, hn b hb r hr⟩

/-- C128: products with the matrix itself, and with any function of a block of diagonal factors, need not be asked for in
advance. -/
theorem C128_on_demand {w : Wanted} {cls : F → Cls} {blocks : List (Fb D F)} {t : State D F}
    (h : create w cls blocks = .ok t) {b : Fb D F} (hf : Fits cls b) {r : Request} (hsup : Supports cls b r)
    (hr : r = .matpower 1 ∨ AllDiagonal cls b) : b.multiply t r = .ok () := by
  obtain ⟨s, rfl, hc, -, -⟩ := create_ok h
  refine (Fb.multiply_ok_iff hc hf r).2 ⟨hsup, ?_⟩
  cases b with
  | single f id =>
    rcases hr with rfl | hr
    · exact .inr (.inl rfl)
    · exact .inl ((hc f).trans hr)
  | kron i idIn o idOut =>
    rcases hr with rfl | hr
    · exact ⟨.inr (.inl rfl), .inr (.inl rfl)⟩
    · exact ⟨.inl ((hc i).trans hr.1), .inl ((hc o).trans hr.2)⟩
  | series opt i idIn o idOut =>
    rcases hr with rfl | hr
    · simp only [Supports, Request.matpower.injEq] at hsup; norm_num at hsup
    · exact hr.elim

/-- C128: everything else is refused, by an exception and not by a wrong result: functions that the block does not
support, and functions the estimator was not made for. -/
theorem C128_refused {w : Wanted} {cls : F → Cls} {blocks : List (Fb D F)} {t : State D F}
    (h : create w cls blocks = .ok t) {b : Fb D F} (hf : Fits cls b) {r : Request}
    (hr : ¬ Supports cls b r ∨ (¬ w.Asks r ∧ r ≠ .matpower 1 ∧ ¬ AllDiagonal cls b)) : ∃ e, b.multiply t r = .error e := by
  obtain ⟨s, rfl, hc, ho, -⟩ := create_ok h
  suffices hne : b.multiply (fun f => (s f).instantiate) r ≠ .ok () by
    cases hm : b.multiply (fun f => (s f).instantiate) r with
    | error e => exact ⟨e, rfl⟩
    | ok u => exact absurd hm hne
  rw [Ne, Fb.multiply_ok_iff hc hf]
  rintro ⟨h1, h2⟩
  rcases hr with hr | ⟨hr, h3, h4⟩
  · exact hr h1
  · have key : ∀ (f : F) (id : D), (s f).cls.Needs id r (s f).registered → cls f = .diagonal := by
      intro f id hn
      rcases hn with hn | hn
      · exact (hc f).symm.trans hn
      · exfalso
        cases r with
        | matpower e =>
          rcases hn with rfl | hn
          · exact h3 rfl
          · exact hr (ho f _ hn)
        | cholesky => exact hr (ho f _ hn)
        | choleskyInverse => exact hr (ho f _ hn)
    cases b with
    | single f id => exact h4 (key f id h2)
    | kron i idIn o idOut => exact h4 ⟨key i _ h2.1, key o _ h2.2⟩
    | series opt i idIn o idOut =>
      subst h1
      have := ho i _ h2.1
      cases opt <;> exact hr this

/-- C128: an estimator made for functions that all its blocks support can be created. -/
theorem C128_created (w : Wanted) (cls : F → Cls) (blocks : List (Fb D F)) (hf : ∀ b ∈ blocks, Fits cls b)
    (hs : ∀ b ∈ blocks, ∀ r, w.Asks r → Supports cls b r) : ∃ t, create w cls blocks = .ok t := by
  have factor : ∀ (f : Factor D) (id : D) (r : Request), f.cls.Can r → ∃ g, f.register id r = .ok g := by
    intro f id r hcan
    cases r <;> simp only [Factor.register]
    · split
      · split <;> exact ⟨_, rfl⟩
      · split <;> exact ⟨_, rfl⟩
      · exact ⟨_, rfl⟩
      · rename_i e hc
        have := hcan hc
        simp only [Request.matpower.injEq] at this
        rcases this with rfl | rfl
        · exact ⟨_, if_pos rfl⟩
        · exact ⟨f.add (.matpower (-1) id), by norm_num⟩
    all_goals
      split
      · exact ⟨_, rfl⟩
      · exact ⟨_, rfl⟩
      · exact ⟨_, rfl⟩
      · rename_i hc
        have := hcan hc
        simp at this
  have call : ∀ (s : State D F) (f : F) (g : Factor D → Except String (Factor D)), (∃ x, g (s f) = .ok x) →
      ∃ t, s.call f g = .ok t := by
    intro s f g ⟨x, hx⟩
    exact ⟨Function.update s f x, by simp [State.call, hx, Except.map]⟩
  have reg : ∀ (s : State D F) (b : Fb D F) (r : Request), (∀ f, (s f).cls = cls f) → Fits cls b → Supports cls b r →
      ∃ t, b.register s r = .ok t := by
    intro s b r hc hf hsup
    cases b with
    | single f id =>
      refine call s f (·.register id r) (factor _ _ _ fun h => ?_)
      rw [hc] at h
      rcases hf with hf | hf <;> rw [hf] at h <;> cases h
    | kron i idIn o idOut =>
      obtain ⟨u, hu⟩ := call s i (·.register idIn r) (factor _ _ _ fun h => hsup ((hc i).symm.trans h))
      have hu' : (u o).cls = cls o := by
        rw [((State.call_le hu fun _ _ h => (Factor.register_ok h).1) o).cls, hc]
      obtain ⟨t, ht⟩ := call u o (·.register idOut r) (factor _ _ _ fun h => absurd (hu'.symm.trans h) hf)
      refine ⟨t, ?_⟩
      change (s.call i (·.register idIn r)).bind (fun s => s.call o (·.register idOut r)) = _
      rw [hu]; exact ht
    | series opt i idIn o idOut =>
      simp only [Supports] at hsup
      subst hsup
      have quants : ∀ f : Factor D, f.cls = .multi → ∀ id, ∃ g, f.registerQuants id opt = .ok g := by
        intro f hm id
        cases opt
        · exact ⟨f.add (.option1 id), by simp [Factor.registerQuants, hm]⟩
        · exact ⟨f.add (.option2 id), by simp [Factor.registerQuants, hm]⟩
      obtain ⟨u, hu⟩ := call s i (·.registerQuants idIn opt) (quants _ ((hc i).trans hf.1) _)
      have hu' : (u o).cls = cls o := by
        rw [((State.call_le hu fun _ _ h => (Factor.registerQuants_ok h).1) o).cls, hc]
      obtain ⟨t, ht⟩ := call u o (·.registerQuants idOut opt) (quants _ (hu'.trans hf.2) _)
      refine ⟨t, ?_⟩
      simp only [Fb.register, ne_eq, not_true, if_false]
      change (s.call i (·.registerQuants idIn opt)).bind (fun s => s.call o (·.registerQuants idOut opt)) = _
      rw [hu]; exact ht
  have fold : ∀ {α : Type} (step : State D F → α → Except String (State D F)) (l : List α),
      (∀ a ∈ l, ∀ s, (∀ f, (s f).cls = cls f) → ∃ t, step s a = .ok t ∧ ∀ f, (t f).cls = cls f) →
      ∀ s : State D F, (∀ f, (s f).cls = cls f) → ∃ t, l.foldlM step s = .ok t ∧ ∀ f, (t f).cls = cls f := by
    intro α step l
    induction l with
    | nil => intro _ s hc; exact ⟨s, rfl, hc⟩
    | cons a l ih =>
      intro hstep s hc
      obtain ⟨u, hu, hcu⟩ := hstep a (List.mem_cons_self ..) s hc
      obtain ⟨t, ht, hct⟩ := ih (fun b hb => hstep b (List.mem_cons_of_mem _ hb)) u hcu
      refine ⟨t, ?_, hct⟩
      rw [List.foldlM_cons, hu]; exact ht
  have one : ∀ b ∈ blocks, ∀ s : State D F, (∀ f, (s f).cls = cls f) → ∀ r, w.Asks r →
      ∃ t, b.register s r = .ok t ∧ ∀ f, (t f).cls = cls f := by
    intro b hb s hc r hr
    obtain ⟨t, ht⟩ := reg s b r hc (hf b hb) (hs b hb r hr)
    exact ⟨t, ht, fun f => ((Fb.register_ok ht).1 f).cls.trans (hc f)⟩
  have block : ∀ b ∈ blocks, ∀ s : State D F, (∀ f, (s f).cls = cls f) →
      ∃ t, registerBlock w s b = .ok t ∧ ∀ f, (t f).cls = cls f := by
    intro b hb s hc
    obtain ⟨s1, h1, c1⟩ := fold (fun s exp => b.register s (.matpower exp)) w.exps
      (fun e he s hc => one b hb s hc (.matpower e) he) s hc
    have : ∃ s2, b.registerIf w.chol s1 .cholesky = .ok s2 ∧ ∀ f, (s2 f).cls = cls f := by
      unfold Fb.registerIf
      split
      · rename_i h; exact one b hb s1 c1 .cholesky h
      · exact ⟨s1, rfl, c1⟩
    obtain ⟨s2, h2, c2⟩ := this
    have : ∃ s3, b.registerIf w.cholInv s2 .choleskyInverse = .ok s3 ∧ ∀ f, (s3 f).cls = cls f := by
      unfold Fb.registerIf
      split
      · rename_i h; exact one b hb s2 c2 .choleskyInverse h
      · exact ⟨s2, rfl, c2⟩
    obtain ⟨s3, h3, c3⟩ := this
    refine ⟨s3, ?_, c3⟩
    change (w.exps.foldlM (fun s exp => b.register s (.matpower exp)) s).bind (fun s =>
      (b.registerIf w.chol s .cholesky).bind fun s => b.registerIf w.cholInv s .choleskyInverse) = _
    rw [h1]
    change (b.registerIf w.chol s1 .cholesky).bind (fun s => b.registerIf w.cholInv s .choleskyInverse) = _
    rw [h2]
    exact h3
  obtain ⟨t, ht, -⟩ := fold (registerBlock w) blocks block (fun f => { cls := cls f }) fun _ => rfl
  exact ⟨fun f => (t f).instantiate, by simp [create, ht, Except.map]⟩

/-- C128 for the optimizer: whatever the blocks, the estimator can be created and multiplies by the inverse. The matrix
itself, which the optimizer needs to adapt the damping with regular momentum, can be multiplied unless the block is one
for series. -/
theorem C128_optimizer_partial (cls : F → Cls) (blocks : List (Fb D F)) (hf : ∀ b ∈ blocks, Fits cls b) :
    ∃ t, create optimizerWants cls blocks = .ok t ∧ ∀ b ∈ blocks, b.multiply t (.matpower (-1)) = .ok () ∧
      ((∀ opt i idIn o idOut, b ≠ .series opt i idIn o idOut) → b.multiply t (.matpower 1) = .ok ()) := by
  have hsup : ∀ b : Fb D F, Supports cls b (.matpower (-1)) := by
    intro b
    cases b with
    | single f id => trivial
    | kron i idIn o idOut => exact fun _ => .inr rfl
    | series => rfl
  have hasks : ∀ r, optimizerWants.Asks r → r = .matpower (-1) := by
    intro r hr
    cases r <;> simp_all [Wanted.Asks, optimizerWants]
  obtain ⟨t, ht⟩ := C128_created optimizerWants cls blocks hf fun b _ r hr => hasks r hr ▸ hsup b
  refine ⟨t, ht, fun b hb => ⟨C128_served ht hb (hf b hb) (by simp [Wanted.Asks, optimizerWants]) (hsup b), fun hn => ?_⟩⟩
  refine C128_on_demand ht (hf b hb) ?_ (.inl rfl)
  cases b with
  | single f id => trivial
  | kron i idIn o idOut => exact fun _ => .inl rfl
  | series opt i idIn o idOut => exact absurd rfl (hn _ _ _ _ _)

/-- C128 fails for the optimizer with series blocks: `_compute_approx_qmodel_change` (optimizer.py 1106-1130) multiplies by
the matrix, which raises NotImplementedError with any such block. -/
theorem C128_qmodel_counterexample (t : State D F) (opt : SeriesOption) (i o : F) (idIn idOut : D) :
    (Fb.series opt i idIn o idOut).multiply t (.matpower 1) = .error "NotImplementedError" := by
  simp only [Fb.multiply]
  rw [if_pos (by norm_num)]

/-- C128 on exceptions: powers that series blocks lack and Cholesky factors of SUA blocks are refused with
NotImplementedError when they are multiplied by. Missing: all other cases, see the counterexamples. -/
theorem C128_exception_partial (t : State D F) :
    (∀ (opt : SeriesOption) (i o : F) (idIn idOut : D) (exp : ℝ), exp ≠ -1 →
      (Fb.series opt i idIn o idOut).multiply t (.matpower exp) = .error "NotImplementedError" ∧
      (Fb.series opt i idIn o idOut).register t (.matpower exp) = .error "NotImplementedError") ∧
    (∀ (i o : F) (idIn idOut : D), (t i).cls = .sua → ∀ r ∈ [Request.cholesky, .choleskyInverse],
      (Fb.kron i idIn o idOut).multiply t r = .error "NotImplementedError") := by
  refine ⟨fun opt i o idIn idOut exp he => ⟨if_pos he, if_pos he⟩, fun i o idIn idOut hi r hr => ?_⟩
  have : (t i).get idIn r = .error "NotImplementedError" := by
    simp only [List.mem_cons, List.not_mem_nil, or_false] at hr
    rcases hr with rfl | rfl <;> simp [Factor.get, hi]
  change ((t i).get idIn r).bind (fun _ => (t o).get idOut r) = _
  rw [this]; rfl

/-- C128 fails for Cholesky factors of series blocks: their registration is accepted and the variables are made, but the
multiplication raises TypeError, not NotImplementedError. -/
theorem C128_series_counterexample (cls : F → Cls) (opt : SeriesOption) (i o : F) (idIn idOut : D)
    (hf : Fits cls (.series opt i idIn o idOut)) : ∃ t, create ⟨[], true, true⟩ cls [.series opt i idIn o idOut] = .ok t ∧
      Key.cholesky idIn ∈ (t i).stored ∧ Key.choleskyInverse idOut ∈ (t o).stored ∧
      (Fb.series opt i idIn o idOut).multiply t .cholesky = .error "TypeError" ∧
      (Fb.series opt i idIn o idOut).multiply t .choleskyInverse = .error "TypeError" := by
  have h : ∀ r, Supports cls (Fb.kron i idIn o idOut) r := fun r h => by rw [hf.1] at h; cases h
  have hk : Fits cls (Fb.kron i idIn o idOut) := by intro h; rw [hf.2] at h; cases h
  obtain ⟨t, ht⟩ := C128_created ⟨[], true, true⟩ cls [Fb.kron i idIn o idOut] (by simpa using hk)
    (by simpa using fun r _ => h r)
  obtain ⟨s, rfl, hc, -, hn⟩ := create_ok ht
  have n1 := hn _ (List.mem_singleton.2 rfl) .cholesky rfl
  have n2 := hn _ (List.mem_singleton.2 rfl) .choleskyInverse rfl
  refine ⟨_, ht, ?_, ?_, rfl, rfl⟩
  · rcases n1.1 with h | h
    · rw [hc, hf.1] at h; cases h
    · exact h
  · rcases n2.2 with h | h
    · rw [hc, hf.2] at h; cases h
    · exact h

/-- C128 fails for SUA blocks: an estimator made for Cholesky factors raises TypeError, one made for another power than
the inverse ValueError, not NotImplementedError. -/
theorem C128_sua_counterexample (cls : F → Cls) (i o : F) (idIn idOut : D) (hi : cls i = .sua) :
    create ⟨[], true, false⟩ cls [.kron i idIn o idOut] = .error "TypeError" ∧
    create ⟨[], false, true⟩ cls [.kron i idIn o idOut] = .error "TypeError" ∧
    ∀ exp, exp ≠ 1 → exp ≠ -1 → create ⟨[exp], false, false⟩ cls [.kron i idIn o idOut] = .error "ValueError" := by
  refine ⟨?_, ?_, fun exp h1 h2 => ?_⟩
  · simp [create, registerBlock, Fb.registerIf, Fb.register, State.call, Factor.register, hi, Except.map, bind, Except.bind,
      pure, Except.pure, List.foldlM]
  · simp [create, registerBlock, Fb.registerIf, Fb.register, State.call, Factor.register, hi, Except.map, bind, Except.bind,
      pure, Except.pure, List.foldlM]
  · simp [create, registerBlock, Fb.register, State.call, Factor.register, hi, Except.map, bind, Except.bind, List.foldlM,
      h1, h2]

/-- A network with a shared dense output factor, an SUA convolution, a block for a series and a diagonal block. -/
def exampleCls : Fin 5 → Cls
  | 0 => .dense
  | 1 => .dense
  | 2 => .sua
  | 3 => .multi
  | 4 => .diagonal

/-- Its blocks. -/
def exampleBlocks : List (Fb ℕ (Fin 5)) :=
  [.kron 0 0 1 1, .kron 2 2 1 3, .series .option1 3 4 3 5, .single 4 6]

theorem exampleBlocks_fit : ∀ b ∈ exampleBlocks, Fits exampleCls b := by
  intro b hb
  simp only [exampleBlocks, List.mem_cons, List.not_mem_nil, or_false] at hb
  rcases hb with rfl | rfl | rfl | rfl <;> simp [Fits, exampleCls]

/-- The optimizer works with it, but cannot multiply the series block by the matrix. -/
example : ∃ t, create optimizerWants exampleCls exampleBlocks = .ok t ∧
    (∀ b ∈ exampleBlocks, b.multiply t (.matpower (-1)) = .ok ()) ∧
    (Fb.kron 2 2 1 3 : Fb ℕ (Fin 5)).multiply t (.matpower 1) = .ok () ∧
    (∃ e, (Fb.kron 0 0 1 1 : Fb ℕ (Fin 5)).multiply t .cholesky = .error e) ∧
    (Fb.single 4 6 : Fb ℕ (Fin 5)).multiply t .cholesky = .ok () := by
  obtain ⟨t, ht, h⟩ := C128_optimizer_partial exampleCls exampleBlocks exampleBlocks_fit
  refine ⟨t, ht, fun b hb => (h b hb).1, (h _ (by simp [exampleBlocks])).2 (by simp), ?_, ?_⟩
  · exact C128_refused ht (exampleBlocks_fit _ (by simp [exampleBlocks]))
      (.inr ⟨by simp [Wanted.Asks, optimizerWants], by simp, by simp [AllDiagonal, exampleCls]⟩)
  · exact C128_on_demand ht (exampleBlocks_fit _ (by simp [exampleBlocks])) trivial (.inr rfl)

/-- Factors of the series block in the example of `C128_series_counterexample`. -/
example : Fits exampleCls (.series .option2 3 0 3 1 : Fb ℕ (Fin 5)) := ⟨rfl, rfl⟩

end Kfac.Block.Support
