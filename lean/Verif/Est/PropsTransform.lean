import Verif.Est.Transform
import Verif.Exec.Props

/-!
# C80 — the estimator's multiplications act block by block
-/

namespace Kfac.Est
open Kfac.Exec

/-! ### Specification -/

/-- A block: the variable or variables it was registered for and the function it applies to their vectors. -/
inductive BlockOp (K V : Type) where
  | single (k : K) (f : V → V)
  | many (ks : List K) (f : List V → List V)

variable {D K V : Type} [DecidableEq K]

def BlockOp.vars : BlockOp K V → List K
  | .single k _ => [k]
  | .many ks _ => ks

def BlockOp.key : BlockOp K V → Key K
  | .single k _ => .atom k
  | .many ks _ => .seq (ks.map .atom)

/-- The function keeps the number of vectors. -/
def BlockOp.Keeps : BlockOp K V → Prop
  | .single _ _ => True
  | .many ks f => ∀ vs, vs.length = ks.length → (f vs).length = vs.length

/-- What the code of the block does with its argument: one vector for one variable, a sequence for a tuple. -/
def BlockOp.run : BlockOp K V → Val V → Except String (Val V)
  | .single _ f, .leaf v => .ok (.leaf (f v))
  | .many _ f, .seq vs => do
    let xs ← vs.mapM fun
      | .leaf v => Except.ok v
      | .seq _ => .error "TypeError"
    return .seq ((f xs).map .leaf)
  | _, _ => .error "TypeError"

/-- The transformed vector of variable `k` of a block when variable `k'` has the vector `x k'`. -/
def BlockOp.at (b : BlockOp K V) (x : K → V) (k : K) : Option V :=
  match b with
  | .single _ f => some (f (x k))
  | .many ks f => (f (ks.map x))[ks.idxOf k]?

/-- The whole transformation: block by block. -/
def blockwise (blocks : List (BlockOp K V)) (x : K → V) (k : K) : Option V :=
  (blocks.find? fun b => k ∈ b.vars).bind fun b => b.at x k

/-! ### Lemmas -/

/-- The argument the block is given. -/
def BlockOp.input (b : BlockOp K V) (x : K → V) : Val V :=
  match b with
  | .single k _ => .leaf (x k)
  | .many ks _ => .seq (ks.map fun k => .leaf (x k))

/-- What it returns. -/
def BlockOp.output (b : BlockOp K V) (x : K → V) : Val V :=
  match b with
  | .single k f => .leaf (f (x k))
  | .many ks f => .seq ((f (ks.map x)).map .leaf)

theorem mapM_leaf (vs : List V) : ((vs.map Val.leaf).mapM fun
      | .leaf v => Except.ok v
      | .seq _ => .error "TypeError" : Except String (List V)) = .ok vs := by
  induction vs with
  | nil => rfl
  | cons v vs ih => rw [List.map_cons, List.mapM_cons, ih]; rfl

theorem run_input (b : BlockOp K V) (x : K → V) : b.run (b.input x) = .ok (b.output x) := by
  cases b with
  | single k f => rfl
  | many ks f =>
    have h := mapM_leaf (ks.map x)
    rw [List.map_map] at h
    simp only [BlockOp.input, BlockOp.run, BlockOp.output]
    rw [show (ks.map fun k => Val.leaf (x k)) = ks.map (Val.leaf ∘ x) from rfl, h]
    rfl

theorem getItems_atoms (d : Dict K V) (ks : List K) (g : K → Val V) (h : ∀ k ∈ ks, d k = some (g k)) :
    getItems d (ks.map .atom) = .ok (ks.map g) := by
  induction ks with
  | nil => rfl
  | cons k ks ih =>
    simp only [List.map_cons, getItems, getItem, h k (by simp)]
    rw [ih fun k' hk' => h k' (by simp [hk'])]

theorem getItem_key (d : Dict K V) (b : BlockOp K V) (x : K → V) (h : ∀ k ∈ b.vars, d k = some (.leaf (x k))) :
    getItem d b.key = .ok (b.input x) := by
  cases b with
  | single k f => simp [BlockOp.key, getItem, h k (by simp [BlockOp.vars]), BlockOp.input]
  | many ks f =>
    simp only [BlockOp.key, getItem, getItems_atoms d ks (fun k => .leaf (x k)) h, BlockOp.input]

theorem vecsDict_spec (pairs : List (V × K)) (hn : (pairs.map (·.2)).Nodup) (p : V × K) (hp : p ∈ pairs) :
    vecsDict pairs p.2 = some (.leaf p.1) := by
  unfold vecsDict
  have hn' : (pairs.reverse.map (·.2)).Nodup := by rw [List.map_reverse]; exact List.nodup_reverse.2 hn
  have hp' : p ∈ pairs.reverse := List.mem_reverse.2 hp
  generalize pairs.reverse = l at hn' hp'
  induction l with
  | nil => simp at hp'
  | cons q l ih =>
    rw [List.map_cons, List.nodup_cons] at hn'
    rcases List.mem_cons.1 hp' with rfl | hp'
    · simp
    · rw [List.find?_cons_of_neg]
      · exact ih hn'.2 hp'
      · simp only [decide_eq_true_eq]
        intro h
        exact hn'.1 (h ▸ List.mem_map_of_mem hp')

theorem vecsDict_none (pairs : List (V × K)) (k : K) (hk : k ∉ pairs.map (·.2)) : vecsDict pairs k = none := by
  unfold vecsDict
  rw [Option.map_eq_none_iff, List.find?_eq_none]
  intro p hp
  simp only [decide_eq_true_eq]
  rintro rfl
  exact hk (List.mem_map_of_mem (List.mem_reverse.1 hp))

theorem mapM_ok' {α β : Type} (f : α → Except String β) (g : α → β) (l : List α) (h : ∀ x ∈ l, f x = .ok (g x)) :
    l.mapM f = .ok (l.map g) := by
  induction l with
  | nil => rfl
  | cons x l ih => rw [List.mapM_cons, h x (by simp), ih fun y hy => h y (by simp [hy])]; rfl

theorem mapM_err {α β : Type} (f : α → Except String β) (l : List α) (h : ∃ x ∈ l, ∃ e, f x = .error e) :
    ∃ e, l.mapM f = .error e := by
  induction l with
  | nil => simp at h
  | cons x l ih =>
    rw [List.mapM_cons]
    cases hx : f x with
    | error e => exact ⟨e, rfl⟩
    | ok v =>
      obtain ⟨y, hy, e, he⟩ := h
      rcases List.mem_cons.1 hy with rfl | hy
      · rw [he] at hx; cases hx
      · obtain ⟨e', he'⟩ := ih ⟨y, hy, e, he⟩
        exact ⟨e', by rw [he']; rfl⟩

theorem atomsAll_atoms (ks : List K) : atomsAll (ks.map Key.atom) = ks := by
  induction ks with
  | nil => rfl
  | cons k ks ih => simp [atomsAll, Key.atoms, ih]

theorem atoms_key (b : BlockOp K V) : b.key.atoms = b.vars := by
  cases b with
  | single k f => rfl
  | many ks f => simp only [BlockOp.key, Key.atoms, atomsAll_atoms, BlockOp.vars]

theorem atomsAll_keys (bs : List (BlockOp K V)) : atomsAll (bs.map BlockOp.key) = bs.flatMap BlockOp.vars := by
  induction bs with
  | nil => rfl
  | cons b bs ih => simp [atomsAll, atoms_key, ih]

theorem matches_output (b : BlockOp K V) (h : b.Keeps) (x : K → V) : Matches b.key (b.output x) := by
  cases b with
  | single k f => exact .atom _ _
  | many ks f =>
    refine .seq ?_
    have hl : ks.length = (f (ks.map x)).length := by rw [h (ks.map x) (by simp)]; simp
    generalize f (ks.map x) = vs at hl
    clear h
    induction ks generalizing vs with
    | nil => cases vs with
      | nil => exact .nil
      | cons _ _ => simp at hl
    | cons k ks ih => cases vs with
      | nil => simp at hl
      | cons v vs =>
        exact .cons (.atom _ _) (ih vs (by simpa using hl))

theorem matchesAll_outputs (bs : List (BlockOp K V)) (h : ∀ b ∈ bs, b.Keeps) (x : K → V) :
    MatchesAll (bs.map BlockOp.key) (bs.map fun b => b.output x) := by
  induction bs with
  | nil => exact .nil
  | cons b bs ih => exact .cons (matches_output b (h b (by simp)) x) (ih fun b' hb' => h b' (by simp [hb']))

theorem getItems_mem (d : Dict K V) (bs : List (BlockOp K V)) (g : BlockOp K V → Val V)
    (h : getItems d (bs.map BlockOp.key) = .ok (bs.map g)) (b : BlockOp K V) (hb : b ∈ bs) : getItem d b.key = .ok (g b) := by
  induction bs with
  | nil => simp at hb
  | cons a bs ih =>
    simp only [List.map_cons, getItems] at h
    cases ha : getItem d a.key with
    | error e => rw [ha] at h; simp at h
    | ok v =>
      rw [ha] at h
      simp only at h
      cases hs : getItems d (bs.map BlockOp.key) with
      | error e => rw [hs] at h; simp at h
      | ok vs =>
        rw [hs] at h
        simp only [Except.ok.injEq, List.cons.injEq] at h
        rcases List.mem_cons.1 hb with rfl | hb
        · rw [ha, h.1]
        · exact ih (by rw [hs, h.2]) hb

theorem getItems_at (d : Dict K V) (ks : List K) (vs : List (Val V)) (h : getItems d (ks.map .atom) = .ok vs) (k : K)
    (hk : k ∈ ks) : ∃ v, vs[ks.idxOf k]? = some v ∧ d k = some v := by
  induction ks generalizing vs with
  | nil => simp at hk
  | cons a ks ih =>
    simp only [List.map_cons, getItems, getItem] at h
    cases ha : d a with
    | none => rw [ha] at h; simp at h
    | some v =>
      rw [ha] at h
      simp only at h
      cases hs : getItems d (ks.map Key.atom) with
      | error e => rw [hs] at h; simp at h
      | ok ws =>
        rw [hs] at h
        simp only [Except.ok.injEq] at h
        subst h
        by_cases hka : a = k
        · subst hka
          exact ⟨v, by simp, ha⟩
        · obtain ⟨w, hw, hd⟩ := ih ws hs (by simpa [Ne.symm hka] using hk)
          refine ⟨w, ?_, hd⟩
          rw [List.idxOf_cons_ne _ hka]
          simpa using hw

/-- Reading one variable of a block whose output is in the dictionary. -/
theorem read_output (d : Dict K V) (b : BlockOp K V) (x : K → V) (h : getItem d b.key = .ok (b.output x)) (k : K)
    (hk : k ∈ b.vars) : ∃ v, b.at x k = some v ∧ d k = some (.leaf v) := by
  cases b with
  | single k' f =>
    simp only [BlockOp.vars, List.mem_singleton] at hk
    subst hk
    refine ⟨f (x k), rfl, ?_⟩
    simp only [BlockOp.key, getItem, BlockOp.output] at h
    cases hd : d k with
    | none => rw [hd] at h; simp at h
    | some v => rw [hd] at h; simp only [Except.ok.injEq] at h; rw [h]
  | many ks f =>
    simp only [BlockOp.key, getItem, BlockOp.output] at h
    cases hs : getItems d (ks.map Key.atom) with
    | error e => rw [hs] at h; simp at h
    | ok vs =>
      rw [hs] at h
      simp only [Except.ok.injEq, Val.seq.injEq] at h
      obtain ⟨v, hv, hd⟩ := getItems_at d ks vs hs k hk
      rw [h, List.getElem?_map, Option.map_eq_some_iff] at hv
      obtain ⟨w, hw, rfl⟩ := hv
      exact ⟨w, hw, hd⟩

/-! ### The theorems -/

/-- The blocks and vectors fit: no variable is in two blocks, every registered variable has exactly one vector and every vector
belongs to a registered variable. -/
structure Fitting (bs : List (BlockOp K V)) (pairs : List (V × K)) : Prop where
  blocks : (bs.flatMap BlockOp.vars).Nodup
  keeps : ∀ b ∈ bs, b.Keeps
  vectors : (pairs.map (·.2)).Nodup
  same : ∀ k, k ∈ pairs.map (·.2) ↔ k ∈ bs.flatMap BlockOp.vars

theorem find_block (bs : List (BlockOp K V)) (hn : (bs.flatMap BlockOp.vars).Nodup) (b : BlockOp K V) (hb : b ∈ bs) (k : K)
    (hk : k ∈ b.vars) : bs.find? (fun b => k ∈ b.vars) = some b := by
  induction bs with
  | nil => simp at hb
  | cons a bs ih =>
    rw [List.flatMap_cons, List.nodup_append] at hn
    rcases List.mem_cons.1 hb with rfl | hb
    · exact List.find?_cons_of_pos (by simpa using hk)
    · rw [List.find?_cons_of_neg]
      · exact ih hn.2.1 hb
      · simp only [decide_eq_true_eq]
        intro ha
        exact hn.2.2 k ha k (List.mem_flatMap.2 ⟨b, hb, hk⟩) rfl

theorem results_ok (bs : List (BlockOp K V)) (pairs : List (V × K)) (x : K → V)
    (hd : ∀ k ∈ bs.flatMap BlockOp.vars, vecsDict pairs k = some (.leaf (x k))) :
    ((bs.map fun b => (b.key, b.run)).mapM fun t => do
      let v ← getItem (vecsDict pairs) t.1
      t.2 v) = .ok (bs.map fun b => b.output x) := by
  rw [List.mapM_map]
  apply mapM_ok'
  intro b hb
  simp only [Function.comp_apply]
  rw [getItem_key _ b x fun k hk => hd k (List.mem_flatMap.2 ⟨b, hb, hk⟩)]
  exact run_input b x

/-- The results: one per vector, in the order of the arguments and with the same variables; the vector of a variable is its part of
its block's function applied to the vectors of the block's variables. `x` is the assignment of vectors to variables; device
placement has no influence. -/
theorem C80_blockwise (td : Devices D) (htd : td = .none ∨ ∃ l, td = .list l) (bs : List (BlockOp K V)) (pairs : List (V × K))
    (h : Fitting bs pairs) (x : K → V) (hx : ∀ p ∈ pairs, x p.2 = p.1) :
    ∃ y : K → V, (∀ p ∈ pairs, blockwise bs x p.2 = some (y p.2)) ∧
      computeTransformation td (bs.map fun b => (b.key, b.run)) pairs = .ok (pairs.map fun p => (.leaf (y p.2), p.2)) := by
  have hd : ∀ k ∈ bs.flatMap BlockOp.vars, vecsDict pairs k = some (.leaf (x k)) := by
    intro k hk
    obtain ⟨p, hp, rfl⟩ := List.mem_map.1 ((h.same k).2 hk)
    rw [vecsDict_spec pairs h.vectors p hp, hx p hp]
  have hplace := (C21_transformations td htd (bs.map fun b => (b.key, b.run))).1
  have hres := results_ok bs pairs x hd
  obtain ⟨d, h1, -, h3⟩ := setItems_spec (bs.map BlockOp.key) (bs.map fun b => b.output x) (fun _ => none)
    (matchesAll_outputs bs h.keeps x)
  rw [atomsAll_keys] at h3
  have hread : ∀ b ∈ bs, ∀ k ∈ b.vars, ∃ v, b.at x k = some v ∧ d k = some (.leaf v) := fun b hb =>
    read_output d b x (getItems_mem d bs _ (h3 h.blocks) b hb)
  refine ⟨fun k => match d k with | some (.leaf v) => v | _ => x k, ?_, ?_⟩
  · intro p hp
    obtain ⟨b, hb, hk⟩ := List.mem_flatMap.1 ((h.same p.2).1 (List.mem_map_of_mem hp))
    obtain ⟨v, hv, hdv⟩ := hread b hb p.2 hk
    rw [blockwise, find_block bs h.blocks b hb p.2 hk]
    simp only [Option.bind_some, hv, hdv]
  · unfold computeTransformation
    rw [hplace, hres]
    simp only [bind, Except.bind, List.map_map, Function.comp_def]
    rw [show (bs.map fun b => b.key) = bs.map BlockOp.key from rfl, h1]
    simp only [assigned]
    apply mapM_ok'
    intro p hp
    obtain ⟨b, hb, hk⟩ := List.mem_flatMap.1 ((h.same p.2).1 (List.mem_map_of_mem hp))
    obtain ⟨v, hv, hdv⟩ := hread b hb p.2 hk
    simp only [getItem, hdv, pure, Except.pure]

/-- An assignment of vectors to variables that agrees with the pairs. -/
theorem exists_assignment [Inhabited V] (pairs : List (V × K)) (hn : (pairs.map (·.2)).Nodup) :
    ∃ x : K → V, ∀ p ∈ pairs, x p.2 = p.1 := by
  refine ⟨fun k => match vecsDict pairs k with | some (.leaf v) => v | _ => default, fun p hp => ?_⟩
  simp only [vecsDict_spec pairs hn p hp]

theorem Fitting.perm {bs bs' : List (BlockOp K V)} {pairs pairs' : List (V × K)} (h : Fitting bs pairs) (hb : bs.Perm bs')
    (hp : pairs.Perm pairs') : Fitting bs' pairs' where
  blocks := (hb.flatMap_right _).nodup_iff.1 h.blocks
  keeps b hb' := h.keeps b (hb.mem_iff.2 hb')
  vectors := (hp.map _).nodup_iff.1 h.vectors
  same k := by rw [← (hp.map (·.2)).mem_iff, ← (hb.flatMap_right BlockOp.vars).mem_iff]; exact h.same k

theorem blockwise_perm {bs bs' : List (BlockOp K V)} (hn : (bs.flatMap BlockOp.vars).Nodup) (hb : bs.Perm bs') (x : K → V) (k : K)
    (hk : k ∈ bs.flatMap BlockOp.vars) : blockwise bs x k = blockwise bs' x k := by
  obtain ⟨b, hbm, hkb⟩ := List.mem_flatMap.1 hk
  rw [blockwise, blockwise, find_block bs hn b hbm k hkb,
    find_block bs' ((hb.flatMap_right _).nodup_iff.1 hn) b (hb.mem_iff.1 hbm) k hkb]

/-- The result of a variable does not depend on the order of the arguments or of the registration, nor on the devices. -/
theorem C80_order [Inhabited V] (td td' : Devices D) (htd : td = .none ∨ ∃ l, td = .list l)
    (htd' : td' = .none ∨ ∃ l, td' = .list l) (bs bs' : List (BlockOp K V)) (pairs pairs' : List (V × K)) (h : Fitting bs pairs)
    (hb : bs.Perm bs') (hp : pairs.Perm pairs') :
    ∃ out out', computeTransformation td (bs.map fun b => (b.key, b.run)) pairs = .ok out ∧
      computeTransformation td' (bs'.map fun b => (b.key, b.run)) pairs' = .ok out' ∧ out.Perm out' ∧
      out.map (·.2) = pairs.map (·.2) ∧ out'.map (·.2) = pairs'.map (·.2) := by
  obtain ⟨x, hx⟩ := exists_assignment pairs h.vectors
  obtain ⟨y, hy, e⟩ := C80_blockwise td htd bs pairs h x hx
  obtain ⟨y', hy', e'⟩ := C80_blockwise td' htd' bs' pairs' (h.perm hb hp) x fun p hp' => hx p (hp.mem_iff.2 hp')
  refine ⟨_, _, e, e', ?_, by simp [Function.comp_def], by simp [Function.comp_def]⟩
  have : pairs.map (fun p => (Val.leaf (y p.2), p.2)) = pairs.map fun p => (Val.leaf (y' p.2), p.2) := by
    apply List.map_congr_left
    intro p hpm
    have h1 := hy p hpm
    rw [blockwise_perm h.blocks hb x p.2 ((h.same _).1 (List.mem_map_of_mem hpm)), hy' p (hp.mem_iff.1 hpm)] at h1
    rw [Option.some.inj h1]
  rw [this]
  exact hp.map _

/-- A block undoes another: same variables, and its function is a left inverse on vectors of the right number. -/
def BlockOp.Undoes : BlockOp K V → BlockOp K V → Prop
  | .single k g, .single k' f => k = k' ∧ ∀ v, g (f v) = v
  | .many ks g, .many ks' f => ks = ks' ∧ ∀ vs, vs.length = ks.length → g (f vs) = vs
  | _, _ => False

theorem undo_at (g b : BlockOp K V) (hgb : g.Undoes b) (hkeep : b.Keeps) (hnd : b.vars.Nodup) (x y : K → V)
    (hyv : ∀ k ∈ b.vars, b.at x k = some (y k)) (k : K) (hk : k ∈ b.vars) : g.at y k = some (x k) ∧ k ∈ g.vars := by
  cases g with
  | single k' g =>
    cases b with
    | many ks f => exact hgb.elim
    | single k'' f =>
      obtain ⟨rfl, h⟩ := hgb
      have := hyv k hk
      simp only [BlockOp.at, Option.some.injEq] at this
      exact ⟨by simp only [BlockOp.at, ← this, h], hk⟩
  | many ks g =>
    cases b with
    | single k'' f => exact hgb.elim
    | many ks' f =>
      obtain ⟨rfl, h⟩ := hgb
      refine ⟨?_, hk⟩
      have hy : ks.map y = f (ks.map x) := by
        apply List.ext_getElem?
        intro j
        have hl := hkeep (ks.map x) (by simp)
        rw [List.length_map] at hl
        by_cases hj : j < ks.length
        · have := hyv ks[j] (List.getElem_mem hj)
          have hi : ks.idxOf ks[j] = j := List.Nodup.idxOf_getElem hnd j hj
          simp only [BlockOp.at, hi] at this
          rw [this, List.getElem?_map, List.getElem?_eq_getElem hj]
          rfl
        · rw [List.getElem?_eq_none (by simp; omega), List.getElem?_eq_none (by omega)]
      simp only [BlockOp.at, hy, h (ks.map x) (by simp)]
      have hkm : k ∈ ks := hk
      rw [List.getElem?_map, List.getElem?_eq_getElem (List.idxOf_lt_length_of_mem hkm), List.getElem_idxOf]
      rfl

/-- Multiplying by the inverse of every block undoes the multiplication: the given pairs come back, in order. -/
theorem C80_inverse (td td' : Devices D) (htd : td = .none ∨ ∃ l, td = .list l) (htd' : td' = .none ∨ ∃ l, td' = .list l)
    (bs gs : List (BlockOp K V)) (pairs : List (V × K)) (h : Fitting bs pairs) (hgk : ∀ b ∈ gs, b.Keeps)
    (hg : List.Forall₂ BlockOp.Undoes gs bs) (x : K → V) (hx : ∀ p ∈ pairs, x p.2 = p.1) :
    ∃ mid : List (V × K), computeTransformation td (bs.map fun b => (b.key, b.run)) pairs =
        .ok (mid.map fun p => (.leaf p.1, p.2)) ∧
      computeTransformation td' (gs.map fun b => (b.key, b.run)) mid = .ok (pairs.map fun p => (.leaf p.1, p.2)) := by
  obtain ⟨y, hy, e⟩ := C80_blockwise td htd bs pairs h x hx
  refine ⟨pairs.map fun p => (y p.2, p.2), by rw [e, List.map_map]; rfl, ?_⟩
  have hvars : gs.flatMap BlockOp.vars = bs.flatMap BlockOp.vars := by
    clear h hgk e hy
    induction hg with
    | nil => rfl
    | @cons g b gs bs hgb _ ih =>
      rw [List.flatMap_cons, List.flatMap_cons, ih]
      congr 1
      cases g <;> cases b <;> simp only [BlockOp.Undoes] at hgb <;> simp [BlockOp.vars, hgb.1]
  have hfit : Fitting gs (pairs.map fun p => (y p.2, p.2)) :=
    { blocks := by rw [hvars]; exact h.blocks
      keeps := hgk
      vectors := by rw [List.map_map]; exact h.vectors
      same := fun k => by rw [List.map_map, hvars]; exact h.same k }
  obtain ⟨z, hz, e'⟩ := C80_blockwise td' htd' gs _ hfit y (by
    intro p hp
    obtain ⟨q, hq, rfl⟩ := List.mem_map.1 hp
    rfl)
  rw [e', List.map_map]
  congr 1
  apply List.map_congr_left
  intro p hp
  have h1 := hz (y p.2, p.2) (List.mem_map_of_mem (f := fun p : V × K => (y p.2, p.2)) hp)
  simp only [Function.comp_apply, Prod.mk.injEq, and_true, Val.leaf.injEq]
  rw [← hx p hp]
  obtain ⟨b, hb, hk⟩ := List.mem_flatMap.1 ((h.same p.2).1 (List.mem_map_of_mem hp))
  obtain ⟨i, hi, rfl⟩ := List.getElem_of_mem hb
  have hlen := hg.length_eq
  have hgb : (gs[i]'(by omega)).Undoes bs[i] := (List.forall₂_iff_get.1 hg).2 i (by omega) hi
  have hgm : gs[i]'(by omega) ∈ gs := List.getElem_mem _
  -- the block's vectors after the first step
  have hyv : ∀ k ∈ (bs[i]).vars, (bs[i]).at x k = some (y k) := by
    intro k hk
    have hm : k ∈ bs.flatMap BlockOp.vars := List.mem_flatMap.2 ⟨_, hb, hk⟩
    obtain ⟨q, hq, rfl⟩ := List.mem_map.1 ((h.same k).2 hm)
    have := hy q hq
    rwa [blockwise, find_block bs h.blocks _ hb q.2 hk] at this
  have hkeep := h.keeps _ hb
  have hnd : (bs[i]).vars.Nodup := (List.nodup_flatMap.1 h.blocks).1 _ hb
  revert hgb hgm h1 hk hyv hkeep hnd
  generalize bs[i] = b
  generalize gs[i]'(by omega) = g
  intro h1 hk hgb hgm hyv hkeep hnd
  obtain ⟨h2, h3⟩ := undo_at g b hgb hkeep hnd x y hyv p.2 hk
  rw [blockwise, find_block gs hfit.blocks g hgm p.2 h3] at h1
  exact (Option.some.inj (h2.symm.trans h1)).symm

theorem getItem_missing (d : Dict K V) (b : BlockOp K V) (k : K) (hk : k ∈ b.vars) (hd : d k = none) :
    getItem d b.key = .error "KeyError" := by
  cases b with
  | single k' f =>
    simp only [BlockOp.vars, List.mem_singleton] at hk
    subst hk
    simp [BlockOp.key, getItem, hd]
  | many ks f =>
    have : ∀ ks : List K, k ∈ ks → getItems d (ks.map Key.atom) = .error "KeyError" := by
      intro ks hk
      induction ks with
      | nil => simp at hk
      | cons a ks ih =>
        simp only [List.map_cons, getItems, getItem]
        cases ha : d a with
        | none => rfl
        | some v =>
          have hne : k ≠ a := by rintro rfl; rw [hd] at ha; cases ha
          simp only [ih (by simpa [hne] using hk)]
    simp only [BlockOp.key, getItem, this ks hk]

/-- A registered variable without a vector is an error: no block is silently given a shorter list. -/
theorem C80_missing_vector (td : Devices D) (htd : td = .none ∨ ∃ l, td = .list l) (bs : List (BlockOp K V)) (pairs : List (V × K))
    (b : BlockOp K V) (hb : b ∈ bs) (k : K) (hk : k ∈ b.vars) (hmiss : k ∉ pairs.map (·.2)) :
    ∃ e, computeTransformation td (bs.map fun b => (b.key, b.run)) pairs = .error e := by
  have hplace := (C21_transformations td htd (bs.map fun b => (b.key, b.run))).1
  unfold computeTransformation
  rw [hplace]
  obtain ⟨e, he⟩ := mapM_err (fun t : Key K × (Val V → Except String (Val V)) => do
      let v ← getItem (vecsDict pairs) t.1
      t.2 v) (bs.map fun b => (b.key, b.run)) ⟨_, List.mem_map_of_mem hb, "KeyError", by
    simp only [getItem_missing _ b k hk (vecsDict_none pairs k hmiss)]
    rfl⟩
  exact ⟨e, by rw [he]; rfl⟩

/-- A vector for a variable that no block is registered for is an error: it is not silently returned unchanged or dropped. -/
theorem C80_unregistered_variable (td : Devices D) (htd : td = .none ∨ ∃ l, td = .list l) (bs : List (BlockOp K V))
    (pairs : List (V × K)) (hk : ∀ b ∈ bs, b.Keeps) (hn : (pairs.map (·.2)).Nodup) (p : V × K) (hp : p ∈ pairs)
    (hreg : ∀ b ∈ bs, p.2 ∉ b.vars) :
    ∃ e, computeTransformation td (bs.map fun b => (b.key, b.run)) pairs = .error e := by
  by_cases hall : ∀ k ∈ bs.flatMap BlockOp.vars, k ∈ pairs.map (·.2)
  · haveI : Inhabited V := ⟨p.1⟩
    obtain ⟨x, hx⟩ := exists_assignment pairs hn
    have hplace := (C21_transformations td htd (bs.map fun b => (b.key, b.run))).1
    have hres := results_ok bs pairs x fun k hk => by
      obtain ⟨q, hq, rfl⟩ := List.mem_map.1 (hall k hk)
      rw [vecsDict_spec pairs hn q hq, hx q hq]
    obtain ⟨d, h1, h2, -⟩ := setItems_spec (bs.map BlockOp.key) (bs.map fun b => b.output x) (fun _ => none)
      (matchesAll_outputs bs hk x)
    rw [atomsAll_keys] at h2
    have hd : d p.2 = none := h2 p.2 (by
      rw [List.mem_flatMap]
      rintro ⟨b, hb, hm⟩
      exact hreg b hb hm)
    unfold computeTransformation
    rw [hplace, hres]
    simp only [bind, Except.bind, List.map_map, Function.comp_def]
    rw [show (bs.map fun b => b.key) = bs.map BlockOp.key from rfl, h1]
    simp only [assigned]
    exact mapM_err _ _ ⟨p, hp, "KeyError", by simp only [getItem, hd]⟩
  · push Not at hall
    obtain ⟨k, hk, hm⟩ := hall
    obtain ⟨b, hb, hkb⟩ := List.mem_flatMap.1 hk
    exact C80_missing_vector td htd bs pairs b hb k hkb hm

theorem setItems_error (ks : List (Key K)) (vs : List (Val V)) (d : Dict K V) (hl : ks.length = vs.length) (i : Nat)
    (sub : List (Key K)) (w : V) (hk : ks[i]? = some (.seq sub)) (hv : vs[i]? = some (.leaf w)) :
    ∃ e, (setItems d ks vs).2 = some e := by
  induction ks generalizing vs d i with
  | nil => simp at hk
  | cons k ks ih =>
    cases vs with
    | nil => simp at hl
    | cons v vs =>
      rw [setItems]
      cases i with
      | zero =>
        simp only [List.getElem?_cons_zero, Option.some.injEq] at hk hv
        subst hk hv
        exact ⟨"TypeError: zip argument is not iterable", by simp only [setItem]⟩
      | succ i =>
        have h := fun d => ih vs d (by simpa using hl) i (by simpa using hk) (by simpa using hv)
        rcases hs : setItem d k v with ⟨d', _ | e⟩
        · exact h d'
        · exact ⟨e, rfl⟩

theorem mapM_getElem {α β : Type} (f : α → Except String β) (l : List α) (r : List β) (h : l.mapM f = .ok r) :
    r.length = l.length ∧ ∀ (i : Nat) (a : α), l[i]? = some a → ∃ b, r[i]? = some b ∧ f a = .ok b := by
  induction l generalizing r with
  | nil =>
    rw [List.mapM_nil] at h
    cases h
    exact ⟨rfl, fun i a h => by simp at h⟩
  | cons x l ih =>
    rw [List.mapM_cons] at h
    cases hx : f x with
    | error e => rw [hx] at h; cases h
    | ok y =>
      rw [hx] at h
      cases hl : l.mapM f with
      | error e => rw [hl] at h; cases h
      | ok ys =>
        rw [hl] at h
        cases h
        obtain ⟨h1, h2⟩ := ih ys hl
        refine ⟨by simp [h1], fun i a ha => ?_⟩
        cases i with
        | zero =>
          simp only [List.getElem?_cons_zero, Option.some.injEq] at ha
          subst ha
          exact ⟨y, by simp, hx⟩
        | succ i => simpa using h2 i a (by simpa using ha)

/-- A block for several variables that returns a single tensor is an error: the tensor is not assigned to any of them. -/
theorem C80_wrong_structure (td : Devices D) (htd : td = .none ∨ ∃ l, td = .list l)
    (blocks : List (Key K × (Val V → Except String (Val V)))) (pairs : List (V × K)) (ks : List (Key K))
    (f : Val V → Except String (Val V)) (hb : (.seq ks, f) ∈ blocks) (hf : ∀ v r, f v = .ok r → ∃ w, r = .leaf w) :
    ∃ e, computeTransformation td blocks pairs = .error e := by
  have hplace := (C21_transformations td htd blocks).1
  unfold computeTransformation
  rw [hplace]
  generalize hm : (blocks.mapM fun t => do
    let v ← getItem (vecsDict pairs) t.1
    t.2 v) = m
  cases m with
  | error e => exact ⟨e, rfl⟩
  | ok r =>
    obtain ⟨hl, h⟩ := mapM_getElem _ _ _ hm
    obtain ⟨i, hi⟩ := List.mem_iff_getElem?.1 hb
    obtain ⟨y, hy, hfy⟩ := h i _ hi
    have : ∃ w, y = .leaf w := by
      simp only at hfy
      cases hg : getItem (vecsDict pairs) (.seq ks) with
      | error e => rw [hg] at hfy; cases hfy
      | ok v => rw [hg] at hfy; exact hf v y hfy
    obtain ⟨w, rfl⟩ := this
    obtain ⟨e, he⟩ := setItems_error (blocks.map (·.1)) r (fun _ => none) (by simp [hl]) i ks w (by simp [hi]) hy
    refine ⟨e, ?_⟩
    simp only [bind, Except.bind, assigned, he]

example : computeTransformation (D := Nat) .none [(.seq [.atom 0, .atom 1], fun _ => .ok (.leaf (3 : ℤ)))] [(5, 0), (6, 1)] =
    .error "TypeError: zip argument is not iterable" := rfl

/-- Replicated placement: switching off the distribution of the transformations (`distribute_transformations=False`) has no
effect. A block's transformation is still computed on one replica only and the others receive that replica's result. -/
theorem C80_distribute_counterexample {α : Type} [AddCommMonoid α] (n : Nat) (hn : 1 < n) (thunks : List (Nat → α)) (i r : Nat)
    (_hr : r < n) (hne : r ≠ i % n) (hi : i < thunks.length) :
    (replicaTransformations false ⟨none, none, some n⟩ thunks).runs i r = false ∧
    ((replicaTransformations false ⟨none, none, some n⟩ thunks).results r)[i]? = some (thunks[i] (i % n)) := by
  have hn0 : n ≠ 0 := by omega
  have h1 : ¬ n ≤ 1 := by omega
  have hnum : (⟨none, none, some n⟩ : Ctx).numReplicas = n := by simp [Ctx.numReplicas, hn0]
  have htpu : (⟨none, none, some n⟩ : Ctx).isTpuReplicated = true := by simp [Ctx.isTpuReplicated]
  unfold replicaTransformations mapGather
  simp only [hnum, h1, if_false, htpu, if_true]
  refine ⟨by simpa using hne, ?_⟩
  rw [List.getElem?_mapIdx, List.getElem?_eq_getElem hi]
  simp only [Option.map_some, Option.some.injEq]
  unfold allSum
  simp only [hnum, h1, if_false, Ctx.inReplicaContext, Bool.false_eq_true, htpu, if_true, reduceSum, Option.getD_some]
  rw [Finset.sum_ite_eq' (Finset.range n) (i % n) (fun r' => thunks[i] r')]
  simp [Nat.mod_lt i (by omega : 0 < n)]

/-! ### Concrete cases -/

/-- A weight and bias in one block (swapped and negated, to tell them apart) and a scale in its own block. -/
def exBlocks : List (BlockOp Nat ℤ) := [.many [0, 1] fun vs => vs.reverse.map (-·), .single 2 (· + 10)]

example : computeTransformation (.list ["gpu0", "gpu1"]) (exBlocks.map fun b => (b.key, b.run)) [(7, 2), (5, 0), (6, 1)] =
    .ok [(.leaf 17, 2), (.leaf (-6), 0), (.leaf (-5), 1)] := rfl

example : Fitting exBlocks [(7, 2), (5, 0), (6, 1)] where
  blocks := by decide
  keeps := by
    intro b hb
    simp only [exBlocks, List.mem_cons, List.not_mem_nil, or_false] at hb
    rcases hb with rfl | rfl
    · intro vs _; simp
    · trivial
  vectors := by decide
  same k := by simp [exBlocks, BlockOp.vars]; omega

example : List.Forall₂ BlockOp.Undoes [.many [0, 1] fun vs => vs.reverse.map (-·), .single 2 (· - 10)] exBlocks := by
  refine .cons ⟨rfl, fun vs _ => ?_⟩ (.cons ⟨rfl, fun v => by simp⟩ .nil)
  simp

example : computeTransformation (D := Nat) .none (exBlocks.map fun b => (b.key, b.run)) [(5, 0), (7, 2)] = .error "KeyError" := rfl

example : computeTransformation (D := Nat) .none (exBlocks.map fun b => (b.key, b.run)) [(7, 2), (5, 0), (6, 1), (1, 9)] =
    .error "KeyError" := rfl

example : (replicaTransformations false ⟨none, none, some 2⟩ [fun r => (r : ℤ) + 1]).results 1 = [1] := rfl

end Kfac.Est
