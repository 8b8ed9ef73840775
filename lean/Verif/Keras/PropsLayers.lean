import Verif.Keras.Layers
import Mathlib.Tactic.NormNum
import Mathlib.Data.List.Nodup

/-! # C59 and C60: order of the layers, approximations, losses and their weights -/

namespace Kfac.Keras.Layers

variable {α β : Type}

/-! ## Specification -/

mutual
/-- The plain layers of a layer, from left to right. -/
def Layer.leaves : Layer → List Leaf
  | .leaf n c t => [⟨n, c, t⟩]
  | .model _ _ ls => leavesOf ls
def leavesOf : List Layer → List Leaf
  | [] => []
  | l :: ls => l.leaves ++ leavesOf ls
end

mutual
/-- The names of everything in a layer. -/
def Layer.names : Layer → List String
  | .leaf n _ _ => [n]
  | .model n _ ls => n :: namesOf ls
def namesOf : List Layer → List String
  | [] => []
  | l :: ls => l.names ++ namesOf ls
end

mutual
/-- Output names are names of layers directly in the model. -/
def Layer.Closed : Layer → Prop
  | .leaf _ _ _ => True
  | .model _ outs ls => (∀ o ∈ outs, o ∈ ls.map Layer.name) ∧ ClosedAll ls
def ClosedAll : List Layer → Prop
  | [] => True
  | l :: ls => l.Closed ∧ ClosedAll ls
end

/-- The output called `o` of these layers is computed by the plain layer `n`. -/
inductive Feeds : List Layer → String → String → Prop
  | leaf {ls : List Layer} {n c : String} {t : Bool} : Layer.leaf n c t ∈ ls → Feeds ls n n
  | model {ls sub : List Layer} {m p n : String} : Layer.model m [p] sub ∈ ls → Feeds sub p n → Feeds ls m n

/-! ## Lemmas -/

theorem leavesOf_append (a b : List Layer) : leavesOf (a ++ b) = leavesOf a ++ leavesOf b := by
  induction a with
  | nil => simp [leavesOf]
  | cons x a ih => simp [leavesOf, ih]

theorem namesOf_append (a b : List Layer) : namesOf (a ++ b) = namesOf a ++ namesOf b := by
  induction a with
  | nil => simp [namesOf]
  | cons x a ih => simp [namesOf, ih]

theorem closedAll_append (a b : List Layer) : ClosedAll (a ++ b) ↔ ClosedAll a ∧ ClosedAll b := by
  induction a with
  | nil => simp [ClosedAll]
  | cons x a ih => simp [ClosedAll, ih, and_assoc]

theorem name_mem_names (l : Layer) : l.name ∈ l.names := by
  cases l <;> simp [Layer.name, Layer.names]

theorem name_mem_namesOf {ls : List Layer} {k : String} (h : k ∈ ls.map Layer.name) : k ∈ namesOf ls := by
  induction ls with
  | nil => simp at h
  | cons x ls ih =>
    simp only [List.map_cons, List.mem_cons] at h
    simp only [namesOf, List.mem_append]
    rcases h with rfl | h
    · exact .inl (name_mem_names x)
    · exact .inr (ih h)

theorem push_start (ls rest : List Layer) : pushAll rest ls.reverse = ls ++ rest := by
  rw [pushAll_eq, List.reverse_reverse]

theorem traverse_nil (f : Map β) : traverse f [] = .ok ([], f) := by rw [traverse]

theorem traverse_leaf (f : Map β) (n c : String) (t : Bool) (rest : List Layer) :
    traverse f (.leaf n c t :: rest) = (traverse f rest).map fun r => (⟨n, c, t⟩ :: r.1, r.2) := by rw [traverse]

theorem traverse_model (f : Map β) (n : String) (outs : List String) (ls rest : List Layer) :
    traverse f (.model n outs ls :: rest) =
      match enter f n outs with
      | .error e => .error e
      | .ok f => traverse f (ls ++ rest) := by
  rw [traverse]
  split <;> simp_all [push_start]

/-- Induction along the traversal. -/
theorem stack_induction {P : List Layer → Prop} (nil : P [])
    (leaf : ∀ n c t rest, P rest → P (.leaf n c t :: rest))
    (model : ∀ n outs ls rest, P (ls ++ rest) → P (.model n outs ls :: rest)) (stack : List Layer) : P stack := by
  induction h : sizes stack using Nat.strong_induction_on generalizing stack with
  | _ k ih =>
    match stack, h with
    | [], _ => exact nil
    | .leaf n c t :: rest, h =>
      exact leaf _ _ _ _ (ih (sizes rest) (by simp [sizes, Layer.size] at h; omega) rest rfl)
    | .model n outs ls :: rest, h =>
      exact model _ _ _ _ (ih (sizes (ls ++ rest)) (by simp [sizes, sizes_append, Layer.size] at h ⊢; omega) _ rfl)

theorem traverse_leaves (stack : List Layer) (f : Map β) (r : List Leaf × Map β) (h : traverse f stack = .ok r) :
    r.1 = leavesOf stack := by
  induction stack using stack_induction generalizing f r with
  | nil => rw [traverse_nil] at h; cases h; rfl
  | leaf n c t rest ih =>
    rw [traverse_leaf] at h
    cases hr : traverse f rest with
    | error e => rw [hr] at h; cases h
    | ok r' => rw [hr] at h; cases h; simp [leavesOf, Layer.leaves, ih f r' hr]
  | model n outs ls rest ih =>
    rw [traverse_model] at h
    cases he : enter f n outs with
    | error e => rw [he] at h; cases h
    | ok f' => rw [he] at h; rw [ih f' r h]; simp [leavesOf, Layer.leaves, leavesOf_append]

/-- Entering a model changes the losses of the model and of its output only. -/
theorem enter_other {f f' : Map β} {n : String} {outs : List String} (h : enter f n outs = .ok f') {k : String}
    (h1 : k ≠ n) (h2 : k ∉ outs) : f' k = f k := by
  unfold enter at h
  split at h
  · split at h
    · cases h
    · split at h
      · cases h
      · cases h
        simp only [List.mem_cons, not_or] at h2
        simp [moveKey, h1, h2]
  · cases h; rfl

theorem enter_none {f f' : Map β} {n : String} {outs : List String} (h : enter f n outs = .ok f') (h1 : f n = none) :
    f' = f := by
  simp [enter, h1] at h; exact h.symm

theorem enter_some {f f' : Map β} {n : String} {outs : List String} (h : enter f n outs = .ok f') (h1 : (f n).isSome) :
    ∃ p, outs = [p] ∧ f' = moveKey f p n := by
  simp only [enter, h1, if_true] at h
  split at h
  · cases h
  · rename_i hl
    match outs, h with
    | [p], h => cases h; exact ⟨p, rfl, rfl⟩
    | a :: b :: l, _ => simp at hl

/-- Losses of names that do not occur are left alone. -/
theorem traverse_other (stack : List Layer) (hc : ClosedAll stack) (f : Map β) (r : List Leaf × Map β)
    (h : traverse f stack = .ok r) (k : String) (hk : k ∉ namesOf stack) : r.2 k = f k := by
  induction stack using stack_induction generalizing f r with
  | nil => rw [traverse_nil] at h; cases h; rfl
  | leaf n c t rest ih =>
    rw [traverse_leaf] at h
    simp only [namesOf, List.mem_append, not_or] at hk
    cases hr : traverse f rest with
    | error e => rw [hr] at h; cases h
    | ok r' => rw [hr] at h; cases h; exact ih hc.2 f r' hr hk.2
  | model n outs ls rest ih =>
    rw [traverse_model] at h
    simp only [namesOf, Layer.names, List.mem_append, List.mem_cons, not_or] at hk
    simp only [ClosedAll, Layer.Closed] at hc
    cases he : enter f n outs with
    | error e => rw [he] at h; cases h
    | ok f' =>
      rw [he] at h
      rw [ih ((closedAll_append _ _).2 ⟨hc.1.2, hc.2⟩) f' r h (by simp [namesOf_append, hk])]
      exact enter_other he hk.1.1 fun ho => hk.1.2 (name_mem_namesOf (hc.1.1 _ ho))

theorem Feeds.name_mem {ls : List Layer} {o n : String} (h : Feeds ls o n) : o ∈ ls.map Layer.name := by
  cases h with
  | leaf h => exact List.mem_map.2 ⟨_, h, rfl⟩
  | model h _ => exact List.mem_map.2 ⟨_, h, rfl⟩

theorem Feeds.mono {ls ls' : List Layer} {o n : String} (h : Feeds ls o n) (hs : ∀ x ∈ ls, x ∈ ls') : Feeds ls' o n := by
  cases h with
  | leaf h => exact .leaf (hs _ h)
  | model h h' => exact .model (hs _ h) h'

theorem traverse_feeds (stack : List Layer) (hc : ClosedAll stack) (hd : (namesOf stack).Nodup) (f : Map β)
    (r : List Leaf × Map β) (h : traverse f stack = .ok r) (o n : String) (l : β) (hf : Feeds stack o n)
    (hl : f o = some l) : r.2 n = some l := by
  induction stack using stack_induction generalizing f r o with
  | nil => cases hf <;> simp_all
  | leaf m c t rest ih =>
    rw [traverse_leaf] at h
    simp only [namesOf, Layer.names, List.singleton_append, List.nodup_cons] at hd
    cases hr : traverse f rest with
    | error e => rw [hr] at h; cases h
    | ok r' =>
      rw [hr] at h; cases h
      have hrest : Feeds rest o n → r'.2 n = some l := fun hf' => ih hc.2 hd.2 f r' hr o hf' hl
      cases hf with
      | leaf hm =>
        simp only [List.mem_cons] at hm
        rcases hm with hm | hm
        · cases hm
          rw [traverse_other rest hc.2 f r' hr _ hd.1, hl]
        · exact hrest (.leaf hm)
      | model hm hs =>
        simp only [List.mem_cons, reduceCtorEq, false_or] at hm
        exact hrest (.model hm hs)
  | model m outs ls rest ih =>
    rw [traverse_model] at h
    simp only [ClosedAll, Layer.Closed] at hc
    have hd' := hd
    simp only [namesOf, Layer.names, List.cons_append, List.nodup_cons] at hd'
    cases he : enter f m outs with
    | error e => rw [he] at h; cases h
    | ok f' =>
      rw [he] at h
      have hcl := (closedAll_append ls rest).2 ⟨hc.1.2, hc.2⟩
      have hdl : (namesOf (ls ++ rest)).Nodup := by rw [namesOf_append]; exact hd'.2
      have hrest : Feeds rest o n → r.2 n = some l := by
        intro hf'
        have ho := name_mem_namesOf hf'.name_mem
        have h1 : o ≠ m := by
          rintro rfl
          exact hd'.1 (List.mem_append.2 (.inr ho))
        have h2 : o ∉ outs := by
          intro hoo
          exact (List.nodup_append.1 hd'.2).2.2 o (name_mem_namesOf (hc.1.1 _ hoo)) o ho rfl
        exact ih hcl hdl f' r h o (hf'.mono fun x hx => List.mem_append.2 (.inr hx)) (by rw [enter_other he h1 h2, hl])
      cases hf with
      | leaf hm =>
        simp only [List.mem_cons, reduceCtorEq, false_or] at hm
        exact hrest (.leaf hm)
      | model hm hs =>
        simp only [List.mem_cons] at hm
        rcases hm with hm | hm
        · cases hm
          obtain ⟨p', hp, rfl⟩ := enter_some he (by simp [hl])
          cases hp
          exact ih hcl hdl _ r h _ (hs.mono fun x hx => List.mem_append.2 (.inl hx)) (by simp [moveKey, hl])
        · exact hrest (.model hm hs)

theorem Feeds.split {a b : List Layer} {o n : String} (h : Feeds (a ++ b) o n) : Feeds a o n ∨ Feeds b o n := by
  cases h with
  | leaf h => exact (List.mem_append.1 h).imp .leaf .leaf
  | model h h' => exact (List.mem_append.1 h).imp (.model · h') (.model · h')

theorem leaf_name_mem {ls : List Layer} {n : String} (h : n ∈ (leavesOf ls).map (·.name)) : n ∈ namesOf ls := by
  induction ls using stack_induction with
  | nil => simp [leavesOf] at h
  | leaf m c t rest ih =>
    simp only [leavesOf, Layer.leaves, List.singleton_append, List.map_cons, List.mem_cons] at h
    simp only [namesOf, Layer.names, List.singleton_append, List.mem_cons]
    exact h.imp_right ih
  | model m outs ls rest ih =>
    simp only [leavesOf, Layer.leaves, ← leavesOf_append] at h
    simp only [namesOf, Layer.names, List.cons_append, ← namesOf_append, List.mem_cons]
    exact .inr (ih h)

theorem traverse_only (stack : List Layer) (hc : ClosedAll stack) (hd : (namesOf stack).Nodup) (f : Map β)
    (r : List Leaf × Map β) (h : traverse f stack = .ok r) (n : String) (l : β)
    (htop : ∀ k ∈ namesOf stack, f k ≠ none → k ∈ stack.map Layer.name)
    (hn : n ∈ (leavesOf stack).map (·.name)) (hl : r.2 n = some l) : ∃ o, f o = some l ∧ Feeds stack o n := by
  induction stack using stack_induction generalizing f r with
  | nil => simp [leavesOf] at hn
  | leaf m c t rest ih =>
    rw [traverse_leaf] at h
    simp only [namesOf, Layer.names, List.singleton_append, List.nodup_cons] at hd
    simp only [namesOf, Layer.names, List.singleton_append, List.mem_cons, List.map_cons, Layer.name] at htop
    cases hr : traverse f rest with
    | error e => rw [hr] at h; cases h
    | ok r' =>
      rw [hr] at h; cases h
      simp only [leavesOf, Layer.leaves, List.singleton_append, List.map_cons, List.mem_cons] at hn
      rcases hn with rfl | hn
      · refine ⟨n, ?_, .leaf (List.mem_cons_self ..)⟩
        rw [← hl]
        exact (traverse_other rest hc.2 f r' hr _ hd.1).symm
      · obtain ⟨o, h1, h2⟩ := ih hc.2 hd.2 f r' hr (fun k hk hfk => by
          rcases htop k (.inr hk) hfk with rfl | h
          · exact absurd hk hd.1
          · exact h) hn hl
        exact ⟨o, h1, h2.mono fun x hx => List.mem_cons_of_mem _ hx⟩
  | model m outs ls rest ih =>
    rw [traverse_model] at h
    simp only [ClosedAll, Layer.Closed] at hc
    simp only [namesOf, Layer.names, List.cons_append, List.nodup_cons, ← namesOf_append] at hd
    simp only [namesOf, Layer.names, List.cons_append, List.mem_cons, List.map_cons, Layer.name, ← namesOf_append] at htop
    simp only [leavesOf, Layer.leaves, ← leavesOf_append] at hn
    have hdis : ∀ k, k ∈ namesOf ls → k ∈ namesOf rest → False := by
      intro k h1 h2
      have := hd.2
      rw [namesOf_append] at this
      exact (List.nodup_append.1 this).2.2 k h1 k h2 rfl
    have hin : ∀ k, k ∈ namesOf (ls ++ rest) → f k ≠ none → k ∈ rest.map Layer.name := by
      intro k hk hfk
      rcases htop k (.inr hk) hfk with rfl | h
      · exact absurd hk hd.1
      · exact h
    cases he : enter f m outs with
    | error e => rw [he] at h; cases h
    | ok f' =>
      rw [he] at h
      have hcl := (closedAll_append ls rest).2 ⟨hc.1.2, hc.2⟩
      cases hfm : f m with
      | none =>
        have hff := enter_none he hfm
        subst hff
        obtain ⟨o, h1, h2⟩ := ih hcl hd.2 _ r h (fun k hk hfk => by
          simp only [List.map_append, List.mem_append]
          exact .inr (hin k hk hfk)) hn hl
        refine ⟨o, h1, ?_⟩
        rcases h2.split with h2 | h2
        · have ho := name_mem_namesOf h2.name_mem
          exact absurd (name_mem_namesOf (hin o (by rw [namesOf_append]; exact List.mem_append.2 (.inl ho)) (by simp [h1])))
            fun h => hdis o ho h
        · exact h2.mono fun x hx => List.mem_cons_of_mem _ hx
      | some lm =>
        obtain ⟨p, hp, rfl⟩ := enter_some he (by simp [hfm])
        subst hp
        have hpl := hc.1.1 p (by simp)
        have hpm : p ≠ m := by
          rintro rfl
          exact hd.1 (by rw [namesOf_append]; exact List.mem_append.2 (.inl (name_mem_namesOf hpl)))
        obtain ⟨o, h1, h2⟩ := ih hcl hd.2 _ r h (fun k hk hfk => by
          simp only [List.map_append, List.mem_append]
          by_cases hkp : k = p
          · subst hkp; exact .inl hpl
          · by_cases hkm : k = m
            · subst hkm; exact absurd hk hd.1
            · simp only [moveKey, hkp, hkm, if_false] at hfk
              exact .inr (hin k hk hfk)) hn hl
        by_cases hop : o = p
        · subst hop
          simp only [moveKey, if_true] at h1
          refine ⟨m, h1, .model (List.mem_cons_self ..) ?_⟩
          rcases h2.split with h2 | h2
          · exact h2
          · exact absurd (name_mem_namesOf h2.name_mem) fun h => hdis o (name_mem_namesOf hpl) h
        · by_cases hom : o = m
          · subst hom; simp [moveKey, hop] at h1
          · simp only [moveKey, hop, hom, if_false] at h1
            refine ⟨o, h1, ?_⟩
            rcases h2.split with h2 | h2
            · have ho := name_mem_namesOf h2.name_mem
              exact absurd (name_mem_namesOf (hin o (by rw [namesOf_append]; exact List.mem_append.2 (.inl ho)) (by simp [h1])))
                fun h => hdis o ho h
            · exact h2.mono fun x hx => List.mem_cons_of_mem _ hx

theorem leaf_names_sublist (ls : List Layer) : ((leavesOf ls).map (·.name)).Sublist (namesOf ls) := by
  induction ls using stack_induction with
  | nil => simp [leavesOf]
  | leaf m c t rest ih =>
    simp only [leavesOf, Layer.leaves, namesOf, Layer.names, List.singleton_append, List.map_cons]
    exact ih.cons_cons m
  | model m outs ls rest ih =>
    simp only [leavesOf, Layer.leaves, ← leavesOf_append, namesOf, Layer.names, List.cons_append, ← namesOf_append]
    exact ih.cons m

theorem Feeds.leaf_mem {ls : List Layer} {o n : String} (h : Feeds ls o n) : n ∈ (leavesOf ls).map (·.name) := by
  induction h with
  | leaf h =>
    obtain ⟨a, b, rfl⟩ := List.append_of_mem h
    simp [leavesOf_append, leavesOf, Layer.leaves]
  | model h _ ih =>
    obtain ⟨a, b, rfl⟩ := List.append_of_mem h
    simp only [leavesOf_append, leavesOf, Layer.leaves, List.map_append, List.mem_append]
    exact .inr (.inl ih)

theorem lookup_some {γ : Type} {l : List (String × γ)} {k : String} {v : γ} (h : l.lookup k = some v) : (k, v) ∈ l := by
  induction l with
  | nil => simp at h
  | cons x l ih =>
    rw [List.lookup_cons] at h
    split at h
    · rename_i hx
      rw [beq_iff_eq] at hx
      cases h; subst hx; exact List.mem_cons_self ..
    · exact List.mem_cons_of_mem _ (ih h)

theorem lookup_none {γ : Type} {l : List (String × γ)} {k : String} (h : l.lookup k = none) (v : γ) : (k, v) ∉ l := by
  induction l with
  | nil => simp
  | cons x l ih =>
    rw [List.lookup_cons] at h
    split at h
    · cases h
    · rename_i hx
      intro hm
      rcases List.mem_cons.1 hm with rfl | hm
      · simp at hx
      · exact ih h hm

theorem dictOf_none {γ : Type} {l : List (String × γ)} {k : String} : dictOf l k = none ↔ ∀ v, (k, v) ∉ l := by
  constructor
  · intro h v hm
    exact lookup_none h v (List.mem_reverse.2 hm)
  · intro h
    cases hl : dictOf l k with
    | none => rfl
    | some v => exact absurd (List.mem_reverse.1 (lookup_some hl)) (h v)

theorem dictOf_some {γ : Type} {l : List (String × γ)} (hd : (l.map Prod.fst).Nodup) {k : String} {v : γ} :
    dictOf l k = some v ↔ (k, v) ∈ l := by
  constructor
  · intro h; exact List.mem_reverse.1 (lookup_some h)
  · intro h
    cases hl : dictOf l k with
    | none => exact absurd h (dictOf_none.1 hl v)
    | some w =>
      have hw := List.mem_reverse.1 (lookup_some hl)
      have : ∀ {l : List (String × γ)}, (l.map Prod.fst).Nodup → (k, v) ∈ l → (k, w) ∈ l → v = w := by
        intro l hd h1 h2
        have := List.inj_on_of_nodup_map hd h1 h2 rfl
        exact (Prod.mk.inj this).2
      rw [this hd h hw]

theorem mem_zip_iff {γ δ : Type} {a : List γ} {b : List δ} {x : γ} {y : δ} :
    (x, y) ∈ a.zip b ↔ ∃ i : ℕ, a[i]? = some x ∧ b[i]? = some y := by
  rw [List.mem_iff_getElem?]
  simp only [List.getElem?_zip_eq_some]

theorem fst_zip {γ δ : Type} (a : List γ) (b : List δ) (h : a.length = b.length) : (a.zip b).map Prod.fst = a := by
  rw [List.map_fst_zip (by omega)]

/-! ## C59 -/

/-- The registered layers with their approximations. -/
def registered (events : List (Event α β)) : List (String × Option α) :=
  events.filterMap fun e => match e with
    | .layer n a => some (n, a)
    | .loss _ _ _ => none

/-- The pieces of a successful registration. -/
theorem collection_ok {outputs : List String} {layers : List Layer} {loss : Losses β} {weights : Container Key ℝ}
    {approx : Container Key (Option α)} {r : List (Event α β) × Map β}
    (h : getLayerCollection outputs layers loss weights approx = .ok r) :
    ∃ f ap ws, lossMap outputs layers loss = .ok f ∧ traverse f layers = .ok (leavesOf layers, r.2) ∧
      verified approx (((leavesOf layers).filter (·.trainable)).map (·.name)) = .ok ap ∧ verified weights outputs = .ok ws ∧
      r.1 = (leavesOf layers).flatMap (registerLeaf (dictOf (ap.map fun e => (e.1.serialize, e.2))) r.2
        (dictOf (ws.filterMap fun e => e.1.asStr.map fun s => (s, e.2)))) := by
  unfold getLayerCollection at h
  split at h
  · cases h
  · rename_i f hf
    rw [push_start, List.append_nil] at h
    split at h
    · cases h
    · rename_i leaves f' ht
      have hl := traverse_leaves _ _ _ ht
      simp only at hl
      subst hl
      split at h
      · cases h
      · rename_i ap hap
        split at h
        · cases h
        · rename_i ws hws
          cases h
          exact ⟨f, ap, ws, hf, ht, hap, hws, rfl⟩

theorem registered_eq (leaves : List Leaf) (approx : Map (Option α)) (loss : Map β) (weights : Map ℝ) :
    registered (leaves.flatMap (registerLeaf approx loss weights)) =
      (leaves.filter (·.trainable)).map fun l => (l.name, approxFor approx l) := by
  induction leaves with
  | nil => rfl
  | cons x l ih =>
    simp only [List.flatMap_cons, registered, List.filterMap_append] at ih ⊢
    rw [ih]
    cases hx : x.trainable <;> cases hl : loss x.name <;> simp [registerLeaf, hx, hl]

/-- C59: the trainable plain layers are registered from left to right, depth first. -/
theorem C59_order (outputs : List String) (layers : List Layer) (loss : Losses β) (weights : Container Key ℝ)
    (approx : Container Key (Option α)) (r : List (Event α β) × Map β)
    (h : getLayerCollection outputs layers loss weights approx = .ok r) :
    (registered r.1).map Prod.fst = ((leavesOf layers).filter (·.trainable)).map (·.name) := by
  obtain ⟨f, ap, ws, -, -, -, -, he⟩ := collection_ok h
  rw [he, registered_eq]
  simp

/-- C59: a list of approximations has as many entries as there are trainable layers, and the `i`th entry goes to the `i`th
of them, provided that these layers have different names. -/
theorem C59_list_partial (outputs : List String) (layers : List Layer) (loss : Losses β) (weights : Container Key ℝ)
    (as : List (Option α)) (r : List (Event α β) × Map β)
    (hd : (((leavesOf layers).filter (·.trainable)).map (·.name)).Nodup)
    (h : getLayerCollection outputs layers loss weights (.list as) = .ok r) :
    as.length = ((leavesOf layers).filter (·.trainable)).length ∧
    registered r.1 = (((leavesOf layers).filter (·.trainable)).map (·.name)).zip as := by
  obtain ⟨f, ap, ws, -, -, hap, -, he⟩ := collection_ok h
  simp only [verified] at hap
  split at hap
  · cases hap
  rename_i hlen
  rw [not_not, List.length_map] at hlen
  cases hap
  refine ⟨hlen.symm, ?_⟩
  rw [he, registered_eq]
  generalize hL : (leavesOf layers).filter (·.trainable) = L at hd hlen
  rw [List.map_map]
  apply List.ext_getElem?
  intro i
  rw [List.getElem?_map]
  by_cases hi : i < L.length
  · have hi' : i < as.length := by omega
    have hz : ((L.map (·.name)).zip as).map (fun e => ((Key.str e.1).serialize, e.2)) = (L.map (·.name)).zip as := by
      conv_rhs => rw [← List.map_id ((L.map (·.name)).zip as)]
      rfl
    have hget : dictOf ((L.map (·.name)).zip as) L[i].name = some as[i] := by
      rw [dictOf_some (by rw [fst_zip _ _ (by simpa using hlen)]; exact hd), mem_zip_iff]
      exact ⟨i, by simp [hi], by simp [hi']⟩
    have hz' : ((L.map (·.name)).zip as).map ((fun e : Key × Option α => (e.1.serialize, e.2)) ∘ fun e => (Key.str e.1, e.2)) =
        (L.map (·.name)).zip as := hz
    rw [hz', List.getElem?_eq_getElem hi, Option.map_some]
    rw [List.getElem?_eq_getElem (by simp [hi, hi'])]
    simp [approxFor, hget]
  · rw [List.getElem?_eq_none (by omega), List.getElem?_eq_none (by simp; omega)]
    rfl

/-- C59: a list of any other length is rejected. -/
theorem C59_list_length (outputs : List String) (layers : List Layer) (loss : Losses β) (weights : Container Key ℝ)
    (as : List (Option α)) (hl : as.length ≠ ((leavesOf layers).filter (·.trainable)).length)
    (r : List (Event α β) × Map β) : getLayerCollection outputs layers loss weights (.list as) ≠ .ok r := by
  intro h
  obtain ⟨f, ap, ws, -, -, hap, -, he⟩ := collection_ok h
  simp only [verified, List.length_map] at hap
  split at hap
  · cases hap
  · rename_i hlen
    exact hl (by omega)

/-- What a dictionary of approximations says about a layer, given its items: the entry for the name, else the entry for the
class (the class itself or its serialised form), else the default. -/
inductive Chosen (items : List (Key × Option α)) (l : Leaf) : Option α → Prop
  | name {a : Option α} : (Key.str l.name, a) ∈ items → Chosen items l a
  | cls {a : Option α} : (∀ b, (Key.str l.name, b) ∉ items) →
      (Key.cls l.cls, a) ∈ items ∨ (Key.str ("kfac_class_" ++ l.cls), a) ∈ items → Chosen items l a
  | default : (∀ b, (Key.str l.name, b) ∉ items) → (∀ b, (Key.cls l.cls, b) ∉ items) →
      (∀ b, (Key.str ("kfac_class_" ++ l.cls), b) ∉ items) → Chosen items l none

theorem serialize_mem {items : List (Key × Option α)} {s : String} {v : Option α} :
    (s, v) ∈ items.map (fun e => (e.1.serialize, e.2)) ↔ ∃ k, (k, v) ∈ items ∧ k.serialize = s := by
  simp only [List.mem_map, Prod.mk.injEq, Prod.exists]
  constructor
  · rintro ⟨k, w, h, rfl, rfl⟩; exact ⟨k, h, rfl⟩
  · rintro ⟨k, h, rfl⟩; exact ⟨k, v, h, rfl, rfl⟩

theorem serialize_class {k : Key} {c : String} : k.serialize = classPrefix ++ c ↔
    k = .cls c ∨ k = .str ("kfac_class_" ++ c) := by
  cases k with
  | str s => simp [Key.serialize, classPrefix]
  | cls d =>
    simp only [Key.serialize, Key.cls.injEq, reduceCtorEq, or_false]
    constructor
    · intro h
      have := congrArg String.toList h
      simp only [String.toList_append, List.append_cancel_left_eq] at this
      exact String.toList_inj.1 this
    · rintro rfl; rfl

/-- C59: with a dictionary, the name has precedence over the class and otherwise the default is used. No two keys may
serialise to the same string, and names of layers do not start with the prefix reserved for classes. -/
theorem C59_dict (outputs : List String) (layers : List Layer) (loss : Losses β) (weights : Container Key ℝ)
    (items : List (Key × Option α)) (hd : (items.map fun e => e.1.serialize).Nodup) (r : List (Event α β) × Map β)
    (h : getLayerCollection outputs layers loss weights (.dict items) = .ok r)
    (hn : ∀ l ∈ leavesOf layers, hasPrefix l.name = false) :
    List.Forall₂ (fun l e => e.1 = l.name ∧ Chosen items l e.2) ((leavesOf layers).filter (·.trainable)) (registered r.1) := by
  obtain ⟨f, ap, ws, -, -, hap, -, he⟩ := collection_ok h
  have hap' : ap = items := by
    simp only [verified] at hap
    split at hap
    · cases hap; rfl
    · cases hap
  subst hap'
  have hnd : ((ap.map fun e => (e.1.serialize, e.2)).map Prod.fst).Nodup := by rw [List.map_map]; exact hd
  rw [he, registered_eq, List.forall₂_map_right_iff, List.forall₂_same]
  intro l hl
  refine ⟨rfl, ?_⟩
  have hpl := hn l (List.mem_filter.1 hl).1
  have hname : ∀ v, (l.name, v) ∈ ap.map (fun e => (e.1.serialize, e.2)) ↔ (Key.str l.name, v) ∈ ap := by
    intro v
    rw [serialize_mem]
    constructor
    · rintro ⟨k, hk, hs⟩
      cases k with
      | str s => simp only [Key.serialize] at hs; rw [← hs]; exact hk
      | cls c =>
        rw [← hs] at hpl
        have : hasPrefix (classPrefix ++ c) = true := by
          rw [hasPrefix, List.isPrefixOf_iff_prefix, String.toList_append]
          exact List.prefix_append ..
        simp [Key.serialize, this] at hpl
    · intro hk; exact ⟨_, hk, rfl⟩
  simp only [approxFor]
  cases hD : dictOf (ap.map fun e => (e.1.serialize, e.2)) l.name with
  | some v => exact .name ((hname v).1 ((dictOf_some hnd).1 hD))
  | none =>
    have hno : ∀ b, (Key.str l.name, b) ∉ ap := fun b hb => dictOf_none.1 hD b ((hname b).2 hb)
    simp only
    cases hC : dictOf (ap.map fun e => (e.1.serialize, e.2)) (classPrefix ++ l.cls) with
    | some v =>
      obtain ⟨k, hk, hs⟩ := serialize_mem.1 ((dictOf_some hnd).1 hC)
      refine .cls hno ?_
      rcases serialize_class.1 hs with rfl | rfl
      · exact .inl hk
      · exact .inr hk
    | none =>
      have := dictOf_none.1 hC
      exact .default hno (fun b hb => this b (serialize_mem.2 ⟨_, hb, rfl⟩))
        fun b hb => this b (serialize_mem.2 ⟨_, hb, by simp [Key.serialize, classPrefix]⟩)

/-- C59: a dictionary with a name that is no trainable layer is rejected. -/
theorem C59_dict_unknown (outputs : List String) (layers : List Layer) (loss : Losses β) (weights : Container Key ℝ)
    (items : List (Key × Option α)) (s : String) (a : Option α) (hs : (Key.str s, a) ∈ items) (hp : hasPrefix s = false)
    (hu : ∀ l ∈ leavesOf layers, l.trainable = true → l.name ≠ s) (r : List (Event α β) × Map β) :
    getLayerCollection outputs layers loss weights (.dict items) ≠ .ok r := by
  intro h
  obtain ⟨f, ap, ws, -, -, hap, -, he⟩ := collection_ok h
  simp only [verified] at hap
  split at hap
  · rename_i hall
    rw [List.all_eq_true] at hall
    have := hall s (List.mem_filterMap.2 ⟨_, hs, by simp [Key.mustMatch, hp]⟩)
    simp only [List.contains_eq_mem, List.mem_map, List.mem_filter, decide_eq_true_eq] at this
    obtain ⟨l, ⟨h1, h2⟩, h3⟩ := this
    exact hu l h1 h2 h3
  · cases hap

/-- C59, violated for layers of the same name in different nested models: both get the approximation given for the
second. -/
theorem C59_same_name_counterexample (m m' d : String) (a b : Option α) :
    ∃ r : List (Event α β) × Map β,
      getLayerCollection [m'] [.model m [d] [.leaf d "Dense" true], .model m' [d] [.leaf d "Dense" true]] .none .none
        (.list [a, b]) = .ok r ∧ registered r.1 = [(d, b), (d, b)] := by
  refine ⟨_, by
    simp only [getLayerCollection, lossMap, push_start, List.append_nil, traverse_model, traverse_leaf, traverse_nil, enter,
      Except.map, List.cons_append, List.nil_append, Option.isSome_none, Bool.false_eq_true, if_false, verified]
    simp
    rfl, ?_⟩
  simp [registered, registerLeaf, approxFor, dictOf, Key.serialize, List.filterMap]

/-! ## C60 -/

/-- The weight given for output `o`. -/
def WeightOf (outputs : List String) (weights : Container Key ℝ) (o : String) (w : ℝ) : Prop :=
  match weights with
  | .none => w = 1
  | .dict items => (Key.str o, w) ∈ items ∨ (∀ v, (Key.str o, v) ∉ items) ∧ w = 1
  | .list ws => ∃ i : ℕ, outputs[i]? = some o ∧ ws[i]? = some w
  | .other => False

/-- The loss given for output `o`. -/
def LossOf (outputs : List String) (loss : Losses β) (o : String) (l : β) : Prop :=
  match loss with
  | .none => False
  | .dict items => (o, l) ∈ items
  | .list ls => ∃ i : ℕ, outputs[i]? = some o ∧ ls[i]? = some l
  | .single l' => outputs = [o] ∧ l' = l

/-- Keys of Python dictionaries are different. -/
def Container.Distinct {κ γ : Type} : Container κ γ → Prop
  | .dict items => (items.map Prod.fst).Nodup
  | _ => True

/-- Keys of Python dictionaries are different; for a single loss, the output is called like the last layer. -/
def Losses.Ok (outputs : List String) (layers : List Layer) : Losses β → Prop
  | .dict items => (items.map Prod.fst).Nodup
  | .single _ => ∃ x, layers.getLast? = some x ∧ outputs = [x.name]
  | _ => True

theorem lossMap_spec {outputs : List String} {layers : List Layer} {loss : Losses β} (ho : outputs.Nodup)
    (hok : loss.Ok outputs layers) {f : Map β} (h : lossMap outputs layers loss = .ok f) (o : String) (l : β) :
    f o = some l ↔ LossOf outputs loss o l := by
  cases loss with
  | none => cases h; simp [LossOf]
  | dict items =>
    simp only [lossMap] at h
    split at h
    · rename_i he
      cases h
      simp only [List.isEmpty_iff] at he
      simp [LossOf, he]
    · split at h
      · cases h; exact dictOf_some hok
      · cases h
  | list items =>
    simp only [lossMap] at h
    split at h
    · rename_i he
      cases h
      simp only [List.isEmpty_iff] at he
      simp [LossOf, he]
    · split at h
      · cases h
      · rename_i hl
        cases h
        rw [dictOf_some (by rw [fst_zip _ _ (by omega)]; exact ho), mem_zip_iff]
        rfl
  | single l' =>
    obtain ⟨x, hx, hox⟩ := hok
    simp only [lossMap, hox, hx, List.length_cons, List.length_nil, Nat.zero_add, Nat.lt_irrefl, if_false] at h
    cases h
    simp only [LossOf, hox, List.cons.injEq, and_true]
    by_cases hxo : o = x.name
    · subst hxo; simp
    · simp [hxo, Ne.symm hxo]

theorem lossOf_output {outputs : List String} {layers : List Layer} {loss : Losses β} {f : Map β}
    (h : lossMap outputs layers loss = .ok f) {o : String} {l : β} (hl : LossOf outputs loss o l) : o ∈ outputs := by
  cases loss with
  | none => cases hl
  | dict items =>
    simp only [lossMap] at h
    simp only [LossOf] at hl
    split at h
    · rename_i he
      rw [List.isEmpty_iff] at he
      simp [he] at hl
    · split at h
      · rename_i hb
        rw [Bool.and_eq_true, List.all_eq_true, List.all_eq_true] at hb
        simpa using hb.2 _ hl
      · cases h
  | list items =>
    obtain ⟨i, h1, -⟩ := hl
    exact List.mem_of_getElem? h1
  | single l' => rw [hl.1]; simp

theorem loss_mem {leaves : List Leaf} {approx : Map (Option α)} {loss : Map β} {weights : Map ℝ} {n : String} {l : β} {c : ℝ} :
    Event.loss n l c ∈ leaves.flatMap (registerLeaf approx loss weights) ↔
      n ∈ leaves.map (·.name) ∧ loss n = some l ∧ c = (weights n).getD 1 := by
  simp only [List.mem_flatMap, List.mem_map]
  constructor
  · rintro ⟨x, hx, h⟩
    simp only [registerLeaf, List.mem_append] at h
    rcases h with h | h
    · split at h <;> simp at h
    · cases hl : loss x.name with
      | none => simp [hl] at h
      | some y =>
        simp only [hl, List.mem_singleton, Event.loss.injEq] at h
        obtain ⟨rfl, rfl, rfl⟩ := h
        exact ⟨⟨x, hx, rfl⟩, hl, rfl⟩
  · rintro ⟨⟨x, hx, rfl⟩, h1, rfl⟩
    refine ⟨x, hx, ?_⟩
    simp [registerLeaf, h1]

/-- C60: the losses registered are exactly those of the outputs, each for the plain layer that computes the output, also
through nested models (whatever the coefficient). -/
theorem C60_losses (outputs : List String) (layers : List Layer) (loss : Losses β) (weights : Container Key ℝ)
    (approx : Container Key (Option α)) (hc : ClosedAll layers) (hd : (namesOf layers).Nodup) (ho : outputs.Nodup)
    (hout : ∀ o ∈ outputs, o ∈ layers.map Layer.name) (hok : loss.Ok outputs layers) (r : List (Event α β) × Map β)
    (h : getLayerCollection outputs layers loss weights approx = .ok r) (n : String) (l : β) :
    (∃ c, Event.loss n l c ∈ r.1) ↔ ∃ o, LossOf outputs loss o l ∧ Feeds layers o n := by
  obtain ⟨f, ap, ws, hf, ht, -, -, he⟩ := collection_ok h
  have hspec := lossMap_spec ho hok hf
  rw [he]
  simp only [loss_mem]
  constructor
  · rintro ⟨c, hn, hl, -⟩
    obtain ⟨o, h1, h2⟩ := traverse_only layers hc hd f _ ht n l (fun k _ hk => by
      obtain ⟨x, hx⟩ := Option.ne_none_iff_exists'.1 hk
      exact hout k (lossOf_output hf ((hspec k x).1 hx))) hn hl
    exact ⟨o, (hspec o l).1 h1, h2⟩
  · rintro ⟨o, h1, h2⟩
    exact ⟨_, h2.leaf_mem, traverse_feeds layers hc hd f _ ht o n l h2 ((hspec o l).2 h1), rfl⟩

/-- The layers losses are registered for. -/
def lossLayers (events : List (Event α β)) : List String :=
  events.filterMap fun e => match e with
    | .layer _ _ => none
    | .loss n _ _ => some n

/-- C60: at most one loss is registered for a layer. -/
theorem C60_once (outputs : List String) (layers : List Layer) (loss : Losses β) (weights : Container Key ℝ)
    (approx : Container Key (Option α)) (hd : (namesOf layers).Nodup) (r : List (Event α β) × Map β)
    (h : getLayerCollection outputs layers loss weights approx = .ok r) : (lossLayers r.1).Nodup := by
  obtain ⟨f, ap, ws, -, -, -, -, he⟩ := collection_ok h
  have hnd := hd.sublist (leaf_names_sublist layers)
  rw [he]
  generalize dictOf (ap.map fun e => (e.1.serialize, e.2)) = A
  generalize dictOf (ws.filterMap fun e => e.1.asStr.map fun s => (s, e.2)) = W
  have : (lossLayers ((leavesOf layers).flatMap (registerLeaf A r.2 W))).Sublist ((leavesOf layers).map (·.name)) := by
    generalize leavesOf layers = ls
    induction ls with
    | nil => simp [lossLayers]
    | cons x ls ih =>
      simp only [lossLayers, List.flatMap_cons, List.filterMap_append, List.map_cons] at ih ⊢
      cases hx : x.trainable <;> cases hl : r.2 x.name <;> simp [registerLeaf, hx, hl, ih, List.Sublist.cons]
  exact hnd.sublist this

theorem weights_spec {outputs : List String} {weights : Container Key ℝ} (ho : outputs.Nodup) (hw : weights.Distinct)
    {ws : List (Key × ℝ)} (h : verified weights outputs = .ok ws) (o : String) (hoo : o ∈ outputs) (c : ℝ) :
    c = (dictOf (ws.filterMap fun e => e.1.asStr.map fun s => (s, e.2)) o).getD 1 ↔ WeightOf outputs weights o c := by
  cases weights with
  | none => simp only [verified] at h; cases h; simp [dictOf, WeightOf]
  | other => cases h
  | dict items =>
    have : ws = items := by
      simp only [verified] at h
      split at h
      · cases h; rfl
      · cases h
    subst this
    have hmem : ∀ v, (o, v) ∈ (ws.filterMap fun e => e.1.asStr.map fun s => (s, e.2)) ↔ (Key.str o, v) ∈ ws := by
      intro v
      simp only [List.mem_filterMap, Option.map_eq_some_iff, Prod.mk.injEq, Prod.exists]
      constructor
      · rintro ⟨k, w, hk, s, hs, rfl, rfl⟩
        cases k with
        | str s' => simp only [Key.asStr, Option.some.injEq] at hs; subst hs; exact hk
        | cls c => simp [Key.asStr] at hs
      · intro hk; exact ⟨_, _, hk, o, rfl, rfl, rfl⟩
    have hnd : ((ws.filterMap fun e => e.1.asStr.map fun s => (s, e.2)).map Prod.fst).Nodup := by
      rw [List.map_filterMap]
      have : (fun x : Key × ℝ => Option.map Prod.fst (Option.map (fun s => (s, x.2)) x.1.asStr)) = fun x => x.1.asStr := by
        funext x; cases x.1.asStr <;> rfl
      rw [this]
      have h2 : ws.filterMap (fun x => x.1.asStr) = (ws.map Prod.fst).filterMap Key.asStr := by
        rw [List.filterMap_map]; rfl
      rw [h2]
      refine List.Nodup.filterMap ?_ hw
      intro a b s ha hb
      cases a <;> cases b <;> simp_all [Key.asStr]
    simp only [WeightOf]
    cases hD : dictOf (ws.filterMap fun e => e.1.asStr.map fun s => (s, e.2)) o with
    | none =>
      have hno := dictOf_none.1 hD
      have hno' : ∀ v, (Key.str o, v) ∉ ws := fun v hv => hno v ((hmem v).2 hv)
      simp [hno']
    | some v =>
      have hv := (hmem v).1 ((dictOf_some hnd).1 hD)
      simp only [Option.getD_some]
      constructor
      · rintro rfl; exact .inl hv
      · rintro (hc | ⟨hno, -⟩)
        · have := (dictOf_some hnd).2 ((hmem c).2 hc)
          rw [hD] at this; cases this; rfl
        · exact absurd hv (hno v)
  | list items =>
    simp only [verified] at h
    split at h
    · cases h
    · rename_i hl
      rw [not_not] at hl
      cases h
      have : ((outputs.zip items).map fun e => (Key.str e.1, e.2)).filterMap
          (fun e => e.1.asStr.map fun s => (s, e.2)) = outputs.zip items := by
        rw [List.filterMap_map]
        exact List.filterMap_some
      rw [this]
      simp only [WeightOf]
      obtain ⟨i, hi, hio⟩ := List.mem_iff_getElem.1 hoo
      have hi' : i < items.length := by omega
      have hsome := (dictOf_some (by rw [fst_zip _ _ hl]; exact ho)).2
        (mem_zip_iff.2 ⟨i, by rw [List.getElem?_eq_getElem hi, hio], List.getElem?_eq_getElem hi'⟩ : (o, items[i]) ∈ outputs.zip items)
      rw [hsome, Option.getD_some]
      constructor
      · rintro rfl; exact ⟨i, by rw [List.getElem?_eq_getElem hi, hio], List.getElem?_eq_getElem hi'⟩
      · rintro ⟨j, hj, hjc⟩
        have := (dictOf_some (by rw [fst_zip _ _ hl]; exact ho)).2 (mem_zip_iff.2 ⟨j, hj, hjc⟩ : (o, c) ∈ outputs.zip items)
        rw [hsome] at this; cases this; rfl

/-- C60 for models whose outputs are computed by plain layers directly in the model: losses and weights reach them.
Missing: outputs that are nested models. -/
theorem C60_weights_partial (outputs : List String) (layers : List Layer) (loss : Losses β) (weights : Container Key ℝ)
    (approx : Container Key (Option α)) (hc : ClosedAll layers) (hd : (namesOf layers).Nodup) (ho : outputs.Nodup)
    (hout : ∀ o ∈ outputs, ∃ c t, Layer.leaf o c t ∈ layers) (hok : loss.Ok outputs layers) (hw : weights.Distinct)
    (r : List (Event α β) × Map β) (h : getLayerCollection outputs layers loss weights approx = .ok r) (o : String) (l : β)
    (c : ℝ) : Event.loss o l c ∈ r.1 ↔ LossOf outputs loss o l ∧ WeightOf outputs weights o c := by
  have hout' : ∀ o ∈ outputs, o ∈ layers.map Layer.name := by
    intro o hoo
    obtain ⟨c, t, hm⟩ := hout o hoo
    exact List.mem_map.2 ⟨_, hm, rfl⟩
  have hiff := C60_losses outputs layers loss weights approx hc hd ho hout' hok r h
  obtain ⟨f, ap, ws, hf, ht, hap, hws, he⟩ := collection_ok h
  -- an output feeds the layer of its name only
  have hself : ∀ o ∈ outputs, ∀ n, Feeds layers o n → n = o := by
    intro o hoo n hF
    obtain ⟨c', t, hm⟩ := hout o hoo
    cases hF with
    | leaf _ => rfl
    | model hm' _ =>
      obtain ⟨a, b, rfl⟩ := List.append_of_mem hm
      rw [namesOf_append] at hd
      simp only [namesOf, Layer.names, List.singleton_append] at hd
      have hdd := List.nodup_append.1 hd
      rcases List.mem_append.1 hm' with hx | hx
      · exact absurd rfl (hdd.2.2 o (name_mem_namesOf (List.mem_map.2 ⟨_, hx, rfl⟩)) o (List.mem_cons_self ..))
      · rcases List.mem_cons.1 hx with hx | hx
        · cases hx
        · exact absurd (name_mem_namesOf (List.mem_map.2 ⟨_, hx, rfl⟩)) (List.nodup_cons.1 hdd.2.1).1
  constructor
  · intro hm
    obtain ⟨o', hl', hF⟩ := (hiff o l).1 ⟨c, hm⟩
    have hoo := lossOf_output hf hl'
    have := hself o' hoo o hF
    subst this
    refine ⟨hl', ?_⟩
    rw [he] at hm
    exact (weights_spec ho hw hws o hoo c).1 (loss_mem.1 hm).2.2
  · rintro ⟨hl, hwo⟩
    have hoo := lossOf_output hf hl
    obtain ⟨c', t, hm⟩ := hout o hoo
    obtain ⟨c2, h2⟩ := (hiff o l).2 ⟨o, hl, .leaf hm⟩
    rw [he] at h2 ⊢
    obtain ⟨a1, a2, -⟩ := loss_mem.1 h2
    exact loss_mem.2 ⟨a1, a2, (weights_spec ho hw hws o hoo c).2 hwo⟩

mutual
/-- The names of the nested models. -/
def Layer.models : Layer → List String
  | .leaf _ _ _ => []
  | .model n _ ls => n :: modelsOf ls
def modelsOf : List Layer → List String
  | [] => []
  | l :: ls => l.models ++ modelsOf ls
end

theorem modelsOf_append (a b : List Layer) : modelsOf (a ++ b) = modelsOf a ++ modelsOf b := by
  induction a with
  | nil => simp [modelsOf]
  | cons x a ih => simp [modelsOf, ih]

theorem traverse_same (stack : List Layer) (f : Map β) (hf : ∀ m ∈ modelsOf stack, f m = none) :
    traverse f stack = .ok (leavesOf stack, f) := by
  induction stack using stack_induction with
  | nil => rw [traverse_nil]; rfl
  | leaf n c t rest ih => rw [traverse_leaf, ih (by simpa [modelsOf, Layer.models] using hf)]; simp [Except.map, leavesOf, Layer.leaves]
  | model n outs ls rest ih =>
    simp only [modelsOf, Layer.models, List.cons_append, ← modelsOf_append, List.mem_cons, forall_eq_or_imp] at hf
    have he : enter f n outs = .ok f := by simp [enter, hf.1]
    rw [traverse_model, he]
    simp only
    rw [ih hf.2]
    simp [leavesOf, Layer.leaves, leavesOf_append]

/-- C60: the user's dictionary of losses is as before, if no output is a nested model. -/
theorem C60_dict_kept_partial (outputs : List String) (layers : List Layer) (items : List (String × β))
    (weights : Container Key ℝ) (approx : Container Key (Option α)) (hne : items ≠ [])
    (hout : ∀ o ∈ outputs, o ∉ modelsOf layers)
    (r : List (Event α β) × Map β) (h : getLayerCollection outputs layers (.dict items) weights approx = .ok r) :
    r.2 = dictOf items := by
  obtain ⟨f, ap, ws, hf, ht, hap, hws, he⟩ := collection_ok h
  simp only [lossMap] at hf
  split at hf
  · rename_i hem; exact absurd (List.isEmpty_iff.1 hem) hne
  split at hf
  · rename_i hb
    cases hf
    rw [Bool.and_eq_true, List.all_eq_true, List.all_eq_true] at hb
    rw [traverse_same] at ht
    · simp only [Except.ok.injEq, Prod.mk.injEq, true_and] at ht
      exact ht.symm
    · intro m hm
      rw [dictOf_none]
      intro v hv
      have := hb.2 _ hv
      simp only [List.contains_eq_mem, decide_eq_true_eq] at this
      exact hout m this hm
  · cases hf

/-- C60, violated for an output that is a nested model: the weight given for it is ignored, and the entry of the user's
dictionary of losses is renamed. -/
theorem C60_nested_counterexample (m d : String) (hmd : m ≠ d) (hp : hasPrefix m = false) (l : β) (w : ℝ) :
    ∃ r : List (Event α β) × Map β,
      getLayerCollection [m] [.model m [d] [.leaf d "Dense" true]] (.dict [(m, l)]) (.dict [(.str m, w)]) .none = .ok r ∧
      r.1 = [.layer d none, .loss d l 1] ∧ r.2 m = none ∧ r.2 d = some l := by
  have hdm : (d == m) = false := by simp [Ne.symm hmd]
  refine ⟨([.layer d none, .loss d l 1], moveKey (dictOf [(m, l)]) d m), ?_, rfl, by simp [moveKey, hmd], by
    simp [moveKey, dictOf]⟩
  simp [getLayerCollection, lossMap, pushAll_eq, traverse_model, traverse_leaf, traverse_nil, enter,
      Except.map, verified, dictOf, Key.mustMatch, hp, registerLeaf, moveKey, approxFor, Key.asStr, List.lookup_cons, hdm]

/-- C60, violated for a single loss if the output is not called like the last layer (a model used as a callable): the
weight given for the output is ignored. -/
theorem C60_single_counterexample (o d : String) (hod : o ≠ d) (hp : hasPrefix o = false) (l : β) (w : ℝ) :
    ∃ r : List (Event α β) × Map β,
      getLayerCollection [o] [.leaf d "Dense" true] (.single l) (.dict [(.str o, w)]) .none = .ok r ∧
      r.1 = [.layer d none, .loss d l 1] := by
  have hdm : (d == o) = false := by simp [Ne.symm hod]
  refine ⟨([.layer d none, .loss d l 1], fun k => if k = d then some l else none), ?_, rfl⟩
  simp [getLayerCollection, lossMap, pushAll_eq, traverse_leaf, traverse_nil, Layer.name,
      Except.map, verified, dictOf, Key.mustMatch, hp, registerLeaf, approxFor, Key.asStr, List.lookup_cons, hdm]
  funext k
  by_cases hk : k = d <;> simp [hk]

/-- A model with an ordinary layer, a nested model and an output layer, with a dictionary of approximations. -/
example : ∃ r : List (Event String String) × Map String,
    getLayerCollection ["out"] [.leaf "a" "Dense" true, .model "m" ["b"] [.leaf "b" "Conv2D" true], .leaf "out" "Dense" true]
      (.dict [("out", "mse")]) (.dict [(.str "out", 3)]) (.dict [(.str "a", some "diag"), (.cls "Dense", some "kron")]) = .ok r ∧
    r.1 = [.layer "a" (some "diag"), .layer "b" none, .layer "out" (some "kron"), .loss "out" "mse" 3] := by
  have h1 : hasPrefix "a" = false := by decide
  have h2 : hasPrefix "out" = false := by decide
  have e1 : (classPrefix ++ "Dense" : String) = "kfac_class_Dense" := by decide
  have e2 : (classPrefix ++ "Conv2D" : String) = "kfac_class_Conv2D" := by decide
  refine ⟨([.layer "a" (some "diag"), .layer "b" none, .layer "out" (some "kron"), .loss "out" "mse" 3],
    dictOf [("out", "mse")]), ?_, rfl⟩
  simp [getLayerCollection, lossMap, pushAll_eq, traverse_model, traverse_leaf, traverse_nil, enter, Except.map, verified,
    dictOf, Key.mustMatch, h1, h2, registerLeaf, approxFor, Key.asStr, List.lookup_cons, Key.serialize, e1, e2]

/-- The hypotheses of `C60_losses` for a doubly nested output. -/
example : ∃ r : List (Event String String) × Map String,
    getLayerCollection ["m"] [.leaf "a" "Dense" true, .model "m" ["k"] [.leaf "b" "Conv2D" true, .model "k" ["c"] [.leaf "c" "Dense" true]]]
      (.dict [("m", "mse")]) .none .none = .ok r ∧ (∃ x, Event.loss "c" "mse" x ∈ r.1) := by
  have hex : ∃ r : List (Event String String) × Map String,
    getLayerCollection ["m"] [.leaf "a" "Dense" true, .model "m" ["k"] [.leaf "b" "Conv2D" true, .model "k" ["c"] [.leaf "c" "Dense" true]]]
      (.dict [("m", "mse")]) .none .none = .ok r := by
    refine ⟨([.layer "a" none, .layer "b" none, .layer "c" none, .loss "c" "mse" 1],
      moveKey (moveKey (dictOf [("m", "mse")]) "k" "m") "c" "k"), ?_⟩
    simp [getLayerCollection, lossMap, pushAll_eq, traverse_model, traverse_leaf, traverse_nil, enter, Except.map, verified,
      dictOf, moveKey, registerLeaf, approxFor]
  obtain ⟨r, hr⟩ := hex
  refine ⟨r, hr, (C60_losses ["m"] _ (.dict [("m", "mse")]) _ _ ?_ ?_ (by simp) ?_ (by simp [Losses.Ok]) r hr "c" "mse").2
    ⟨"m", by simp [LossOf], ?_⟩⟩
  · simp [ClosedAll, Layer.Closed, Layer.name]
  · simp [namesOf, Layer.names]
  · simp [Layer.name]
  · exact .model (p := "k") (sub := [.leaf "b" "Conv2D" true, .model "k" ["c"] [.leaf "c" "Dense" true]]) (by simp)
      (.model (p := "c") (sub := [.leaf "c" "Dense" true]) (by simp) (.leaf (c := "Dense") (t := true) (by simp)))

end Kfac.Keras.Layers
