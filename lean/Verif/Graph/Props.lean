import Verif.Graph.Model
import Mathlib.Data.Set.Card
import Mathlib.Data.Set.Finite.Basic
import Mathlib.Data.Fintype.Basic
import Mathlib.Tactic.Ring

/-! # C61, C67: the subgraph of the losses -/

namespace Kfac.SubGraph

variable {T O : Type} [DecidableEq T] [DecidableEq O]

/-- `roots` depend on the node: it is one of them, produces a tensor they depend on, or is an input of an op they
depend on. -/
inductive Dep (G : Graph T O) (roots : List (Node T O)) : Node T O → Prop
  | root {n : Node T O} : n ∈ roots → Dep G roots n
  | op {t : T} : Dep G roots (.tensor t) → Dep G roots (.op (G.opOf t))
  | input {o : O} {t : T} : Dep G roots (.op o) → t ∈ G.inputs o → Dep G roots (.tensor t)

/-- `o` uses the value of `t`: it consumes it and is no relay, or it uses what a relay makes of it. -/
inductive Uses (G : Graph T O) : T → O → Prop
  | direct {t : T} {o : O} : o ∈ G.consumers t → G.relay o = false → Uses G t o
  | relayed {t t' : T} {r o : O} : r ∈ G.consumers t → G.relay r = true → t' ∈ G.outputs r → Uses G t' o → Uses G t o

/-! ### The loop -/

/-- Loop invariant; `R` are the nodes still to be visited in the current list. -/
structure Inv (G : Graph T O) (roots : List (Node T O)) (R : List (Node T O)) (s : State T O) : Prop where
  sound : ∀ n ∈ s.members, Dep G roots n
  pending : ∀ l ∈ R :: s.stack, ∀ n ∈ l, Dep G roots n
  roots : ∀ n ∈ roots, n ∈ s.members ∨ ∃ l ∈ R :: s.stack, n ∈ l
  closed : ∀ n ∈ s.members, ∀ l ∈ push G n, ∀ c ∈ l, c ∈ s.members ∨ ∃ l' ∈ R :: s.stack, c ∈ l'

omit [DecidableEq T] [DecidableEq O] in
theorem push_dep {G : Graph T O} {roots : List (Node T O)} {n : Node T O} (h : Dep G roots n) :
    ∀ l ∈ push G n, ∀ c ∈ l, Dep G roots c := by
  cases n with
  | tensor t =>
    simp only [push, List.mem_singleton]
    rintro l rfl c hc
    rw [List.mem_singleton] at hc
    exact hc ▸ h.op
  | op o =>
    simp only [push, List.mem_singleton]
    rintro l rfl c hc
    obtain ⟨t, ht, rfl⟩ := List.mem_map.1 hc
    exact h.input ht
  | tuple ts => simp [push]

theorem inv_visit {G : Graph T O} {roots : List (Node T O)} {n : Node T O} {R : List (Node T O)} {s : State T O}
    (h : Inv G roots (n :: R) s) : Inv G roots R (visit G s n) := by
  have hn : Dep G roots n := h.pending (n :: R) (by simp) n (by simp)
  unfold visit
  split
  · rename_i hm
    refine ⟨h.sound, ?_, ?_, ?_⟩
    · intro l hl c hc
      rcases List.mem_cons.1 hl with rfl | hl
      · exact h.pending (n :: l) (by simp) c (by simp [hc])
      · exact h.pending l (by simp [hl]) c hc
    · intro c hc
      rcases h.roots c hc with h1 | ⟨l, hl, hcl⟩
      · exact .inl h1
      · rcases List.mem_cons.1 hl with rfl | hl
        · rcases List.mem_cons.1 hcl with rfl | hcl
          · exact .inl hm
          · exact .inr ⟨R, by simp, hcl⟩
        · exact .inr ⟨l, by simp [hl], hcl⟩
    · intro m hm' l0 hl0 c hc
      rcases h.closed m hm' l0 hl0 c hc with h1 | ⟨l, hl, hcl⟩
      · exact .inl h1
      · rcases List.mem_cons.1 hl with rfl | hl
        · rcases List.mem_cons.1 hcl with rfl | hcl
          · exact .inl hm
          · exact .inr ⟨R, by simp, hcl⟩
        · exact .inr ⟨l, by simp [hl], hcl⟩
  · have move : ∀ c, (∃ l ∈ (n :: R) :: s.stack, c ∈ l) →
        c ∈ insert n s.members ∨ ∃ l ∈ R :: (push G n ++ s.stack), c ∈ l := by
      rintro c ⟨l, hl, hcl⟩
      rcases List.mem_cons.1 hl with rfl | hl
      · rcases List.mem_cons.1 hcl with rfl | hcl
        · exact .inl (Finset.mem_insert_self _ _)
        · exact .inr ⟨R, by simp, hcl⟩
      · exact .inr ⟨l, by simp [hl], hcl⟩
    refine ⟨?_, ?_, ?_, ?_⟩
    · intro m hm
      rcases Finset.mem_insert.1 hm with rfl | hm
      · exact hn
      · exact h.sound m hm
    · intro l hl c hc
      rcases List.mem_cons.1 hl with rfl | hl
      · exact h.pending (n :: l) (by simp) c (by simp [hc])
      · rcases List.mem_append.1 hl with hl | hl
        · exact push_dep hn l hl c hc
        · exact h.pending l (by simp [hl]) c hc
    · intro c hc
      rcases h.roots c hc with h1 | h1
      · exact .inl (Finset.mem_insert_of_mem h1)
      · exact move c h1
    · intro m hm l hl c hc
      rcases Finset.mem_insert.1 hm with rfl | hm
      · exact .inr ⟨l, by simp [hl], hc⟩
      · rcases h.closed m hm l hl c hc with h1 | h1
        · exact .inl (Finset.mem_insert_of_mem h1)
        · exact move c h1

theorem inv_foldl {G : Graph T O} {roots : List (Node T O)} (R : List (Node T O)) :
    ∀ s : State T O, Inv G roots R s → Inv G roots [] (R.foldl (visit G) s) := by
  induction R with
  | nil => exact fun s h => h
  | cons n R ih => exact fun s h => ih _ (inv_visit h)

theorem inv_step {G : Graph T O} {roots : List (Node T O)} {s : State T O} (h : Inv G roots [] s) :
    Inv G roots [] (step G s) := by
  unfold step
  split
  · exact h
  · rename_i nodes rest hs
    apply inv_foldl
    have e : ∀ c, (∃ l ∈ ([] : List (Node T O)) :: s.stack, c ∈ l) → ∃ l ∈ nodes :: rest, c ∈ l := by
      rintro c ⟨l, hl, hc⟩
      rcases List.mem_cons.1 hl with rfl | hl
      · simp at hc
      · exact ⟨l, hs ▸ hl, hc⟩
    refine ⟨h.sound, ?_, ?_, ?_⟩
    · intro l hl
      exact h.pending l (by rw [hs]; exact List.mem_cons_of_mem _ hl)
    · intro n hn
      exact (h.roots n hn).imp id (e n)
    · intro m hm l hl c hc
      exact (h.closed m hm l hl c hc).imp id (e c)

theorem inv_iterate {G : Graph T O} {roots : List (Node T O)} (n : ℕ) :
    Inv G roots [] ((step G)^[n] (start roots)) := by
  induction n with
  | zero =>
    refine ⟨by simp [start], ?_, ?_, by simp [start]⟩
    · intro l hl c hc
      simp only [start, Function.iterate_zero, id, List.mem_cons, List.not_mem_nil, or_false] at hl
      rcases hl with rfl | rfl
      · simp at hc
      · exact .root hc
    · intro c hc
      exact .inr ⟨roots, by simp [start], hc⟩
  | succ n ih =>
    rw [Function.iterate_succ_apply']
    exact inv_step ih

/-! ### Termination -/

/-- What decreases: the nodes not yet seen count twice, the lists on the stack once. -/
def measure (D : Finset (Node T O)) (s : State T O) : ℕ := 2 * (D \ s.members).card + s.stack.length

omit [DecidableEq T] [DecidableEq O] in
theorem push_length (G : Graph T O) (n : Node T O) : (push G n).length ≤ 1 := by
  cases n <;> simp [push]

theorem measure_visit {G : Graph T O} {D : Finset (Node T O)} {n : Node T O} (hn : n ∈ D) (s : State T O) :
    measure D (visit G s n) ≤ measure D s := by
  unfold visit
  split
  · exact Nat.le_refl _
  · rename_i hm
    have h1 : D \ insert n s.members = (D \ s.members).erase n := by
      ext x
      simp only [Finset.mem_sdiff, Finset.mem_insert, Finset.mem_erase]
      tauto
    have h2 : n ∈ D \ s.members := Finset.mem_sdiff.2 ⟨hn, hm⟩
    have h3 := Finset.card_erase_of_mem h2
    have h4 : 0 < (D \ s.members).card := Finset.card_pos.2 ⟨n, h2⟩
    have h5 := push_length G n
    simp only [measure, h1, h3, List.length_append]
    omega

theorem measure_foldl {G : Graph T O} {D : Finset (Node T O)} (R : List (Node T O)) (hR : ∀ n ∈ R, n ∈ D) :
    ∀ s, measure D (R.foldl (visit G) s) ≤ measure D s := by
  induction R with
  | nil => exact fun s => Nat.le_refl _
  | cons n R ih =>
    intro s
    exact Nat.le_trans (ih (fun m hm => hR m (by simp [hm])) _) (measure_visit (hR n (by simp)) s)

theorem ends_exists {G : Graph T O} {roots : List (Node T O)} (D : Finset (Node T O))
    (hD : ∀ n, Dep G roots n → n ∈ D) : ∃ s, Ends G roots s := by
  by_contra hno
  have hne : ∀ n, ((step G)^[n] (start roots)).stack ≠ [] := fun n h => hno ⟨_, ⟨n, rfl⟩, h⟩
  have hlt : ∀ n, measure D ((step G)^[n + 1] (start roots)) < measure D ((step G)^[n] (start roots)) := by
    intro n
    rw [Function.iterate_succ_apply']
    have hinv := inv_iterate (G := G) (roots := roots) n
    have hn := hne n
    generalize (step G)^[n] (start roots) = s at hinv hn
    cases hs : s.stack with
    | nil => exact absurd hs hn
    | cons nodes rest =>
      have h1 : step G s = nodes.foldl (visit G) ⟨s.members, rest⟩ := by unfold step; rw [hs]
      rw [h1]
      have h2 := measure_foldl (G := G) (D := D) nodes
        (fun c hc => hD c (hinv.pending nodes (by rw [hs]; simp) c hc)) ⟨s.members, rest⟩
      have h3 : measure D ⟨s.members, rest⟩ + 1 = measure D s := by simp [measure, hs]; ring
      omega
  have hb : ∀ n, measure D ((step G)^[n] (start roots)) + n ≤ measure D (start roots) := by
    intro n
    induction n with
    | zero => exact Nat.le_refl _
    | succ n ih => have := hlt n; omega
  have := hb (measure D (start roots) + 1)
  omega

/-! ### Properties -/

/-- C61, membership: whenever the loop ends, a node is a member iff the roots depend on it; and it ends if they depend
on finitely many nodes (in particular in every finite graph, with or without cycles). -/
theorem C61_members (G : Graph T O) (roots : List (Node T O)) :
    (∀ s, Ends G roots s → ∀ n, n ∈ s.members ↔ Dep G roots n) ∧
    ({n | Dep G roots n}.Finite → ∃ s, Ends G roots s) := by
  constructor
  · rintro s ⟨⟨k, rfl⟩, hs⟩ n
    have inv := inv_iterate (G := G) (roots := roots) k
    generalize (step G)^[k] (start roots) = s at inv hs
    have nope : ∀ c, ¬ ∃ l ∈ ([] : List (Node T O)) :: s.stack, c ∈ l := by
      rintro c ⟨l, hl, hc⟩
      rw [hs, List.mem_singleton] at hl
      subst hl
      simp at hc
    constructor
    · exact inv.sound n
    · intro h
      induction h with
      | root h => exact (inv.roots _ h).resolve_right (nope _)
      | @op t _ ih => exact (inv.closed _ ih [.op (G.opOf t)] (by simp [push]) _ (by simp)).resolve_right (nope _)
      | @input o t _ ht ih =>
        exact (inv.closed _ ih ((G.inputs o).map .tensor) (by simp [push]) _
          (List.mem_map.2 ⟨t, ht, rfl⟩)).resolve_right (nope _)
  · intro hf
    exact ends_exists hf.toFinset (fun n hn => hf.mem_toFinset.2 hn)

theorem mem_consumersOf (G : Graph T O) (rank : T → ℕ)
    (hr : ∀ t, ∀ r ∈ G.consumers t, G.relay r = true → ∀ t' ∈ G.outputs r, rank t' < rank t) :
    ∀ (fuel : ℕ) (t : T), rank t < fuel → ∀ o, o ∈ consumersOf G fuel t ↔ Uses G t o := by
  intro fuel
  induction fuel with
  | zero => intro t h; omega
  | succ fuel ih =>
    intro t ht o
    simp only [consumersOf, Finset.mem_biUnion, List.mem_toFinset]
    constructor
    · rintro ⟨r, hrc, ho⟩
      split at ho
      · rename_i hrel
        simp only [Finset.mem_biUnion, List.mem_toFinset] at ho
        obtain ⟨t', ht', ho⟩ := ho
        exact .relayed hrc hrel ht' ((ih t' (by have := hr t r hrc hrel t' ht'; omega) o).1 ho)
      · rename_i hrel
        rw [Finset.mem_singleton] at ho
        subst ho
        exact .direct hrc (by simpa using hrel)
    · intro h
      cases h with
      | direct hc hrel => exact ⟨o, hc, by simp [hrel]⟩
      | @relayed _ t' r _ hc hrel ht' hu =>
        refine ⟨r, hc, ?_⟩
        rw [if_pos hrel]
        simp only [Finset.mem_biUnion, List.mem_toFinset]
        exact ⟨t', ht', (ih t' (by have := hr t r hc hrel t' ht'; omega) o).2 hu⟩

/-- C61, uses: in a graph whose relay ops form no cycle (`rank` falls along them; the depth of recursion needed is
bounded by it), the number reported for a variable is the number of ops that the roots depend on and that use its
value. -/
theorem C61_uses (G : Graph T O) (roots : List (Node T O)) (s : State T O) (hs : Ends G roots s) (rank : T → ℕ)
    (hr : ∀ t, ∀ r ∈ G.consumers t, G.relay r = true → ∀ t' ∈ G.outputs r, rank t' < rank t)
    (handles : List T) (fuel : ℕ) (hf : ∀ t ∈ handles, rank t < fuel) :
    variableUses G fuel s.members handles = {o | (∃ t ∈ handles, Uses G t o) ∧ Dep G roots (.op o)}.ncard := by
  unfold variableUses
  rw [← Set.ncard_coe_finset]
  congr 1
  ext o
  simp only [Finset.coe_filter, Finset.mem_biUnion, List.mem_toFinset, Set.mem_ofPred_eq,
    (C61_members G roots).1 s hs]
  constructor
  · rintro ⟨⟨t, ht, ho⟩, hd⟩
    exact ⟨⟨t, ht, (mem_consumersOf G rank hr fuel t (hf t ht) o).1 ho⟩, hd⟩
  · rintro ⟨⟨t, ht, ho⟩, hd⟩
    exact ⟨⟨t, ht, (mem_consumersOf G rank hr fuel t (hf t ht) o).2 ho⟩, hd⟩

/-- C61, filtering keeps the order and exactly the nodes the roots depend on. -/
theorem C61_filter (G : Graph T O) (roots : List (Node T O)) (s : State T O) (hs : Ends G roots s)
    (l : List (Node T O)) :
    (filterList s.members l).Sublist l ∧ ∀ n, n ∈ filterList s.members l ↔ n ∈ l ∧ Dep G roots n := by
  refine ⟨List.filter_sublist, fun n => ?_⟩
  simp [filterList, (C61_members G roots).1 s hs]

/-! ### What the losses depend on -/

omit [DecidableEq T] [DecidableEq O] in
theorem dep_mono {G : Graph T O} {r r' : List (Node T O)} (h : ∀ n ∈ r, Dep G r' n) {n : Node T O}
    (hn : Dep G r n) : Dep G r' n := by
  induction hn with
  | root hr => exact h _ hr
  | op _ ih => exact ih.op
  | input _ ht ih => exact ih.input ht

/-- C67, the subgraph of the collection: its members are what any input of any loss depends on, for losses with one or
several inputs. -/
theorem C67_collection (G : Graph T O) (losses : List (LossInputs T)) (s : State T O)
    (hs : Ends G (collectionRoots losses) s) (n : Node T O) :
    n ∈ s.members ↔ ∃ l ∈ losses, ∃ t ∈ l.tensors, Dep G [.tensor t] n := by
  rw [(C61_members G _).1 s hs]
  constructor
  · intro h
    induction h with
    | root hr =>
      obtain ⟨t, ht, rfl⟩ := List.mem_map.1 hr
      obtain ⟨l, hl, ht⟩ := List.mem_flatMap.1 ht
      exact ⟨l, hl, t, ht, .root (by simp)⟩
    | op _ ih =>
      obtain ⟨l, hl, t, ht, hd⟩ := ih
      exact ⟨l, hl, t, ht, hd.op⟩
    | input _ hi ih =>
      obtain ⟨l, hl, t, ht, hd⟩ := ih
      exact ⟨l, hl, t, ht, hd.input hi⟩
  · rintro ⟨l, hl, t, ht, hd⟩
    refine dep_mono ?_ hd
    intro m hm
    rw [List.mem_singleton] at hm
    subst hm
    exact .root (List.mem_map.2 ⟨t, List.mem_flatMap.2 ⟨l, hl, ht⟩, rfl⟩)

/-- C67, the subgraph searched by automatic registration, when every loss has a single input: what any of them depends
on. Missing: losses with several inputs. -/
theorem C67_search_partial (G : Graph T O) (losses : List (LossInputs T)) (hone : ∀ l ∈ losses, ∃ t, l = .one t)
    (hne : losses ≠ []) (s : State T O) (hs : Ends G (searchRoots losses) s) (n : Node T O) :
    constructible (searchRoots (O := O) losses) = true ∧
    (n ∈ s.members ↔ ∃ l ∈ losses, ∃ t ∈ l.tensors, Dep G [.tensor t] n) := by
  have he : searchRoots (O := O) losses = collectionRoots losses := by
    clear hs hne
    induction losses with
    | nil => rfl
    | cons l ls ih =>
      obtain ⟨t, rfl⟩ := hone l (by simp)
      have := ih (fun l hl => hone l (by simp [hl]))
      simp only [searchRoots, collectionRoots, List.map_cons, List.flatMap_cons, LossInputs.tensors] at this ⊢
      rw [this]
      rfl
  rw [he] at hs ⊢
  refine ⟨?_, C67_collection G losses s hs n⟩
  cases losses with
  | nil => exact absurd rfl hne
  | cons l ls =>
    obtain ⟨t, rfl⟩ := hone l (by simp)
    rfl

/-- C67, violated for losses with several inputs: nothing that only such a loss depends on is searched, and if it comes
first the construction of the subgraph raises. -/
theorem C67_search_counterexample (G : Graph T O) (t : T) (ts : List T) (rest : List (LossInputs T))
    (s : State T O) (hs : Ends G (searchRoots [.one t, .many ts]) s) :
    (∀ u, Node.tensor u ∈ s.members ↔ Dep G [.tensor t] (.tensor u)) ∧
    constructible (searchRoots (O := O) (.many ts :: rest)) = false := by
  refine ⟨fun u => ?_, rfl⟩
  rw [(C61_members G _).1 s hs]
  constructor
  · intro h
    have key : ∀ n, Dep G (searchRoots [.one t, .many ts]) n → n = .tuple ts ∨ Dep G [.tensor t] n := by
      intro n hn
      induction hn with
      | root hr =>
        simp only [searchRoots, List.map_cons, List.map_nil, List.mem_cons, List.not_mem_nil, or_false] at hr
        rcases hr with rfl | rfl
        · exact .inr (.root (by simp))
        · exact .inl rfl
      | op _ ih => exact .inr ((ih.resolve_left (by simp)).op)
      | input _ hi ih => exact .inr ((ih.resolve_left (by simp)).input hi)
    exact (key _ h).resolve_left (by simp)
  · intro h
    refine dep_mono ?_ h
    intro m hm
    rw [List.mem_singleton] at hm
    subst hm
    exact .root (by simp [searchRoots])

/-! ### A concrete graph

Tensors: 0 handle, 1 read of 0, 2 the data, 3 = f(1, 2), 4 = g(1, 3), 5 = h(1) which no loss depends on. -/

def sample : Graph ℕ ℕ where
  opOf := id
  inputs := fun o => match o with | 1 => [0] | 3 => [1, 2] | 4 => [1, 3] | 5 => [1] | _ => []
  outputs := fun o => [o]
  consumers := fun t => match t with | 0 => [1] | 1 => [3, 4, 5] | 2 => [3] | 3 => [4] | _ => []
  relay := fun o => o = 1

/-- The loop ends, and the variable is used twice. -/
example : ∃ s, Ends sample (collectionRoots [.one 4]) s ∧ variableUses sample 3 s.members [0] = 2 ∧
    Node.tensor 5 ∉ s.members :=
  ⟨(step sample)^[11] (start (collectionRoots [.one 4])), ⟨⟨11, rfl⟩, by decide⟩, by decide, by decide⟩

/-- The rank required by `C61_uses`. -/
example : ∀ t, ∀ r ∈ sample.consumers t, sample.relay r = true → ∀ t' ∈ sample.outputs r,
    (fun t => if t = 0 then 1 else 0) t' < (fun t => if t = 0 then 1 else 0) t := by
  intro t r hr hrel t' ht'
  simp only [sample, decide_eq_true_eq] at hrel
  subst hrel
  simp only [sample, List.mem_singleton] at ht'
  subst ht'
  have : t = 0 := by
    unfold sample at hr
    simp only at hr
    split at hr <;> simp_all
  simp [this]

end Kfac.SubGraph
