import Verif.Exec.Async
import Verif.Exec.Props
import Mathlib.Data.Fintype.Card
import Mathlib.Data.Finset.Card
import Mathlib.Data.List.Sort

/-!
# C85: asynchronous covariance and inverse updates

The theorems speak about any interleaving `es` of the steps of `T` threads, with `request_stop` occurring
anywhere. `order` is the list of the operations in increasing order of their names.
-/

namespace Kfac.Exec
open Finset

variable {Op : Type} {T : Nat} (name : Op → String) (ops : List Op)

/-- `order` lists the operations in strictly increasing order of their names. -/
structure NameOrder (order : List Op) : Prop where
  perm : order.Perm ops
  sorted : order.Pairwise fun a b => name a ≤ name b ∧ name a ≠ name b

/-- Operations with distinct names can be ordered by name. -/
theorem C85_order_exists (hnd : (ops.map name).Nodup) : ∃ order, NameOrder name ops order := by
  have hp : (ops.mergeSort fun a b => decide (name a ≤ name b)).Perm ops := List.mergeSort_perm _ _
  refine ⟨ops.mergeSort fun a b => decide (name a ≤ name b), hp, ?_⟩
  have h1 : (ops.mergeSort fun a b => decide (name a ≤ name b)).Pairwise fun a b => name a ≤ name b := by
    have := List.pairwise_mergeSort (le := fun a b => decide (name a ≤ name b))
      (fun a b c h h' => by simp only [decide_eq_true_eq] at *; exact String.le_trans h h')
      (fun a b => by simpa using String.le_total (name a) (name b)) ops
    simpa using this
  have h2 : (ops.mergeSort fun a b => decide (name a ≤ name b)).Pairwise fun a b => name a ≠ name b := by
    have := ((hp.map name).nodup_iff).2 hnd
    exact List.pairwise_map.1 this
  exact h1.and h2

theorem NameOrder.names {name : Op → String} {ops order : List Op} (h : NameOrder name ops order) :
    (ops.map name).mergeSort (fun a b => decide (a ≤ b)) = order.map name := by
  apply List.Perm.eq_of_pairwise (le := (· ≤ ·))
  · intro a b _ _ h1 h2; exact String.le_antisymm h1 h2
  · have := List.pairwise_mergeSort (le := fun a b : String => decide (a ≤ b))
      (fun a b c h h' => by simp only [decide_eq_true_eq] at *; exact String.le_trans h h')
      (fun a b => by simpa using String.le_total a b) (ops.map name)
    simpa using this
  · exact List.pairwise_map.2 (h.sorted.imp fun h => h.1)
  · exact (List.mergeSort_perm _ _).trans (h.perm.map name).symm

theorem NameOrder.nodup {name : Op → String} {ops order : List Op} (h : NameOrder name ops order) :
    (ops.map name).Nodup := by
  rw [← (h.perm.map name).nodup_iff]
  exact List.pairwise_map.2 (h.sorted.imp fun h => h.2)

/-- The operation drawn at position `k`. -/
theorem drawn_eq {name : Op → String} {ops order : List Op} (h : NameOrder name ops order) (hne : ops ≠ [])
    (k : Nat) : ∃ o, (asyncName name ops k).bind (lookupOp name ops) = some o ∧
      order[k % ops.length]? = some o := by
  have hl := h.perm.length_eq
  have hk : k % ops.length < order.length := by
    rw [hl]; exact Nat.mod_lt _ (List.length_pos_iff.2 hne)
  refine ⟨order[k % ops.length], ?_, List.getElem?_eq_getElem hk⟩
  unfold asyncName
  rw [h.names, List.getElem?_map, List.getElem?_eq_getElem hk]
  simpa using lookupOp_of_nodup name ops h.nodup (h.perm.mem_iff.1 (List.getElem_mem hk))

theorem threadStep_check {st : AsyncState Op T} {i : Fin T} (hp : st.phase i = .check) :
    threadStep name ops st i
      = { st with phase := fun j => if j = i then (if st.stop then .done else .draw) else st.phase j } := by
  unfold threadStep; rw [hp]

theorem threadStep_running {st : AsyncState Op T} {i : Fin T} {o : Op} (hp : st.phase i = .running o) :
    threadStep name ops st i
      = { st with
          phase := fun j => if j = i then .check else st.phase j
          finished := st.finished ++ [o] } := by
  unfold threadStep; rw [hp]

theorem threadStep_done {st : AsyncState Op T} {i : Fin T} (hp : st.phase i = .done) :
    threadStep name ops st i = st := by
  unfold threadStep; rw [hp]

theorem threadStep_none {st : AsyncState Op T} {i : Fin T} (hp : st.phase i = .draw)
    (hd : (asyncName name ops st.pos).bind (lookupOp name ops) = none) :
    threadStep name ops st i
      = { st with pos := st.pos + 1, phase := fun j => if j = i then .done else st.phase j } := by
  unfold threadStep; rw [hp]; simp only [hd]

theorem threadStep_some {st : AsyncState Op T} {i : Fin T} {o : Op} (hp : st.phase i = .draw)
    (hd : (asyncName name ops st.pos).bind (lookupOp name ops) = some o) :
    threadStep name ops st i
      = { st with
          pos := st.pos + 1
          phase := fun j => if j = i then .running o else st.phase j
          started := st.started ++ [o] } := by
  unfold threadStep; rw [hp]; simp only [hd]

theorem asyncStep_thread (st : AsyncState Op T) (i : Fin T) :
    asyncStep name ops st (.thread i) = threadStep name ops st i := rfl

/-- An invariant kept by every event holds after every run. -/
theorem run_induct {P : AsyncState Op T → Prop} (hs : ∀ st e, P st → P (asyncStep name ops st e))
    (es : List (Event T)) : ∀ st, P st → P (asyncRun name ops es st) := by
  induction es with
  | nil => intro st h; exact h
  | cons e es ih => intro st h; exact ih _ (hs st e h)

/-- The operations are started in the order of their names, over and over, whichever threads draw them and
however their steps interleave. -/
theorem C85_order {order : List Op} (h : NameOrder name ops order) (hne : ops ≠ []) (es : List (Event T))
    (t : Nat) (ht : t < (asyncRun name ops es (asyncInit Op T)).started.length) :
    (asyncRun name ops es (asyncInit Op T)).started[t]? = order[t % ops.length]? := by
  have key : ∀ st : AsyncState Op T, (st.started.length = st.pos ∧ ∀ t < st.started.length,
      st.started[t]? = order[t % ops.length]?) → ∀ e, ((asyncStep name ops st e).started.length
        = (asyncStep name ops st e).pos ∧ ∀ t < (asyncStep name ops st e).started.length,
      (asyncStep name ops st e).started[t]? = order[t % ops.length]?) := by
    rintro st ⟨h1, h2⟩ e
    cases e with
    | requestStop => exact ⟨h1, h2⟩
    | thread i =>
      simp only [asyncStep, threadStep]
      cases hp : st.phase i with
      | check => exact ⟨h1, h2⟩
      | running o => exact ⟨h1, h2⟩
      | done => exact ⟨h1, h2⟩
      | draw =>
        obtain ⟨o, ho, ho'⟩ := drawn_eq h hne st.pos
        simp only [ho]
        refine ⟨by simp [h1], ?_⟩
        intro t ht
        rw [List.length_append, List.length_singleton] at ht
        rcases Nat.lt_or_ge t st.started.length with h3 | h3
        · rw [List.getElem?_append_left h3, h2 t h3]
        · have : t = st.pos := by omega
          rw [List.getElem?_append_right h3, this, ho']
          simp [h1]
  exact (run_induct name ops (P := fun st => st.started.length = st.pos ∧ ∀ t < st.started.length,
      st.started[t]? = order[t % ops.length]?) (fun st e hst => key st hst e) es _
    ⟨rfl, by simp [asyncInit]⟩).2 t ht

/-- No operation is ever more than one start ahead of another: after `k` starts each of the `n` operations has
been started `k / n` or `k / n + 1` times. -/
theorem C85_fair [DecidableEq Op] (hnd : (ops.map name).Nodup) (es : List (Event T)) (o : Op) (ho : o ∈ ops) :
    let s := (asyncRun name ops es (asyncInit Op T)).started
    s.length / ops.length ≤ s.count o ∧ s.count o ≤ s.length / ops.length + 1 := by
  intro s
  obtain ⟨order, hord⟩ := C85_order_exists name ops hnd
  have hne : ops ≠ [] := List.ne_nil_of_mem ho
  have hpos : 0 < ops.length := List.length_pos_iff.2 hne
  have hlen := hord.perm.length_eq
  have hnd' : order.Nodup := hord.perm.nodup_iff.2 (List.Nodup.of_map name hnd)
  have hmem : o ∈ order := hord.perm.mem_iff.2 ho
  have hs : ∀ t < s.length, s[t]? = order[t % order.length]? := by
    intro t ht
    rw [hlen]
    exact C85_order name ops hord hne es t ht
  rw [← hlen] at hpos ⊢
  clear_value s
  -- induction on the number of full rounds
  suffices H : ∀ (q : Nat) (s : List Op), s.length / order.length = q →
      (∀ t < s.length, s[t]? = order[t % order.length]?) → q ≤ s.count o ∧ s.count o ≤ q + 1 from
    H _ s rfl hs
  intro q
  induction q with
  | zero =>
    intro s hq hs
    have hlt : s.length < order.length := (Nat.div_eq_zero_iff_lt hpos).1 hq
    have hpre : s = order.take s.length := by
      apply List.ext_getElem?
      intro t
      rcases Nat.lt_or_ge t s.length with h3 | h3
      · rw [hs t h3, Nat.mod_eq_of_lt (by omega), List.getElem?_take_of_lt h3]
      · rw [List.getElem?_eq_none h3, List.getElem?_eq_none (by simp; omega)]
    refine ⟨Nat.zero_le _, ?_⟩
    rw [hpre, Nat.zero_add]
    exact ((List.take_sublist _ _).count_le o).trans (List.nodup_iff_count_le_one.1 hnd' o)
  | succ q ih =>
    intro s hq hs
    have hge : order.length ≤ s.length := by
      by_contra hlt
      rw [Nat.div_eq_of_lt (by omega)] at hq
      omega
    have hsplit : s = order ++ s.drop order.length := by
      have h1 : s.take order.length = order := by
        apply List.ext_getElem?
        intro t
        rcases Nat.lt_or_ge t order.length with h3 | h3
        · rw [List.getElem?_take_of_lt h3, hs t (by omega), Nat.mod_eq_of_lt h3]
        · rw [List.getElem?_eq_none h3, List.getElem?_eq_none (by simp; omega)]
      conv_lhs => rw [← List.take_append_drop order.length s, h1]
    have h2 := ih (s.drop order.length) (by
        rw [List.length_drop]
        have h5 := Nat.sub_mul_div s.length order.length 1
        rw [Nat.mul_one, hq] at h5
        exact h5) (by
      intro t ht
      rw [List.length_drop] at ht
      rw [List.getElem?_drop, hs _ (by omega), Nat.add_mod_left])
    have h3 : order.count o = 1 := List.count_eq_one_of_mem hnd' hmem
    rw [hsplit, List.count_append, h3]
    omega

/-- Every operation started is either finished or being run by a thread, so at most `T` operations are in
flight. -/
theorem C85_in_flight [DecidableEq Op] (es : List (Event T)) :
    let st := asyncRun name ops es (asyncInit Op T)
    (∀ o, st.started.count o = st.finished.count o + (univ.filter fun i => st.phase i = Phase.running o).card) ∧
    st.started.length ≤ st.finished.length + T := by
  classical
  intro st
  have H := run_induct name ops (P := fun st =>
    (∀ o, st.started.count o = st.finished.count o + (univ.filter fun i => st.phase i = Phase.running o).card) ∧
    st.started.length = st.finished.length + (univ.filter fun i => ∃ o, st.phase i = Phase.running o).card)
    ?_ es (asyncInit Op T) (by simp [asyncInit])
  · exact ⟨H.1, H.2.trans_le (Nat.add_le_add_left ((card_le_univ _).trans (by simp)) _)⟩
  rintro st e ⟨h1, h2⟩
  cases e with
  | requestStop => exact ⟨h1, h2⟩
  | thread i =>
    rw [asyncStep_thread]
    cases hp : st.phase i with
    | done => rw [threadStep_done name ops hp]; exact ⟨h1, h2⟩
    | check =>
      rw [threadStep_check name ops hp]
      have h3 : ∀ j (o : Op), (if j = i then (if st.stop then (.done : Phase Op) else .draw) else st.phase j)
          = .running o ↔ st.phase j = .running o := by
        intro j o
        by_cases hj : j = i
        · subst hj; cases st.stop <;> simp [hp]
        · simp [hj]
      simp only [h3]
      exact ⟨h1, h2⟩
    | running o =>
      rw [threadStep_running name ops hp]
      have h3 : ∀ j (o' : Op), (if j = i then (.check : Phase Op) else st.phase j)
          = .running o' ↔ j ≠ i ∧ st.phase j = .running o' := by
        intro j o'
        by_cases hj : j = i <;> simp [hj]
      simp only [h3, exists_and_left, List.count_append, List.length_append]
      refine ⟨fun o' => ?_, ?_⟩
      · rw [h1 o']
        by_cases ho : o = o'
        · subst ho
          have : (univ.filter fun j => st.phase j = .running o)
              = insert i (univ.filter fun j => j ≠ i ∧ st.phase j = .running o) := by
            ext j
            by_cases hj : j = i <;> simp [hj, hp]
          rw [this, card_insert_of_notMem (by simp)]
          simp
          omega
        · have : (univ.filter fun j => st.phase j = .running o')
              = (univ.filter fun j => j ≠ i ∧ st.phase j = .running o') := by
            ext j
            by_cases hj : j = i <;> simp [hj, hp, ho]
          rw [this]
          simp [ho]
      · have : (univ.filter fun j => ∃ o, st.phase j = .running o)
            = insert i (univ.filter fun j => j ≠ i ∧ ∃ o, st.phase j = .running o) := by
          ext j
          by_cases hj : j = i <;> simp [hj, hp]
        rw [h2, this, card_insert_of_notMem (by simp)]
        simp
        omega
    | draw =>
      cases hd : (asyncName name ops st.pos).bind (lookupOp name ops) with
      | none =>
        rw [threadStep_none name ops hp hd]
        have h3 : ∀ j (o : Op), (if j = i then (.done : Phase Op) else st.phase j)
            = .running o ↔ st.phase j = .running o := by
          intro j o
          by_cases hj : j = i
          · subst hj; simp [hp]
          · simp [hj]
        simp only [h3]
        exact ⟨h1, h2⟩
      | some o =>
        rw [threadStep_some name ops hp hd]
        simp only [List.count_append, List.length_append]
        refine ⟨fun o' => ?_, ?_⟩
        · rw [h1 o']
          by_cases ho : o = o'
          · subst ho
            have : (univ.filter fun j => (if j = i then (.running o : Phase Op) else st.phase j) = .running o)
                = insert i (univ.filter fun j => st.phase j = .running o) := by
              ext j
              by_cases hj : j = i <;> simp [hj]
            rw [this, card_insert_of_notMem (by simp [hp])]
            simp
            omega
          · have : (univ.filter fun j => (if j = i then (.running o : Phase Op) else st.phase j) = .running o')
                = (univ.filter fun j => st.phase j = .running o') := by
              ext j
              by_cases hj : j = i <;> simp [hj, hp, ho]
            rw [this]
            simp [ho]
        · have : (univ.filter fun j => ∃ o', (if j = i then (.running o : Phase Op) else st.phase j) = .running o')
              = insert i (univ.filter fun j => ∃ o', st.phase j = .running o') := by
            ext j
            by_cases hj : j = i <;> simp [hj]
          rw [h2, this, card_insert_of_notMem (by simp [hp])]
          simp
          omega

/-- Threads only end because they were told to: as long as nobody requested a stop, no thread has terminated. -/
theorem C85_alive (hne : ops ≠ []) (hnd : (ops.map name).Nodup) (es : List (Event T))
    (hes : .requestStop ∉ es) (i : Fin T) :
    (asyncRun name ops es (asyncInit Op T)).phase i ≠ .done := by
  obtain ⟨order, hord⟩ := C85_order_exists name ops hnd
  suffices H : ∀ (es : List (Event T)) (st : AsyncState Op T), .requestStop ∉ es → st.stop = false →
      (∀ i, st.phase i ≠ .done) → ∀ i, (asyncRun name ops es st).phase i ≠ .done from
    H es _ hes rfl (by simp [asyncInit]) i
  intro es
  induction es with
  | nil => intro st _ _ h; exact h
  | cons e es ih =>
    intro st he hs hd
    simp only [List.mem_cons, not_or] at he
    cases e with
    | requestStop => exact absurd rfl he.1
    | thread i =>
      apply ih _ he.2
      · simp only [asyncStep, threadStep]
        cases st.phase i <;> simp only <;> try exact hs
        split <;> exact hs
      · intro j
        obtain ⟨o, ho, _⟩ := drawn_eq hord hne st.pos
        simp only [asyncStep, threadStep]
        cases hp : st.phase i with
        | done => exact absurd hp (hd i)
        | check => by_cases hj : j = i <;> simp [hj, hs, hd]
        | running o => by_cases hj : j = i <;> simp [hj, hd]
        | draw => by_cases hj : j = i <;> simp [hj, ho, hd]

theorem asyncRun_append (es es' : List (Event T)) (st : AsyncState Op T) :
    asyncRun name ops (es ++ es') st = asyncRun name ops es' (asyncRun name ops es st) :=
  List.foldl_append

theorem stop_kept (st : AsyncState Op T) (e : Event T) (h : st.stop = true) :
    (asyncStep name ops st e).stop = true := by
  cases e with
  | requestStop => rfl
  | thread i =>
    simp only [asyncStep, threadStep]
    cases st.phase i <;> simp only <;> try exact h
    split <;> exact h

/-- After `stop_cov_inv_ops` each thread starts at most one more operation, the one it was about to draw. -/
theorem C85_stop_starts (es es' : List (Event T)) :
    let before := asyncRun name ops es (asyncInit Op T)
    (asyncRun name ops (es ++ .requestStop :: es') (asyncInit Op T)).started.length
      ≤ before.started.length + ((List.finRange T).filter fun i => before.phase i matches .draw).length := by
  classical
  intro before
  have hcard : ∀ st : AsyncState Op T, ((List.finRange T).filter fun i => st.phase i matches .draw).length
      = (univ.filter fun i => st.phase i = Phase.draw).card := by
    intro st
    rw [← List.toFinset_card_of_nodup ((List.nodup_finRange T).filter _)]
    congr 1
    ext i
    simp only [List.mem_toFinset, List.mem_filter, List.mem_finRange, true_and, mem_filter, mem_univ]
    cases st.phase i <;> simp
  rw [hcard, asyncRun_append]
  set B := (univ.filter fun i => before.phase i = Phase.draw).card with hB
  have hgo := run_induct name ops (P := fun st : AsyncState Op T => st.stop = true ∧
    st.started.length + (univ.filter fun i => st.phase i = Phase.draw).card
      ≤ before.started.length + B) ?_ es' (asyncStep name ops before .requestStop)
      ⟨rfl, le_of_eq rfl⟩
  · exact (Nat.le_add_right _ _).trans hgo.2
  rintro st e ⟨h1, h2⟩
  refine ⟨stop_kept name ops st e h1, le_trans ?_ h2⟩
  cases e with
  | requestStop => exact le_rfl
  | thread i =>
    rw [asyncStep_thread]
    cases hp : st.phase i with
    | done => rw [threadStep_done name ops hp]
    | check =>
      rw [threadStep_check name ops hp]
      refine Nat.add_le_add_left (card_le_card ?_) _
      intro j
      by_cases hj : j = i <;> simp [hj, h1]
    | running o =>
      rw [threadStep_running name ops hp]
      refine Nat.add_le_add_left (card_le_card ?_) _
      intro j
      by_cases hj : j = i <;> simp [hj]
    | draw =>
      have h3 : ∀ p : Phase Op, p ≠ .draw → (univ.filter fun j => st.phase j = Phase.draw).card
          = (univ.filter fun j => (if j = i then p else st.phase j) = Phase.draw).card + 1 := by
        intro p hpd
        have : (univ.filter fun j => st.phase j = Phase.draw)
            = insert i (univ.filter fun j => (if j = i then p else st.phase j) = Phase.draw) := by
          ext j
          by_cases hj : j = i <;> simp [hj, hp]
        rw [this, card_insert_of_notMem (by simp [hpd])]
      cases hd : (asyncName name ops st.pos).bind (lookupOp name ops) with
      | none =>
        rw [threadStep_none name ops hp hd]
        have := h3 .done (by simp)
        simp only
        omega
      | some o =>
        rw [threadStep_some name ops hp hd]
        have := h3 (.running o) (by simp)
        simp only [List.length_append, List.length_singleton]
        omega

/-- The number of steps a thread may still take once a stop has been requested. -/
def stepsLeft : Phase Op → Nat
  | .done => 0
  | .check => 1
  | .running _ => 2
  | .draw => 3

/-- Once a stop has been requested every thread terminates within three of its own steps, and then everything
that was started is finished. -/
theorem C85_stop_joins [DecidableEq Op] (es es' : List (Event T)) (hes : ∀ i, 3 ≤ es'.count (.thread i)) :
    let st := asyncRun name ops (es ++ .requestStop :: es') (asyncInit Op T)
    (∀ i, st.phase i = .done) ∧ st.started.Perm st.finished := by
  intro st
  have hdone : ∀ i, st.phase i = .done := by
    intro i
    have key : ∀ (es : List (Event T)) (s : AsyncState Op T), s.stop = true →
        stepsLeft ((asyncRun name ops es s).phase i) ≤ stepsLeft (s.phase i) - es.count (.thread i) := by
      intro es
      induction es with
      | nil => intro s _; exact le_rfl
      | cons e es ih =>
        intro s hs
        refine (ih _ (stop_kept name ops s e hs)).trans ?_
        cases e with
        | requestStop => simp [asyncStep]
        | thread j =>
          by_cases hj : j = i
          · subst hj
            rw [List.count_cons_self, Nat.add_comm, Nat.sub_add_eq]
            refine Nat.sub_le_sub_right ?_ _
            simp only [asyncStep, threadStep]
            cases hp : s.phase j with
            | done => simp [hp, stepsLeft]
            | check => simp [hs, stepsLeft]
            | running o => simp [stepsLeft]
            | draw => cases (asyncName name ops s.pos).bind (lookupOp name ops) <;> simp [stepsLeft]
          · rw [List.count_cons_of_ne (by simpa using hj)]
            refine Nat.sub_le_sub_right (le_of_eq ?_) _
            have hj' : i ≠ j := fun h => hj h.symm
            simp only [asyncStep, threadStep]
            cases hp : s.phase j with
            | done => rfl
            | check => simp [hj']
            | running o => simp [hj']
            | draw => cases (asyncName name ops s.pos).bind (lookupOp name ops) <;> simp [hj']
    have h1 := key es' (asyncStep name ops (asyncRun name ops es (asyncInit Op T)) .requestStop) rfl
    have h2 : stepsLeft (st.phase i) ≤ 3 - 3 := by
      have : st = asyncRun name ops es'
          (asyncStep name ops (asyncRun name ops es (asyncInit Op T)) .requestStop) := by
        show asyncRun name ops (es ++ .requestStop :: es') (asyncInit Op T) = _
        rw [asyncRun_append]; rfl
      rw [this]
      refine h1.trans ?_
      have h3 := hes i
      have h4 : ∀ p : Phase Op, stepsLeft p ≤ 3 := by intro p; cases p <;> simp [stepsLeft]
      have h5 := h4 ((asyncStep name ops (asyncRun name ops es (asyncInit Op T)) .requestStop).phase i)
      omega
    revert h2
    cases st.phase i <;> simp [stepsLeft]
  refine ⟨hdone, ?_⟩
  rw [List.perm_iff_count]
  intro o
  rw [(C85_in_flight name ops _).1 o]
  have : (univ.filter fun i => st.phase i = Phase.running o) = ∅ := by
    ext i; simp [hdone i]
  show st.finished.count o + (univ.filter fun i => st.phase i = Phase.running o).card = _
  rw [this]
  simp

/-- Operations with distinct names exist, and so does a schedule with every thread stepping three times after the
stop. -/
example : (["d", "b", "a", "c"].map id).Nodup ∧
    ∀ i : Fin 3, 3 ≤ ([0, 1, 1, 1, 0, 0, 2, 2, 2].map (Event.thread (T := 3))).count (.thread i) := by decide

example : NameOrder id ["d", "b", "a", "c"] ["a", "b", "c", "d"] :=
  ⟨by decide, by simp⟩

/-! ### Number of threads -/

/-- The number of threads documented: the one given, otherwise half the number of operations but at most ten
(async_inv_cov_update_kfac_opt.py 66-70). -/
def documentedThreads (given : Option Nat) (numOps : Nat) : Nat := given.getD (min (numOps / 2) 10)

/-- A given positive number of threads is used, and without one there is at least one thread, so that all
operations are run. What fails is the default itself, see below. -/
theorem C85_threads_partial (numOps : Nat) :
    (∀ k, 0 < k → asyncThreads (some k) numOps = documentedThreads (some k) numOps) ∧
    0 < asyncThreads none numOps ∧ documentedThreads none numOps ≤ asyncThreads none numOps := by
  refine ⟨fun k hk => ?_, ?_, ?_⟩
  · simp [asyncThreads, documentedThreads, Nat.pos_iff_ne_zero.1 hk]
  · simp [asyncThreads]
  · simp only [asyncThreads, documentedThreads, Option.getD_none, if_true]
    omega

/-- Unless there are 20 or 21 operations the default is not the documented number of threads: ten is its lower
bound and not its upper one. -/
theorem C85_threads_counterexample (numOps : Nat) :
    10 ≤ asyncThreads none numOps ∧
    (asyncThreads none numOps = documentedThreads none numOps ↔ numOps = 20 ∨ numOps = 21) ∧
    (22 ≤ numOps → 10 < asyncThreads none numOps) := by
  simp only [asyncThreads, documentedThreads, Option.getD_none, if_true]
  omega

/-! ### Devices -/

/-- The devices are ignored: whatever lists are passed, no covariance or inverse update is placed on any
device. -/
theorem C85_devices_counterexample {D X : Type} (covDevices invDevices : Devices D)
    (kwargs : List (String × Devices D)) (covVars covUps invVars invUps : List X) :
    let t := asyncThunks covDevices invDevices kwargs covVars covUps invVars invUps
    (∀ p ∈ t.covVariables, p.device = none) ∧ (∀ p ∈ t.covUpdates, p.device = none) ∧
      ∀ p ∈ t.invUpdates, p.device = none := by
  have hnone : ∀ key ∈ ["cov_devices", "inv_devices"], ∀ kw : List (String × Devices D),
      deviceArg (asyncForwarded kw) key = .none := by
    intro key hkey kw
    have : (asyncForwarded kw).find? (fun kv => decide (kv.1 = key)) = none := by
      rw [List.find?_eq_none]
      intro kv hkv
      have h1 := (List.mem_filter.1 hkv).2
      simp only [decide_eq_true_eq] at h1 ⊢
      rintro rfl
      simp only [List.mem_cons, List.not_mem_nil, or_false] at hkey
      apply h1
      rcases hkey with h | h <;> simp [h]
    unfold deviceArg
    rw [this]
    rfl
  intro t
  have h := C21_unpinned (Devices.none : Devices D) .none (.inl rfl) (.inl rfl) covVars covUps invVars invUps
  have ht : t = createThunks .none .none covVars covUps invVars invUps := by
    show asyncThunks _ _ _ _ _ _ _ = _
    simp only [asyncThunks]
    rw [hnone "cov_devices" (by simp), hnone "inv_devices" (by simp)]
  rw [ht]
  simp only at h
  rw [h.1, h.2.1, h.2.2.2]
  simp

end Kfac.Exec
