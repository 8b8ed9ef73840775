import Verif.Exec.Batch
import Mathlib.Data.List.Perm.Basic
import Mathlib.Data.List.Sort

/-! Lemmas about replication, placement, shuffling and `SequenceDict`. -/

namespace Kfac.Exec
variable {α : Type}

/-! ### Specification: how many copies of the program run -/

/-- The number of copies of the program that run in the context: all replicas of the replicator or of the
strategy when inside its replica context, all TPU shards otherwise, and a single one in every other case (in
particular in the cross-replica context of a strategy). -/
def Ctx.copies (c : Ctx) : Nat :=
  match c.replicator with
  | some p => p.num
  | none => if c.inReplicaContext then (match c.strategy with | some s => s.num | none => 1)
    else c.shards.getD 1

/-- A context that can occur: positive counts, the replicator evaluates elements on existing replicas, and
TPU shards under a strategy are its replicas. -/
structure Ctx.Wf (c : Ctx) : Prop where
  replicator : ∀ p, c.replicator = some p → 0 < p.num ∧ ∀ i, p.owner i < p.num
  strategy : ∀ s, c.strategy = some s → 0 < s.num
  shards : ∀ k, c.shards = some k → 0 < k
  agree : ∀ s k, c.strategy = some s → c.shards = some k → k = s.num

theorem Ctx.Wf.copies_pos {c : Ctx} (h : c.Wf) : 0 < c.copies := by
  rcases c with ⟨rp, st, sh⟩
  cases rp with
  | some p => exact (h.replicator p rfl).1
  | none =>
    have hsh : 0 < sh.getD 1 := by
      cases sh with
      | none => simp
      | some k => exact h.shards k rfl
    cases st with
    | none => simpa [Ctx.copies, Ctx.inReplicaContext] using hsh
    | some s =>
      rcases s with ⟨n, tpu, inR⟩
      cases inR
      · exact hsh
      · exact h.strategy _ rfl

theorem allSum_one [AddCommMonoid α] {c : Ctx} (h : c.numReplicas ≤ 1) (x : Nat → α) : allSum c x = x := by
  unfold allSum; rw [if_pos h]

theorem allSum_replicator [AddCommMonoid α] {c : Ctx} (h : ¬ c.numReplicas ≤ 1) {p : Replicator}
    (hp : c.replicator = some p) (x : Nat → α) : allSum c x = reduceSum p.num x := by
  unfold allSum; rw [if_neg h, hp]

theorem allSum_strategy [AddCommMonoid α] {c : Ctx} (h : ¬ c.numReplicas ≤ 1) (hp : c.replicator = none)
    {s : Strategy} (hs : c.strategy = some s) (hr : s.inReplica = true) (x : Nat → α) :
    allSum c x = reduceSum s.num x := by
  have : c.inReplicaContext = true := by simp [Ctx.inReplicaContext, hs, hr]
  unfold allSum; rw [if_neg h, hp]
  simp only [this, if_true, hs]

theorem allSum_shards [AddCommMonoid α] {c : Ctx} (h : ¬ c.numReplicas ≤ 1) (hp : c.replicator = none)
    (hr : c.inReplicaContext = false) {k : Nat} (hk : c.shards = some k) (x : Nat → α) :
    allSum c x = reduceSum k x := by
  have : c.isTpuReplicated = true := by simp [Ctx.isTpuReplicated, hk]
  unfold allSum; rw [if_neg h, hp]
  simp [this, hr, hk]

theorem allSum_cross [AddCommMonoid α] {c : Ctx} (hp : c.replicator = none)
    (hr : c.inReplicaContext = false) (hk : c.shards = none) (x : Nat → α) : allSum c x = x := by
  by_cases h : c.numReplicas ≤ 1
  · exact allSum_one h x
  · have : c.isTpuReplicated = false := by
      cases hs : c.strategy with
      | none => simp [Ctx.isTpuReplicated, hk, hs]
      | some s =>
        simp only [Ctx.inReplicaContext, hs] at hr
        simp [Ctx.isTpuReplicated, hk, hs, hr]
    unfold allSum; rw [if_neg h, hp]
    simp [this, hr]

theorem numReplicas_eq_copies {c : Ctx} (h : c.Wf)
    (hcross : c.replicator.isSome ∨ c.inReplicaContext = true ∨ c.shards.isSome ∨ c.strategy = none) :
    c.numReplicas = c.copies := by
  obtain ⟨h1, h2, h3, h4⟩ := h
  rcases c with ⟨rp, st, sh⟩
  cases rp with
  | some p => rfl
  | none =>
    cases st with
    | none =>
      cases sh with
      | none => rfl
      | some k =>
        have := h3 k rfl
        simp [Ctx.numReplicas, Ctx.copies, Ctx.inReplicaContext]
        omega
    | some s =>
      rcases s with ⟨n, tpu, inR⟩
      cases inR with
      | true => simp [Ctx.numReplicas, Ctx.copies, Ctx.inReplicaContext]
      | false =>
        cases sh with
        | none => simp [Ctx.inReplicaContext] at hcross
        | some k =>
          have := h4 _ k rfl rfl
          simp [Ctx.numReplicas, Ctx.copies, Ctx.inReplicaContext, this]

theorem copies_cross {c : Ctx} (hp : c.replicator = none) (hr : c.inReplicaContext = false) :
    c.copies = c.shards.getD 1 := by
  unfold Ctx.copies; rw [hp]; simp [hr]

theorem allSum_spec [AddCommMonoid α] {c : Ctx} (h : c.Wf) (x : Nat → α) (r : Nat) (hr : r < c.copies) :
    allSum c x r = ∑ r' ∈ Finset.range c.copies, x r' := by
  have hone : c.copies = 1 → x r = ∑ r' ∈ Finset.range c.copies, x r' := by
    intro h1
    rw [h1, Finset.sum_range_one]
    congr; omega
  by_cases hcross : c.replicator = none ∧ c.inReplicaContext = false ∧ c.shards = none
  · obtain ⟨hp, hr', hk⟩ := hcross
    rw [allSum_cross hp hr' hk]
    apply hone
    rw [copies_cross hp hr', hk]; rfl
  · have heq : c.numReplicas = c.copies := by
      apply numReplicas_eq_copies h
      cases hp : c.replicator with
      | some p => simp
      | none =>
        cases hi : c.inReplicaContext with
        | true => simp
        | false =>
          cases hk : c.shards with
          | some k => simp
          | none => exact absurd ⟨hp, hi, hk⟩ hcross
    by_cases h1 : c.numReplicas ≤ 1
    · rw [allSum_one h1]
      have := h.copies_pos
      exact hone (by omega)
    · cases hp : c.replicator with
      | some p =>
        rw [allSum_replicator h1 hp]
        have : c.copies = p.num := by unfold Ctx.copies; rw [hp]
        rw [this]; rfl
      | none =>
        cases hi : c.inReplicaContext with
        | true =>
          cases hs : c.strategy with
          | none => simp [Ctx.inReplicaContext, hs] at hi
          | some s =>
            have hin : s.inReplica = true := by simpa [Ctx.inReplicaContext, hs] using hi
            rw [allSum_strategy h1 hp hs hin]
            have : c.copies = s.num := by unfold Ctx.copies; rw [hp]; simp [hi, hs]
            rw [this]; rfl
        | false =>
          cases hk : c.shards with
          | some k =>
            rw [allSum_shards h1 hp hi hk]
            have : c.copies = k := by rw [copies_cross hp hi, hk]; rfl
            rw [this]; rfl
          | none => exact absurd ⟨hp, hi, hk⟩ hcross

/-! ### `map_gather` -/

theorem allSum_owner [AddCommMonoid α] {c : Ctx} (h : c.Wf) (t : Nat → α) (o r : Nat) (ho : o < c.copies)
    (hr : r < c.copies) : allSum c (fun r' => if r' = o then t r' else 0) r = t o := by
  rw [allSum_spec h _ _ hr, Finset.sum_ite_eq']
  simp [ho]

theorem tpu_copies {c : Ctx} (h : c.Wf) (ht : c.isTpuReplicated = true) : c.numReplicas = c.copies := by
  apply numReplicas_eq_copies h
  rcases c with ⟨rp, st, sh⟩
  cases sh with
  | some k => simp
  | none =>
    cases st with
    | none => simp
    | some s =>
      rcases s with ⟨n, tpu, inR⟩
      cases inR <;> simp_all [Ctx.isTpuReplicated, Ctx.inReplicaContext]

theorem mapGather_same [AddCommMonoid α] {c : Ctx} (h : c.Wf) (thunks : List (Nat → α))
    (hsame : ∀ t ∈ thunks, ∀ r < c.copies, t r = t 0) (r : Nat) (hr : r < c.copies) :
    (mapGather c thunks).results r = thunks.map fun t => t 0 := by
  have hall : thunks.map (fun t => t r) = thunks.map fun t => t 0 :=
    List.map_congr_left fun t ht => hsame t ht r hr
  unfold mapGather
  simp only
  split
  · exact hall
  · split
    · rename_i p hp
      have ho : ∀ i, p.owner i < c.copies := by
        intro i
        have := (h.replicator p hp).2 i
        simpa [Ctx.copies, hp] using this
      apply List.ext_getElem (by simp)
      intro i h1 h2
      simp only [List.getElem_mapIdx, List.getElem_map]
      exact hsame _ (List.getElem_mem _) _ (ho i)
    · split
      · rename_i ht
        have hc := tpu_copies h ht
        apply List.ext_getElem (by simp)
        intro i h1 h2
        have ho : i % c.numReplicas < c.copies := by
          rw [hc]; exact Nat.mod_lt _ h.copies_pos
        simp only [List.getElem_mapIdx, List.getElem_map]
        rw [allSum_owner h _ _ _ ho hr]
        exact hsame _ (List.getElem_mem _) _ ho
      · exact hall

/-! ### Cycling -/

theorem zipCycle_length {X D : Type} (saved : List D) (hs : saved ≠ []) :
    ∀ (rest : List D) (xs : List X), (zipCycle saved rest xs).length = xs.length
  | _, [] => by cases ‹List D› <;> simp [zipCycle]
  | d :: rest, x :: xs => by simp [zipCycle, zipCycle_length saved hs rest xs]
  | [], x :: xs => by
    cases saved with
    | nil => exact absurd rfl hs
    | cons d rest => simp [zipCycle, zipCycle_length _ hs rest xs]

theorem zipCycle_get {X D : Type} (saved : List D) (hs : saved ≠ []) :
    ∀ (xs : List X) (j : Nat), j ≤ saved.length → ∀ (i : Nat) (x : X), xs[i]? = some x →
      ∃ d, saved[(j + i) % saved.length]? = some d ∧ (zipCycle saved (saved.drop j) xs)[i]? = some (x, d)
  | [], j, _, i, x, hx => by simp at hx
  | x :: xs, j, hj, i, y, hy => by
    have hpos : 0 < saved.length := List.length_pos_iff.2 hs
    rcases Nat.lt_or_ge j saved.length with h | h
    · have hd : saved.drop j = saved[j] :: saved.drop (j + 1) := List.drop_eq_getElem_cons h
      rw [hd]
      cases i with
      | zero =>
        refine ⟨saved[j], ?_, ?_⟩
        · simp [Nat.mod_eq_of_lt h]
        · simp only [List.getElem?_cons_zero, Option.some.injEq] at hy
          simp [zipCycle, hy]
      | succ i =>
        obtain ⟨d, h1, h2⟩ := zipCycle_get saved hs xs (j + 1) h i y (by simpa using hy)
        refine ⟨d, ?_, ?_⟩
        · rw [← h1]; congr 2; omega
        · simpa [zipCycle] using h2
    · have hj' : j = saved.length := by omega
      subst hj'
      have h0 : 0 < saved.length := hpos
      have hsv : saved = saved[0] :: saved.drop 1 := by
        have := List.drop_eq_getElem_cons (l := saved) (i := 0) h0
        simpa using this
      have hz : zipCycle saved (saved.drop saved.length) (x :: xs)
          = (x, saved[0]) :: zipCycle saved (saved.drop 1) xs := by
        rw [List.drop_length]
        have : ∀ s : List D, s = saved → zipCycle s [] (x :: xs)
            = (x, saved[0]) :: zipCycle saved (saved.drop 1) xs := by
          intro s hs'
          cases s with
          | nil => exact absurd hs'.symm hs
          | cons d rest =>
            subst hs'
            simp [zipCycle]
        exact this saved rfl
      rw [hz]
      cases i with
      | zero =>
        refine ⟨saved[0], ?_, ?_⟩
        · simp
        · simp only [List.getElem?_cons_zero, Option.some.injEq] at hy
          simp [hy]
      | succ i =>
        obtain ⟨d, h1, h2⟩ := zipCycle_get saved hs xs 1 (by omega) i y (by simpa using hy)
        refine ⟨d, ?_, ?_⟩
        · rw [← h1]
          congr 1
          rw [Nat.add_mod_left]
          congr 1
          omega
        · simpa using h2

/-! ### Replica placement -/

theorem saveBack_var (vs : List Nat) (vals : Nat → α) :
    ∀ s : Nat → α, saveBack (vs.map .var) vals s = .ok fun v => if v ∈ vs then vals v else s v := by
  induction vs with
  | nil => intro s; simp [saveBack]
  | cons v vs ih =>
    intro s
    simp only [List.map_cons, saveBack, ih]
    congr 1
    funext w
    by_cases h1 : w ∈ vs
    · simp [h1]
    · by_cases h2 : w = v
      · subst h2; simp [h1, assign]
      · simp [h1, h2, assign]

/-- The factor reports every variable it writes, and no tuples. -/
def FactorKind.Reported (k : FactorKind) : Prop := k.getInvVars = k.written.map .var

theorem saveAll_eq {C : Type} (cov : C) : ∀ (fs : List (RFactor C α)) (s : Nat → α),
    (∀ f ∈ fs, f.kind.Reported) →
    saveAll (fs.zip (fs.map fun f => fun v => f.value cov v)) s = .ok (runAll fs cov s)
  | [], s, _ => rfl
  | f :: fs, s, h => by
    have hf : f.kind.getInvVars = f.kind.written.map .var := h f (by simp)
    simp only [List.map_cons, List.zip_cons_cons, saveAll, hf, saveBack_var]
    have := saveAll_eq cov fs (f.runUpdate cov s) (fun g hg => h g (by simp [hg]))
    exact this

theorem runAll_congr {C : Type} (cov : C) : ∀ (fs : List (RFactor C α)) (s s' : Nat → α) (v : Nat),
    (s v = s' v ∨ ∃ f ∈ fs, v ∈ f.kind.written) → runAll fs cov s v = runAll fs cov s' v
  | [], s, s', v, h => by simpa [runAll] using h
  | f :: fs, s, s', v, h => by
    show runAll fs cov (f.runUpdate cov s) v = runAll fs cov (f.runUpdate cov s') v
    apply runAll_congr cov fs
    by_cases hv : v ∈ f.kind.written
    · left; simp [RFactor.runUpdate, hv]
    · rcases h with h | ⟨g, hg, hgv⟩
      · left; simp [RFactor.runUpdate, hv, h]
      · rcases List.mem_cons.1 hg with rfl | hg
        · exact absurd hgv hv
        · exact Or.inr ⟨g, hg, hgv⟩

theorem foldl_untouched {C : Type} (cov : C) (v : Nat) : ∀ (l : List (RFactor C α × Nat)) (s : Nat → α),
    (∀ p ∈ l, v ∉ p.1.kind.written) → l.foldl (fun s p => p.1.runUpdate cov s) s v = s v
  | [], s, _ => rfl
  | p :: l, s, h => by
    rw [List.foldl_cons, foldl_untouched cov v l _ (fun q hq => h q (by simp [hq]))]
    have := h p (by simp)
    simp [RFactor.runUpdate, this]

theorem runAll_filter {C : Type} (cov : C) : ∀ (fs : List (RFactor C α)) (s : Nat → α),
    (∀ f ∈ fs, f.kind.Reported) →
    runAll (fs.filter fun f => !f.kind.getInvVars.isEmpty) cov s = runAll fs cov s
  | [], s, _ => rfl
  | f :: fs, s, h => by
    have ih := fun s => runAll_filter cov fs s (fun g hg => h g (by simp [hg]))
    have hf : f.kind.getInvVars = f.kind.written.map .var := h f (by simp)
    by_cases he : f.kind.getInvVars = []
    · have hw : f.kind.written = [] := by rw [he] at hf; simpa using hf.symm
      rw [List.filter_cons_of_neg (by simp [he]), ih]
      show _ = runAll fs cov (f.runUpdate cov s)
      have : f.runUpdate cov s = s := by funext v; simp [RFactor.runUpdate, hw]
      rw [this]
    · rw [List.filter_cons_of_pos (by simp [he])]
      show runAll (fs.filter _) cov (f.runUpdate cov s) = runAll fs cov (f.runUpdate cov s)
      exact ih _

/-! ### Shuffling -/

theorem shufflePass_perm {X : Type} : ∀ (k : Nat) (buffer input : List X) (choice : Nat → Nat),
    buffer.length + input.length = k → (input ≠ [] → buffer ≠ []) →
    (shufflePass k buffer input choice).Perm (buffer ++ input)
  | 0, buffer, input, choice, h, _ => by
    have h1 : buffer = [] := List.length_eq_zero_iff.1 (by omega)
    have h2 : input = [] := List.length_eq_zero_iff.1 (by omega)
    subst h1; subst h2; simp [shufflePass]
  | k + 1, buffer, input, choice, h, hb => by
    have hne : buffer ≠ [] := by
      intro h0
      by_cases hi : input = []
      · subst h0; subst hi; simp at h
      · exact hb hi h0
    have hpos : 0 < buffer.length := List.length_pos_iff.2 hne
    rw [shufflePass]
    simp only [dif_neg hne]
    set i : Nat := choice 0 % buffer.length with hi
    have hlt : i < buffer.length := Nat.mod_lt _ hpos
    have hlen : (buffer.eraseIdx i ++ input.take 1).length + (input.drop 1).length = k := by
      simp only [List.length_append, List.length_eraseIdx, if_pos hlt, List.length_take, List.length_drop]
      omega
    have ih := shufflePass_perm k (buffer.eraseIdx i ++ input.take 1) (input.drop 1)
      (fun n => choice (n + 1)) hlen (by
        intro hd h0
        rcases List.append_eq_nil_iff.1 h0 with ⟨_, h2⟩
        cases input with
        | nil => simp at hd
        | cons a l => simp at h2)
    have h1 : (buffer.get ⟨i, hlt⟩ :: shufflePass k (buffer.eraseIdx i ++ input.take 1) (input.drop 1)
        fun n => choice (n + 1)).Perm
        (buffer.get ⟨i, hlt⟩ :: (buffer.eraseIdx i ++ input.take 1 ++ input.drop 1)) := ih.cons _
    refine h1.trans ?_
    rw [List.append_assoc, List.take_append_drop, ← List.cons_append]
    apply List.Perm.append_right
    exact List.getElem_cons_eraseIdx_perm hlt

theorem shuffle_perm {X : Type} (xs : List X) (b : Nat) (hb : 0 < b) (choice : Nat → Nat) :
    (shuffle xs b choice).Perm xs := by
  have h := shufflePass_perm xs.length (xs.take b) (xs.drop b) choice
    (by rw [← List.length_append, List.take_append_drop]) (by
      intro h h0
      cases xs with
      | nil => simp at h
      | cons a l =>
        cases b with
        | zero => omega
        | succ b => simp at h0)
  rwa [List.take_append_drop] at h

end Kfac.Exec
