import Verif.Exec.Lemmas

/-!
# Properties of the scheduling and replication helpers (C18–C24)
-/

namespace Kfac.Exec
variable {α : Type}

/-! ## C18: rotating batch execution -/

/-- At every step exactly `min(b, n)` distinct thunks run. -/
theorem C18_count_per_step (t b n : Nat) :
    (batchExecute t b n).length = min b n ∧ (batchExecute t b n).Nodup ∧ ∀ j ∈ batchExecute t b n, j < n :=
  ⟨batchExecute_length t b n, List.Nodup.filter _ List.nodup_range,
    fun j hj => ((mem_batchExecute _ _ _ _).1 hj).1⟩

/-- Over any consecutive steps the numbers of executions of two thunks differ by at most one. -/
theorem C18_fair (b n s k j j' : Nat) (hj : j < n) (hj' : j' < n) :
    ((List.range k).filter fun t => decide (j ∈ batchExecute (s + t) b n)).length
      ≤ ((List.range k).filter fun t => decide (j' ∈ batchExecute (s + t) b n)).length + 1 := by
  show runs b n s k j ≤ runs b n s k j' + 1
  by_cases hb : b ≤ n
  · have h1 := runs_eq b n s k j hb hj
    have h2 := runs_eq b n s k j' hb hj'
    have hn : 0 < n := by omega
    have key : ∀ x L : Nat, (x + L) / n ≤ x / n + L / n + 1 ∧ x / n + L / n ≤ (x + L) / n := by
      intro x L
      constructor
      · rw [Nat.add_div hn]; split <;> omega
      · exact Nat.div_add_div_le_add_div
    have k1 := (key (s * b + n - 1 - j) (k * b)).1
    have k2 := (key (s * b + n - 1 - j') (k * b)).2
    omega
  · rw [runs_of_large b n s k j (by omega) hj, runs_of_large b n s k j' (by omega) hj']
    omega

/-- Every thunk runs at least once in any `⌈n/b⌉` consecutive steps. -/
theorem C18_no_starvation (b n s j : Nat) (hb : 0 < b) (hj : j < n) :
    ∃ t, s ≤ t ∧ t < s + (n + b - 1) / b ∧ j ∈ batchExecute t b n := by
  by_cases hbn : b ≤ n
  · set k := (n + b - 1) / b with hk
    have hkb : n ≤ k * b := by
      have h1 := Nat.div_add_mod (n + b - 1) b
      have h2 := Nat.mod_lt (n + b - 1) hb
      have : k * b = b * ((n + b - 1) / b) := by rw [hk, Nat.mul_comm]
      omega
    have h1 := runs_eq b n s k j hbn hj
    have hn : 0 < n := by omega
    have h2 : (s * b + n - 1 - j + n) / n ≤ (s * b + n - 1 - j + k * b) / n :=
      Nat.div_le_div_right (by omega)
    rw [Nat.add_div_right _ hn] at h2
    have h3 : 0 < runs b n s k j := by omega
    unfold runs at h3
    obtain ⟨t, ht⟩ := List.exists_mem_of_length_pos h3
    simp only [List.mem_filter, List.mem_range, decide_eq_true_eq] at ht
    exact ⟨s + t, by omega, by omega, ht.2⟩
  · refine ⟨s, le_refl _, ?_, condition_of_large s b n j (by omega) hj⟩
    have : 0 < (n + b - 1) / b := Nat.div_pos (by omega) hb
    omega

/-- The table in the documentation: three ops, two per step. -/
example : batchExecute 0 2 3 = [0, 1] ∧ batchExecute 1 2 3 = [0, 2] ∧ batchExecute 2 2 3 = [1, 2] := by
  decide

/-! ## C19: sharing work between replicas -/

/-- Every replica receives the results of all thunks in order, whenever a thunk's value does not depend on
the replica that evaluates it. All contexts, replica counts and numbers of thunks. -/
theorem C19_results [AddCommMonoid α] (c : Ctx) (h : c.Wf) (thunks : List (Nat → α)) (value : Nat → α)
    (hsame : ∀ i (hi : i < thunks.length), ∀ r < c.copies, thunks[i] r = value i) (r : Nat)
    (hr : r < c.copies) :
    (mapGather c thunks).results r = (List.range thunks.length).map value := by
  have h0 := h.copies_pos
  rw [mapGather_same h thunks (by
    intro t ht r hr
    obtain ⟨i, hi, rfl⟩ := List.getElem_of_mem ht
    rw [hsame i hi r hr, hsame i hi 0 h0]) r hr]
  apply List.ext_getElem (by simp)
  intro i h1 h2
  simp only [List.getElem_map, List.getElem_range]
  exact hsame i (by simpa using h1) 0 h0

/-- With TPU replication or a replicator each thunk is evaluated on exactly one replica, and all replicas
receive the value computed there, even if the thunk would compute something else elsewhere. -/
theorem C19_single_evaluation [AddCommMonoid α] (c : Ctx) (h : c.Wf) (thunks : List (Nat → α))
    (hctx : c.replicator.isSome ∨ c.isTpuReplicated) (hn : 1 < c.numReplicas) :
    ∀ i (hi : i < thunks.length), ∃ o, o < c.copies ∧
      (∀ r < c.copies, (mapGather c thunks).runs i r = true ↔ r = o) ∧
      ∀ r < c.copies, ((mapGather c thunks).results r)[i]? = some (thunks[i] o) := by
  intro i hi
  have hn' : ¬ c.numReplicas ≤ 1 := by omega
  cases hp : c.replicator with
  | some p =>
    have hcop : c.copies = p.num := by unfold Ctx.copies; rw [hp]
    refine ⟨p.owner i, by rw [hcop]; exact (h.replicator p hp).2 i, ?_, ?_⟩
    · intro r _; simp [mapGather, hn', hp]
    · intro r _; simp [mapGather, hn', hp, List.getElem?_mapIdx, hi]
  | none =>
    have ht : c.isTpuReplicated = true := by simpa [hp] using hctx
    have hc := tpu_copies h ht
    have ho : i % c.numReplicas < c.copies := by rw [hc]; exact Nat.mod_lt _ h.copies_pos
    refine ⟨i % c.numReplicas, ho, ?_, ?_⟩
    · intro r _; simp [mapGather, hn', hp, ht]
    · intro r hr
      simp only [mapGather, hn', hp, ht, if_true, if_false, List.getElem?_mapIdx]
      rw [List.getElem?_eq_getElem hi]
      simp only [Option.map_some]
      rw [allSum_owner h _ _ _ ho hr]

/-- Two TPU shards and three thunks: the thunks alternate between the shards. -/
example : (⟨none, none, some 2⟩ : Ctx).Wf ∧
    (List.range 3).map (fun i => (mapGather ⟨none, none, some 2⟩ [fun _ => (1 : Int), fun _ => 5, fun _ => 7]).runs i 1)
      = [false, true, false] := by
  refine ⟨⟨by simp, by simp, by simp, by simp⟩, by decide⟩

/-! ## C20: cross-replica reduction -/

/-- `all_sum` gives every copy of the program the sum over all copies, in every context. -/
theorem C20_all_sum [AddCommMonoid α] (c : Ctx) (h : c.Wf) (x : Nat → α) (r : Nat) (hr : r < c.copies) :
    allSum c x r = ∑ r' ∈ Finset.range c.copies, x r' :=
  allSum_spec h x r hr

/-- `all_average` gives every copy the mean over all copies. *Partial*: the cross-replica context of a
strategy with several replicas is excluded, see `C20_average_cross_replica_counterexample`. -/
theorem C20_all_average_partial (c : Ctx) (h : c.Wf)
    (hcross : c.replicator.isSome ∨ c.inReplicaContext = true ∨ c.shards.isSome ∨ c.strategy = none)
    (x : Nat → ℝ) (r : Nat) (hr : r < c.copies) :
    allAverage c x r = (∑ r' ∈ Finset.range c.copies, x r') / c.copies := by
  have heq := numReplicas_eq_copies h hcross
  have hpos := h.copies_pos
  unfold allAverage
  by_cases h1 : c.numReplicas ≤ 1
  · rw [if_pos h1]
    have h2 : c.copies = 1 := by omega
    have h3 : r = 0 := by omega
    subst h3
    simp [h2]
  · rw [if_neg h1]
    by_cases h2 : (c.inReplicaContext && c.replicator.isNone) = true
    · rw [if_pos h2]
      simp only [Bool.and_eq_true, Option.isNone_iff_eq_none] at h2
      cases hs : c.strategy with
      | none => simp [Ctx.inReplicaContext, hs] at h2
      | some s =>
        have : c.copies = s.num := by unfold Ctx.copies; rw [h2.2]; simp [h2.1, hs]
        simp only [this]; rfl
    · rw [if_neg h2]
      rw [allSum_spec h x r hr, heq]

/-- In the cross-replica context of a strategy with `n > 1` replicas a single copy of the program runs and
`all_sum` is the identity, but `all_average` divides the value by `n`. -/
theorem C20_average_cross_replica_counterexample (n : Nat) (hn : 1 < n) (tpu : Bool) (x : Nat → ℝ)
    (hx : x 0 ≠ 0) :
    let c : Ctx := ⟨none, some ⟨n, tpu, false⟩, none⟩
    c.Wf ∧ c.copies = 1 ∧ allSum c x 0 = x 0 ∧ allAverage c x 0 = x 0 / n ∧ allAverage c x 0 ≠ x 0 := by
  intro c
  have hw : c.Wf := ⟨by simp [c], by simp [c]; omega, by simp [c], by simp [c]⟩
  have h1 : allSum c x = x := allSum_cross rfl rfl rfl x
  have h2 : allAverage c x 0 = x 0 / n := by
    have : ¬ c.numReplicas ≤ 1 := by show ¬ n ≤ 1; omega
    unfold allAverage
    rw [if_neg this, if_neg (by simp [c, Ctx.inReplicaContext]), h1]
    rfl
  refine ⟨hw, rfl, by rw [h1], h2, ?_⟩
  rw [h2]
  intro h
  have hn0 : (n : ℝ) ≠ 0 := Nat.cast_ne_zero.2 (by omega)
  have hn1 : (n : ℝ) ≠ 1 := by
    have : (1 : ℝ) < n := by exact_mod_cast hn
    exact this.ne'
  rw [div_eq_iff hn0] at h
  apply hn1
  have h3 : x 0 * (n : ℝ) = x 0 * 1 := by rw [mul_one]; exact h.symm
  exact mul_left_cancel₀ hx h3

/-- Outside any replicated execution both are the identity. -/
theorem C20_unreplicated (x : Nat → ℝ) :
    allSum ⟨none, none, none⟩ x = x ∧ allAverage ⟨none, none, none⟩ x = x :=
  ⟨allSum_cross rfl rfl rfl x, by unfold allAverage; rw [if_pos]; show 1 ≤ 1; omega⟩

/-! ## C21: round-robin placement -/

/-- The device assigned to position `i` when cycling through a nonempty list. -/
def cycleDevice {D : Type} (devices : List D) (i : Nat) : Option D := devices[i % devices.length]?

/-- With nonempty device sequences: each of the four lists has one thunk per factor in the original order;
covariance variable `i` and covariance update `i` are both on `cov_devices[i mod n]`, inverse update `i` is on
`inv_devices[i mod m]`, and inverse variables are not pinned. -/
theorem C21_thunks {D X : Type} (cd idv : List D) (hc : cd ≠ []) (hi : idv ≠ [])
    (covVars covUps invVars invUps : List X) (hlen : covVars.length = covUps.length) :
    let t := createThunks (.list cd) (.list idv) covVars covUps invVars invUps
    t.covVariables.map (·.thunk) = covVars ∧ t.covUpdates.map (·.thunk) = covUps ∧
    t.invVariables.map (·.thunk) = invVars ∧ t.invUpdates.map (·.thunk) = invUps ∧
    (∀ i, i < covVars.length → (t.covVariables[i]?.map (·.device)) = some (cycleDevice cd i) ∧
      (t.covUpdates[i]?.map (·.device)) = some (cycleDevice cd i)) ∧
    (∀ i, i < invUps.length → (t.invUpdates[i]?.map (·.device)) = some (cycleDevice idv i)) ∧
    ∀ p ∈ t.invVariables, p.device = none := by
  have hzip : ∀ {Y : Type} (s : List D), s ≠ [] → ∀ ys : List Y,
      (zipCycle s s ys).map (·.1) = ys ∧
      ∀ i, i < ys.length → ∃ y d, (zipCycle s s ys)[i]? = some (y, d) ∧ cycleDevice s i = some d := by
    intro Y s hs ys
    have hg : ∀ i y, ys[i]? = some y → ∃ d, s[i % s.length]? = some d ∧
        (zipCycle s s ys)[i]? = some (y, d) := by
      intro i y hy
      have := zipCycle_get s hs ys 0 (Nat.zero_le _) i y hy
      simpa using this
    constructor
    · apply List.ext_getElem?
      intro i
      rcases Nat.lt_or_ge i ys.length with h | h
      · obtain ⟨d, _, h2⟩ := hg i ys[i] (List.getElem?_eq_getElem h)
        simp [h2, List.getElem?_eq_getElem h]
      · have hl := zipCycle_length s hs s ys
        rw [List.getElem?_eq_none (by simpa [hl] using h), List.getElem?_eq_none h]
    · intro i h
      obtain ⟨d, h1, h2⟩ := hg i ys[i] (List.getElem?_eq_getElem h)
      exact ⟨_, d, h2, h1⟩
  have hct : (Devices.list cd).truthy = true := by cases cd <;> simp_all [Devices.truthy]
  have hit : (Devices.list idv).truthy = true := by cases idv <;> simp_all [Devices.truthy]
  obtain ⟨z1, z2⟩ := hzip cd hc (covVars.zip covUps)
  obtain ⟨w1, w2⟩ := hzip idv hi invUps
  simp only [createThunks, hct, hit, if_true, Devices.elems, List.map_map]
  refine ⟨?_, ?_, ?_, ?_, ?_, ?_, ?_⟩
  · have := congrArg (List.map Prod.fst) z1
    rw [List.map_map, List.map_fst_zip (by omega)] at this
    exact this
  · have := congrArg (List.map Prod.snd) z1
    rw [List.map_map, List.map_snd_zip (by omega)] at this
    exact this
  · simp [Function.comp_def]
  · exact w1
  · intro i h
    obtain ⟨y, d, h1, h2⟩ := z2 i (by simp [← hlen, h])
    simp [h1, h2]
  · intro i h
    obtain ⟨y, d, h1, h2⟩ := w2 i h
    simp [h1, h2]
  · simp

/-- With no devices (or an empty sequence) every thunk is returned unpinned, in order. -/
theorem C21_unpinned {D X : Type} (cd idv : Devices D) (hc : cd = .none ∨ cd = .list [])
    (hi : idv = .none ∨ idv = .list []) (covVars covUps invVars invUps : List X) :
    let t := createThunks cd idv covVars covUps invVars invUps
    let bare := fun xs : List X => xs.map fun x => (⟨none, x⟩ : Placed D X)
    t.covVariables = bare covVars ∧ t.covUpdates = bare covUps ∧ t.invVariables = bare invVars ∧
      t.invUpdates = bare invUps := by
  have h1 : cd.truthy = false := by rcases hc with rfl | rfl <;> rfl
  have h2 : idv.truthy = false := by rcases hi with rfl | rfl <;> rfl
  simp [createThunks, h1, h2]

/-- Vector transformations: with a device sequence (possibly empty) or none, every call returns all results
in order, result `i` computed on `trans_devices[i mod n]`, and leaves the sequence usable for later calls. -/
theorem C21_transformations {D X : Type} (td : Devices D) (htd : td = .none ∨ ∃ l, td = .list l)
    (thunks : List X) :
    (placeTransformations td thunks).1.map (·.thunk) = thunks ∧ (placeTransformations td thunks).2 = td ∧
    ∀ i, i < thunks.length → ((placeTransformations td thunks).1[i]?.map (·.device))
      = some (cycleDevice td.elems i) := by
  by_cases ht : td.truthy = true
  · obtain ⟨l, rfl⟩ : ∃ l, td = .list l := by
      rcases htd with rfl | h
      · simp [Devices.truthy] at ht
      · exact h
    have hl : l ≠ [] := by rintro rfl; simp [Devices.truthy] at ht
    have hg : ∀ i y, thunks[i]? = some y → ∃ d, l[i % l.length]? = some d ∧
        (zipCycle l l thunks)[i]? = some (y, d) := by
      intro i y hy
      have := zipCycle_get l hl thunks 0 (Nat.zero_le _) i y hy
      simpa using this
    simp only [placeTransformations, ht, if_true, Devices.elems, List.map_map, Devices.consume]
    refine ⟨?_, trivial, ?_⟩
    · apply List.ext_getElem?
      intro i
      rcases Nat.lt_or_ge i thunks.length with h | h
      · obtain ⟨d, _, h2⟩ := hg i thunks[i] (List.getElem?_eq_getElem h)
        simp [h2, List.getElem?_eq_getElem h]
      · have hlen := zipCycle_length l hl l thunks
        rw [List.getElem?_eq_none (by simpa [hlen] using h), List.getElem?_eq_none h]
    · intro i h
      obtain ⟨d, h1, h2⟩ := hg i thunks[i] (List.getElem?_eq_getElem h)
      simp [h2, cycleDevice, h1]
  · have hl : td.elems = [] := by
      rcases htd with rfl | ⟨l, rfl⟩
      · rfl
      · cases l <;> simp_all [Devices.truthy, Devices.elems]
    simp only [placeTransformations, ht, Bool.false_eq_true, if_false, List.map_map, hl]
    refine ⟨by simp [Function.comp_def], trivial, ?_⟩
    intro i h
    simp [List.getElem?_eq_getElem h, cycleDevice]

/-- The documentation allows any iterable. With a one-shot iterator (say a generator) of at most as many
devices as blocks the first call uses it up, and every later call returns no results at all. -/
theorem C21_iterator_counterexample {D X : Type} (devices : List D) (thunks : List X)
    (h : devices.length ≤ thunks.length) :
    (placeTransformations (placeTransformations (.iterator devices) thunks).2 thunks).1 = [] := by
  have h1 : (placeTransformations (Devices.iterator devices) thunks).2 = .iterator [] := by
    simp [placeTransformations, Devices.truthy, Devices.consume, List.drop_eq_nil_of_le h]
  rw [h1]
  cases thunks <;> simp [placeTransformations, Devices.truthy, Devices.elems, zipCycle]

example : (createThunks (.list ["/gpu:0", "/gpu:1"]) .none [0, 1, 2] [10, 11, 12] [20, 21, 22] [30, 31, 32]).covUpdates
    = [⟨some "/gpu:0", 10⟩, ⟨some "/gpu:1", 11⟩, ⟨some "/gpu:0", 12⟩] := by rfl

/-! ## C22: replica round-robin placement -/

/-- C22: without a TF-Replicator and outside a TPU context the placement can be constructed exactly where more than one copy of the
program runs; with one of them, outside the replica context of a strategy, it always can. It can be wherever several copies run,
unless a replicator is combined with a strategy of one replica. -/
theorem C22_constructor (c : Ctx) (h : c.Wf) :
    (c.replicator = none → c.shards = none → (c.newRoundRobin = .ok () ↔ 1 < c.copies)) ∧
    (c.inReplicaContext = false → (c.newRoundRobin = .ok () ↔ c.replicator ≠ none ∨ c.shards ≠ none)) ∧
    (c.replicator = none → 1 < c.copies → c.newRoundRobin = .ok ()) := by
  rcases c with ⟨rp, st, sh⟩
  have hs := h.agree
  cases rp <;> cases sh <;> cases st with
  | none => simp [Ctx.newRoundRobin, Ctx.isReplicated, Ctx.isTpuReplicated, Ctx.copies, Ctx.inReplicaContext]
  | some s =>
    rcases s with ⟨n, tpu, inR⟩
    cases inR <;>
      simp +contextual [Ctx.newRoundRobin, Ctx.isReplicated, Ctx.isTpuReplicated, Ctx.copies, Ctx.inReplicaContext]

example : (Ctx.mk none (some ⟨1, false, true⟩) none).newRoundRobin ≠ .ok () ∧ (Ctx.mk none (some ⟨2, false, true⟩) none).newRoundRobin = .ok () :=
  ⟨nofun, rfl⟩

/-- If every factor reports all variables it writes, individually, and at least one factor has inverse
variables, and the covariances agree on all replicas, then after the inverse update every replica holds in
every variable the value that running all updates on that replica would have produced. *Partial*: not all
factor classes meet the condition and not every list has inverse variables, see the counterexamples. -/
theorem C22_same_inverses_partial {C : Type} [AddCommMonoid α] (c : Ctx) (h : c.Wf)
    (fs : List (RFactor C α)) (hrep : ∀ f ∈ fs, f.kind.getInvVars = f.kind.written.map .var)
    (hsome : ∃ f ∈ fs, f.kind.written ≠ []) (cov : Nat → C) (hcov : ∀ r < c.copies, cov r = cov 0)
    (state : RState α) :
    ∃ s', replicaInvUpdate c fs cov state = .ok s' ∧
      ∀ r < c.copies, s' r = runAll fs (cov 0) (state r) := by
  set kept := fs.filter fun f => !f.kind.getInvVars.isEmpty with hkept
  have hkrep : ∀ f ∈ kept, f.kind.Reported := fun f hf => hrep f (List.mem_filter.1 hf).1
  have hne : kept.isEmpty = false := by
    obtain ⟨f, hf, hw⟩ := hsome
    have : f ∈ kept := by
      rw [hkept, List.mem_filter]
      refine ⟨hf, ?_⟩
      rw [hrep f hf]
      cases hw' : f.kind.written with
      | nil => exact absurd hw' hw
      | cons a l => simp
    cases hk : kept with
    | nil => rw [hk] at this; simp at this
    | cons a l => rfl
  have hpos := h.copies_pos
  have hres : ∀ r < c.copies,
      (mapGather c (kept.map fun f => fun r => fun v => f.value (cov r) v)).results r
        = kept.map fun f => fun v => f.value (cov 0) v := by
    intro r hr
    rw [mapGather_same h _ (by
      intro t ht r hr
      obtain ⟨f, _, rfl⟩ := List.mem_map.1 ht
      funext v
      simp only [hcov r hr]) r hr]
    rw [List.map_map]
    rfl
  unfold replicaInvUpdate
  simp only [← hkept, hne, Bool.false_eq_true, if_false]
  rw [hres 0 hpos, saveAll_eq (cov 0) kept _ hkrep]
  refine ⟨_, rfl, ?_⟩
  intro r hr
  rw [hres r hr]
  simp only [saveAll_eq (cov 0) kept _ hkrep]
  rw [← runAll_filter (cov 0) fs (state r) hrep, ← hkept]
  funext v
  apply runAll_congr
  by_cases hv : ∃ f ∈ kept, v ∈ f.kind.written
  · exact Or.inr hv
  · left
    apply foldl_untouched
    intro p hp hvp
    rw [List.mem_filter] at hp
    exact hv ⟨p.1, List.fst_mem_of_mem_zipIdx hp.1, hvp⟩

/-- The dense and diagonal factor classes, and multi-use factors without recurrence options, meet the
condition of the previous theorem; so does the SUA factor only if nothing was registered. -/
theorem C22_which_factors :
    (∀ m ch ci, (FactorKind.dense m ch ci).getInvVars = (FactorKind.dense m ch ci).written.map .var) ∧
    FactorKind.diagonal.getInvVars = FactorKind.diagonal.written.map .var ∧
    (∀ m ch ci, (FactorKind.multi m ch ci [] []).getInvVars
      = (FactorKind.multi m ch ci [] []).written.map .var) ∧
    ∀ m d cm s, d.length = m.length → ((FactorKind.sua m d cm s).getInvVars
      = (FactorKind.sua m d cm s).written.map .var ↔ m = [] ∧ cm = [] ∧ s = []) := by
  refine ⟨fun _ _ _ => rfl, rfl, fun _ _ _ => ?_, ?_⟩
  · simp [FactorKind.getInvVars, FactorKind.written]
  · intro m d cm s hd
    simp only [FactorKind.getInvVars, FactorKind.written, List.map_append]
    constructor
    · intro h
      have := congrArg List.length h
      simp only [List.length_append, List.length_map] at this
      refine ⟨List.length_eq_zero_iff.1 (by omega), List.length_eq_zero_iff.1 (by omega),
        List.length_eq_zero_iff.1 (by omega)⟩
    · rintro ⟨rfl, rfl, rfl⟩
      have : d = [] := List.length_eq_zero_iff.1 (by simpa using hd)
      subst this
      rfl

/-- A model all of whose factors are diagonal makes the update operation fail while it is built. -/
theorem C22_no_inverse_variables_counterexample {C : Type} [AddCommMonoid α] (c : Ctx)
    (fs : List (RFactor C α)) (hfs : ∀ f ∈ fs, f.kind = .diagonal) (cov : Nat → C) (state : RState α) :
    replicaInvUpdate c fs cov state = .error "ValueError: not enough values to unpack (expected 2, got 0)" := by
  have : (fs.filter fun f => !f.kind.getInvVars.isEmpty) = [] := by
    rw [List.filter_eq_nil_iff]
    intro f hf
    simp [hfs f hf, FactorKind.getInvVars]
  simp [replicaInvUpdate, this]

/-- With a recurrent-layer factor that uses "option 1" or "option 2" it fails too. -/
theorem C22_option_tuples_counterexample {C : Type} [AddCommMonoid α] (c : Ctx) (h : c.Wf)
    (value : C → Nat → α) (m ch ci : List Nat)
    (o1 : List (Nat × Nat)) (o2 : List (Nat × Nat × Nat)) (ho : o1 ≠ [] ∨ o2 ≠ []) (cov : Nat → C)
    (hcov : ∀ r < c.copies, cov r = cov 0) (state : RState α) :
    ∃ e, replicaInvUpdate c [⟨.multi m ch ci o1 o2, value⟩] cov state = .error e := by
  have hne : (FactorKind.multi m ch ci o1 o2).getInvVars.isEmpty = false := by
    rcases ho with ho | ho
    · cases o1 with
      | nil => exact absurd rfl ho
      | cons a l => simp [FactorKind.getInvVars]
    · cases o2 with
      | nil => exact absurd rfl ho
      | cons a l => simp [FactorKind.getInvVars]
  have hsave : ∀ vals s, ∃ e, saveBack (α := α) (FactorKind.multi m ch ci o1 o2).getInvVars vals s = .error e := by
    intro vals s
    have happ : ∀ (vs : List Nat) (p : List Nat) (rest : List InvEntry) (s : Nat → α),
        ∃ e, saveBack (vs.map .var ++ .tuple p :: rest) vals s = .error e := by
      intro vs p rest
      induction vs with
      | nil => intro s; exact ⟨_, rfl⟩
      | cons v vs ih => intro s; exact ih _
    cases o1 with
    | cons a l =>
      obtain ⟨e, he⟩ := happ (m ++ ch ++ ci) [a.1, a.2] (l.map (fun p => .tuple [p.1, p.2])
        ++ o2.map (fun p => .tuple [p.1, p.2.1, p.2.2])) s
      refine ⟨e, ?_⟩
      rw [← he]
      simp [FactorKind.getInvVars]
    | nil =>
      cases o2 with
      | nil => simp at ho
      | cons a l =>
        obtain ⟨e, he⟩ := happ (m ++ ch ++ ci) [a.1, a.2.1, a.2.2]
          (l.map (fun p => .tuple [p.1, p.2.1, p.2.2])) s
        refine ⟨e, ?_⟩
        rw [← he]
        simp [FactorKind.getInvVars]
  have hres : (mapGather c [fun r v => value (cov r) v]).results 0 = [fun v => value (cov 0) v] :=
    mapGather_same h _ (by
      intro t ht r hr
      rw [List.mem_singleton] at ht
      subst ht
      funext v
      simp only [hcov r hr]) 0 h.copies_pos
  unfold replicaInvUpdate
  simp only [List.filter_cons, hne, Bool.not_false, if_true, List.filter_nil, List.isEmpty_cons,
    Bool.false_eq_true, if_false, List.map_cons, List.map_nil, hres, List.zip_cons_cons, List.zip_nil_right,
    saveAll]
  obtain ⟨e, he⟩ := hsave (fun v => value (cov 0) v) ((([({ kind := FactorKind.multi m ch ci o1 o2, value := value } : RFactor C α)].zipIdx.filter
    fun p => (mapGather c [fun r v => value (cov r) v]).runs p.2 0).foldl
      (fun s p => p.1.runUpdate (cov 0) s) (state 0)))
  refine ⟨e, ?_⟩
  simp only [he, bind, Except.bind]

/-- An SUA factor on two TPU shards: after the update the damping variable keeps its old value on the shard
that did not evaluate the factor, while the inverse has been replaced there. -/
theorem C22_sua_counterexample : ∃ (s' : RState ℤ),
    replicaInvUpdate (C := Unit) (α := ℤ) ⟨none, none, some 2⟩ [⟨.sua [0] [1] [] [], fun _ v => 10 + (v : ℤ)⟩]
      (fun _ => ()) (fun _ _ => 0) = .ok s' ∧
    s' 0 0 = 10 ∧ s' 0 1 = 11 ∧ s' 1 0 = 10 ∧ s' 1 1 = 0 := by
  have e : (mapGather (α := Nat → ℤ) ⟨none, none, some 2⟩ [fun (_ : Nat) (v : Nat) => 10 + (v : ℤ)])
      = ⟨fun _ => [fun v => 10 + (v : ℤ)], fun i r => decide (r = i % 2)⟩ := by
    simp only [mapGather, Ctx.numReplicas, Ctx.isTpuReplicated]
    simp [allSum, Ctx.numReplicas, Ctx.inReplicaContext, Ctx.isTpuReplicated, reduceSum,
      Finset.sum_range_succ]
  simp only [replicaInvUpdate, FactorKind.getInvVars]
  simp [e, saveAll, saveBack, RFactor.runUpdate, FactorKind.written, FactorKind.getInvVars, assign, bind,
    Except.bind]

/-- A model with a dense and a diagonal factor meets the hypotheses of `C22_same_inverses_partial`. -/
example : ∀ f ∈ [(⟨.dense [0, 1] [2] [], fun _ v => (v : ℤ)⟩ : RFactor Unit ℤ), ⟨.diagonal, fun _ _ => 0⟩],
    f.kind.getInvVars = f.kind.written.map .var := by
  simp [FactorKind.getInvVars, FactorKind.written]

/-! ## C23: OpQueue -/

section OpQueue
variable {Op : Type} (name : Op → String) (ops : List Op)

theorem lookupOp_of_nodup (hnd : (ops.map name).Nodup) {o : Op} (ho : o ∈ ops) :
    lookupOp name ops (name o) = some o := by
  unfold lookupOp
  have hex : (ops.reverse.find? fun o' => decide (name o' = name o)).isSome := by
    rw [List.find?_isSome]
    exact ⟨o, by simpa using ho, by simp⟩
  obtain ⟨o', ho'⟩ := Option.isSome_iff_exists.1 hex
  have h1 := List.find?_some ho'
  have h2 := List.mem_of_find?_eq_some ho'
  simp only [decide_eq_true_eq] at h1
  rw [ho', List.inj_on_of_nodup_map hnd (by simpa using h2) ho h1]

/-- For operations with distinct names, every consecutive block of `n` draws is a permutation of the given
operations, whatever the shuffling does. -/
theorem C23_permutation (hnd : (ops.map name).Nodup) (choice : Nat → Nat → Nat) (e : Nat) :
    ((List.range ops.length).map fun i => nextOp name ops choice (e * ops.length + i)).Perm
      (ops.map some) := by
  rcases Nat.eq_zero_or_pos ops.length with h0 | hpos
  · rw [List.length_eq_zero_iff.1 h0]; simp
  have hperm : (queueNames (ops.map name) choice e).Perm (ops.map name) := by
    have h1 := shuffle_perm ((ops.map name).mergeSort fun a b => decide (a ≤ b)) (ops.map name).length
      (by simpa using hpos) (choice e)
    exact h1.trans (List.mergeSort_perm _ _)
  have hlen : (queueNames (ops.map name) choice e).length = ops.length := by
    rw [hperm.length_eq, List.length_map]
  have h2 : ((List.range ops.length).map fun i => nextOp name ops choice (e * ops.length + i))
      = (queueNames (ops.map name) choice e).map (lookupOp name ops) := by
    apply List.ext_getElem (by simp [hlen])
    intro i hi hi'
    simp only [List.getElem_map, List.getElem_range]
    have hi2 : i < ops.length := by simpa using hi
    have hd : (e * ops.length + i) / ops.length = e := by
      rw [Nat.mul_comm, Nat.mul_add_div hpos, Nat.div_eq_of_lt hi2, Nat.add_zero]
    have hm : (e * ops.length + i) % ops.length = i := by
      rw [Nat.mul_comm, Nat.mul_add_mod, Nat.mod_eq_of_lt hi2]
    unfold nextOp
    rw [hd, hm, List.getElem?_eq_getElem (by rw [hlen]; exact hi2)]
    rfl
  rw [h2]
  have h3 := hperm.map (lookupOp name ops)
  refine h3.trans (List.Perm.of_eq ?_)
  rw [List.map_map]
  exact List.map_congr_left fun o ho => lookupOp_of_nodup name ops hnd ho

/-- Every draw returns an operation, and every operation occurs among any `2n - 1` consecutive draws. -/
theorem C23_recurrence (hnd : (ops.map name).Nodup) (choice : Nat → Nat → Nat) (o : Op) (ho : o ∈ ops)
    (start : Nat) : ∃ t, start ≤ t ∧ t < start + (2 * ops.length - 1) ∧ nextOp name ops choice t = some o := by
  have hpos : 0 < ops.length := List.length_pos_of_mem ho
  set e := (start + (ops.length - 1)) / ops.length with he
  have h1 := Nat.div_add_mod (start + (ops.length - 1)) ops.length
  have h2 := Nat.mod_lt (start + (ops.length - 1)) hpos
  rw [← he] at h1
  have hmem : some o ∈ (List.range ops.length).map fun i => nextOp name ops choice (e * ops.length + i) :=
    (C23_permutation name ops hnd choice e).mem_iff.2 (List.mem_map.2 ⟨o, ho, rfl⟩)
  obtain ⟨i, hi, hio⟩ := List.mem_map.1 hmem
  rw [List.mem_range] at hi
  have hc : e * ops.length = ops.length * e := Nat.mul_comm _ _
  exact ⟨e * ops.length + i, by omega, by omega, hio⟩

/-- After `k` rounds every operation has been drawn exactly `k` times. -/
theorem C23_count [DecidableEq Op] (hnd : (ops.map name).Nodup) (choice : Nat → Nat → Nat) (o : Op)
    (ho : o ∈ ops) (k : Nat) :
    ((List.range (k * ops.length)).map (nextOp name ops choice)).count (some o) = k := by
  induction k with
  | zero => simp
  | succ k ih =>
    have hr : List.range ((k + 1) * ops.length)
        = List.range (k * ops.length) ++ (List.range ops.length).map (k * ops.length + ·) := by
      rw [Nat.succ_mul, List.range_add]
    rw [hr, List.map_append, List.count_append, ih, List.map_map]
    have hp := C23_permutation name ops hnd choice k
    have : ((List.range ops.length).map (nextOp name ops choice ∘ fun x => k * ops.length + x)).count (some o)
        = (ops.map some).count (some o) := hp.count_eq (some o)
    rw [this, List.count_map_of_injective _ _ (Option.some_injective _)]
    rw [List.count_eq_one_of_mem (List.Nodup.of_map name hnd) ho]

end OpQueue

example : (["a", "b", "c"].map id).Nodup := by decide

/-! ## C24: SequenceDict -/

section SequenceDict
variable {K V : Type} [DecidableEq K]

mutual
/-- The plain keys that occur in a key argument, in order. -/
def Key.atoms {K : Type} : Key K → List K
  | .atom k => [k]
  | .seq ks => atomsAll ks
/-- The plain keys of several key arguments. -/
def atomsAll {K : Type} : List (Key K) → List K
  | [] => []
  | k :: ks => k.atoms ++ atomsAll ks
end

mutual
/-- The value has the same nesting as the key argument: any value for a plain key, a sequence of matching
values for a sequence. -/
inductive Matches {K V : Type} : Key K → Val V → Prop
  | atom (k : K) (v : Val V) : Matches (.atom k) v
  | seq {ks : List (Key K)} {vs : List (Val V)} : MatchesAll ks vs → Matches (.seq ks) (.seq vs)
/-- Elementwise, for sequences of the same length. -/
inductive MatchesAll {K V : Type} : List (Key K) → List (Val V) → Prop
  | nil : MatchesAll [] []
  | cons {k : Key K} {v : Val V} {ks : List (Key K)} {vs : List (Val V)} :
      Matches k v → MatchesAll ks vs → MatchesAll (k :: ks) (v :: vs)
end

/-- Reading a sequence is reading each of its elements. -/
theorem C24_read_sequence (d : Dict K V) (ks : List (Key K)) (vs : List (Val V)) :
    getItem d (.seq ks) = .ok (.seq vs) ↔ List.Forall₂ (fun k v => getItem d k = .ok v) ks vs := by
  have h : ∀ (ks : List (Key K)) (vs : List (Val V)),
      getItems d ks = .ok vs ↔ List.Forall₂ (fun k v => getItem d k = .ok v) ks vs := by
    intro ks
    induction ks with
    | nil =>
      intro vs
      simp only [getItems, List.forall₂_nil_left_iff, Except.ok.injEq]
      exact eq_comm
    | cons k ks ih =>
      intro vs
      simp only [getItems]
      cases hk : getItem d k with
      | error e =>
        simp only [reduceCtorEq, false_iff]
        intro hf
        cases hf with
        | cons h _ => rw [hk] at h; simp at h
      | ok v =>
        cases hks : getItems d ks with
        | error e =>
          simp only [reduceCtorEq, false_iff]
          intro hf
          cases hf with
          | cons _ h => rw [(ih _).2 h] at hks; simp at hks
        | ok ws =>
          simp only [Except.ok.injEq]
          constructor
          · rintro rfl; exact .cons hk ((ih ws).1 hks)
          · intro hf
            cases hf with
            | cons h1 h2 =>
              rw [hk, Except.ok.injEq] at h1
              rw [(ih _).2 h2, Except.ok.injEq] at hks
              rw [h1, hks]
  rw [← h ks vs]
  simp only [getItem]
  cases getItems d ks with
  | error e => simp
  | ok ws => simp

mutual
theorem getItem_congr {K V : Type} (d d' : Dict K V) :
    ∀ key : Key K, (∀ k ∈ key.atoms, d' k = d k) → getItem d' key = getItem d key
  | .atom k, h => by simp [getItem, h k (by simp [Key.atoms])]
  | .seq ks, h => by
    rw [getItem, getItem, getItems_congr d d' ks (by simpa [Key.atoms] using h)]
theorem getItems_congr {K V : Type} (d d' : Dict K V) :
    ∀ ks : List (Key K), (∀ k ∈ atomsAll ks, d' k = d k) → getItems d' ks = getItems d ks
  | [], _ => rfl
  | k :: ks, h => by
    simp only [atomsAll, List.mem_append] at h
    rw [getItems, getItems, getItem_congr d d' k (fun x hx => h x (Or.inl hx)),
      getItems_congr d d' ks (fun x hx => h x (Or.inr hx))]
end

mutual
theorem setItem_spec {K V : Type} [DecidableEq K] : ∀ (key : Key K) (val : Val V) (d : Dict K V),
    Matches key val → ∃ d', setItem d key val = (d', none) ∧ (∀ k, k ∉ key.atoms → d' k = d k) ∧
      (key.atoms.Nodup → getItem d' key = .ok val)
  | .atom k, val, d, _ => by
    refine ⟨_, rfl, ?_, ?_⟩
    · intro k' hk'
      simp only [Key.atoms, List.mem_singleton] at hk'
      simp [hk']
    · intro _
      simp [getItem]
  | .seq ks, val, d, hm => by
    cases hm with
    | @seq _ vs hms =>
      obtain ⟨d', h1, h2, h3⟩ := setItems_spec ks vs d hms
      refine ⟨d', by rw [setItem, h1], by simpa [Key.atoms] using h2, ?_⟩
      intro hnd
      rw [getItem, h3 (by simpa [Key.atoms] using hnd)]
theorem setItems_spec {K V : Type} [DecidableEq K] : ∀ (ks : List (Key K)) (vs : List (Val V)) (d : Dict K V),
    MatchesAll ks vs → ∃ d', setItems d ks vs = (d', none) ∧ (∀ k, k ∉ atomsAll ks → d' k = d k) ∧
      ((atomsAll ks).Nodup → getItems d' ks = .ok vs)
  | [], vs, d, hm => by
    cases hm
    exact ⟨d, by simp [setItems], fun _ _ => rfl, fun _ => rfl⟩
  | k :: ks, vs, d, hm => by
    cases hm with
    | @cons _ v _ vs h hs =>
      obtain ⟨d1, a1, a2, a3⟩ := setItem_spec k v d h
      obtain ⟨d2, b1, b2, b3⟩ := setItems_spec ks vs d1 hs
      refine ⟨d2, by simp only [setItems, a1, b1], ?_, ?_⟩
      · intro k' hk'
        simp only [atomsAll, List.mem_append, not_or] at hk'
        rw [b2 k' hk'.2, a2 k' hk'.1]
      · intro hnd
        simp only [atomsAll] at hnd
        obtain ⟨n1, n2, n3⟩ := List.nodup_append.1 hnd
        have hk : getItem d2 k = .ok v := by
          rw [getItem_congr d1 d2 k, a3 n1]
          intro x hx
          exact b2 x fun hx' => n3 x hx x hx' rfl
        simp only [getItems, hk, b3 n2]
end

/-- Writing a value that matches the key argument succeeds; afterwards plain keys outside the argument are
unchanged and, when its plain keys are distinct, reading the argument gives the value back. -/
theorem C24_write_read (d : Dict K V) (key : Key K) (val : Val V) (hm : Matches key val) :
    ∃ d', setItem d key val = (d', none) ∧ (∀ k, k ∉ key.atoms → d' k = d k) ∧
      (key.atoms.Nodup → getItem d' key = .ok val) :=
  setItem_spec key val d hm

/-- The flat case: distinct keys and as many values. -/
theorem C24_flat (d : Dict K V) (ks : List K) (vs : List V) (hnd : ks.Nodup) (hlen : ks.length = vs.length) :
    ∃ d', setItem d (.seq (ks.map .atom)) (.seq (vs.map .leaf)) = (d', none) ∧
      getItem d' (.seq (ks.map .atom)) = .ok (.seq (vs.map .leaf)) ∧ ∀ k, k ∉ ks → d' k = d k := by
  have ha : ∀ ks : List K, atomsAll (ks.map Key.atom) = ks := by
    intro ks
    induction ks with
    | nil => rfl
    | cons k ks ih => simp [atomsAll, Key.atoms, ih]
  have hm : ∀ (ks : List K) (vs : List V), ks.length = vs.length →
      MatchesAll (ks.map Key.atom) (vs.map Val.leaf) := by
    intro ks
    induction ks with
    | nil => intro vs h; cases vs with
      | nil => exact .nil
      | cons _ _ => simp at h
    | cons k ks ih => intro vs h; cases vs with
      | nil => simp at h
      | cons v vs => exact .cons (.atom _ _) (ih vs (by simpa using h))
  obtain ⟨d', h1, h2, h3⟩ := C24_write_read d _ _ (Matches.seq (hm ks vs hlen))
  have hat : (Key.seq (ks.map Key.atom)).atoms = ks := by rw [Key.atoms, ha]
  rw [hat] at h2 h3
  exact ⟨d', h1, h3 hnd, h2⟩

/-- Values beyond the shorter sequence are ignored without an error. -/
example : ∃ d', setItem (fun _ => none : Dict Nat Nat) (.seq [.atom 0, .atom 1]) (.seq [.leaf 5]) = (d', none) ∧
    d' 1 = none := ⟨_, rfl, rfl⟩

end SequenceDict

end Kfac.Exec
