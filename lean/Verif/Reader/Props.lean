import Verif.Reader.Lemmas

/-! # C52: the cached batch is the previously returned batch -/

namespace Kfac.Reader

variable {α : Type}

/-- States of a reader with `m` tensors and maximum `max`: the storage tensors have `max` rows of any content and the
size is anything when the variables are created; each read uses a dataset with at least `max` rows per tensor. -/
inductive Reachable (m max : ℕ) : Cache α → Prop
  | init (c : Cache α) : (∀ i < m, (c.storage i).length = max) → Reachable m max c
  | read {c c' : Cache α} {b : ℕ} {data : ℕ → List α} {out : Option (Run α)} : Reachable m max c →
      (∀ i < m, max ≤ (data i).length) → Read m max c b data out c' → Reachable m max c'

theorem Reachable.length {m max : ℕ} {c : Cache α} (h : Reachable m max c) :
    ∀ i < m, (c.storage i).length = max := by
  induction h with
  | init c h => exact h
  | @read c c' b data out _ hd hr ih =>
    intro i hi
    cases hr with
    | ok hb hs hall =>
      have := (exec_inv (b := b) (data := data) (c := c)
        (fun j hj => by simp [ih j hj]; have := hd j hj; omega) hs).storage i hi
      rw [this, if_pos (hall (.assignData i) hi)]
      have := hd i hi; have := ih i hi
      simp; omega
    | rejected _ hs hc => rw [(no_check_storage hs hc).1]; exact ih i hi

/-- C52: a read with an acceptable size returns the first `b` rows of every tensor, in every order of execution; in
the same run `cached_batch` still has its old value; afterwards it is exactly the returned batch. No sliced
assignment has mismatching shapes. -/
theorem C52_cached {m max : ℕ} {c c' : Cache α} (hc : Reachable m max c) {b : ℕ} {data : ℕ → List α}
    (hd : ∀ i < m, max ≤ (data i).length) {r : Run α} (hr : Read m max c b data (some r) c') :
    r.shapeError = false ∧ ∀ i < m, r.retV i = (data i).take b ∧ (r.retV i).length = b ∧
      r.cachedV i = c.batch i ∧ c'.batch i = r.retV i := by
  cases hr with
  | ok hb hs hall =>
    have hl := hc.length
    have inv := exec_inv (b := b) (data := data) (c := c)
      (fun j hj => by simp [hl j hj]; have := hd j hj; omega) hs
    refine ⟨inv.shape, fun i hi => ?_⟩
    have hret := inv.ret i hi (hall _ hi)
    have := hd i hi
    refine ⟨hret, by rw [hret]; simp; omega, inv.cached i hi (hall _ hi), ?_⟩
    rw [hret, Cache.batch, inv.size, if_pos (hall .assignSize trivial), inv.storage i hi,
      if_pos (hall (.assignData i) hi),
      List.take_append_of_le_length (by simp; omega), List.take_of_length_le (by simp; omega)]

/-- C52: in two consecutive accepted reads the second sees, as `cached_batch`, what the first returned, however the
batch size grows or shrinks. -/
theorem C52_previous {m max : ℕ} {c c₁ c₂ : Cache α} (hc : Reachable m max c) {b₁ b₂ : ℕ}
    {data₁ data₂ : ℕ → List α} (hd₁ : ∀ i < m, max ≤ (data₁ i).length) (hd₂ : ∀ i < m, max ≤ (data₂ i).length)
    {r₁ r₂ : Run α} (h₁ : Read m max c b₁ data₁ (some r₁) c₁) (h₂ : Read m max c₁ b₂ data₂ (some r₂) c₂) :
    ∀ i < m, r₂.cachedV i = r₁.retV i := by
  intro i hi
  have h1 := (C52_cached hc hd₁ h₁).2 i hi
  have h2 := (C52_cached (hc.read hd₁ h₁) hd₂ h₂).2 i hi
  rw [h2.2.2.1, h1.2.2.2]

/-- The read of one tensor of three numbers, two of which are kept, in one possible order. -/
example : ∃ (r : Run ℕ) (c' : Cache ℕ), Read 1 3 ⟨fun _ => [7, 7, 7], 1⟩ 2 (fun _ => [4, 5, 6]) (some r) c' ∧
    r.retV 0 = [4, 5] ∧ r.cachedV 0 = [7] ∧ c'.batch 0 = [4, 5] ∧ c'.storage 0 = [4, 5, 7] := by
  have hs : Schedule (Op.known 1) (Op.deps 1) [.readStorage 0, .check, .slice 0, .readSize 0, .sliceCached 0,
      .assignData 0, .assignSize, .ret 0] := by
    refine .snoc (p := [Op.readStorage 0, Op.check, Op.slice 0, Op.readSize 0, Op.sliceCached 0, Op.assignData 0, Op.assignSize])
      (.snoc (p := [Op.readStorage 0, Op.check, Op.slice 0, Op.readSize 0, Op.sliceCached 0, Op.assignData 0])
      (.snoc (p := [Op.readStorage 0, Op.check, Op.slice 0, Op.readSize 0, Op.sliceCached 0])
      (.snoc (p := [Op.readStorage 0, Op.check, Op.slice 0, Op.readSize 0])
      (.snoc (p := [Op.readStorage 0, Op.check, Op.slice 0]) (.snoc (p := [Op.readStorage 0, Op.check])
      (.snoc (p := [Op.readStorage 0]) (.snoc (p := []) .nil ?_ ?_ ?_) ?_ ?_ ?_) ?_ ?_ ?_) ?_ ?_ ?_) ?_ ?_ ?_)
      ?_ ?_ ?_) ?_ ?_ ?_) ?_ ?_ ?_ <;> simp [Op.known, Op.deps]
  refine ⟨_, _, .ok (by decide) hs ?_, ?_, ?_, ?_, ?_⟩
  · intro o ho
    cases o <;> simp_all [Op.known]
  all_goals decide

/-- C52, rejected reads: with a too large batch size the data that would be cached is not touched, and the cached size
is either kept or already replaced. Missing: that the cached batch is unchanged, which is false. -/
theorem C52_reject_partial {m max : ℕ} {c c' : Cache α} {b : ℕ} {data : ℕ → List α} (hb : max < b)
    {out : Option (Run α)} (hr : Read m max c b data out c') :
    out = none ∧ c'.storage = c.storage ∧ (c'.size = c.size ∨ c'.size = b) := by
  cases hr with
  | ok h => omega
  | rejected _ hs hc => exact ⟨rfl, no_check_storage hs hc⟩

/-- All ops that read the old cache. -/
def cacheReads (m : ℕ) : List Op := (List.range m).flatMap fun i => [.readSize i, .readStorage i, .sliceCached i]

theorem cacheReads_schedule (M : ℕ) : ∀ m ≤ M, Schedule (Op.known M) (Op.deps M) (cacheReads m) := by
  intro m
  induction m with
  | zero => intro _; exact .nil
  | succ m ih =>
    intro hm
    have e : cacheReads (m + 1) = ((cacheReads m ++ [.readSize m]) ++ [.readStorage m]) ++ [.sliceCached m] := by
      simp [cacheReads, List.range_succ]
    rw [e]
    refine .snoc (.snoc (.snoc (ih (by omega)) ?_ ?_ ?_) ?_ ?_ ?_) ?_ ?_ ?_ <;>
      simp [Op.known, Op.deps, cacheReads] <;> omega

/-- C52 fails for rejected reads: the assignment of the cached size does not wait for the size check. Whenever the
cached batch is smaller than the maximum, a rejected read may leave a cached batch of `max` rows. -/
theorem C52_reject_counterexample {m max : ℕ} (_hm : 0 < m) {c : Cache α} (hc : Reachable m max c)
    (hsize : c.size < max) {b : ℕ} (hb : max < b) (data : ℕ → List α) :
    ∃ c', Read m max c b data none c' ∧ ∀ i < m, c'.batch i ≠ c.batch i ∧ (c'.batch i).length = max := by
  have hs : Schedule (Op.known m) (Op.deps m) (cacheReads m ++ [.assignSize]) := by
    refine .snoc (cacheReads_schedule m m (Nat.le_refl _)) trivial (by simp [cacheReads]) ?_
    rintro d ⟨j, hj, rfl⟩
    simp [cacheReads, hj]
  have hchk : Op.check ∉ cacheReads m ++ [Op.assignSize] := by simp [cacheReads]
  refine ⟨_, .rejected (by omega) hs hchk, fun i hi => ?_⟩
  have h1 := (no_check_storage (b := b) (data := data) (c := c) hs hchk).1
  have h2 : (Run.exec b data c (cacheReads m ++ [.assignSize])).cache.size = b := by
    simp [Run.exec, Run.step]
  have hl := hc.length i hi
  have h3 : ((Run.exec b data c (cacheReads m ++ [.assignSize])).cache.batch i).length = max := by
    rw [Cache.batch, h1, h2]; simp [hl]; omega
  refine ⟨fun h => ?_, h3⟩
  rw [h, Cache.batch] at h3
  simp [hl] at h3
  omega

/-- A reader with room for three rows that holds one. -/
example : Reachable 1 3 (⟨fun _ => [7, 7, 7], 1⟩ : Cache ℕ) ∧ 1 < 3 := ⟨.init _ (by simp), by decide⟩

/-! ### The alternative reader -/

theorem perm_take {n b : ℕ} (hb : b ≤ n) {perm : List ℕ} (h : perm.Perm (List.range n)) :
    (perm.take b).Nodup ∧ (perm.take b).length = b ∧ ∀ j ∈ perm.take b, j < n := by
  refine ⟨(h.nodup_iff.2 List.nodup_range).sublist (List.take_sublist _ _), ?_, fun j hj => ?_⟩
  · rw [List.length_take, h.length_eq, List.length_range]; omega
  · exact List.mem_range.1 (h.mem_iff.1 (List.mem_of_mem_take hj))

/-- C52 for the reader of data_reader_alt.py, in every order of execution and for every shuffle: the returned batch
consists of `b` different examples (the same ones in every tensor of the dataset); `cached_batch` keeps its value
during the run and is the returned batch afterwards. -/
theorem C52_alt {m n : ℕ} (hm : 0 < m) {c c' : ACache} {b : ℕ} {data : ℕ → List α}
    (hd : ∀ i < m, (data i).length = n) {r : ARun α} (hr : ARead m n c b data (some r) c') :
    ∃ idx : List ℕ, idx.Nodup ∧ idx.length = b ∧ (∀ j ∈ idx, j < n) ∧ ∀ i < m,
      (∃ rows, r.retV i = some rows ∧ rows.map some = idx.map fun j => (data i)[j]?) ∧
      r.cachedV i = c.batch data i ∧ c'.batch data i = r.retV i := by
  cases hr with
  | @ok sched perm hb hp hs hall =>
    have inv := aexec_inv (b := b) (data := data) (perm := perm) (c := c) hm hs
    obtain ⟨h1, h2, h3⟩ := perm_take hb hp
    refine ⟨perm.take b, h1, h2, h3, fun i hi => ?_⟩
    have hret := inv.ret i hi (hall _ hi)
    have hlt : ∀ j ∈ perm.take b, j < (data i).length := fun j hj => by rw [hd i hi]; exact h3 j hj
    refine ⟨⟨_, by rw [hret, gather_eq hlt], ?_⟩, inv.cached i hi (hall _ hi), ?_⟩
    · rw [List.map_map]
      conv_rhs => rw [← List.attach_map_subtype_val (perm.take b), List.map_map]
      refine List.map_congr_left fun j _ => ?_
      simp only [Function.comp]
      rw [List.getElem?_eq_getElem (hlt j.1 j.2)]
    · rw [hret, ACache.batch, inv.size, inv.indices, if_pos (hall .assignSize trivial),
        if_pos (hall .assignIndices trivial)]

/-- C52 for the alternative reader: the next read sees what the last one returned. -/
theorem C52_alt_previous {m n : ℕ} (hm : 0 < m) {c c₁ c₂ : ACache} {b₁ b₂ : ℕ} {data : ℕ → List α}
    (hd : ∀ i < m, (data i).length = n) {r₁ r₂ : ARun α} (h₁ : ARead m n c b₁ data (some r₁) c₁)
    (h₂ : ARead m n c₁ b₂ data (some r₂) c₂) : ∀ i < m, r₂.cachedV i = r₁.retV i := by
  intro i hi
  obtain ⟨_, _, _, _, k1⟩ := C52_alt hm hd h₁
  obtain ⟨_, _, _, _, k2⟩ := C52_alt hm hd h₂
  rw [(k2 i hi).2.1, (k1 i hi).2.2]

/-- C52, rejected reads of the alternative reader: the cached indices are kept. Missing: the cached size, which may
already be replaced. -/
theorem C52_alt_reject_partial {m n : ℕ} {c c' : ACache} {b : ℕ} {data : ℕ → List α} (hb : n < b)
    {out : Option (ARun α)} (hr : ARead m n c b data out c') :
    out = none ∧ c'.indices = c.indices ∧ (c'.size = c.size ∨ c'.size = b) := by
  cases hr with
  | ok h => omega
  | rejected _ hs hc => exact ⟨rfl, ano_check hs hc⟩

def aCacheReads (m : ℕ) : List AOp := [.readSize, .readIndices, .sliceCached] ++ (List.range m).map .gatherCached

theorem aCacheReads_schedule (M : ℕ) : ∀ m ≤ M, Schedule (AOp.known M) (AOp.deps M) (aCacheReads m) := by
  intro m
  induction m with
  | zero =>
    intro _
    refine .snoc (p := [AOp.readSize, AOp.readIndices]) (.snoc (p := [AOp.readSize]) (.snoc (p := []) .nil ?_ ?_ ?_) ?_ ?_ ?_)
      ?_ ?_ ?_ <;> simp [AOp.known, AOp.deps]
  | succ m ih =>
    intro hm
    have e : aCacheReads (m + 1) = aCacheReads m ++ [.gatherCached m] := by
      simp [aCacheReads, List.range_succ]
    rw [e]
    refine .snoc (ih (by omega)) ?_ ?_ ?_ <;> simp [AOp.known, AOp.deps, aCacheReads] <;> omega

/-- C52 fails for rejected reads of the alternative reader too: after a batch of fewer than `n` examples, a rejected
read may leave a `cached_batch` with all `n` of them. -/
theorem C52_alt_reject_counterexample {m n : ℕ} {c : ACache} {b : ℕ} (hi : c.indices.length = n)
    (hsize : c.size < n) (hb : n < b) (data : ℕ → List α) :
    ∃ c', ARead m n c b data none c' ∧ c'.indices.take c'.size = c.indices ∧
      c.indices.take c.size ≠ c.indices := by
  have hs : Schedule (AOp.known m) (AOp.deps m) (aCacheReads m ++ [.assignSize]) := by
    refine .snoc (aCacheReads_schedule m m (Nat.le_refl _)) trivial (by simp [aCacheReads]) ?_
    rintro d ⟨j, hj, rfl⟩
    simp [aCacheReads, hj]
  have hchk : AOp.check ∉ aCacheReads m ++ [AOp.assignSize] := by simp [aCacheReads]
  refine ⟨_, .rejected (perm := []) (by omega) hs hchk, ?_, fun h => ?_⟩
  · rw [(ano_check hs hchk).1]
    have : (ARun.exec b data [] c (aCacheReads m ++ [.assignSize])).cache.size = b := by simp [ARun.exec, ARun.step]
    rw [this, List.take_of_length_le (by omega)]
  · have := congrArg List.length h
    simp at this
    omega

/-- Three examples of which one was read. -/
example : (⟨[2, 0, 1], 1⟩ : ACache).indices.length = 3 ∧ 1 < 3 := by decide

end Kfac.Reader
