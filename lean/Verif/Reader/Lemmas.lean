import Verif.Reader.Model

namespace Kfac.Reader

variable {α : Type}

theorem Schedule.known_of_mem {Op : Type} {known : Op → Prop} {deps : Op → Op → Prop} {p : List Op}
    (h : Schedule known deps p) : ∀ o ∈ p, known o := by
  induction h with
  | nil => simp
  | snoc _ hk _ _ ih =>
    intro o ho
    rcases List.mem_append.1 ho with h | h
    · exact ih o h
    · rw [List.mem_singleton.1 h]; exact hk

/-- A schedule contains with an op everything the op waits for. -/
theorem Schedule.closed {Op : Type} {known : Op → Prop} {deps : Op → Op → Prop} {p : List Op}
    (h : Schedule known deps p) : ∀ o ∈ p, ∀ d, deps o d → d ∈ p := by
  induction h with
  | nil => simp
  | snoc _ _ _ hd ih =>
    intro o ho d hod
    rcases List.mem_append.1 ho with h | h
    · exact List.mem_append_left _ (ih o h d hod)
    · rw [List.mem_singleton.1 h] at hod; exact List.mem_append_left _ (hd d hod)

open Function

/-- What is known in the middle of a run, whatever the order of the ops so far. -/
structure Inv (m b : ℕ) (data : ℕ → List α) (c : Cache α) (p : List Op) (r : Run α) : Prop where
  size : r.cache.size = if Op.assignSize ∈ p then b else c.size
  storage : ∀ i < m, r.cache.storage i =
    if Op.assignData i ∈ p then (data i).take b ++ (c.storage i).drop b else c.storage i
  slice : ∀ i < m, Op.slice i ∈ p → r.sliceV i = (data i).take b
  readSize : ∀ i < m, Op.readSize i ∈ p → r.sizeV i = c.size
  readStorage : ∀ i < m, Op.readStorage i ∈ p → r.storageV i = c.storage i
  cached : ∀ i < m, Op.sliceCached i ∈ p → r.cachedV i = c.batch i
  ret : ∀ i < m, Op.ret i ∈ p → r.retV i = (data i).take b
  shape : r.shapeError = false

theorem exec_inv {m b : ℕ} {data : ℕ → List α} {c : Cache α}
    (hlen : ∀ i < m, ((c.storage i).take b).length = ((data i).take b).length) {p : List Op}
    (h : Schedule (Op.known m) (Op.deps m) p) : Inv m b data c p (Run.exec b data c p) := by
  induction h with
  | nil => constructor <;> simp [Run.exec, Run.start]
  | @snoc p o hp hk ho hd ih =>
    have hcl := hp.closed
    have e : Run.exec b data c (p ++ [o]) = (Run.exec b data c p).step b data o := by simp [Run.exec]
    rw [e]
    generalize Run.exec b data c p = r at ih ⊢
    cases o with
    | check => constructor <;> simp [Run.step] <;> first | exact ih.1 | exact ih.2 | exact ih.3 | exact ih.4 | exact ih.5 | exact ih.6 | exact ih.7 | exact ih.8
    | slice i =>
      refine ⟨by simpa [Run.step] using ih.size, by simpa [Run.step] using ih.storage, ?_,
        by simpa [Run.step] using ih.readSize, by simpa [Run.step] using ih.readStorage,
        by simpa [Run.step] using ih.cached, by simpa [Run.step] using ih.ret, by simpa [Run.step] using ih.shape⟩
      intro j hj hmem
      by_cases hij : j = i
      · subst hij; simp [Run.step]
      · have : Op.slice j ∈ p := by simpa [hij] using hmem
        simp [Run.step, hij, ih.slice j hj this]
    | readSize i =>
      have hns : Op.assignSize ∉ p := fun h => ho (hcl _ (hcl _ h (.sliceCached i) ⟨i, hk, rfl⟩) _ (Or.inl rfl))
      refine ⟨by simpa [Run.step] using ih.size, by simpa [Run.step] using ih.storage,
        by simpa [Run.step] using ih.slice, ?_, by simpa [Run.step] using ih.readStorage,
        by simpa [Run.step] using ih.cached, by simpa [Run.step] using ih.ret, by simpa [Run.step] using ih.shape⟩
      intro j hj hmem
      by_cases hij : j = i
      · subst hij; simp [Run.step, ih.size, hns]
      · have : Op.readSize j ∈ p := by simpa [hij] using hmem
        simp [Run.step, hij, ih.readSize j hj this]
    | readStorage i =>
      have hns : Op.assignData i ∉ p := fun h =>
        ho (hcl _ (hcl _ h (.sliceCached i) (Or.inr ⟨i, hk, rfl⟩)) _ (Or.inr rfl))
      refine ⟨by simpa [Run.step] using ih.size, by simpa [Run.step] using ih.storage,
        by simpa [Run.step] using ih.slice, by simpa [Run.step] using ih.readSize, ?_,
        by simpa [Run.step] using ih.cached, by simpa [Run.step] using ih.ret, by simpa [Run.step] using ih.shape⟩
      intro j hj hmem
      by_cases hij : j = i
      · subst hij; simp [Run.step, ih.storage j hj, hns]
      · have : Op.readStorage j ∈ p := by simpa [hij] using hmem
        simp [Run.step, hij, ih.readStorage j hj this]
    | sliceCached i =>
      refine ⟨by simpa [Run.step] using ih.size, by simpa [Run.step] using ih.storage,
        by simpa [Run.step] using ih.slice, by simpa [Run.step] using ih.readSize,
        by simpa [Run.step] using ih.readStorage, ?_, by simpa [Run.step] using ih.ret,
        by simpa [Run.step] using ih.shape⟩
      intro j hj hmem
      by_cases hij : j = i
      · subst hij
        simp [Run.step, ih.readSize j hj (hd _ (Or.inl rfl)), ih.readStorage j hj (hd _ (Or.inr rfl)), Cache.batch]
      · have : Op.sliceCached j ∈ p := by simpa [hij] using hmem
        simp [Run.step, hij, ih.cached j hj this]
    | assignSize =>
      refine ⟨by simp [Run.step], by simpa [Run.step] using ih.storage,
        by simpa [Run.step] using ih.slice, by simpa [Run.step] using ih.readSize,
        by simpa [Run.step] using ih.readStorage, by simpa [Run.step] using ih.cached,
        by simpa [Run.step] using ih.ret, by simpa [Run.step] using ih.shape⟩
    | assignData i =>
      have hs := ih.slice i hk (hd _ (Or.inl rfl))
      have hst := ih.storage i hk
      rw [if_neg ho] at hst
      have hl : ((r.cache.storage i).take b).length = (r.sliceV i).length := by rw [hst, hs, hlen i hk]
      have e2 : r.step b data (.assignData i) = { r with cache := { r.cache with
          storage := Function.update r.cache.storage i (r.sliceV i ++ (r.cache.storage i).drop b) } } := by
        simp only [Run.step, if_pos hl]
      rw [e2]
      refine ⟨by simpa using ih.size, ?_,
        by simpa using ih.slice, by simpa using ih.readSize,
        by simpa using ih.readStorage, by simpa using ih.cached,
        by simpa using ih.ret, by simpa using ih.shape⟩
      intro j hj
      by_cases hij : j = i
      · subst hij; simp [hs, hst]
      · simp [hij, ih.storage j hj]
    | ret i =>
      refine ⟨by simpa [Run.step] using ih.size, by simpa [Run.step] using ih.storage,
        by simpa [Run.step] using ih.slice, by simpa [Run.step] using ih.readSize,
        by simpa [Run.step] using ih.readStorage, by simpa [Run.step] using ih.cached, ?_,
        by simpa [Run.step] using ih.shape⟩
      intro j hj hmem
      by_cases hij : j = i
      · subst hij; simp [Run.step, ih.slice j hj (hd _ (Or.inl rfl))]
      · have : Op.ret j ∈ p := by simpa [hij] using hmem
        simp [Run.step, hij, ih.ret j hj this]

/-- Without the size check no data op runs. -/
theorem no_check_storage {m b : ℕ} {data : ℕ → List α} {c : Cache α} {p : List Op}
    (h : Schedule (Op.known m) (Op.deps m) p) (hc : Op.check ∉ p) :
    (Run.exec b data c p).cache.storage = c.storage ∧
      ((Run.exec b data c p).cache.size = c.size ∨ (Run.exec b data c p).cache.size = b) := by
  induction h with
  | nil => simp [Run.exec, Run.start]
  | @snoc p o hp hk ho hd ih =>
    have hcp : Op.check ∉ p := fun h => hc (List.mem_append_left _ h)
    have e : Run.exec b data c (p ++ [o]) = (Run.exec b data c p).step b data o := by simp [Run.exec]
    rw [e]
    have ih := ih hcp
    generalize Run.exec b data c p = r at ih ⊢
    cases o with
    | check => exact absurd (by simp) hc
    | assignData i => exact absurd (hp.closed _ (hd (.slice i) (Or.inl rfl)) _ rfl) hcp
    | assignSize => exact ⟨ih.1, Or.inr rfl⟩
    | _ => exact ih

/-! ### The alternative reader -/

structure AInv (m b : ℕ) (data : ℕ → List α) (perm : List ℕ) (c : ACache) (p : List AOp) (r : ARun α) : Prop where
  size : r.cache.size = if AOp.assignSize ∈ p then b else c.size
  indices : r.cache.indices = if AOp.assignIndices ∈ p then perm else c.indices
  shuffle : AOp.shuffle ∈ p → r.indices = perm
  gather : ∀ i < m, AOp.gather i ∈ p → r.gatherV i = Reader.gather (data i) (perm.take b)
  readSize : AOp.readSize ∈ p → r.sizeV = c.size
  readIndices : AOp.readIndices ∈ p → r.indicesV = c.indices
  slice : AOp.sliceCached ∈ p → r.sliceV = c.indices.take c.size
  cached : ∀ i < m, AOp.gatherCached i ∈ p → r.cachedV i = c.batch data i
  ret : ∀ i < m, AOp.ret i ∈ p → r.retV i = Reader.gather (data i) (perm.take b)

theorem aexec_inv {m b : ℕ} (hm : 0 < m) {data : ℕ → List α} {perm : List ℕ} {c : ACache} {p : List AOp}
    (h : Schedule (AOp.known m) (AOp.deps m) p) : AInv m b data perm c p (ARun.exec b data perm c p) := by
  induction h with
  | nil => constructor <;> simp [ARun.exec, ARun.start]
  | @snoc p o hp hk ho hd ih =>
    have hcl := hp.closed
    have e : ARun.exec b data perm c (p ++ [o]) = (ARun.exec b data perm c p).step b data perm o := by
      simp [ARun.exec]
    rw [e]
    generalize ARun.exec b data perm c p = r at ih ⊢
    obtain ⟨h1, h2, h3, h4, h5, h6, h7, h8, h9⟩ := ih
    have hs : o = AOp.readSize → AOp.assignSize ∉ p := by
      rintro rfl h
      exact ho (hcl _ (hcl _ (hcl _ h (.gatherCached 0) ⟨0, hm, rfl⟩) .sliceCached rfl) _ (Or.inl rfl))
    have hi : o = AOp.readIndices → AOp.assignIndices ∉ p := by
      rintro rfl h
      exact ho (hcl _ (hcl _ (hcl _ h (.gatherCached 0) (Or.inr ⟨0, hm, rfl⟩)) .sliceCached rfl) _ (Or.inr rfl))
    cases o with
    | check => exact ⟨by simpa, by simpa, by simpa, by simpa, by simpa, by simpa, by simpa, by simpa, by simpa⟩
    | shuffle =>
      exact ⟨by simpa [ARun.step], by simpa [ARun.step], by simp [ARun.step], by simpa [ARun.step],
        by simpa [ARun.step], by simpa [ARun.step], by simpa [ARun.step], by simpa [ARun.step],
        by simpa [ARun.step]⟩
    | gather i =>
      refine ⟨by simpa [ARun.step], by simpa [ARun.step], by simpa [ARun.step], ?_,
        by simpa [ARun.step], by simpa [ARun.step], by simpa [ARun.step], by simpa [ARun.step],
        by simpa [ARun.step]⟩
      intro j hj hmem
      by_cases hij : j = i
      · subst hij; simp [ARun.step, h3 (hd _ (Or.inr rfl))]
      · have : AOp.gather j ∈ p := by simpa [hij] using hmem
        simp [ARun.step, hij, h4 j hj this]
    | readSize =>
      exact ⟨by simpa [ARun.step], by simpa [ARun.step], by simpa [ARun.step], by simpa [ARun.step],
        by simp [ARun.step, h1, hs rfl], by simpa [ARun.step], by simpa [ARun.step], by simpa [ARun.step],
        by simpa [ARun.step]⟩
    | readIndices =>
      exact ⟨by simpa [ARun.step], by simpa [ARun.step], by simpa [ARun.step], by simpa [ARun.step],
        by simpa [ARun.step], by simp [ARun.step, h2, hi rfl], by simpa [ARun.step], by simpa [ARun.step],
        by simpa [ARun.step]⟩
    | sliceCached =>
      exact ⟨by simpa [ARun.step], by simpa [ARun.step], by simpa [ARun.step], by simpa [ARun.step],
        by simpa [ARun.step], by simpa [ARun.step],
        by simp [ARun.step, h5 (hd _ (Or.inl rfl)), h6 (hd _ (Or.inr rfl))], by simpa [ARun.step],
        by simpa [ARun.step]⟩
    | gatherCached i =>
      refine ⟨by simpa [ARun.step], by simpa [ARun.step], by simpa [ARun.step], by simpa [ARun.step],
        by simpa [ARun.step], by simpa [ARun.step], by simpa [ARun.step], ?_, by simpa [ARun.step]⟩
      intro j hj hmem
      by_cases hij : j = i
      · subst hij; simp [ARun.step, h7 (hd _ rfl), ACache.batch]
      · have : AOp.gatherCached j ∈ p := by simpa [hij] using hmem
        simp [ARun.step, hij, h8 j hj this]
    | assignIndices =>
      exact ⟨by simpa [ARun.step], by simp [ARun.step, h3 (hd _ (Or.inl rfl))], by simpa [ARun.step],
        by simpa [ARun.step],
        by simpa [ARun.step], by simpa [ARun.step], by simpa [ARun.step], by simpa [ARun.step],
        by simpa [ARun.step]⟩
    | assignSize =>
      exact ⟨by simp [ARun.step], by simpa [ARun.step], by simpa [ARun.step], by simpa [ARun.step],
        by simpa [ARun.step], by simpa [ARun.step], by simpa [ARun.step], by simpa [ARun.step],
        by simpa [ARun.step]⟩
    | ret i =>
      refine ⟨by simpa [ARun.step], by simpa [ARun.step], by simpa [ARun.step], by simpa [ARun.step],
        by simpa [ARun.step], by simpa [ARun.step], by simpa [ARun.step], by simpa [ARun.step], ?_⟩
      intro j hj hmem
      by_cases hij : j = i
      · subst hij; simp [ARun.step, h4 j hj (hd _ (Or.inl rfl))]
      · have : AOp.ret j ∈ p := by simpa [hij] using hmem
        simp [ARun.step, hij, h9 j hj this]

theorem ano_check {m b : ℕ} {data : ℕ → List α} {perm : List ℕ} {c : ACache} {p : List AOp}
    (h : Schedule (AOp.known m) (AOp.deps m) p) (hc : AOp.check ∉ p) :
    (ARun.exec b data perm c p).cache.indices = c.indices ∧
      ((ARun.exec b data perm c p).cache.size = c.size ∨ (ARun.exec b data perm c p).cache.size = b) := by
  induction h with
  | nil => simp [ARun.exec, ARun.start]
  | @snoc p o hp hk ho hd ih =>
    have hcp : AOp.check ∉ p := fun h => hc (List.mem_append_left _ h)
    have e : ARun.exec b data perm c (p ++ [o]) = (ARun.exec b data perm c p).step b data perm o := by
      simp [ARun.exec]
    rw [e]
    have ih := ih hcp
    generalize ARun.exec b data perm c p = r at ih ⊢
    cases o with
    | check => exact absurd (by simp) hc
    | assignIndices => exact absurd (hp.closed _ (hd .shuffle (Or.inl rfl)) _ rfl) hcp
    | assignSize => exact ⟨ih.1, Or.inr rfl⟩
    | _ => exact ih

theorem gather_eq {t : List α} {idx : List ℕ} (h : ∀ i ∈ idx, i < t.length) :
    gather t idx = some (idx.attach.map fun i => t[i.1]'(h i.1 i.2)) := by
  have key : ∀ (l : List ℕ) (hl : ∀ i ∈ l, i < t.length),
      gather t l = some (l.pmap (fun i hi => t[i]'hi) hl) := by
    intro l hl
    induction l with
    | nil => rfl
    | cons a l ih =>
      have := ih fun i hi => hl i (List.mem_cons_of_mem _ hi)
      unfold gather at this ⊢
      rw [List.mapM_cons, this, List.getElem?_eq_getElem (hl a (by simp))]
      rfl
  rw [key idx h, List.pmap_eq_map_attach]

end Kfac.Reader
