import Verif.Shape.Lemmas

/-! # C109: a layer registered with tensors or parameters of other sizes does not get through -/

namespace Kfac.Shape

theorem mapM_ok_mem {α β : Type} {f : α → Except String β} : ∀ {l : List α} {r : List β}, l.mapM f = .ok r →
    ∀ a ∈ l, ∃ b ∈ r, f a = .ok b
  | [], _, _ => by simp
  | a :: l, r, h => by
    rw [List.mapM_cons, bind_ok] at h
    obtain ⟨b, hb, h⟩ := h
    rw [bind_ok] at h
    obtain ⟨bs, hbs, h⟩ := h
    obtain rfl := Except.ok.inj h
    intro x hx
    rcases List.mem_cons.1 hx with rfl | hx
    · exact ⟨b, by simp, hb⟩
    · obtain ⟨c, hc, e⟩ := mapM_ok_mem hbs x hx
      exact ⟨c, by simp [hc], e⟩

theorem mapM_mem {α β : Type} {f : α → Except String β} : ∀ {l : List α} {r : List β}, l.mapM f = .ok r →
    ∀ b ∈ r, ∃ a ∈ l, f a = .ok b
  | [], r, h => by
    obtain rfl := Except.ok.inj h
    simp
  | a :: l, r, h => by
    rw [List.mapM_cons, bind_ok] at h
    obtain ⟨b, hb, h⟩ := h
    rw [bind_ok] at h
    obtain ⟨bs, hbs, h⟩ := h
    obtain rfl := Except.ok.inj h
    intro x hx
    rcases List.mem_cons.1 hx with rfl | hx
    · exact ⟨a, by simp, hb⟩
    · obtain ⟨c, hc, e⟩ := mapM_mem hbs x hx
      exact ⟨c, by simp [hc], e⟩

theorem updated_mem {v w : Dims} {cs : List (Except String Dims)} (h : updated (.ok v) cs = .ok w) :
    ∀ c ∈ cs, c = .ok v := by
  simp only [updated, ok_bind, bind_ok] at h
  obtain ⟨new, hn, h⟩ := h
  cases new with
  | nil => simp at h
  | cons a rest =>
    simp only at h
    split_ifs at h with h1 h2
    intro c hc
    obtain ⟨b, hb, e⟩ := mapM_ok_mem hn c hc
    simp only [id] at e
    rw [e, ← h2]
    rcases List.mem_cons.1 hb with rfl | hb
    · rfl
    · rw [h1 b hb]

theorem partitioned_tail {l : List T} {t : T} (h : partitioned l = .ok t) : ∀ s ∈ l, s.dims.tail = t.dims.tail := by
  cases l with
  | nil => simp
  | cons a l =>
    simp only [partitioned] at h
    split_ifs at h with h1 h2
    rw [bind_ok] at h
    obtain ⟨r, -, h⟩ := h
    obtain rfl := Except.ok.inj h
    intro s hs
    rcases List.mem_cons.1 hs with rfl | hs
    · rfl
    · exact h1 s hs

/-- What the factors see of the towers has the same features. -/
theorem processData_tail {concat : Bool} {inputs inputs' : List T} {grads grads' : List (List T)}
    (h : processData concat inputs grads = .ok (inputs', grads')) :
    (∀ x ∈ inputs, ∃ y ∈ inputs', x.dims.tail = y.dims.tail) ∧
      ∀ x ∈ grads.flatten, ∃ y ∈ grads'.flatten, x.dims.tail = y.dims.tail := by
  cases concat
  · simp only [processData, Bool.false_eq_true, if_false, Except.ok.injEq, Prod.mk.injEq] at h
    obtain ⟨rfl, rfl⟩ := h
    exact ⟨fun x hx => ⟨x, hx, rfl⟩, fun x hx => ⟨x, hx, rfl⟩⟩
  · simp only [processData, if_true, bind_ok] at h
    obtain ⟨t, ht, gs, hgs, h⟩ := h
    obtain ⟨rfl, rfl⟩ := Prod.mk.inj (Except.ok.inj h)
    refine ⟨fun x hx => ⟨t, by simp, partitioned_tail ht x hx⟩, fun x hx => ?_⟩
    obtain ⟨l, hl, hx⟩ := List.mem_flatten.1 hx
    obtain ⟨b, hb, e⟩ := mapM_ok_mem hgs l hl
    rw [bind_ok] at e
    obtain ⟨u, hu, e⟩ := e
    obtain rfl := Except.ok.inj e
    exact ⟨u, List.mem_flatten.2 ⟨_, hb, by simp⟩, partitioned_tail hu x hx⟩

theorem partitioned_rank {l : List T} {t : T} (h : partitioned l = .ok t)
    (hl : ∀ s ∈ l, s.depth = none ∧ s.dims.length = 2) : t.depth = none ∧ t.dims.length = 2 := by
  cases l with
  | nil => simp [partitioned] at h
  | cons a l =>
    simp only [partitioned] at h
    split_ifs at h with h1 h2
    rw [bind_ok] at h
    obtain ⟨r, -, h⟩ := h
    obtain rfl := Except.ok.inj h
    have := hl a (by simp)
    exact ⟨this.1, by simp [this.2]⟩

theorem processData_rank {concat : Bool} {inputs inputs' : List T} {grads grads' : List (List T)}
    (h : processData concat inputs grads = .ok (inputs', grads'))
    (h1 : ∀ x ∈ inputs, x.depth = none ∧ x.dims.length = 2)
    (h2 : ∀ x ∈ grads.flatten, x.depth = none ∧ x.dims.length = 2) :
    (∀ x ∈ inputs', x.depth = none ∧ x.dims.length = 2) ∧
      ∀ x ∈ grads'.flatten, x.depth = none ∧ x.dims.length = 2 := by
  cases concat
  · simp only [processData, Bool.false_eq_true, if_false, Except.ok.injEq, Prod.mk.injEq] at h
    obtain ⟨rfl, rfl⟩ := h
    exact ⟨h1, h2⟩
  · simp only [processData, if_true, bind_ok] at h
    obtain ⟨t, ht, gs, hgs, h⟩ := h
    obtain ⟨rfl, rfl⟩ := Prod.mk.inj (Except.ok.inj h)
    refine ⟨fun x hx => ?_, fun x hx => ?_⟩
    · obtain rfl := List.mem_singleton.1 hx
      exact partitioned_rank ht h1
    · obtain ⟨l, hl, hx⟩ := List.mem_flatten.1 hx
      obtain ⟨g, hg, e⟩ := mapM_mem hgs l hl
      rw [bind_ok] at e
      obtain ⟨u, hu, e⟩ := e
      obtain rfl := Except.ok.inj e
      obtain rfl := List.mem_singleton.1 hx
      exact partitioned_rank hu fun s hs => h2 s (List.mem_flatten.2 ⟨g, hg, hs⟩)

theorem fcKronecker_size {ts : List (List T)} {bias : Bool} {v : Dims} (h : fcKronecker ts bias = .ok v)
    (h2 : ∀ x ∈ ts.flatten, x.dims.length = 2) :
    ∃ n, v = operator false (n + one bias) ∧ ∀ x ∈ ts.flatten, x.dims.tail = [n] := by
  simp only [fcKronecker, bind_ok] at h
  obtain ⟨t, -, h⟩ := h
  split_ifs at h
  rw [bind_ok] at h
  obtain ⟨n, -, h⟩ := h
  obtain rfl := updated_eq h
  refine ⟨n, rfl, fun x hx => ?_⟩
  have e := updated_mem h _ (List.mem_map.2 ⟨x, hx, rfl⟩)
  obtain ⟨a, b, hab⟩ := List.length_eq_two.1 (h2 x hx)
  rw [hab] at e ⊢
  simpa [homog_matrix, computeCov_matrix] using e

theorem diagKronecker_size {ts : List (List T)} {bias : Bool} {v : Dims} (h : diagKronecker ts bias = .ok v)
    (h1 : ∀ x ∈ ts.flatten, x.depth = none) (h2 : ∀ x ∈ ts.flatten, x.dims.length = 2) :
    ∃ n, v = operator true (n + one bias) ∧ ∀ x ∈ ts.flatten, x.dims.tail = [n] := by
  simp only [diagKronecker, bind_ok] at h
  obtain ⟨t, ht, h⟩ := h
  have hm : t ∈ ts.flatten := by
    match ts, ht with
    | (a :: l) :: m, ht =>
      obtain rfl := Except.ok.inj ht
      simp
  rw [h1 t hm] at h
  simp only at h
  obtain ⟨a, b, hab⟩ := List.length_eq_two.1 (h2 t hm)
  simp only [hab, dim, List.getElem?_cons_succ, List.getElem?_cons_zero, ok_bind, pure_ok] at h
  obtain rfl := updated_eq h
  refine ⟨b, rfl, fun x hx => ?_⟩
  have e := updated_mem h _ (List.mem_map.2 ⟨x, hx, rfl⟩)
  obtain ⟨c, d, hcd⟩ := List.length_eq_two.1 (h2 x hx)
  rw [hcd] at e ⊢
  simpa [diagonalCov, homog_vector, reduceFirst] using e

theorem opMatmul_size {diag : Bool} {m p q : ℕ} {r : Dims} (h : opMatmul (operator diag m) [p, q] = .ok r) :
    m = p ∧ r = [p, q] := by
  cases diag <;> simp only [operator, if_true, Bool.false_eq_true, if_false, opMatmul, matmul] at h <;>
    split_ifs at h with h1 <;> obtain rfl := Except.ok.inj h <;> simp [h1]

theorem opMatmulRight_size {diag : Bool} {m p q : ℕ} {r : Dims} (h : opMatmulRight (operator diag m) [p, q] = .ok r) :
    m = q ∧ r = [p, q] := by
  cases diag <;> simp only [operator, if_true, Bool.false_eq_true, if_false, opMatmulRight, matmul] at h <;>
    split_ifs at h with h1 <;> obtain rfl := Except.ok.inj h <;> simp [h1]

/-- If a fully connected layer with weights of shape `[i, o]` and a bias of shape `[b]` gets through an update and a
multiplication, then each input has `i` features, each output `o` features, the bias `o` entries, and the product has
the shapes of the parameters. Nothing is broadcast in silence. -/
theorem C109_noticed {concat diagIn diagOut : Bool} {inputs : List T} {grads : List (List T)} {i o : ℕ}
    {bias : Option ℕ} {q : Params} (h1 : ∀ x ∈ inputs, x.depth = none ∧ x.dims.length = 2)
    (h2 : ∀ x ∈ grads.flatten, x.depth = none ∧ x.dims.length = 2)
    (h : fcKfac concat diagIn diagOut inputs grads ⟨[i, o], bias.map fun b => [b]⟩ = .ok q) :
    (∀ x ∈ inputs, x.dims.tail = [i]) ∧ (∀ x ∈ grads.flatten, x.dims.tail = [o]) ∧ (∀ b ∈ bias, b = o) ∧
      q = ⟨[i, o], bias.map fun b => [b]⟩ := by
  simp only [fcKfac, bind_ok] at h
  obtain ⟨⟨is, gs⟩, hp, h⟩ := h
  obtain ⟨t1, t2⟩ := processData_tail hp
  obtain ⟨r1, r2⟩ := processData_rank hp h1 h2
  have hlr : ∃ left right, (if diagIn then diagKronecker [is] (bias.map fun b => [b]).isSome
        else fcKronecker [is] (bias.map fun b => [b]).isSome) = .ok left ∧
      (if diagOut then diagKronecker gs false else fcKronecker gs false) = .ok right ∧
        kronMultiply left right ⟨[i, o], bias.map fun b => [b]⟩ = .ok q := by
    cases diagIn <;> cases diagOut <;> simp only [Bool.false_eq_true, if_false, if_true, bind_ok] at h ⊢ <;>
      obtain ⟨left, hl, right, hr, h⟩ := h <;> exact ⟨left, right, hl, hr, h⟩
  obtain ⟨left, right, hl, hr, h⟩ := hlr
  have hl' : ∃ n, left = operator diagIn (n + one (bias.map fun b => [b]).isSome) ∧ ∀ x ∈ is, x.dims.tail = [n] := by
    have e : [is].flatten = is := List.flatten_singleton
    cases diagIn
    · have := fcKronecker_size (by simpa only [Bool.false_eq_true, if_false] using hl)
        (by rw [e]; exact fun x hx => (r1 x hx).2)
      rwa [e] at this
    · have := diagKronecker_size (by simpa only [if_true] using hl) (by rw [e]; exact fun x hx => (r1 x hx).1)
        (by rw [e]; exact fun x hx => (r1 x hx).2)
      rwa [e] at this
  have hr' : ∃ n, right = operator diagOut n ∧ ∀ x ∈ gs.flatten, x.dims.tail = [n] := by
    cases diagOut
    · exact fcKronecker_size (bias := false) (by simpa only [Bool.false_eq_true, if_false] using hr)
        fun x hx => (r2 x hx).2
    · exact diagKronecker_size (bias := false) (by simpa only [if_true] using hr) (fun x hx => (r2 x hx).1)
        fun x hx => (r2 x hx).2
  obtain ⟨m, rfl, hm⟩ := hl'
  obtain ⟨n, rfl, hn⟩ := hr'
  simp only [kronMultiply, bind_ok] at h
  obtain ⟨v, hv, w, hw, u, hu, h⟩ := h
  have key : v = [i + one (bias.map fun b => [b]).isSome, o] ∧ (∀ b ∈ bias, b = o) ∧ 0 < o := by
    simp only [toMat2d, bind_ok, lastDim, List.getLast?_cons_cons, List.getLast?_singleton] at hv
    obtain ⟨o', ho', r, hr, hv⟩ := hv
    obtain rfl := Except.ok.inj ho'
    simp only [reshapeRows] at hr
    split_ifs at hr with h0
    push Not at h0
    have ho : 0 < o := Nat.pos_of_ne_zero h0.1
    obtain rfl := Except.ok.inj hr
    have e : [i, o].prod / o = i := by simp [Nat.mul_div_cancel _ ho]
    rw [e] at hv
    cases bias with
    | none => simpa [one, ho, eq_comm] using hv
    | some b =>
      simp only [Option.map_some, concatRows, List.prod_singleton] at hv
      split_ifs at hv with hb
      obtain rfl := Except.ok.inj hv
      simp [one, ← hb, ho]
  obtain ⟨rfl, hbias, ho⟩ := key
  obtain ⟨rfl, rfl⟩ := opMatmulRight_size hw
  obtain ⟨e, rfl⟩ := opMatmul_size hu
  have hmi : m = i := by omega
  subst hmi
  refine ⟨fun x hx => ?_, fun x hx => ?_, hbias, ?_⟩
  · obtain ⟨y, hy, e⟩ := t1 x hx
    rw [e, hm y hy]
  · obtain ⟨y, hy, e⟩ := t2 x hx
    rw [e, hn y hy]
  · cases bias with
    | none => simpa [ofMat2d, reshapeTo, one, eq_comm] using h
    | some b =>
      obtain rfl := hbias b rfl
      simpa [ofMat2d, reshapeTo, one, eq_comm] using h

/-- The hypothesis is met, for instance, by batches of three and five. -/
example : fcKfac false false true [⟨[3, 4], none⟩, ⟨[5, 4], none⟩] [[⟨[3, 2], none⟩, ⟨[5, 2], none⟩]]
    ⟨[4, 2], (some 2).map fun b => [b]⟩ = .ok ⟨[4, 2], some [2]⟩ := by rfl

end Kfac.Shape
