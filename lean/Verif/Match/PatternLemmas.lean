import Verif.Match.Patterns
import Verif.Match.Props
import Mathlib.Data.List.Forall2
import Mathlib.Tactic.Tauto

/-! # Reading the layer patterns -/

namespace Kfac.Match

variable (g : TFGraph)

/-! ### Declarative reading without the set of nodes -/

/-- The pattern describes the node under the assignment. -/
def Desc (ρ : String → Option Node) (p : P) (d : Node) : Prop := ∃ K, Sem g.toGraph ρ p d K

variable {g} {ρ : String → Option Node}

theorem desc_elem {name : Option String} {rs : List (Node → Bool)} {d : Node} :
    Desc g ρ (.elem name rs) d ↔ (∀ r ∈ rs, r d = true) ∧ ∀ v, name = some v → ρ v = some d := by
  simp [Desc, Sem]

theorem desc_choice {ps : List P} {d : Node} : Desc g ρ (.choice ps) d ↔ ∃ p ∈ ps, Desc g ρ p d := by
  simp only [Desc, Sem]
  induction ps with
  | nil => simp [SemChoice]
  | cons p ps ih => simp [SemChoice, exists_or, ih]

theorem semList_iff {ps : List P} : ∀ {l : List Node},
    (∃ K, SemList g.toGraph ρ ps l K) ↔ List.Forall₂ (Desc g ρ) ps l := by
  induction ps with
  | nil => intro l; cases l <;> simp [SemList]
  | cons p ps ih =>
    intro l
    cases l with
    | nil => simp [SemList]
    | cons x xs =>
      rw [List.forall₂_cons, ← ih]
      constructor
      · rintro ⟨K, K1, K2, _, h1, h2⟩
        exact ⟨⟨K1, h1⟩, K2, h2⟩
      · rintro ⟨⟨K1, h1⟩, K2, h2⟩
        exact ⟨K1 ∪ K2, K1, K2, rfl, h1, h2⟩

theorem desc_in {p : P} {ins : List P} {d : Node} : Desc g ρ (.internalIn p ins) d ↔
    Desc g ρ p d ∧ ∃ l, g.expandInputs d = some l ∧ List.Forall₂ (Desc g ρ) ins l := by
  constructor
  · rintro ⟨K, hK⟩
    obtain ⟨K1, K2, l, _, h1, hl, h2⟩ := hK
    exact ⟨⟨K1, h1⟩, l, hl, semList_iff.1 ⟨K2, h2⟩⟩
  · rintro ⟨⟨K1, h1⟩, l, hl, h2⟩
    obtain ⟨K2, h2⟩ := semList_iff.2 h2
    exact ⟨K1 ∪ K2, K1, K2, l, rfl, h1, hl, h2⟩

theorem desc_tensor {name : Option String} {d : Node} :
    Desc g ρ (tensorP name) d ↔ ∃ t, d = .tensor t ∧ ∀ v, name = some v → ρ v = some d := by
  rw [tensorP, desc_elem]
  cases d <;> simp [isTensor]

theorem desc_variable {name : String} {d : Node} :
    Desc g ρ (variableP g name) d ↔ ∃ t, d = .tensor t ∧ g.varTensor t = true ∧ ρ name = some d := by
  rw [variableP, desc_elem]
  cases d <;> simp [TFGraph.isVar]

theorem desc_op {ty : String} {name : Option String} {d : Node} :
    Desc g ρ (opP g ty name) d ↔ ∃ o, d = .op o ∧ g.opType o = ty ∧ ∀ v, name = some v → ρ v = some d := by
  rw [opP, desc_elem]
  cases d <;> simp [TFGraph.opTypeIs]

/-- A tensor with something said about the operation that produces it. -/
theorem desc_tensor_in {name : Option String} {p : P} {d : Node} :
    Desc g ρ (.internalIn (tensorP name) [p]) d ↔ ∃ t, d = .tensor t ∧ (∀ v, name = some v → ρ v = some d) ∧
      g.leafTensor t = false ∧ Desc g ρ p (.op (g.producer (g.reduce t))) := by
  rw [desc_in, desc_tensor]
  constructor
  · rintro ⟨⟨t, rfl, hv⟩, l, hl, hp⟩
    refine ⟨t, rfl, hv, ?_⟩
    simp only [TFGraph.expandInputs] at hl
    split at hl
    · cases hl
    · rename_i hleaf
      cases hl
      simp only [List.forall₂_cons, List.forall₂_nil_left_iff] at hp
      exact ⟨by simpa using hleaf, hp.1⟩
  · rintro ⟨t, rfl, hv, hleaf, hp⟩
    refine ⟨⟨t, rfl, hv⟩, [.op (g.producer (g.reduce t))], by simp [TFGraph.expandInputs, hleaf], ?_⟩
    exact .cons hp .nil

/-- An operation with two inputs. -/
theorem desc_op_in2 {p a b : P} {o : ℕ} : Desc g ρ (.internalIn p [a, b]) (.op o) ↔ Desc g ρ p (.op o) ∧
    ∃ x y, g.opInputs o = [x, y] ∧ Desc g ρ a (.tensor (g.reduce x)) ∧ Desc g ρ b (.tensor (g.reduce y)) := by
  rw [desc_in]
  refine and_congr_right fun _ => ?_
  simp only [TFGraph.expandInputs, Option.some.injEq]
  constructor
  · rintro ⟨l, rfl, h⟩
    match hl : g.opInputs o, h with
    | [x, y], h =>
      simp only [List.map_cons, List.map_nil, List.forall₂_cons] at h
      exact ⟨x, y, rfl, h.1, h.2.1⟩
    | [], h => simp at h
    | [x], h => simp at h
    | x :: y :: z :: l, h => simp at h
  · rintro ⟨x, y, hl, hx, hy⟩
    exact ⟨_, rfl, by simpa [hl] using ⟨hx, hy⟩⟩

/-- An operation with three inputs. -/
theorem desc_op_in3 {p a b c : P} {o : ℕ} : Desc g ρ (.internalIn p [a, b, c]) (.op o) ↔ Desc g ρ p (.op o) ∧
    ∃ x y z, g.opInputs o = [x, y, z] ∧ Desc g ρ a (.tensor (g.reduce x)) ∧ Desc g ρ b (.tensor (g.reduce y)) ∧
      Desc g ρ c (.tensor (g.reduce z)) := by
  rw [desc_in]
  refine and_congr_right fun _ => ?_
  simp only [TFGraph.expandInputs, Option.some.injEq]
  constructor
  · rintro ⟨l, rfl, h⟩
    match hl : g.opInputs o, h with
    | [x, y, z], h =>
      simp only [List.map_cons, List.map_nil, List.forall₂_cons] at h
      exact ⟨x, y, z, rfl, h.1, h.2.1, h.2.2.1⟩
    | [], h => simp at h
    | [x], h => simp at h
    | [x, y], h => simp at h
    | x :: y :: z :: u :: l, h => simp at h
  · rintro ⟨x, y, z, hl, hx, hy, hz⟩
    exact ⟨_, rfl, by simpa [hl] using ⟨hx, hy, hz⟩⟩

/-! ### Chains of identities -/

theorem reduceN_step {n t x : ℕ} {l : List ℕ} (hi : g.isIdentity (g.producer t) = true)
    (hx : g.opInputs (g.producer t) = x :: l) : g.reduceN (n + 1) t = g.reduceN n x := by
  simp [TFGraph.reduceN, hi, hx]

theorem reduceN_end {n t : ℕ} (hi : g.isIdentity (g.producer t) = false) : g.reduceN n t = t := by
  cases n <;> simp [TFGraph.reduceN, hi]

/-- What all identity operations preserve is preserved by the reduction. -/
theorem reduceN_induct {C : ℕ → Prop}
    (hC : ∀ t x l, g.isIdentity (g.producer t) = true → g.opInputs (g.producer t) = x :: l → C t → C x) :
    ∀ (n t : ℕ), C t → C (g.reduceN n t) := by
  intro n
  induction n with
  | zero => intro t h; exact h
  | succ n ih =>
    intro t h
    cases hi : g.isIdentity (g.producer t) with
    | false => rw [reduceN_end hi]; exact h
    | true =>
      cases hl : g.opInputs (g.producer t) with
      | nil => simpa [TFGraph.reduceN, hi, hl] using h
      | cons x l => rw [reduceN_step hi hl]; exact ih x (hC t x l hi hl h)

/-- The producer of the result is no identity operation. -/
theorem reduceN_not_identity (hg : g.WellFormed) : ∀ (n t : ℕ), g.depth (g.producer t) ≤ n →
    g.isIdentity (g.producer (g.reduceN n t)) = false := by
  intro n
  induction n with
  | zero =>
    intro t h
    cases hi : g.isIdentity (g.producer t) with
    | false => exact hi
    | true =>
      exfalso
      cases hl : g.opInputs (g.producer t) with
      | nil => exact hg.input _ hi hl
      | cons x l =>
        have := hg.depth _ hi x (by simp [hl])
        omega
  | succ n ih =>
    intro t h
    cases hi : g.isIdentity (g.producer t) with
    | false => rw [reduceN_end hi]; exact hi
    | true =>
      cases hl : g.opInputs (g.producer t) with
      | nil => exact absurd hl (hg.input _ hi)
      | cons x l =>
        rw [reduceN_step hi hl]
        have := hg.depth _ hi x (by simp [hl])
        exact ih x (by omega)

theorem reduce_not_identity (hg : g.WellFormed) (t : ℕ) : g.isIdentity (g.producer (g.reduce t)) = false :=
  reduceN_not_identity hg _ t le_rfl

theorem reduce_self {t : ℕ} (hi : g.isIdentity (g.producer t) = false) : g.reduce t = t := reduceN_end hi

theorem reduce_reduce (hg : g.WellFormed) (t : ℕ) : g.reduce (g.reduce t) = g.reduce t :=
  reduce_self (reduce_not_identity hg t)

/-! ### Exact bindings -/

/-- The pattern, tried on the node with the bindings `b`, can go on with `b'`. -/
def Res (g : TFGraph) (p : P) (d : Node) (b b' : Bind Node String) : Prop :=
  ∃ c c', (b', c') ∈ results g.toGraph p d b c

/-- The same for lists. -/
def ResList (g : TFGraph) (ps : List P) (l : List Node) (b b' : Bind Node String) : Prop :=
  ∃ c c', (b', c') ∈ resultsList g.toGraph ps l b c

variable {b b' : Bind Node String}

theorem res_elem {name : Option String} {rs : List (Node → Bool)} {d : Node} (h : Res g (.elem name rs) d b b') :
    (∀ r ∈ rs, r d = true) ∧ (name = none ∧ b' = b ∨
      ∃ v, name = some v ∧ (b v = some d ∧ b' = b ∨ b v = none ∧ b' = Function.update b v (some d))) := by
  obtain ⟨c, c', h⟩ := h
  simp only [results] at h
  split at h
  · rename_i hr
    refine ⟨by simpa using hr, ?_⟩
    cases name with
    | none => simp at h; exact .inl ⟨rfl, h.1⟩
    | some v =>
      right
      refine ⟨v, rfl, ?_⟩
      cases hb : b v with
      | none =>
        simp only [hb, List.mem_singleton, Prod.mk.injEq] at h
        exact .inr ⟨rfl, h.1⟩
      | some x =>
        simp only [hb] at h
        split at h
        · rename_i hx
          simp only [List.mem_singleton, Prod.mk.injEq] at h
          exact .inl ⟨by rw [hx], h.1⟩
        · cases h
  · cases h

theorem res_choice {ps : List P} {d : Node} (h : Res g (.choice ps) d b b') : ∃ p ∈ ps, Res g p d b b' := by
  obtain ⟨c, c', h⟩ := h
  simp only [results] at h
  induction ps with
  | nil => simp [resultsChoice] at h
  | cons p ps ih =>
    simp only [resultsChoice, List.mem_append] at h
    rcases h with h | h
    · exact ⟨p, by simp, c, c', h⟩
    · obtain ⟨q, hq, hr⟩ := ih h
      exact ⟨q, by simp [hq], hr⟩

theorem resList_cons {p : P} {ps : List P} {l : List Node} (h : ResList g (p :: ps) l b b') :
    ∃ x xs b1, l = x :: xs ∧ Res g p x b b1 ∧ ResList g ps xs b1 b' := by
  obtain ⟨c, c', h⟩ := h
  cases l with
  | nil => simp [resultsList] at h
  | cons x xs =>
    simp only [resultsList, List.mem_flatMap] at h
    obtain ⟨r, h1, h2⟩ := h
    exact ⟨x, xs, r.1, rfl, ⟨c, r.2, h1⟩, ⟨r.2, c', h2⟩⟩

theorem resList_nil {l : List Node} (h : ResList g [] l b b') : l = [] ∧ b' = b := by
  obtain ⟨c, c', h⟩ := h
  cases l with
  | nil => simp [resultsList] at h; exact ⟨rfl, h.1⟩
  | cons x xs => simp [resultsList] at h

theorem res_in {p : P} {ins : List P} {d : Node} (h : Res g (.internalIn p ins) d b b') :
    ∃ b1 l, Res g p d b b1 ∧ g.expandInputs d = some l ∧ ResList g ins l b1 b' := by
  obtain ⟨c, c', h⟩ := h
  simp only [results, List.mem_flatMap] at h
  obtain ⟨r, h1, h2⟩ := h
  cases hl : g.toGraph.inputs d with
  | none => simp [hl] at h2
  | some l =>
    simp only [hl] at h2
    exact ⟨r.1, l, ⟨c, r.2, h1⟩, hl, ⟨r.2, c', h2⟩⟩

/-- An unnamed element leaves the bindings alone, a named one adds its name or finds it bound to the same node. -/
def Bound (name : Option String) (d : Node) (b b' : Bind Node String) : Prop :=
  match name with
  | none => b' = b
  | some v => b v = some d ∧ b' = b ∨ b v = none ∧ b' = Function.update b v (some d)

theorem res_bound {name : Option String} {rs : List (Node → Bool)} {d : Node} (h : Res g (.elem name rs) d b b') :
    (∀ r ∈ rs, r d = true) ∧ Bound name d b b' := by
  obtain ⟨h1, h2⟩ := res_elem h
  refine ⟨h1, ?_⟩
  rcases h2 with ⟨rfl, h'⟩ | ⟨v, rfl, h'⟩
  · exact h'
  · exact h'

theorem res_tensor {name : Option String} {d : Node} (h : Res g (tensorP name) d b b') :
    ∃ t, d = .tensor t ∧ Bound name d b b' := by
  obtain ⟨h1, h2⟩ := res_bound h
  have := h1 isTensor (by simp)
  cases d with
  | op o => simp [isTensor] at this
  | tensor t => exact ⟨t, rfl, h2⟩

theorem res_variable {name : String} {t : ℕ} (h : Res g (variableP g name) (.tensor t) b b') :
    g.varTensor t = true ∧ Bound (some name) (.tensor t) b b' := by
  obtain ⟨h1, h2⟩ := res_bound h
  exact ⟨h1 g.isVar (by simp), h2⟩

theorem res_op {ty : String} {name : Option String} {o : ℕ} (h : Res g (opP g ty name) (.op o) b b') :
    g.opType o = ty ∧ Bound name (.op o) b b' := by
  obtain ⟨h1, h2⟩ := res_bound h
  have := h1 (g.opTypeIs ty) (by simp)
  exact ⟨by simpa [TFGraph.opTypeIs] using this, h2⟩

theorem res_tensor_in {name : Option String} {p : P} {t : ℕ}
    (h : Res g (.internalIn (tensorP name) [p]) (.tensor t) b b') :
    ∃ b1, Bound name (.tensor t) b b1 ∧ g.leafTensor t = false ∧ Res g p (.op (g.producer (g.reduce t))) b1 b' := by
  obtain ⟨b1, l, h1, hl, h2⟩ := res_in h
  obtain ⟨_, _, hb⟩ := res_tensor h1
  simp only [TFGraph.expandInputs] at hl
  split at hl
  · cases hl
  · rename_i hleaf
    cases hl
    obtain ⟨x, xs, b2, hx, h3, h4⟩ := resList_cons h2
    obtain ⟨rfl, rfl⟩ := resList_nil h4
    cases hx
    exact ⟨b1, hb, by simpa using hleaf, h3⟩

theorem res_op_in2 {p q r : P} {o : ℕ} (h : Res g (.internalIn p [q, r]) (.op o) b b') :
    ∃ b1 b2 x y, Res g p (.op o) b b1 ∧ g.opInputs o = [x, y] ∧ Res g q (.tensor (g.reduce x)) b1 b2 ∧
      Res g r (.tensor (g.reduce y)) b2 b' := by
  obtain ⟨b1, l, h1, hl, h2⟩ := res_in h
  obtain ⟨d1, l1, b2, rfl, h3, h4⟩ := resList_cons h2
  obtain ⟨d2, l2, b3, rfl, h5, h6⟩ := resList_cons h4
  obtain ⟨rfl, rfl⟩ := resList_nil h6
  simp only [TFGraph.expandInputs, Option.some.injEq] at hl
  match ho : g.opInputs o, hl with
  | [x, y], hl =>
    simp only [List.map_cons, List.map_nil, List.cons.injEq, and_true] at hl
    exact ⟨b1, b2, x, y, h1, rfl, hl.1 ▸ h3, hl.2 ▸ h5⟩
  | [], hl => simp at hl
  | [x], hl => simp at hl
  | x :: y :: z :: l, hl => simp at hl

theorem res_op_in3 {p q r s : P} {o : ℕ} (h : Res g (.internalIn p [q, r, s]) (.op o) b b') :
    ∃ b1 b2 b3 x y z, Res g p (.op o) b b1 ∧ g.opInputs o = [x, y, z] ∧ Res g q (.tensor (g.reduce x)) b1 b2 ∧
      Res g r (.tensor (g.reduce y)) b2 b3 ∧ Res g s (.tensor (g.reduce z)) b3 b' := by
  obtain ⟨b1, l, h1, hl, h2⟩ := res_in h
  obtain ⟨d1, l1, b2, rfl, h3, h4⟩ := resList_cons h2
  obtain ⟨d2, l2, b3, rfl, h5, h6⟩ := resList_cons h4
  obtain ⟨d3, l3, b4, rfl, h7, h8⟩ := resList_cons h6
  obtain ⟨rfl, rfl⟩ := resList_nil h8
  simp only [TFGraph.expandInputs, Option.some.injEq] at hl
  match ho : g.opInputs o, hl with
  | [x, y, z], hl =>
    simp only [List.map_cons, List.map_nil, List.cons.injEq, and_true] at hl
    exact ⟨b1, b2, b3, x, y, z, h1, rfl, hl.1 ▸ h3, hl.2.1 ▸ h5, hl.2.2 ▸ h7⟩
  | [], hl => simp at hl
  | [x], hl => simp at hl
  | [x, y], hl => simp at hl
  | x :: y :: z :: u :: l, hl => simp at hl

theorem matched_res {p : P} {d : Node} {r : Bind Node String × Set Node}
    (h : matcherWithConsumed g.toGraph p d = some r) : Res g p d (fun _ => none) r.1 := by
  rw [matcherWithConsumed_eq] at h
  exact ⟨∅, r.2, List.mem_of_mem_head? h⟩

/-! ### From the matcher to the reading -/

theorem desc_matched {p : P} (hp : PlainNeg p) {d : Node} (h : Desc g ρ p d) :
    ∃ r, matcherWithConsumed g.toGraph p d = some r := by
  obtain ⟨K, hK⟩ := h
  obtain ⟨b, hb⟩ := (C53_iff_partial g.toGraph p hp d).2 ⟨ρ, K, hK⟩
  rw [matcher_eq] at hb
  rw [matcherWithConsumed_eq]
  cases hl : (results g.toGraph p d (fun _ => none) ∅).head? with
  | none => simp [hl] at hb
  | some r => exact ⟨r, rfl⟩

theorem affine_plain : PlainNeg (affineP g) := by
  simp [affineP, linearP, opP, tensorP, variableP, PlainNeg, PlainNegL]

theorem scale_plain : PlainNeg (scaleAndShiftP g) := by
  simp [scaleAndShiftP, scaleP, opP, tensorP, variableP, PlainNeg, PlainNegL]

theorem embed_plain : PlainNeg (embedP g) := by
  simp [embedP, opP, tensorP, variableP, PlainNeg, PlainNegL]

theorem batchNorm_plain : PlainNeg (batchNormP g) := by
  simp [batchNormP, opP, tensorP, PlainNeg, PlainNegL]

theorem fused_plain : PlainNeg (fusedBatchNormP g) := by
  simp [fusedBatchNormP, opP, tensorP, PlainNeg, PlainNegL]

/-! ### The individual patterns -/

theorem bound_some {v : String} {d : Node} (h : Bound (some v) d b b') (hv : b v = none) :
    b' = Function.update b v (some d) := by
  rcases h with ⟨h, _⟩ | ⟨_, h⟩
  · rw [hv] at h; cases h
  · exact h

/-- The three linear operations of `Affine`. -/
def LinearType (s : String) : Prop := s = "Conv2D" ∨ s = "MatMul" ∨ s = "BatchMatMulV2"

/-- The three additions of `Affine`. -/
def AddType (s : String) : Prop := s = "Add" ∨ s = "BiasAdd" ∨ s = "AddV2"

theorem res_linear {o : ℕ} (h : Res g (linearP g) (.op o) b b') (h1 : b "linear_op" = none) (h2 : b "in" = none)
    (h3 : b "weights" = none) : LinearType (g.opType o) ∧ ∃ x w, g.opInputs o = [x, w] ∧
      g.varTensor (g.reduce w) = true ∧
      b' = Function.update (Function.update (Function.update b "linear_op" (some (.op o)))
        "in" (some (.tensor (g.reduce x)))) "weights" (some (.tensor (g.reduce w))) := by
  obtain ⟨b1, b2, x, w, hp, hi, hx, hw⟩ := res_op_in2 h
  obtain ⟨q, hq, hr⟩ := res_choice hp
  have hty : LinearType (g.opType o) ∧ b1 = Function.update b "linear_op" (some (.op o)) := by
    simp only [List.mem_cons, List.not_mem_nil, or_false] at hq
    rcases hq with rfl | rfl | rfl
    · obtain ⟨ht, hb⟩ := res_op hr; exact ⟨.inl ht, bound_some hb h1⟩
    · obtain ⟨ht, hb⟩ := res_op hr; exact ⟨.inr (.inl ht), bound_some hb h1⟩
    · obtain ⟨ht, hb⟩ := res_op hr; exact ⟨.inr (.inr ht), bound_some hb h1⟩
  obtain ⟨hty, rfl⟩ := hty
  obtain ⟨_, _, hxb⟩ := res_tensor hx
  have := bound_some hxb (by simpa using h2)
  subst this
  obtain ⟨hv, hwb⟩ := res_variable hw
  have := bound_some hwb (by simpa using h3)
  exact ⟨hty, x, w, hi, hv, this⟩

theorem res_add {name : Option String} {o : ℕ}
    (h : Res g (.choice [opP g "Add" name, opP g "BiasAdd" name, opP g "AddV2" name]) (.op o) b b') :
    AddType (g.opType o) ∧ Bound name (.op o) b b' := by
  obtain ⟨q, hq, hr⟩ := res_choice h
  simp only [List.mem_cons, List.not_mem_nil, or_false] at hq
  rcases hq with rfl | rfl | rfl <;> obtain ⟨ht, hb⟩ := res_op hr
  · exact ⟨.inl ht, hb⟩
  · exact ⟨.inr (.inl ht), hb⟩
  · exact ⟨.inr (.inr ht), hb⟩

/-- What a match of `Affine` binds: the linear operation `o` with input `x` and weights `w`, and the bias `c` if there
is one. -/
structure AffineBinds (b : Bind Node String) (t o x w : ℕ) (c : Option ℕ) : Prop where
  out : b "pre_activations" = some (.tensor t)
  op : b "linear_op" = some (.op o)
  input : b "in" = some (.tensor x)
  weights : b "weights" = some (.tensor w)
  biases : b "biases" = c.map .tensor

/-- The matches of `Affine`. -/
theorem res_affine {t : ℕ} (h : Res g (affineP g) (.tensor t) (fun _ => none) b) :
    ∃ o x w, LinearType (g.opType o) ∧ g.opInputs o = [x, w] ∧ g.varTensor (g.reduce w) = true ∧
      ((g.producer (g.reduce t) = o ∧ AffineBinds b t o (g.reduce x) (g.reduce w) none) ∨
        ∃ y c, (g.opInputs (g.producer (g.reduce t)) = [y, c] ∨ g.opInputs (g.producer (g.reduce t)) = [c, y]) ∧
          AddType (g.opType (g.producer (g.reduce t))) ∧ g.producer (g.reduce (g.reduce y)) = o ∧
          g.varTensor (g.reduce c) = true ∧
          AffineBinds b t o (g.reduce x) (g.reduce w) (some (g.reduce c))) := by
  obtain ⟨b1, hb1, _, h⟩ := res_tensor_in h
  have := bound_some hb1 rfl
  subst this
  obtain ⟨q, hq, hr⟩ := res_choice h
  simp only [List.mem_cons, List.not_mem_nil, or_false] at hq
  rcases hq with rfl | rfl
  · obtain ⟨q, hq, hr⟩ := res_choice hr
    simp only [List.mem_cons, List.not_mem_nil, or_false] at hq
    rcases hq with rfl | rfl
    · obtain ⟨b2, b3, y, c, hp, hi, hy, hc⟩ := res_op_in2 hr
      obtain ⟨ht, hb⟩ := res_add hp
      have : b2 = _ := hb
      subst this
      obtain ⟨b4, hb4, _, hl⟩ := res_tensor_in hy
      have : b4 = _ := hb4
      subst this
      obtain ⟨hty, x, w, hiw, hv, rfl⟩ := res_linear hl (by simp) (by simp) (by simp)
      obtain ⟨hv', hcb⟩ := res_variable hc
      have := bound_some hcb (by simp)
      subst this
      refine ⟨_, x, w, hty, hiw, hv, .inr ⟨y, c, .inl hi, ht, rfl, hv', ?_⟩⟩
      constructor <;> simp [Function.update]
    · obtain ⟨b2, b3, c, y, hp, hi, hc, hy⟩ := res_op_in2 hr
      obtain ⟨ht, hb⟩ := res_add hp
      have : b2 = _ := hb
      subst this
      obtain ⟨hv', hcb⟩ := res_variable hc
      have := bound_some hcb (by simp)
      subst this
      obtain ⟨b4, hb4, _, hl⟩ := res_tensor_in hy
      have : b4 = _ := hb4
      subst this
      obtain ⟨hty, x, w, hiw, hv, rfl⟩ := res_linear hl (by simp) (by simp) (by simp)
      refine ⟨_, x, w, hty, hiw, hv, .inr ⟨y, c, .inr hi, ht, rfl, hv', ?_⟩⟩
      constructor <;> simp [Function.update]
  · obtain ⟨hty, x, w, hiw, hv, rfl⟩ := res_linear hr (by simp) (by simp) (by simp)
    refine ⟨_, x, w, hty, hiw, hv, .inl ⟨rfl, ?_⟩⟩
    constructor <;> simp [Function.update]

end Kfac.Match
