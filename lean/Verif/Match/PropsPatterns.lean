import Verif.Match.PatternLemmas
import Mathlib.Logic.Relation
import Mathlib.Tactic.Tauto

/-! # C87: what the graph search takes for a layer is that layer -/

namespace Kfac.Match

/-- The TensorFlow operations occurring in the patterns, on values of any kind. The weights of `gather` come first;
`gatherV2` has the axis as third argument. -/
structure OpSem (V : Type) where
  add : V → V → V
  mul : V → V → V
  sub : V → V → V
  biasAdd : V → V → V
  rsqrt : V → V
  /-- with the flags for transposing the arguments -/
  matmul : Bool → Bool → V → V → V
  batchMatMul : Bool → Bool → V → V → V
  /-- strides, padding, data format, dilations -/
  conv2d : List ℕ → String → String → List ℕ → V → V → V
  gather : V → V → V
  gatherV2 : V → V → V → V
  /-- the value 0, as axis -/
  zero : V
  gatherV2_zero : ∀ w x, gatherV2 w x zero = gather w x
  add_comm : ∀ a b, add a b = add b a
  mul_comm : ∀ a b, mul a b = mul b a

/-- The TensorFlow operations that return their inputs unchanged, as far as the search knows them. -/
def IdentityOp (s : String) : Prop :=
  s = "Identity" ∨ s = "ReadVariableOp" ∨ s = "Enter" ∨ s = "IdentityN" ∨
    ∃ a b, s.toList = a ++ "convert_gradient_to_tensor".toList ++ b

theorem identityOp_iff (s : String) : identityType s = true ↔ IdentityOp s := by
  unfold identityType IdentityOp
  simp only [List.contains_eq_mem, List.mem_cons, List.not_mem_nil, or_false, Bool.or_eq_true, decide_eq_true_eq]
  have : ("convert_gradient_to_tensor".toList <:+: s.toList) ↔
      ∃ a b, s.toList = a ++ "convert_gradient_to_tensor".toList ++ b :=
    ⟨fun ⟨a, b, h⟩ => ⟨a, b, h.symm⟩, fun ⟨a, b, h⟩ => ⟨a, b, h.symm⟩⟩
  rw [this]
  tauto

/-- `val` assigns to the tensors of the graph the values that TensorFlow computes (to a handle of a variable the value
of the variable), for the operations occurring in the patterns. -/
structure Evaluates {V : Type} (g : TFGraph) (S : OpSem V) (val : ℕ → V) : Prop where
  identity : ∀ t x l, IdentityOp (g.opType (g.producer t)) → g.opInputs (g.producer t) = x :: l →
    (∀ y ∈ l, y = x) → val t = val x
  add : ∀ t a b, g.opType (g.producer t) = "Add" ∨ g.opType (g.producer t) = "AddV2" →
    g.opInputs (g.producer t) = [a, b] → val t = S.add (val a) (val b)
  biasAdd : ∀ t a b, g.opType (g.producer t) = "BiasAdd" → g.opInputs (g.producer t) = [a, b] →
    val t = S.biasAdd (val a) (val b)
  mul : ∀ t a b, g.opType (g.producer t) = "Mul" → g.opInputs (g.producer t) = [a, b] →
    val t = S.mul (val a) (val b)
  sub : ∀ t a b, g.opType (g.producer t) = "Sub" → g.opInputs (g.producer t) = [a, b] →
    val t = S.sub (val a) (val b)
  rsqrt : ∀ t, g.opType (g.producer t) = "Rsqrt" → ∃ a, g.opInputs (g.producer t) = [a] ∧ val t = S.rsqrt (val a)
  matmul : ∀ t a b, g.opType (g.producer t) = "MatMul" → g.opInputs (g.producer t) = [a, b] →
    val t = S.matmul (g.attrs (g.producer t)).transposeA (g.attrs (g.producer t)).transposeB (val a) (val b)
  batchMatMul : ∀ t a b, g.opType (g.producer t) = "BatchMatMulV2" → g.opInputs (g.producer t) = [a, b] →
    val t = S.batchMatMul (g.attrs (g.producer t)).transposeA (g.attrs (g.producer t)).transposeB (val a) (val b)
  conv2d : ∀ t a b, g.opType (g.producer t) = "Conv2D" → g.opInputs (g.producer t) = [a, b] →
    val t = S.conv2d (g.attrs (g.producer t)).strides (g.attrs (g.producer t)).padding
      (g.attrs (g.producer t)).dataFormat (g.attrs (g.producer t)).dilations (val a) (val b)
  gather : ∀ t a b, g.opType (g.producer t) = "Gather" ∨ g.opType (g.producer t) = "ResourceGather" →
    g.opInputs (g.producer t) = [a, b] → val t = S.gather (val a) (val b)
  gatherV2 : ∀ t a b c, g.opType (g.producer t) = "GatherV2" → g.opInputs (g.producer t) = [a, b, c] →
    val t = S.gatherV2 (val a) (val b) (val c)

/-- Facts about ranks guaranteed by TensorFlow: the second argument of `BiasAdd` is a vector, the linear operations
give at least matrices, identities keep the shape. -/
structure Ranks (g : TFGraph) : Prop where
  bias : ∀ o a b, g.opType o = "BiasAdd" → g.opInputs o = [a, b] → (g.shape b).length = 1
  linear : ∀ t, LinearType (g.opType (g.producer t)) → 2 ≤ (g.shape t).length
  identity : ∀ t x l, IdentityOp (g.opType (g.producer t)) → g.opInputs (g.producer t) = x :: l →
    (∀ y ∈ l, y = x) → g.shape t = g.shape x

variable {V : Type} {g : TFGraph} {S : OpSem V} {val : ℕ → V}

/-- Dropping identities does not change the value. -/
theorem val_reduce (hg : g.WellFormed) (hv : Evaluates g S val) (t : ℕ) : val (g.reduce t) = val t := by
  refine reduceN_induct (C := fun s => val s = val t) ?_ _ t rfl
  intro s x l hi hl hs
  rw [← hv.identity s x l ((identityOp_iff _).1 hi) hl (hg.same _ x l hi hl), hs]

theorem shape_reduce (hg : g.WellFormed) (hr : Ranks g) (t : ℕ) : g.shape (g.reduce t) = g.shape t := by
  refine reduceN_induct (C := fun s => g.shape s = g.shape t) ?_ _ t rfl
  intro s x l hi hl hs
  rw [← hr.identity s x l ((identityOp_iff _).1 hi) hl (hg.same _ x l hi hl), hs]

/-- One identity operation back. -/
def IdStep (g : TFGraph) (t x : ℕ) : Prop :=
  IdentityOp (g.opType (g.producer t)) ∧ ∃ l, g.opInputs (g.producer t) = x :: l

/-- C87: the search looks through all identity operations and through nothing else. -/
theorem C87_identities (hg : g.WellFormed) (t : ℕ) :
    Relation.ReflTransGen (IdStep g) t (g.reduce t) ∧ ¬ IdentityOp (g.opType (g.producer (g.reduce t))) := by
  constructor
  · refine reduceN_induct (C := fun s => Relation.ReflTransGen (IdStep g) t s) ?_ _ t .refl
    intro s x l hi hl hs
    exact hs.tail ⟨(identityOp_iff _).1 hi, l, hl⟩
  · rw [← identityOp_iff]
    have := reduce_not_identity hg t
    unfold TFGraph.isIdentity at this
    simp [this]

/-- Spec: the tensors that stand for a variable: those of the operations `Variable`, `VariableV2`, …, those of
variable objects, the handle of a resource variable, and its handle captured by a function body of control flow. -/
inductive VariableTensor (g : TFGraph) (t : ℕ) : Prop
  | legacy (rest : List Char) (h : (g.opType (g.producer t)).toList = "Variable".toList ++ rest)
  | object (h : g.refVar t = true)
  | handle (h : g.resource t = true) (ho : g.opType (g.producer t) = "VarHandleOp")
  | captured (h : g.resource t = true) (ho : g.opType (g.producer t) = "Placeholder")

theorem varTensor_iff (g : TFGraph) (t : ℕ) : g.varTensor t = true ↔ VariableTensor g t := by
  unfold TFGraph.varTensor
  simp only [Bool.or_eq_true, Bool.and_eq_true, beq_iff_eq, List.isPrefixOf_iff_prefix]
  constructor
  · rintro ((⟨r, h⟩ | h) | ⟨h, h1 | h1⟩)
    · exact .legacy r h.symm
    · exact .object h
    · exact .handle h h1
    · exact .captured h h1
  · rintro (⟨r, h⟩ | h | ⟨h, h1⟩ | ⟨h, h1⟩)
    · exact .inl (.inl ⟨r, h.symm⟩)
    · exact .inl (.inr h)
    · exact .inr ⟨h, .inl h1⟩
    · exact .inr ⟨h, .inr h1⟩

theorem semList_eqv {N Name : Type} (g : Graph N) (ρ : Name → Option N) : ∀ ns l : List N,
    (∃ K, SemList g ρ (ns.map .eqv) l K) ↔ l = ns
  | [], [] => by simp [SemList]
  | [], _ :: _ => by simp [SemList]
  | _ :: _, [] => by simp [SemList]
  | n :: ns, x :: l => by
    have ih := semList_eqv g ρ ns l
    simp only [List.map_cons, SemList, Sem, List.cons.injEq, ← ih]
    constructor
    · rintro ⟨_, _, K, -, ⟨h, -⟩, h'⟩
      exact ⟨h, K, h'⟩
    · rintro ⟨h, K, h'⟩
      exact ⟨_, _, K, rfl, ⟨h, rfl⟩, h'⟩

/-- C87: a pattern for the nodes after a node sees all consumers of a tensor and all outputs of an operation, in their
order, and nothing else. -/
theorem C87_consumers (os ts : List ℕ) (t o : ℕ) :
    ((∃ b, matcher (Name := String) g.toGraph (.internalOut .any ((os.map Node.op).map .eqv)) (.tensor t) = some b) ↔
      g.consumers t = os) ∧
    ((∃ b, matcher (Name := String) g.toGraph (.internalOut .any ((ts.map Node.tensor).map .eqv)) (.op o) = some b) ↔
      g.opOutputs o = ts) := by
  have plain : ∀ ns : List Node, PlainNegL (Name := String) (ns.map .eqv) := fun ns => by
    induction ns with
    | nil => trivial
    | cons n ns ih => exact ⟨trivial, ih⟩
  have key : ∀ (ns l : List Node) (d : Node), g.toGraph.outputs d = some l →
      ((∃ b, matcher (Name := String) g.toGraph (.internalOut .any (ns.map .eqv)) d = some b) ↔ l = ns) := by
    intro ns l d hl
    rw [C53_iff_partial _ _ (show PlainNeg (.internalOut .any (ns.map .eqv)) from ⟨trivial, plain ns⟩)]
    simp only [Sem, hl]
    constructor
    · rintro ⟨ρ, K, K₁, K₂, l', -, -, h, h'⟩
      cases h
      exact (semList_eqv _ _ _ _).1 ⟨_, h'⟩
    · intro h
      obtain ⟨K, hK⟩ := (semList_eqv g.toGraph (fun _ : String => none) ns l).2 h
      exact ⟨_, _, _, _, l, rfl, rfl, rfl, hK⟩
  refine ⟨(key _ _ _ rfl).trans ?_, (key _ _ _ rfl).trans ?_⟩
  · exact (List.map_injective_iff.2 fun a b h => Node.op.inj h).eq_iff
  · exact (List.map_injective_iff.2 fun a b h => Node.tensor.inj h).eq_iff

/-- C87: a value read through any number of identity operations counts as a variable exactly if what is read at
the end of the chain is one, inside control flow too; a fed placeholder is not. -/
theorem C87_variables (hg : g.WellFormed) {t v : ℕ} (hch : Relation.ReflTransGen (IdStep g) t v)
    (hv : ¬ IdentityOp (g.opType (g.producer v))) :
    g.reduce t = v ∧ (g.isVar (.tensor (g.reduce t)) = true ↔ VariableTensor g v) ∧
      (g.opType (g.producer v) = "Placeholder" → g.refVar v = false →
        (g.isVar (.tensor (g.reduce t)) = true ↔ g.resource v = true)) := by
  have hend : ∀ {a b : ℕ}, ¬ IdentityOp (g.opType (g.producer a)) → Relation.ReflTransGen (IdStep g) a b → b = a := by
    intro a b ha h
    rcases Relation.ReflTransGen.cases_head h with h | ⟨c, hc, -⟩
    · exact h.symm
    · exact absurd hc.1 ha
  have hu : Relator.RightUnique (IdStep g) := by
    rintro a b c ⟨-, l, hb⟩ ⟨-, l', hc⟩
    rw [hb] at hc
    exact (List.cons.inj hc).1
  obtain ⟨h1, h2⟩ := C87_identities hg t
  have he : g.reduce t = v := by
    rcases Relation.ReflTransGen.total_of_right_unique hu hch h1 with h | h
    · exact hend hv h
    · exact (hend h2 h).symm
  refine ⟨he, ?_, fun hp hr => ?_⟩
  · rw [he]; exact varTensor_iff g v
  · rw [he]
    refine (varTensor_iff g v).trans ⟨?_, fun h => .captured h hp⟩
    rintro (⟨r, h⟩ | h | ⟨h, _⟩ | ⟨h, _⟩)
    · rw [hp] at h; simp at h
    · rw [hr] at h; simp at h
    · exact h
    · exact h

/-- What a record of the given kind says the layer computes, before the bias, from input and weights. -/
def Computes (S : OpSem V) : RecData → V → V → V → Prop
  | .fullyConnected true, x, w, y => y = S.matmul false false x w ∨ y = S.batchMatMul false false x w
  | .fullyConnected false, x, w, y => y = S.gather w x
  | .conv2d strides padding dataFormat, x, w, y => y = S.conv2d strides padding dataFormat [1, 1, 1, 1] x w
  | .scaleAndShift, x, w, y => y = S.mul x w
  | .batchNorm, _, _, _ => False

/-- The record describes the tensor `t`: it is the layer applied to the recorded inputs with variables among `T`;
a variable added to the result is recorded as the bias if it is in `T`, and no other is. -/
def Describes (g : TFGraph) (S : OpSem V) (val : ℕ → V) (T : ℕ → Option ℕ) (r : LayerRecord) (t : ℕ) : Prop :=
  r.outputs = t ∧ ∃ w v y, g.varTensor w = true ∧ T w = some v ∧ Computes S r.data (val r.inputs) (val w) y ∧
    ((val t = y ∧ r.params = .single v) ∨
      ∃ c, g.varTensor c = true ∧ (val t = S.add y (val c) ∨ val t = S.biasAdd y (val c)) ∧
        ((∃ u, T c = some u ∧ r.params = .pair v u) ∨ (T c = none ∧ r.params = .single v)))

theorem tryPattern_some {p : P} {rec : Bind Node String → (ℕ → Option ℕ) → Except String (Option LayerRecord)}
    {T : ℕ → Option ℕ} {t : ℕ} {r : LayerRecord} (h : tryPattern g p rec T t = .ok (some r)) :
    ∃ b, Res g p (.tensor t) (fun _ => none) b ∧ rec b T = .ok (some r) := by
  unfold tryPattern at h
  cases hm : matcherWithConsumed g.toGraph p (.tensor t) with
  | none => simp [hm] at h
  | some m => simp only [hm] at h; exact ⟨m.1, matched_res hm, h⟩

/-- The record made from given bindings. -/
theorem recordAffine_eq {b : Bind Node String} {T : ℕ → Option ℕ} {t o x w : ℕ} {c : Option ℕ}
    (hb : AffineBinds b t o x w c) : recordAffine g b T =
      if (c.bind T).isSome && (T w).isNone then .error "ValueError: Can't register linear layer part with only biases."
      else match recParams (T w) (c.bind T) with
        | none => .ok none
        | some p => (affineData g o x).map fun d => some { params := p, inputs := x, outputs := t, data := d } := by
  have h1 : lookupVar b T "biases" = c.bind T := by
    rw [lookupVar, hb.biases]; cases c <;> rfl
  have h2 : lookupVar b T "weights" = T w := by rw [lookupVar, hb.weights]
  unfold recordAffine
  simp only [h1, h2, hb.input, hb.out, hb.op]
  cases recParams (T w) (c.bind T) <;> rfl

theorem recordAffine_some {b : Bind Node String} {T : ℕ → Option ℕ} {t o x w : ℕ} {c : Option ℕ} {r : LayerRecord}
    (hb : AffineBinds b t o x w c) (h : recordAffine g b T = .ok (some r)) :
    r.outputs = t ∧ r.inputs = x ∧ affineData g o x = .ok r.data ∧ ∃ v, T w = some v ∧
      r.params = (match c.bind T with | some u => .pair v u | none => .single v) := by
  rw [recordAffine_eq hb] at h
  split at h
  · cases h
  · cases hw : T w with
    | none => simp [hw, recParams] at h
    | some v =>
      have hp : recParams (T w) (c.bind T) = some (match c.bind T with | some u => .pair v u | none => .single v) := by
        rw [hw]; cases c.bind T <;> rfl
      rw [hp] at h
      simp only at h
      cases hd : affineData g o x with
      | error e => rw [hd] at h; cases h
      | ok d =>
        rw [hd] at h
        cases h
        exact ⟨rfl, rfl, rfl, v, rfl, rfl⟩

theorem affineData_linear {o x : ℕ} {d : RecData} (h : affineData g o x = .ok d) (hl : LinearType (g.opType o)) :
    ((g.opType o = "MatMul" ∨ g.opType o = "BatchMatMulV2") ∧ d = .fullyConnected true ∧
      (g.attrs o).transposeA = false ∧ (g.attrs o).transposeB = false) ∨
    (g.opType o = "Conv2D" ∧ d = .conv2d (g.attrs o).strides (g.attrs o).padding (g.attrs o).dataFormat) := by
  unfold affineData at h
  rcases hl with hl | hl | hl
  · right
    simp [hl] at h
    exact ⟨hl, h.symm⟩
  · left
    simp only [hl] at h
    split at h
    · split at h
      · cases h
      · split at h
        · cases h
        · rename_i hn
          cases h
          simp at hn
          exact ⟨.inl hl, by simp, hn.1, hn.2⟩
    · simp at *
  · left
    simp only [hl] at h
    split at h
    · split at h
      · cases h
      · split at h
        · cases h
        · rename_i hn
          cases h
          simp at hn
          exact ⟨.inr hl, by simp, hn.1, hn.2⟩
    · simp at *

/-- The value of the linear part. -/
theorem linear_value (hg : g.WellFormed) (hv : Evaluates g S val) (hdil : ∀ o, g.opType o = "Conv2D" → (g.attrs o).dilations = [1, 1, 1, 1])
    {s x w : ℕ} {d : RecData} (hl : LinearType (g.opType (g.producer s))) (hi : g.opInputs (g.producer s) = [x, w])
    (hd : affineData g (g.producer s) (g.reduce x) = .ok d) :
    Computes S d (val (g.reduce x)) (val (g.reduce w)) (val s) := by
  rw [val_reduce hg hv, val_reduce hg hv]
  rcases affineData_linear hd hl with ⟨ht | ht, rfl, ha, hb⟩ | ⟨ht, rfl⟩
  · left; rw [hv.matmul s x w ht hi, ha, hb]
  · right; rw [hv.batchMatMul s x w ht hi, ha, hb]
  · show _ = _
    rw [hv.conv2d s x w ht hi, hdil _ ht]

/-- C87 for fully connected and convolutional layers: a record made from a match of `Affine` describes the tensor that
was matched. Missing: convolutions with dilations, see `C87_dilation_counterexample`. -/
theorem C87_affine_partial (hg : g.WellFormed) (hv : Evaluates g S val) (hr : Ranks g)
    (hdil : ∀ o, g.opType o = "Conv2D" → (g.attrs o).dilations = [1, 1, 1, 1]) {T : ℕ → Option ℕ} {t : ℕ}
    {r : LayerRecord} (h : tryPattern g (affineP g) (recordAffine g) T t = .ok (some r)) :
    Describes g S val T r t := by
  obtain ⟨b, hb, hrec⟩ := tryPattern_some h
  obtain ⟨o, x, w, hl, hi, hw, hcase⟩ := res_affine hb
  rcases hcase with ⟨rfl, hbind⟩ | ⟨y, c, hin, hadd, rfl, hc, hbind⟩
  · obtain ⟨ho, hx, hd, v, hT, hp⟩ := recordAffine_some hbind hrec
    refine ⟨ho, g.reduce w, v, val t, hw, hT, ?_, .inl ⟨rfl, hp⟩⟩
    rw [hx, ← val_reduce hg hv t]
    exact linear_value hg hv hdil hl hi hd
  · obtain ⟨ho, hx, hd, v, hT, hp⟩ := recordAffine_some hbind hrec
    refine ⟨ho, g.reduce w, v, val y, hw, hT, ?_, .inr ⟨g.reduce c, hc, ?_, ?_⟩⟩
    · rw [hx, ← val_reduce hg hv y, ← val_reduce hg hv (g.reduce y)]
      exact linear_value hg hv hdil hl hi hd
    · rw [val_reduce hg hv c, ← val_reduce hg hv t]
      rcases hadd with ha | ha | ha
      · left
        rcases hin with hin | hin
        · exact hv.add _ y c (.inl ha) hin
        · rw [S.add_comm]; exact hv.add _ c y (.inl ha) hin
      · right
        rcases hin with hin | hin
        · exact hv.biasAdd _ y c ha hin
        · exfalso
          have h1 := hr.bias _ c y ha hin
          have h2 := hr.linear _ hl
          rw [shape_reduce hg hr, shape_reduce hg hr] at h2
          omega
      · left
        rcases hin with hin | hin
        · exact hv.add _ y c (.inr ha) hin
        · rw [S.add_comm]; exact hv.add _ c y (.inr ha) hin
    · simp only [Option.bind_some] at hp
      cases hu : T (g.reduce c) with
      | none => exact .inr ⟨rfl, by rw [hp, hu]⟩
      | some u => exact .inl ⟨u, rfl, by rw [hp, hu]⟩

/-! ### Layers are found -/

theorem linear_not_add {s : String} (h : LinearType s) : ¬ AddType s := by
  rcases h with rfl | rfl | rfl <;> simp [AddType]

theorem leaf_of_var {t : ℕ} (h : g.varTensor t = true) : g.leafTensor t = true := by simp [TFGraph.leafTensor, h]

theorem desc_linear {ρ : String → Option Node} {o x w : ℕ} (hl : LinearType (g.opType o))
    (hi : g.opInputs o = [x, w]) (hw : g.varTensor (g.reduce w) = true) (h1 : ρ "linear_op" = some (.op o))
    (h2 : ρ "in" = some (.tensor (g.reduce x))) (h3 : ρ "weights" = some (.tensor (g.reduce w))) :
    Desc g ρ (linearP g) (.op o) := by
  rw [linearP, desc_op_in2]
  refine ⟨desc_choice.2 ?_, x, w, hi, desc_tensor.2 ⟨_, rfl, by rintro v ⟨⟩; exact h2⟩,
    desc_variable.2 ⟨_, rfl, hw, h3⟩⟩
  rcases hl with hl | hl | hl
  · exact ⟨opP g "Conv2D" (some "linear_op"), by simp, desc_op.2 ⟨o, rfl, hl, by rintro v ⟨⟩; exact h1⟩⟩
  · exact ⟨opP g "MatMul" (some "linear_op"), by simp, desc_op.2 ⟨o, rfl, hl, by rintro v ⟨⟩; exact h1⟩⟩
  · exact ⟨opP g "BatchMatMulV2" (some "linear_op"), by simp, desc_op.2 ⟨o, rfl, hl, by rintro v ⟨⟩; exact h1⟩⟩

theorem desc_add {ρ : String → Option Node} {o : ℕ} (h : AddType (g.opType o)) :
    Desc g ρ (.choice [opP g "Add", opP g "BiasAdd", opP g "AddV2"]) (.op o) := by
  rw [desc_choice]
  rcases h with h | h | h
  · exact ⟨opP g "Add", by simp, desc_op.2 ⟨o, rfl, h, by simp⟩⟩
  · exact ⟨opP g "BiasAdd", by simp, desc_op.2 ⟨o, rfl, h, by simp⟩⟩
  · exact ⟨opP g "AddV2", by simp, desc_op.2 ⟨o, rfl, h, by simp⟩⟩

theorem tryPattern_of {p : P} (hp : PlainNeg p) {ρ : String → Option Node} {t : ℕ} (h : Desc g ρ p (.tensor t))
    (rec : Bind Node String → (ℕ → Option ℕ) → Except String (Option LayerRecord)) (T : ℕ → Option ℕ) :
    ∃ b, Res g p (.tensor t) (fun _ => none) b ∧ tryPattern g p rec T t = rec b T := by
  obtain ⟨r, hr⟩ := desc_matched hp h
  exact ⟨r.1, matched_res hr, by rw [tryPattern, hr]⟩

/-- C87: a fully connected or convolutional layer with a bias, added on either side, is found: wherever the graph adds
a variable to the result of a linear operation on a variable, with any identities in between, the record is made of
these tensors. -/
theorem C87_affine_found {T : ℕ → Option ℕ} {t y c x w v u : ℕ} {d : RecData} (ht : g.leafTensor t = false)
    (hadd : AddType (g.opType (g.producer (g.reduce t))))
    (hin : g.opInputs (g.producer (g.reduce t)) = [y, c] ∨ g.opInputs (g.producer (g.reduce t)) = [c, y])
    (hc : g.varTensor (g.reduce c) = true) (hy : g.leafTensor (g.reduce y) = false)
    (hl : LinearType (g.opType (g.producer (g.reduce (g.reduce y)))))
    (hi : g.opInputs (g.producer (g.reduce (g.reduce y))) = [x, w]) (hw : g.varTensor (g.reduce w) = true)
    (hd : affineData g (g.producer (g.reduce (g.reduce y))) (g.reduce x) = .ok d)
    (hv : T (g.reduce w) = some v) (hu : T (g.reduce c) = some u) :
    tryPattern g (affineP g) (recordAffine g) T t =
      .ok (some { params := .pair v u, inputs := g.reduce x, outputs := t, data := d }) := by
  let ρ : String → Option Node := fun n =>
    if n = "pre_activations" then some (.tensor t) else
    if n = "linear_op" then some (.op (g.producer (g.reduce (g.reduce y)))) else
    if n = "in" then some (.tensor (g.reduce x)) else
    if n = "weights" then some (.tensor (g.reduce w)) else
    if n = "biases" then some (.tensor (g.reduce c)) else none
  have hlin : Desc g ρ (.internalIn (tensorP none) [linearP g]) (.tensor (g.reduce y)) :=
    desc_tensor_in.2 ⟨_, rfl, by simp, hy, desc_linear hl hi hw rfl rfl rfl⟩
  have hbias : Desc g ρ (variableP g "biases") (.tensor (g.reduce c)) := desc_variable.2 ⟨_, rfl, hc, rfl⟩
  have hdesc : Desc g ρ (affineP g) (.tensor t) := by
    refine desc_tensor_in.2 ⟨t, rfl, by rintro _ ⟨⟩; rfl, ht, desc_choice.2 ⟨_, List.mem_cons_self, desc_choice.2 ?_⟩⟩
    rcases hin with hin | hin
    · exact ⟨_, List.mem_cons_self, desc_op_in2.2 ⟨desc_add hadd, y, c, hin, hlin, hbias⟩⟩
    · exact ⟨_, List.mem_cons_of_mem _ List.mem_cons_self, desc_op_in2.2 ⟨desc_add hadd, c, y, hin, hbias, hlin⟩⟩
  obtain ⟨b, hb, he⟩ := tryPattern_of affine_plain hdesc (recordAffine g) T
  rw [he]
  obtain ⟨o, x', w', hl', hi', hw', hcase⟩ := res_affine hb
  rcases hcase with ⟨rfl, -⟩ | ⟨y', c', hin', -, rfl, hc', hbind⟩
  · exact absurd hadd (linear_not_add hl')
  · have hyc : y' = y ∧ c' = c := by
      have no1 : c' ≠ y := by rintro rfl; rw [leaf_of_var hc'] at hy; cases hy
      rcases hin with hin | hin <;> rcases hin' with hin' | hin' <;> rw [hin] at hin' <;>
        simp only [List.cons.injEq, and_true] at hin'
      · exact ⟨hin'.1.symm, hin'.2.symm⟩
      · exact absurd hin'.1.symm no1
      · exact absurd hin'.2.symm no1
      · exact ⟨hin'.2.symm, hin'.1.symm⟩
    obtain ⟨rfl, rfl⟩ := hyc
    rw [hi] at hi'
    simp only [List.cons.injEq, and_true] at hi'
    obtain ⟨rfl, rfl⟩ := hi'
    rw [recordAffine_eq hbind]
    simp [hv, hu, recParams, hd, Except.map]

/-- C87: so is one without bias. -/
theorem C87_linear_found {T : ℕ → Option ℕ} {t x w v : ℕ} {d : RecData} (ht : g.leafTensor t = false)
    (hl : LinearType (g.opType (g.producer (g.reduce t)))) (hi : g.opInputs (g.producer (g.reduce t)) = [x, w])
    (hw : g.varTensor (g.reduce w) = true) (hd : affineData g (g.producer (g.reduce t)) (g.reduce x) = .ok d)
    (hv : T (g.reduce w) = some v) :
    tryPattern g (affineP g) (recordAffine g) T t =
      .ok (some { params := .single v, inputs := g.reduce x, outputs := t, data := d }) := by
  let ρ : String → Option Node := fun n =>
    if n = "pre_activations" then some (.tensor t) else
    if n = "linear_op" then some (.op (g.producer (g.reduce t))) else
    if n = "in" then some (.tensor (g.reduce x)) else
    if n = "weights" then some (.tensor (g.reduce w)) else none
  have hdesc : Desc g ρ (affineP g) (.tensor t) :=
    desc_tensor_in.2 ⟨t, rfl, by rintro _ ⟨⟩; rfl, ht,
      desc_choice.2 ⟨_, List.mem_cons_of_mem _ List.mem_cons_self, desc_linear hl hi hw rfl rfl rfl⟩⟩
  obtain ⟨b, hb, he⟩ := tryPattern_of affine_plain hdesc (recordAffine g) T
  rw [he]
  obtain ⟨o, x', w', hl', hi', hw', hcase⟩ := res_affine hb
  rcases hcase with ⟨rfl, hbind⟩ | ⟨y', c', -, hadd, -, -, -⟩
  · rw [hi] at hi'
    simp only [List.cons.injEq, and_true] at hi'
    obtain ⟨rfl, rfl⟩ := hi'
    rw [recordAffine_eq hbind]
    simp [hv, recParams, hd, Except.map]
  · exact absurd hadd (linear_not_add hl)

/-! ### Scale and shift -/

/-- What a match of `ScaleAndShift` binds. -/
structure ScaleBinds (b : Bind Node String) (t x w : ℕ) (c : Option ℕ) : Prop where
  out : b "out" = some (.tensor t)
  input : b "in" = some (.tensor x)
  scale : b "scale" = some (.tensor w)
  shift : b "shift" = c.map .tensor

theorem res_scale {o : ℕ} {b b' : Bind Node String} (h : Res g (scaleP g) (.op o) b b') (h1 : b "in" = none)
    (h2 : b "scale" = none) : g.opType o = "Mul" ∧ ∃ x w, (g.opInputs o = [x, w] ∨ g.opInputs o = [w, x]) ∧
      g.varTensor (g.reduce w) = true ∧ b' "in" = some (.tensor (g.reduce x)) ∧
      b' "scale" = some (.tensor (g.reduce w)) ∧ ∀ n, n ≠ "in" → n ≠ "scale" → b' n = b n := by
  obtain ⟨q, hq, hr⟩ := res_choice h
  simp only [List.mem_cons, List.not_mem_nil, or_false] at hq
  rcases hq with rfl | rfl
  · obtain ⟨b1, b2, x, w, hp, hi, hx, hw⟩ := res_op_in2 hr
    obtain ⟨ht, hb⟩ := res_op hp
    have : b1 = b := hb
    subst this
    obtain ⟨_, _, hxb⟩ := res_tensor hx
    have := bound_some hxb h1
    subst this
    obtain ⟨hv, hwb⟩ := res_variable hw
    have := bound_some hwb (by simpa using h2)
    subst this
    exact ⟨ht, x, w, .inl hi, hv, by simp, by simp, fun n h3 h4 => by simp [Function.update, h3, h4]⟩
  · obtain ⟨b1, b2, w, x, hp, hi, hw, hx⟩ := res_op_in2 hr
    obtain ⟨ht, hb⟩ := res_op hp
    have : b1 = b := hb
    subst this
    obtain ⟨hv, hwb⟩ := res_variable hw
    have := bound_some hwb h2
    subst this
    obtain ⟨_, _, hxb⟩ := res_tensor hx
    have := bound_some hxb (by simpa using h1)
    subst this
    exact ⟨ht, x, w, .inr hi, hv, by simp, by simp, fun n h3 h4 => by simp [Function.update, h3, h4]⟩

/-- The matches of `ScaleAndShift`. -/
theorem res_scale_shift {t : ℕ} {b : Bind Node String} (h : Res g (scaleAndShiftP g) (.tensor t) (fun _ => none) b) :
    ∃ o x w, g.opType o = "Mul" ∧ (g.opInputs o = [x, w] ∨ g.opInputs o = [w, x]) ∧
      g.varTensor (g.reduce w) = true ∧
      ((g.producer (g.reduce t) = o ∧ ScaleBinds b t (g.reduce x) (g.reduce w) none) ∨
        ∃ y c, (g.opInputs (g.producer (g.reduce t)) = [y, c] ∨ g.opInputs (g.producer (g.reduce t)) = [c, y]) ∧
          (g.opType (g.producer (g.reduce t)) = "Add" ∨ g.opType (g.producer (g.reduce t)) = "AddV2") ∧
          g.producer (g.reduce (g.reduce y)) = o ∧ g.varTensor (g.reduce c) = true ∧
          ScaleBinds b t (g.reduce x) (g.reduce w) (some (g.reduce c))) := by
  obtain ⟨b1, hb1, _, h⟩ := res_tensor_in h
  have := bound_some hb1 rfl
  subst this
  have hadd : ∀ {o : ℕ} {b b' : Bind Node String}, Res g (.choice [opP g "Add", opP g "AddV2"]) (.op o) b b' →
      (g.opType o = "Add" ∨ g.opType o = "AddV2") ∧ b' = b := by
    intro o b b' hc
    obtain ⟨q, hq, hr⟩ := res_choice hc
    simp only [List.mem_cons, List.not_mem_nil, or_false] at hq
    rcases hq with rfl | rfl <;> obtain ⟨ht, hb⟩ := res_op hr
    · exact ⟨.inl ht, hb⟩
    · exact ⟨.inr ht, hb⟩
  obtain ⟨q, hq, hr⟩ := res_choice h
  simp only [List.mem_cons, List.not_mem_nil, or_false] at hq
  rcases hq with rfl | rfl | rfl
  · obtain ⟨b2, b3, y, c, hp, hi, hy, hc⟩ := res_op_in2 hr
    obtain ⟨ht, rfl⟩ := hadd hp
    obtain ⟨b4, hb4, _, hl⟩ := res_tensor_in hy
    have : b4 = _ := hb4
    subst this
    obtain ⟨hm, x, w, hxw, hv, e1, e2, e3⟩ := res_scale hl (by simp) (by simp)
    obtain ⟨hv', hcb⟩ := res_variable hc
    have := bound_some hcb (by rw [e3 _ (by decide) (by decide)]; simp)
    subst this
    refine ⟨_, x, w, hm, hxw, hv, .inr ⟨y, c, .inl hi, ht, rfl, hv', ?_, ?_, ?_, ?_⟩⟩
    · rw [Function.update_of_ne (by decide), e3 _ (by decide) (by decide)]; simp
    · rw [Function.update_of_ne (by decide), e1]
    · rw [Function.update_of_ne (by decide), e2]
    · simp
  · obtain ⟨b2, b3, c, y, hp, hi, hc, hy⟩ := res_op_in2 hr
    obtain ⟨ht, rfl⟩ := hadd hp
    obtain ⟨hv', hcb⟩ := res_variable hc
    have := bound_some hcb (by simp)
    subst this
    obtain ⟨b4, hb4, _, hl⟩ := res_tensor_in hy
    have : b4 = _ := hb4
    subst this
    obtain ⟨hm, x, w, hxw, hv, e1, e2, e3⟩ := res_scale hl (by simp) (by simp)
    refine ⟨_, x, w, hm, hxw, hv, .inr ⟨y, c, .inr hi, ht, rfl, hv', ?_, e1, e2, ?_⟩⟩
    · rw [e3 _ (by decide) (by decide)]; simp [Function.update]
    · rw [e3 _ (by decide) (by decide)]; simp [Function.update]
  · obtain ⟨hm, x, w, hxw, hv, e1, e2, e3⟩ := res_scale hr (by simp) (by simp)
    refine ⟨_, x, w, hm, hxw, hv, .inl ⟨rfl, ?_, e1, e2, ?_⟩⟩
    · rw [e3 _ (by decide) (by decide)]; simp
    · rw [e3 _ (by decide) (by decide)]; simp

theorem recordScale_some {b : Bind Node String} {T : ℕ → Option ℕ} {t x w : ℕ} {c : Option ℕ} {r : LayerRecord}
    (hb : ScaleBinds b t x w c) (h : recordScaleAndShift b T = .ok (some r)) :
    r.outputs = t ∧ r.inputs = x ∧ r.data = .scaleAndShift ∧ ∃ v, T w = some v ∧
      r.params = (match c.bind T with | some u => .pair v u | none => .single v) := by
  have h1 : lookupVar b T "shift" = c.bind T := by
    rw [lookupVar, hb.shift]; cases c <;> rfl
  have h2 : lookupVar b T "scale" = T w := by rw [lookupVar, hb.scale]
  unfold recordScaleAndShift at h
  simp only [h1, h2, hb.input, hb.out] at h
  split at h
  · cases h
  · cases hw : T w with
    | none => simp [hw, recParams] at h
    | some v =>
      rw [hw] at h
      cases hc : c.bind T with
      | none => rw [hc] at h; cases h; exact ⟨rfl, rfl, rfl, v, rfl, rfl⟩
      | some u => rw [hc] at h; cases h; exact ⟨rfl, rfl, rfl, v, rfl, rfl⟩

/-- C87 for scale and shift operations: a record made from a match of `ScaleAndShift` describes the matched tensor. -/
theorem C87_scale_shift (hg : g.WellFormed) (hv : Evaluates g S val) {T : ℕ → Option ℕ} {t : ℕ} {r : LayerRecord}
    (h : tryPattern g (scaleAndShiftP g) recordScaleAndShift T t = .ok (some r)) : Describes g S val T r t := by
  obtain ⟨b, hb, hrec⟩ := tryPattern_some h
  obtain ⟨o, x, w, hm, hi, hw, hcase⟩ := res_scale_shift hb
  have hval : ∀ s, g.producer s = o → val s = S.mul (val (g.reduce x)) (val (g.reduce w)) := by
    rintro s rfl
    rw [val_reduce hg hv, val_reduce hg hv]
    rcases hi with hi | hi
    · exact hv.mul s x w hm hi
    · rw [S.mul_comm]; exact hv.mul s w x hm hi
  rcases hcase with ⟨ho, hbind⟩ | ⟨y, c, hin, hadd, ho, hc, hbind⟩
  · obtain ⟨h1, hx, hd, v, hT, hp⟩ := recordScale_some hbind hrec
    refine ⟨h1, g.reduce w, v, val t, hw, hT, ?_, .inl ⟨rfl, hp⟩⟩
    rw [hx, hd, ← val_reduce hg hv t]
    exact hval _ ho
  · obtain ⟨h1, hx, hd, v, hT, hp⟩ := recordScale_some hbind hrec
    refine ⟨h1, g.reduce w, v, val y, hw, hT, ?_, .inr ⟨g.reduce c, hc, .inl ?_, ?_⟩⟩
    · rw [hx, hd, ← val_reduce hg hv y, ← val_reduce hg hv (g.reduce y)]
      exact hval _ ho
    · rw [val_reduce hg hv c, ← val_reduce hg hv t]
      rcases hin with hin | hin
      · exact hv.add _ y c hadd hin
      · rw [S.add_comm]; exact hv.add _ c y hadd hin
    · simp only [Option.bind_some] at hp
      cases hu : T (g.reduce c) with
      | none => exact .inr ⟨rfl, by rw [hp, hu]⟩
      | some u => exact .inl ⟨u, rfl, by rw [hp, hu]⟩

/-- C87: a multiplication of a tensor with a variable, on either side, possibly followed by the addition of a variable
on either side, is found. -/
theorem C87_scale_shift_found {T : ℕ → Option ℕ} {t m x w v : ℕ} {c : Option (ℕ × ℕ)} (ht : g.leafTensor t = false)
    (hm : g.opType (g.producer (g.reduce m)) = "Mul")
    (hi : g.opInputs (g.producer (g.reduce m)) = [x, w] ∨ g.opInputs (g.producer (g.reduce m)) = [w, x])
    (hw : g.varTensor (g.reduce w) = true) (hx : g.varTensor (g.reduce x) = false) (hv : T (g.reduce w) = some v)
    (hc : match c with
      | none => m = t
      | some (s, u) => ∃ y, m = g.reduce y ∧ g.leafTensor (g.reduce y) = false ∧
          (g.opType (g.producer (g.reduce t)) = "Add" ∨ g.opType (g.producer (g.reduce t)) = "AddV2") ∧
          (g.opInputs (g.producer (g.reduce t)) = [y, s] ∨ g.opInputs (g.producer (g.reduce t)) = [s, y]) ∧
          g.varTensor (g.reduce s) = true ∧ T (g.reduce s) = some u) :
    tryPattern g (scaleAndShiftP g) recordScaleAndShift T t =
      .ok (some { params := (match c with | none => .single v | some (_, u) => .pair v u), inputs := g.reduce x,
                  outputs := t, data := .scaleAndShift }) := by
  have hscale : ∀ {ρ : String → Option Node}, ρ "in" = some (.tensor (g.reduce x)) →
      ρ "scale" = some (.tensor (g.reduce w)) → Desc g ρ (scaleP g) (.op (g.producer (g.reduce m))) := by
    intro ρ h1 h2
    have hvar : Desc g ρ (variableP g "scale") (.tensor (g.reduce w)) := desc_variable.2 ⟨_, rfl, hw, h2⟩
    have hten : Desc g ρ (tensorP (some "in")) (.tensor (g.reduce x)) :=
      desc_tensor.2 ⟨_, rfl, by rintro _ ⟨⟩; exact h1⟩
    have hop : Desc g ρ (opP g "Mul") (.op (g.producer (g.reduce m))) := desc_op.2 ⟨_, rfl, hm, by simp⟩
    refine desc_choice.2 ?_
    rcases hi with hi | hi
    · exact ⟨_, List.mem_cons_self, desc_op_in2.2 ⟨hop, x, w, hi, hten, hvar⟩⟩
    · exact ⟨_, List.mem_cons_of_mem _ List.mem_cons_self, desc_op_in2.2 ⟨hop, w, x, hi, hvar, hten⟩⟩
  have hpick : ∀ x' w', (g.opInputs (g.producer (g.reduce m)) = [x', w'] ∨
      g.opInputs (g.producer (g.reduce m)) = [w', x']) → g.varTensor (g.reduce w') = true → x' = x ∧ w' = w := by
    intro x' w' h' hw'
    have no : w' ≠ x := by rintro rfl; rw [hw'] at hx; cases hx
    rcases hi with hi | hi <;> rcases h' with h' | h' <;> rw [hi] at h' <;>
      simp only [List.cons.injEq, and_true] at h'
    · exact ⟨h'.1.symm, h'.2.symm⟩
    · exact absurd h'.1.symm no
    · exact absurd h'.2.symm no
    · exact ⟨h'.2.symm, h'.1.symm⟩
  have hrec : ∀ {b : Bind Node String} {s : Option ℕ}, ScaleBinds b t (g.reduce x) (g.reduce w) s →
      recordScaleAndShift b T = .ok (some
        { params := (match s.bind T with | none => .single v | some u => .pair v u),
          inputs := g.reduce x, outputs := t, data := .scaleAndShift }) := by
    intro b s hb
    have h1 : lookupVar b T "shift" = s.bind T := by
      rw [lookupVar, hb.shift]; cases s <;> rfl
    have h2 : lookupVar b T "scale" = some v := by rw [lookupVar, hb.scale]; exact hv
    unfold recordScaleAndShift
    simp only [h1, h2, hb.input, hb.out]
    cases s.bind T <;> simp [recParams]
  have hmul : ∀ {o : ℕ}, g.opType o = "Mul" → ¬ (g.opType o = "Add" ∨ g.opType o = "AddV2") := by
    intro o h; rw [h]; decide
  match c, hc with
  | none, hc =>
    subst hc
    let ρ : String → Option Node := fun n =>
      if n = "out" then some (.tensor m) else
      if n = "in" then some (.tensor (g.reduce x)) else
      if n = "scale" then some (.tensor (g.reduce w)) else none
    have hdesc : Desc g ρ (scaleAndShiftP g) (.tensor m) :=
      desc_tensor_in.2 ⟨m, rfl, by rintro _ ⟨⟩; rfl, ht, desc_choice.2 ⟨scaleP g, by simp, hscale rfl rfl⟩⟩
    obtain ⟨b, hb, he⟩ := tryPattern_of scale_plain hdesc recordScaleAndShift T
    rw [he]
    obtain ⟨o, x', w', hty, hi', hw', hcase⟩ := res_scale_shift hb
    rcases hcase with ⟨rfl, hbind⟩ | ⟨y', c', -, hadd, -⟩
    · obtain ⟨rfl, rfl⟩ := hpick x' w' hi' hw'
      rw [hrec hbind]; rfl
    · exact absurd hadd (hmul hm)
  | some (s, u), hc =>
    obtain ⟨y, rfl, hy, hadd, hin, hs, hu⟩ := hc
    let ρ : String → Option Node := fun n =>
      if n = "out" then some (.tensor t) else
      if n = "in" then some (.tensor (g.reduce x)) else
      if n = "scale" then some (.tensor (g.reduce w)) else
      if n = "shift" then some (.tensor (g.reduce s)) else none
    have hshift : Desc g ρ (variableP g "shift") (.tensor (g.reduce s)) := desc_variable.2 ⟨_, rfl, hs, rfl⟩
    have hmulP : Desc g ρ (.internalIn (tensorP none) [scaleP g]) (.tensor (g.reduce y)) :=
      desc_tensor_in.2 ⟨_, rfl, by simp, hy, hscale rfl rfl⟩
    have haddP : Desc g ρ (.choice [opP g "Add", opP g "AddV2"]) (.op (g.producer (g.reduce t))) := by
      rw [desc_choice]
      rcases hadd with h | h
      · exact ⟨opP g "Add", by simp, desc_op.2 ⟨_, rfl, h, by simp⟩⟩
      · exact ⟨opP g "AddV2", by simp, desc_op.2 ⟨_, rfl, h, by simp⟩⟩
    have hdesc : Desc g ρ (scaleAndShiftP g) (.tensor t) := by
      refine desc_tensor_in.2 ⟨t, rfl, by rintro _ ⟨⟩; rfl, ht, desc_choice.2 ?_⟩
      rcases hin with hin | hin
      · exact ⟨_, List.mem_cons_self, desc_op_in2.2 ⟨haddP, y, s, hin, hmulP, hshift⟩⟩
      · exact ⟨_, List.mem_cons_of_mem _ List.mem_cons_self, desc_op_in2.2 ⟨haddP, s, y, hin, hshift, hmulP⟩⟩
    obtain ⟨b, hb, he⟩ := tryPattern_of scale_plain hdesc recordScaleAndShift T
    rw [he]
    obtain ⟨o, x', w', hty, hi', hw', hcase⟩ := res_scale_shift hb
    rcases hcase with ⟨rfl, -⟩ | ⟨y', s', hin', -, rfl, hs', hbind⟩
    · exact absurd hadd (hmul hty)
    · have hys : y' = y ∧ s' = s := by
        have no : s' ≠ y := by rintro rfl; rw [leaf_of_var hs'] at hy; cases hy
        rcases hin with hin | hin <;> rcases hin' with hin' | hin' <;> rw [hin] at hin' <;>
          simp only [List.cons.injEq, and_true] at hin'
        · exact ⟨hin'.1.symm, hin'.2.symm⟩
        · exact absurd hin'.1.symm no
        · exact absurd hin'.2.symm no
        · exact ⟨hin'.2.symm, hin'.1.symm⟩
      obtain ⟨rfl, rfl⟩ := hys
      obtain ⟨rfl, rfl⟩ := hpick x' w' hi' hw'
      rw [hrec hbind]
      simp [hu]

/-! ### Embeddings -/

/-- The matches of `Embed`. -/
theorem res_embed {t : ℕ} {b : Bind Node String} (h : Res g (embedP g) (.tensor t) (fun _ => none) b) :
    ∃ x w, g.varTensor (g.reduce w) = true ∧
      AffineBinds b t (g.producer (g.reduce t)) (g.reduce x) (g.reduce w) none ∧
      (((g.opType (g.producer (g.reduce t)) = "Gather" ∨ g.opType (g.producer (g.reduce t)) = "ResourceGather") ∧
          g.opInputs (g.producer (g.reduce t)) = [w, x]) ∨
        (g.opType (g.producer (g.reduce t)) = "GatherV2" ∧
          ∃ a, g.opInputs (g.producer (g.reduce t)) = [w, x, a])) := by
  obtain ⟨b1, hb1, _, h⟩ := res_tensor_in h
  have := bound_some hb1 rfl
  subst this
  obtain ⟨q, hq, hr⟩ := res_choice h
  simp only [List.mem_cons, List.not_mem_nil, or_false] at hq
  rcases hq with rfl | rfl
  · obtain ⟨b2, b3, w, x, hp, hi, hw, hx⟩ := res_op_in2 hr
    obtain ⟨q, hq, hr⟩ := res_choice hp
    have hty : (g.opType (g.producer (g.reduce t)) = "Gather" ∨
        g.opType (g.producer (g.reduce t)) = "ResourceGather") ∧
        b2 = Function.update (Function.update (fun _ => none) "pre_activations" (some (.tensor t))) "linear_op"
          (some (.op (g.producer (g.reduce t)))) := by
      simp only [List.mem_cons, List.not_mem_nil, or_false] at hq
      rcases hq with rfl | rfl <;> obtain ⟨ht, hb⟩ := res_op hr
      · exact ⟨.inl ht, bound_some hb (by simp)⟩
      · exact ⟨.inr ht, bound_some hb (by simp)⟩
    obtain ⟨hty, rfl⟩ := hty
    obtain ⟨hv, hwb⟩ := res_variable hw
    have := bound_some hwb (by simp)
    subst this
    obtain ⟨_, _, hxb⟩ := res_tensor hx
    have := bound_some hxb (by simp)
    subst this
    refine ⟨x, w, hv, ?_, .inl ⟨hty, hi⟩⟩
    constructor <;> simp [Function.update]
  · obtain ⟨b2, b3, b4, w, x, a, hp, hi, hw, hx, ha⟩ := res_op_in3 hr
    obtain ⟨ht, hb⟩ := res_op hp
    have := bound_some hb (by simp)
    subst this
    obtain ⟨hv, hwb⟩ := res_variable hw
    have := bound_some hwb (by simp)
    subst this
    obtain ⟨_, _, hxb⟩ := res_tensor hx
    have := bound_some hxb (by simp)
    subst this
    obtain ⟨_, _, hab⟩ := res_tensor ha
    have := bound_some hab (by simp)
    subst this
    refine ⟨x, w, hv, ?_, .inr ⟨ht, a, hi⟩⟩
    constructor <;> simp [Function.update]

/-- C87 for embeddings: a record made from a match of `Embed` describes the matched tensor. Missing: lookups along
another axis than 0, see `C87_axis_counterexample`. -/
theorem C87_embed_partial (hg : g.WellFormed) (hv : Evaluates g S val)
    (haxis : ∀ o a b c, g.opType o = "GatherV2" → g.opInputs o = [a, b, c] → val c = S.zero)
    {T : ℕ → Option ℕ} {t : ℕ} {r : LayerRecord}
    (h : tryPattern g (embedP g) (recordAffine g) T t = .ok (some r)) : Describes g S val T r t := by
  obtain ⟨b, hb, hrec⟩ := tryPattern_some h
  obtain ⟨x, w, hw, hbind, hcase⟩ := res_embed hb
  obtain ⟨ho, hx, hd, v, hT, hp⟩ := recordAffine_some hbind hrec
  refine ⟨ho, g.reduce w, v, val t, hw, hT, ?_, .inl ⟨rfl, hp⟩⟩
  have hdata : r.data = .fullyConnected false := by
    have hty : g.opType (g.producer (g.reduce t)) = "Gather" ∨ g.opType (g.producer (g.reduce t)) = "ResourceGather" ∨
        g.opType (g.producer (g.reduce t)) = "GatherV2" := by tauto
    unfold affineData at hd
    rcases hty with hty | hty | hty <;>
    · simp only [hty] at hd
      split at hd
      · split at hd
        · cases hd
        · split at hd
          · cases hd
          · rw [← Except.ok.inj hd]; simp
      · simp at *
  rw [hdata, hx, ← val_reduce hg hv t, val_reduce hg hv x, val_reduce hg hv w]
  rcases hcase with ⟨hty, hi⟩ | ⟨hty, a, hi⟩
  · exact hv.gather _ w x hty hi
  · show _ = _
    rw [hv.gatherV2 _ w x a hty hi, haxis _ w x a hty hi, S.gatherV2_zero]

/-! ### Batch normalisation -/

/-- The variables of a record in order. -/
def RecParams.vars : RecParams → List ℕ
  | .single v => [v]
  | .pair v w => [v, w]

theorem bound_known {b b' : Bind Node String} {v : String} {d e : Node} (h : Bound (some v) d b b')
    (hv : b v = some e) : d = e ∧ b' = b := by
  rcases h with ⟨h, h'⟩ | ⟨h, _⟩
  · rw [hv] at h; exact ⟨(Option.some.inj h).symm, h'⟩
  · rw [hv] at h; cases h

theorem recordBatchNorm_some {b : Bind Node String} {T : ℕ → Option ℕ} {t x : ℕ} {scale offset : Option ℕ}
    {r : LayerRecord} (ho : b "out" = some (.tensor t)) (hi : b "in" = some (.tensor x))
    (hs : b "scale" = scale.map .tensor) (hf : b "offset" = offset.map .tensor)
    (h : recordBatchNorm b T = .ok (some r)) : r.outputs = t ∧ r.inputs = x ∧ r.data = .batchNorm ∧
      r.params.vars = (scale.bind T).toList ++ (offset.bind T).toList := by
  have h1 : lookupVar b T "offset" = offset.bind T := by
    rw [lookupVar, hf]; cases offset <;> rfl
  have h2 : lookupVar b T "scale" = scale.bind T := by
    rw [lookupVar, hs]; cases scale <;> rfl
  unfold recordBatchNorm at h
  simp only [h1, h2, hi, ho] at h
  cases hs' : scale.bind T <;> cases hf' : offset.bind T <;> rw [hs', hf'] at h
  · simp [recParams] at h
  · cases h; exact ⟨rfl, rfl, rfl, rfl⟩
  · cases h; exact ⟨rfl, rfl, rfl, rfl⟩
  · cases h; exact ⟨rfl, rfl, rfl, rfl⟩

/-- What `tf.nn.batch_normalization` computes from input, mean (with the sign it is used with), variance, and scale
and offset if present. -/
def normalised (S : OpSem V) (x mean var : V) (scale offset : Option V) : V :=
  let inv := match scale with
    | none => S.rsqrt var
    | some s => S.mul (S.rsqrt var) s
  S.add (S.mul x inv) (match offset with
    | none => S.mul mean inv
    | some o => S.sub o (S.mul mean inv))

/-- The inverse standard deviation in a match of `BatchNorm`. -/
theorem res_inv {i : ℕ} {b b' : Bind Node String}
    (h : Res g (.internalIn (tensorP (some "inv")) [.choice [opP g "Rsqrt",
      .internalIn (opP g "Mul") [.internalIn (tensorP none) [opP g "Rsqrt"], tensorP (some "scale")]]])
      (.tensor i) b b') (hi : b "inv" = none) (hs : b "scale" = none) (hg : g.WellFormed) (hv : Evaluates g S val) :
    ∃ (scale : Option ℕ) (var : V), b' "inv" = some (.tensor i) ∧ b' "scale" = scale.map .tensor ∧
      (∀ n, n ≠ "inv" → n ≠ "scale" → b' n = b n) ∧
      val i = (match scale.map val with | none => S.rsqrt var | some s => S.mul (S.rsqrt var) s) := by
  obtain ⟨b1, hb1, _, h⟩ := res_tensor_in h
  have := bound_some hb1 hi
  subst this
  obtain ⟨q, hq, hr⟩ := res_choice h
  simp only [List.mem_cons, List.not_mem_nil, or_false] at hq
  rcases hq with rfl | rfl
  · obtain ⟨ht, hb⟩ := res_op hr
    have : b' = _ := hb
    subst this
    obtain ⟨a, -, ha⟩ := hv.rsqrt _ ht
    refine ⟨none, val a, by simp, by simpa [Function.update] using hs, fun n h1 h2 => by simp [Function.update, h1], ?_⟩
    rw [← val_reduce hg hv i, ha]; rfl
  · obtain ⟨b2, b3, p, q, hp, hin, hx, hw⟩ := res_op_in2 hr
    obtain ⟨ht, hb⟩ := res_op hp
    have : b2 = _ := hb
    subst this
    obtain ⟨b4, hb4, _, hl⟩ := res_tensor_in hx
    have : b4 = _ := hb4
    subst this
    obtain ⟨ht', hb'⟩ := res_op hl
    have : b3 = _ := hb'
    subst this
    obtain ⟨_, _, hwb⟩ := res_tensor hw
    have := bound_some hwb (by simpa [Function.update] using hs)
    subst this
    obtain ⟨a, -, ha⟩ := hv.rsqrt _ ht'
    refine ⟨some (g.reduce q), val a, by simp [Function.update], by simp,
      fun n h1 h2 => by simp [Function.update, h1, h2], ?_⟩
    rw [← val_reduce hg hv i, hv.mul _ p q ht hin, ← val_reduce hg hv p, ← val_reduce hg hv (g.reduce p), ha, ← val_reduce hg hv q]
    rfl

/-- C87 for batch normalisation built from elementary operations: the matched tensor is the normalisation of the
recorded input with some mean and variance, and the recorded variables are those of `T` among scale and offset. -/
theorem C87_batch_norm (hg : g.WellFormed) (hv : Evaluates g S val) {T : ℕ → Option ℕ} {t : ℕ} {r : LayerRecord}
    (h : tryPattern g (batchNormP g) recordBatchNorm T t = .ok (some r)) :
    r.outputs = t ∧ r.data = .batchNorm ∧ ∃ (scale offset : Option ℕ) (mean var : V),
      val t = normalised S (val r.inputs) mean var (scale.map val) (offset.map val) ∧
      r.params.vars = (scale.bind T).toList ++ (offset.bind T).toList := by
  obtain ⟨b, hb, hrec⟩ := tryPattern_some h
  obtain ⟨b1, hb1, _, hres⟩ := res_tensor_in hb
  have := bound_some hb1 rfl
  subst this
  obtain ⟨b2, b3, p, q, hp, hin, hx, hq⟩ := res_op_in2 hres
  obtain ⟨hadd, hb2⟩ := res_op hp
  have : b2 = _ := hb2
  subst this
  obtain ⟨b4, hb4, _, hmul⟩ := res_tensor_in hx
  have : b4 = _ := hb4
  subst this
  obtain ⟨b5, b6, x, i, hp', hin', hx', hinv⟩ := res_op_in2 hmul
  obtain ⟨hty, hb5⟩ := res_op hp'
  have : b5 = _ := hb5
  subst this
  obtain ⟨_, _, hb6⟩ := res_tensor hx'
  have := bound_some hb6 (by simp)
  subst this
  obtain ⟨scale, var, e1, e2, e3, e4⟩ := res_inv hinv (by simp) (by simp) hg hv
  have hleft : val p = S.mul (val (g.reduce x)) (val (g.reduce i)) := by
    rw [← val_reduce hg hv p, ← val_reduce hg hv (g.reduce p), hv.mul _ x i hty hin', val_reduce hg hv, val_reduce hg hv]
  have hout : val t = S.add (val p) (val q) := by
    rw [← val_reduce hg hv t]; exact hv.add _ p q (.inr hadd) hin
  have hinvval : ∀ (o m z : ℕ), g.opType o = "Mul" → g.opInputs o = [m, z] →
      g.reduce z = g.reduce i → ∀ s, g.producer s = o → val s = S.mul (val m) (val (g.reduce i)) := by
    rintro o m z h1 h2 h3 s rfl
    rw [hv.mul _ m z h1 h2, ← h3, val_reduce hg hv]
  obtain ⟨b7, hb7, _, hchoice⟩ := res_tensor_in hq
  have : b7 = _ := hb7
  subst this
  obtain ⟨alt, halt, hr⟩ := res_choice hchoice
  simp only [List.mem_cons, List.not_mem_nil, or_false] at halt
  rcases halt with rfl | rfl
  · obtain ⟨b8, b9, f, z, hp8, hin8, hf, hz⟩ := res_op_in2 hr
    obtain ⟨hsub, hb8⟩ := res_op hp8
    have : b8 = _ := hb8
    subst this
    obtain ⟨_, _, hb9⟩ := res_tensor hf
    have := bound_some hb9 (by rw [e3 _ (by decide) (by decide)]; simp)
    subst this
    obtain ⟨b10, hb10, _, hm⟩ := res_tensor_in hz
    have : b10 = _ := hb10
    subst this
    obtain ⟨b11, b12, m, j, hp11, hin11, hm12, hj⟩ := res_op_in2 hm
    obtain ⟨hty11, hb11⟩ := res_op hp11
    have : b11 = _ := hb11
    subst this
    obtain ⟨_, _, hb12⟩ := res_tensor hm12
    have : b12 = _ := hb12
    subst this
    obtain ⟨_, _, hbj⟩ := res_tensor hj
    obtain ⟨hji, rfl⟩ := bound_known hbj (by rw [Function.update_of_ne (by decide), e1])
    have hji : g.reduce j = g.reduce i := by simpa using hji
    obtain ⟨h1, h2, h3, h4⟩ := recordBatchNorm_some (t := t) (x := g.reduce x) (scale := scale)
      (offset := some (g.reduce f))
      (by rw [Function.update_of_ne (by decide), e3 _ (by decide) (by decide)]; simp)
      (by rw [Function.update_of_ne (by decide), e3 _ (by decide) (by decide)]; simp)
      (by rw [Function.update_of_ne (by decide), e2]) (by simp) hrec
    refine ⟨h1, h3, scale, some (g.reduce f), val m, var, ?_, h4⟩
    rw [hout, hleft, h2]
    have hqv : val q = S.sub (val (g.reduce f)) (S.mul (val m) (val (g.reduce i))) := by
      rw [← val_reduce hg hv q, ← val_reduce hg hv (g.reduce q), hv.sub _ f z hsub hin8, ← val_reduce hg hv f,
        ← val_reduce hg hv z, ← val_reduce hg hv (g.reduce z), hinvval _ m j hty11 hin11 hji _ rfl]
    rw [hqv, e4]
    cases scale <;> rfl
  · obtain ⟨b11, b12, m, j, hp11, hin11, hm12, hj⟩ := res_op_in2 hr
    obtain ⟨hty11, hb11⟩ := res_op hp11
    have : b11 = _ := hb11
    subst this
    obtain ⟨_, _, hb12⟩ := res_tensor hm12
    have : b12 = _ := hb12
    subst this
    obtain ⟨_, _, hbj⟩ := res_tensor hj
    obtain ⟨hji, rfl⟩ := bound_known hbj e1
    have hji : g.reduce j = g.reduce i := by simpa using hji
    obtain ⟨h1, h2, h3, h4⟩ := recordBatchNorm_some (t := t) (x := g.reduce x) (scale := scale) (offset := none)
      (by rw [e3 _ (by decide) (by decide)]; simp) (by rw [e3 _ (by decide) (by decide)]; simp) e2
      (by rw [e3 _ (by decide) (by decide)]; simp) hrec
    refine ⟨h1, h3, scale, none, val m, var, ?_, h4⟩
    rw [hout, hleft, h2]
    have hqv : val q = S.mul (val m) (val (g.reduce i)) := by
      rw [← val_reduce hg hv q, ← val_reduce hg hv (g.reduce q), hinvval _ m j hty11 hin11 hji _ rfl]
    rw [hqv, e4]
    cases scale <;> rfl

/-- C87 for fused batch normalisation: the matched tensor is an output of a fused operation on the recorded input, and
the recorded variables are those of `T` among its scale and offset. -/
theorem C87_fused_batch_norm {T : ℕ → Option ℕ} {t : ℕ} {r : LayerRecord}
    (h : tryPattern g (fusedBatchNormP g) recordBatchNorm T t = .ok (some r)) :
    r.outputs = t ∧ r.data = .batchNorm ∧
      g.opType (g.producer (g.reduce t)) ∈ ["FusedBatchNorm", "FusedBatchNormV2", "FusedBatchNormV3"] ∧
      ∃ x s o m v, g.opInputs (g.producer (g.reduce t)) = [x, s, o, m, v] ∧ r.inputs = g.reduce x ∧
        r.params.vars = (T (g.reduce s)).toList ++ (T (g.reduce o)).toList := by
  obtain ⟨b, hb, hrec⟩ := tryPattern_some h
  obtain ⟨b1, hb1, _, hres⟩ := res_tensor_in hb
  have := bound_some hb1 rfl
  subst this
  obtain ⟨b2, l, hp, hl, hlist⟩ := res_in hres
  have hty : g.opType (g.producer (g.reduce t)) ∈ ["FusedBatchNorm", "FusedBatchNormV2", "FusedBatchNormV3"] ∧
      b2 = Function.update (fun _ => none) "out" (some (.tensor t)) := by
    obtain ⟨q, hq, hr⟩ := res_choice hp
    simp only [List.mem_cons, List.not_mem_nil, or_false] at hq
    rcases hq with rfl | rfl | rfl <;> obtain ⟨ht, hb⟩ := res_op hr
    · exact ⟨by simp [ht], hb⟩
    · exact ⟨by simp [ht], hb⟩
    · exact ⟨by simp [ht], hb⟩
  obtain ⟨hty, rfl⟩ := hty
  obtain ⟨d1, l1, c1, rfl, h1, hlist⟩ := resList_cons hlist
  obtain ⟨d2, l2, c2, rfl, h2, hlist⟩ := resList_cons hlist
  obtain ⟨d3, l3, c3, rfl, h3, hlist⟩ := resList_cons hlist
  obtain ⟨d4, l4, c4, rfl, h4, hlist⟩ := resList_cons hlist
  obtain ⟨d5, l5, c5, rfl, h5, hlist⟩ := resList_cons hlist
  obtain ⟨rfl, rfl⟩ := resList_nil hlist
  simp only [TFGraph.expandInputs, Option.some.injEq] at hl
  match ho : g.opInputs (g.producer (g.reduce t)), hl with
  | [x, s, o, m, v], hl =>
    simp only [List.map_cons, List.map_nil, List.cons.injEq, and_true] at hl
    obtain ⟨rfl, rfl, rfl, rfl, rfl⟩ := hl
    obtain ⟨_, _, g1⟩ := res_tensor h1
    have := bound_some g1 (by simp)
    subst this
    obtain ⟨_, _, g2⟩ := res_tensor h2
    have := bound_some g2 (by simp)
    subst this
    obtain ⟨_, _, g3⟩ := res_tensor h3
    have := bound_some g3 (by simp)
    subst this
    obtain ⟨_, _, g4⟩ := res_tensor h4
    have : c4 = _ := g4
    subst this
    obtain ⟨_, _, g5⟩ := res_tensor h5
    have : b = _ := g5
    subst this
    obtain ⟨e1, e2, e3, e4⟩ := recordBatchNorm_some (t := t) (x := g.reduce x) (scale := some (g.reduce s))
      (offset := some (g.reduce o)) (by simp [Function.update]) (by simp [Function.update])
      (by simp [Function.update]) (by simp) hrec
    exact ⟨e1, e3, hty, x, s, o, m, v, rfl, e2, e4⟩
  | [], hl => simp at hl
  | [_], hl => simp at hl
  | [_, _], hl => simp at hl
  | [_, _, _], hl => simp at hl
  | [_, _, _, _], hl => simp at hl
  | _ :: _ :: _ :: _ :: _ :: _ :: _, hl => simp at hl

/-! ### What the records leave out -/

/-- Operations on images with one channel (or matrices), as functions of row and column; 2 × 2 filters without
padding. -/
def imageSem : OpSem (ℕ → ℕ → ℤ) where
  add a b i j := a i j + b i j
  mul a b i j := a i j * b i j
  sub a b i j := a i j - b i j
  biasAdd a b i j := a i j + b 0 j
  rsqrt a i j := a i j
  matmul ta tb a b i j := (if ta then a 0 i else a i 0) * (if tb then b j 0 else b 0 j)
  batchMatMul ta tb a b i j := (if ta then a 0 i else a i 0) * (if tb then b j 0 else b 0 j)
  conv2d s _ _ d x w i j := ((List.range 2).map fun k => ((List.range 2).map fun l =>
    x (i * s.getD 1 1 + k * d.getD 1 1) (j * s.getD 2 1 + l * d.getD 2 1) * w k l).sum).sum
  gather w x i j := w (x i 0).toNat j
  gatherV2 w x a := if a 0 0 = 0 then fun i j => w (x i 0).toNat j else fun i j => w i (x j 0).toNat
  zero _ _ := 0
  gatherV2_zero w x := by simp
  add_comm a b := by funext i j; exact Int.add_comm _ _
  mul_comm a b := by funext i j; exact Int.mul_comm _ _

/-- A graph with one operation per tensor, listed as (type, inputs, shape); the resource tensors are the handles of
variables; identities follow directly after what they copy. -/
def listGraph (ops : List (String × List ℕ × List ℕ)) (attrs : ℕ → Attrs) : TFGraph where
  opType t := (ops[t]?.map (·.1)).getD "NoOp"
  opInputs t := (ops[t]?.map (·.2.1)).getD []
  opOutputs t := [t]
  attrs := attrs
  producer t := t
  consumers _ := []
  shape t := (ops[t]?.map (·.2.2)).getD []
  refVar _ := false
  resource t := (ops[t]?.map (·.1)).getD "NoOp" == "VarHandleOp"
  depth t := t

/-- A dilated convolution without bias. -/
def dilated : TFGraph := listGraph [("Placeholder", [], [1, 8, 8, 1]), ("VarHandleOp", [], [2, 2, 1, 1]),
  ("ReadVariableOp", [1], [2, 2, 1, 1]), ("Conv2D", [0, 2], [1, 6, 6, 1])]
  fun _ => { strides := [1, 1, 1, 1], padding := "VALID", dataFormat := "NHWC", dilations := [1, 2, 2, 1] }

/-- Its values: the image has the row number in every pixel, the filter reads the second row. -/
def dilatedVal : ℕ → ℕ → ℕ → ℤ
  | 0 => fun i _ => i
  | 1 => fun k l => if k = 1 ∧ l = 0 then 1 else 0
  | 2 => fun k l => if k = 1 ∧ l = 0 then 1 else 0
  | 3 => imageSem.conv2d [1, 1, 1, 1] "VALID" "NHWC" [1, 2, 2, 1] (fun i _ => i)
      (fun k l => if k = 1 ∧ l = 0 then 1 else 0)
  | _ => fun _ _ => 0

theorem dilated_evaluates : Evaluates dilated imageSem dilatedVal := by
  constructor <;> intro t
  case identity =>
    intro x l hi hl _
    rw [← identityOp_iff] at hi
    match t with
    | 0 => exact absurd hi (by decide)
    | 1 => exact absurd hi (by decide)
    | 2 => cases hl; rfl
    | 3 => exact absurd hi (by decide)
    | n + 4 => exact absurd hi (by show ¬ identityType "NoOp" = true; decide)
  case conv2d =>
    intro a b hty hi
    match t with
    | 0 => exact absurd hty (by decide)
    | 1 => exact absurd hty (by decide)
    | 2 => exact absurd hty (by decide)
    | 3 => cases hi; rfl
    | n + 4 => exact absurd hty (by show ¬ "NoOp" = "Conv2D"; decide)
  case rsqrt =>
    intro hty
    match t with
    | 0 => exact absurd hty (by decide)
    | 1 => exact absurd hty (by decide)
    | 2 => exact absurd hty (by decide)
    | 3 => exact absurd hty (by decide)
    | n + 4 => exact absurd hty (by show ¬ "NoOp" = "Rsqrt"; decide)
  all_goals
    intro a b
    match t with
    | 0 => intros; simp_all [dilated, listGraph]
    | 1 => intros; simp_all [dilated, listGraph]
    | 2 => intros; simp_all [dilated, listGraph]
    | 3 => intros; simp_all [dilated, listGraph]
    | n + 4 => intros; simp_all [dilated, listGraph]

/-- C87 is violated for dilated convolutions: the record does not contain the dilations, and says that the layer is the
convolution without them. -/
theorem C87_dilation_counterexample : ∃ r, tryPattern dilated (affineP dilated) (recordAffine dilated)
      (fun t => if t = 1 then some 7 else none) 3 = .ok (some r) ∧
    r = { params := .single 7, inputs := 0, outputs := 3, data := .conv2d [1, 1, 1, 1] "VALID" "NHWC" } ∧
    Evaluates dilated imageSem dilatedVal ∧
    ¬ Describes dilated imageSem dilatedVal (fun t => if t = 1 then some 7 else none) r 3 := by
  refine ⟨_, C87_linear_found (g := dilated) (t := 3) (x := 0) (w := 2) (v := 7) (by decide) (.inl (by decide))
    (by decide) (by decide) (d := .conv2d [1, 1, 1, 1] "VALID" "NHWC") (by decide) (by decide), ?_, dilated_evaluates, ?_⟩
  · decide
  · rintro ⟨-, w, v, y, -, hT, hy, hcase⟩
    have hw : w = 1 := by
      by_contra hne
      simp [hne] at hT
    subst hw
    have hy : y = _ := hy
    rcases hcase with ⟨hval, -⟩ | ⟨c, hc, -, hp⟩
    · rw [hy] at hval
      have := congrFun (congrFun hval 0) 0
      revert this
      decide
    · have hc1 : c = 1 := by
        match c with
        | 0 => exact absurd hc (by decide)
        | 1 => rfl
        | 2 => exact absurd hc (by decide)
        | 3 => exact absurd hc (by decide)
        | n + 4 => exact absurd hc (by simp [TFGraph.varTensor, dilated, listGraph])
      subst hc1
      rcases hp with ⟨u, -, hp⟩ | ⟨hT', -⟩
      · cases hp
      · simp at hT'

/-- A lookup of columns: `tf.gather(w, ids, axis=1)`. -/
def columns : TFGraph := listGraph [("Placeholder", [], [4]), ("VarHandleOp", [], [3, 5]),
  ("ReadVariableOp", [1], [3, 5]), ("Const", [], []), ("GatherV2", [2, 0, 3], [3, 4])] fun _ => {}

/-- Its values: the weights are the row numbers, all indices are 1. -/
def columnsVal : ℕ → ℕ → ℕ → ℤ
  | 0 => fun _ _ => 1
  | 1 => fun i _ => i
  | 2 => fun i _ => i
  | 3 => fun _ _ => 1
  | 4 => imageSem.gatherV2 (fun i _ => i) (fun _ _ => 1) (fun _ _ => 1)
  | _ => fun _ _ => 0

theorem columns_evaluates : Evaluates columns imageSem columnsVal := by
  constructor <;> intro t
  case identity =>
    intro x l hi hl _
    rw [← identityOp_iff] at hi
    match t with
    | 0 => exact absurd hi (by decide)
    | 1 => exact absurd hi (by decide)
    | 2 => cases hl; rfl
    | 3 => exact absurd hi (by decide)
    | 4 => exact absurd hi (by decide)
    | n + 5 => exact absurd hi (by show ¬ identityType "NoOp" = true; decide)
  case gatherV2 =>
    intro a b c hty hi
    match t with
    | 0 => exact absurd hty (by decide)
    | 1 => exact absurd hty (by decide)
    | 2 => exact absurd hty (by decide)
    | 3 => exact absurd hty (by decide)
    | 4 => cases hi; rfl
    | n + 5 => exact absurd hty (by show ¬ "NoOp" = "GatherV2"; decide)
  case rsqrt =>
    intro hty
    match t with
    | 0 => exact absurd hty (by decide)
    | 1 => exact absurd hty (by decide)
    | 2 => exact absurd hty (by decide)
    | 3 => exact absurd hty (by decide)
    | 4 => exact absurd hty (by decide)
    | n + 5 => exact absurd hty (by show ¬ "NoOp" = "Rsqrt"; decide)
  all_goals
    intro a b
    match t with
    | 0 => intros; simp_all [columns, listGraph]
    | 1 => intros; simp_all [columns, listGraph]
    | 2 => intros; simp_all [columns, listGraph]
    | 3 => intros; simp_all [columns, listGraph]
    | 4 => intros; simp_all [columns, listGraph]
    | n + 5 => intros; simp_all [columns, listGraph]

/-- C87: embeddings of all three kinds are found. -/
theorem C87_embed_found {T : ℕ → Option ℕ} {t x w v : ℕ} (ht : g.leafTensor t = false)
    (hop : ((g.opType (g.producer (g.reduce t)) = "Gather" ∨ g.opType (g.producer (g.reduce t)) = "ResourceGather") ∧
        g.opInputs (g.producer (g.reduce t)) = [w, x]) ∨
      (g.opType (g.producer (g.reduce t)) = "GatherV2" ∧ ∃ a, g.opInputs (g.producer (g.reduce t)) = [w, x, a]))
    (hw : g.varTensor (g.reduce w) = true) (hx : (g.shape (g.reduce x)).length < 3) (hv : T (g.reduce w) = some v) :
    tryPattern g (embedP g) (recordAffine g) T t =
      .ok (some { params := .single v, inputs := g.reduce x, outputs := t, data := .fullyConnected false }) := by
  have hd : affineData g (g.producer (g.reduce t)) (g.reduce x) = .ok (.fullyConnected false) := by
    have h4 : ¬ 4 ≤ (g.shape (g.reduce x)).length := by omega
    have h3 : ¬ 3 ≤ (g.shape (g.reduce x)).length := by omega
    unfold affineData
    rcases hop with ⟨h | h, _⟩ | ⟨h, _⟩ <;> simp [h, h3, h4]
  have hdesc : ∃ ρ, Desc g ρ (embedP g) (.tensor t) := by
    rcases hop with ⟨hty, hi⟩ | ⟨hty, a, hi⟩
    · let ρ : String → Option Node := fun n =>
        if n = "pre_activations" then some (.tensor t) else
        if n = "linear_op" then some (.op (g.producer (g.reduce t))) else
        if n = "in" then some (.tensor (g.reduce x)) else
        if n = "weights" then some (.tensor (g.reduce w)) else none
      refine ⟨ρ, desc_tensor_in.2 ⟨t, rfl, by rintro _ ⟨⟩; rfl, ht, desc_choice.2 ⟨_, List.mem_cons_self,
        desc_op_in2.2 ⟨desc_choice.2 ?_, w, x, hi, desc_variable.2 ⟨_, rfl, hw, rfl⟩,
          desc_tensor.2 ⟨_, rfl, by rintro _ ⟨⟩; rfl⟩⟩⟩⟩⟩
      rcases hty with hty | hty
      · exact ⟨_, List.mem_cons_self, desc_op.2 ⟨_, rfl, hty, by rintro _ ⟨⟩; rfl⟩⟩
      · exact ⟨_, List.mem_cons_of_mem _ List.mem_cons_self, desc_op.2 ⟨_, rfl, hty, by rintro _ ⟨⟩; rfl⟩⟩
    · let ρ : String → Option Node := fun n =>
        if n = "pre_activations" then some (.tensor t) else
        if n = "linear_op" then some (.op (g.producer (g.reduce t))) else
        if n = "in" then some (.tensor (g.reduce x)) else
        if n = "weights" then some (.tensor (g.reduce w)) else
        if n = "axis" then some (.tensor (g.reduce a)) else none
      exact ⟨ρ, desc_tensor_in.2 ⟨t, rfl, by rintro _ ⟨⟩; rfl, ht, desc_choice.2 ⟨_,
        List.mem_cons_of_mem _ List.mem_cons_self,
        desc_op_in3.2 ⟨desc_op.2 ⟨_, rfl, hty, by rintro _ ⟨⟩; rfl⟩, w, x, a, hi, desc_variable.2 ⟨_, rfl, hw, rfl⟩,
          desc_tensor.2 ⟨_, rfl, by rintro _ ⟨⟩; rfl⟩, desc_tensor.2 ⟨_, rfl, by rintro _ ⟨⟩; rfl⟩⟩⟩⟩⟩
  obtain ⟨ρ, hdesc⟩ := hdesc
  obtain ⟨b, hb, he⟩ := tryPattern_of embed_plain hdesc (recordAffine g) T
  rw [he]
  obtain ⟨x', w', hw', hbind, hcase⟩ := res_embed hb
  have hxw : x' = x ∧ w' = w := by
    rcases hop with ⟨hty, hi⟩ | ⟨hty, a, hi⟩ <;> rcases hcase with ⟨hty', hi'⟩ | ⟨hty', a', hi'⟩
    · rw [hi] at hi'; simp only [List.cons.injEq, and_true] at hi'; exact ⟨hi'.2.symm, hi'.1.symm⟩
    · rw [hi] at hi'; simp at hi'
    · rw [hi] at hi'; simp at hi'
    · rw [hi] at hi'; simp only [List.cons.injEq, and_true] at hi'; exact ⟨hi'.2.1.symm, hi'.1.symm⟩
  obtain ⟨rfl, rfl⟩ := hxw
  rw [recordAffine_eq hbind]
  simp [hv, recParams, hd, Except.map]

/-- C87 is violated for lookups along another axis: the axis is bound by the pattern but not looked at, and the record
says that rows of the weights are looked up. -/
theorem C87_axis_counterexample : ∃ r, tryPattern columns (embedP columns) (recordAffine columns)
      (fun t => if t = 1 then some 7 else none) 4 = .ok (some r) ∧
    r = { params := .single 7, inputs := 0, outputs := 4, data := .fullyConnected false } ∧
    Evaluates columns imageSem columnsVal ∧
    ¬ Describes columns imageSem columnsVal (fun t => if t = 1 then some 7 else none) r 4 := by
  refine ⟨_, C87_embed_found (g := columns) (t := 4) (x := 0) (w := 2) (v := 7) (by decide)
    (.inr ⟨by decide, 3, by decide⟩) (by decide) (by decide) (by decide), ?_, columns_evaluates, ?_⟩
  · decide
  · rintro ⟨-, w, v, y, -, hT, hy, hcase⟩
    have hw : w = 1 := by
      by_contra hne
      simp [hne] at hT
    subst hw
    have hy : y = _ := hy
    rcases hcase with ⟨hval, -⟩ | ⟨c, hc, -, hp⟩
    · rw [hy] at hval
      have := congrFun (congrFun hval 0) 0
      revert this
      decide
    · have hc1 : c = 1 := by
        match c with
        | 0 => exact absurd hc (by decide)
        | 1 => rfl
        | 2 => exact absurd hc (by decide)
        | 3 => exact absurd hc (by decide)
        | 4 => exact absurd hc (by decide)
        | n + 5 => exact absurd hc (by simp [TFGraph.varTensor, columns, listGraph])
      subst hc1
      rcases hp with ⟨u, -, hp⟩ | ⟨hT', -⟩
      · cases hp
      · simp at hT'

/-- C87: the weights of a fully connected record need not be a matrix: a batched product with a different matrix for
every element of the batch is recorded as well. -/
theorem C87_weights_rank_counterexample : ∃ (g : TFGraph) (r : LayerRecord), g.shape 1 = [5, 3, 4] ∧
    tryPattern g (affineP g) (recordAffine g) (fun t => if t = 1 then some 7 else none) 3 = .ok (some r) ∧
    r = { params := .single 7, inputs := 0, outputs := 3, data := .fullyConnected true } := by
  let g : TFGraph := listGraph [("Placeholder", [], [5, 2, 3]), ("VarHandleOp", [], [5, 3, 4]),
    ("ReadVariableOp", [1], [5, 3, 4]), ("BatchMatMulV2", [0, 2], [5, 2, 4])] fun _ => {}
  refine ⟨g, _, rfl, C87_linear_found (g := g) (t := 3) (x := 0) (w := 2) (v := 7) (by decide)
    (.inr (.inr (by decide))) (by decide) (by decide) (d := .fullyConnected true) (by decide) (by decide), ?_⟩
  decide

/-- `b + identity(x W)`, then a multiplication with a variable. -/
def net : TFGraph := listGraph [("Placeholder", [], [2, 3]), ("VarHandleOp", [], [3, 4]), ("ReadVariableOp", [1], [3, 4]),
  ("VarHandleOp", [], [4]), ("ReadVariableOp", [3], [4]), ("MatMul", [0, 2], [2, 4]), ("Identity", [5], [2, 4]),
  ("AddV2", [4, 6], [2, 4]), ("VarHandleOp", [], [4]), ("ReadVariableOp", [8], [4]), ("Mul", [9, 7], [2, 4])] fun _ => {}

/-- The layer is found with weights, bias and input, through the identities. -/
example : tryPattern net (affineP net) (recordAffine net) (fun t => if t = 1 then some 10 else
      if t = 3 then some 11 else none) 7 =
    .ok (some { params := .pair 10 11, inputs := 0, outputs := 7, data := .fullyConnected true }) := by
  have h := C87_affine_found (g := net) (T := fun t => if t = 1 then some 10 else if t = 3 then some 11 else none)
    (t := 7) (y := 6) (c := 4) (x := 0) (w := 2) (v := 10) (u := 11) (by decide) (.inr (.inr (by decide)))
    (.inr (by decide)) (by decide) (by decide) (.inr (.inl (by decide))) (by decide) (by decide)
    (d := .fullyConnected true) (by decide) (by decide) (by decide)
  rw [h]; rfl

/-- Both the layer and the multiplication with the variable are recorded; the layer without the bias as well. -/
example : let T := fun t => if t = 1 then some 10 else if t = 3 then some 11 else if t = 8 then some 12 else none
    recordsOf net T 7 =
      .ok [{ params := .pair 10 11, inputs := 0, outputs := 7, data := .fullyConnected true }] ∧
    recordsOf net T 10 = .ok [{ params := .single 12, inputs := 7, outputs := 10, data := .scaleAndShift }] ∧
    recordsOf net T 5 = .ok [{ params := .single 10, inputs := 0, outputs := 5, data := .fullyConnected true }] :=
  ⟨rfl, rfl, rfl⟩

/-- `tf.nn.batch_normalization` with scale and offset, and an embedding. -/
def net2 : TFGraph := listGraph [("Placeholder", [], [2, 3]), ("VarHandleOp", [], [3]), ("ReadVariableOp", [1], [3]),
  ("VarHandleOp", [], [3]), ("ReadVariableOp", [3], [3]), ("Placeholder", [], [3]), ("Placeholder", [], [3]),
  ("Rsqrt", [6], [3]), ("Mul", [7, 2], [3]), ("Mul", [0, 8], [2, 3]), ("Mul", [5, 8], [3]), ("Sub", [4, 10], [3]),
  ("AddV2", [9, 11], [2, 3]), ("VarHandleOp", [], [7, 3]), ("Placeholder", [], [2]),
  ("ResourceGather", [13, 14], [2, 3]), ("FusedBatchNormV3", [15, 2, 4, 5, 6], [2, 3])] fun _ => {}

example : let T := fun t => if t = 1 then some 10 else if t = 3 then some 11 else if t = 13 then some 12 else none
    recordsOf net2 T 12 = .ok [{ params := .pair 10 11, inputs := 0, outputs := 12, data := .batchNorm }] ∧
    recordsOf net2 T 16 = .ok [{ params := .pair 10 11, inputs := 15, outputs := 16, data := .batchNorm }] ∧
    recordsOf net2 T 15 =
      .ok [{ params := .single 12, inputs := 14, outputs := 15, data := .fullyConnected false }] :=
  ⟨rfl, rfl, rfl⟩

/-- The first graph is well formed. -/
example : net.WellFormed := by
  constructor <;> intro o ho
  · match o with
    | 2 => decide
    | 4 => decide
    | 6 => decide
    | 9 => decide
    | 0 | 1 | 3 | 5 | 7 | 8 | 10 => exact absurd ho (by decide)
    | n + 11 => exact absurd ho (by show ¬ identityType "NoOp" = true; decide)
  · intro l hi hl
    match o with
    | 2 | 4 | 6 | 9 => cases hl; simp
    | 0 | 1 | 3 | 5 | 7 | 8 | 10 => exact absurd hi (by decide)
    | n + 11 => exact absurd hi (by show ¬ identityType "NoOp" = true; decide)
  · match o with
    | 2 => decide
    | 4 => decide
    | 6 => decide
    | 9 => decide
    | 0 | 1 | 3 | 5 | 7 | 8 | 10 => exact absurd ho (by decide)
    | n + 11 => exact absurd ho (by show ¬ identityType "NoOp" = true; decide)

end Kfac.Match
