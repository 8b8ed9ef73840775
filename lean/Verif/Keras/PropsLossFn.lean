import Verif.Keras.LossFn
import Mathlib.Algebra.BigOperators.Fin
import Mathlib.Tactic.NormNum

/-! # C69: the generated loss function is the weighted sum of the losses plus the model's own losses -/

namespace Kfac.Keras.LossFn

variable {P Y T : Type}

/-- The function meant by a loss that is a name or a callable. -/
def meaning (deser : String → P → Y → T) : Item P Y T → Option (P → Y → T)
  | .str s => some (deser s)
  | .fn f => some f
  | .ser => none

/-- The loss given for the `i`th output is the function `f`. -/
def LossAt (deser : String → P → Y → T) (outputs : List String) (loss : Arg P Y T) (i : ℕ) (f : P → Y → T) : Prop :=
  match loss with
  | .one it => i = 0 ∧ meaning deser it = some f
  | .dict items => ∃ o it, outputs[i]? = some o ∧ (o, it) ∈ items ∧ meaning deser it = some f
  | .list items => ∃ it, items[i]? = some it ∧ meaning deser it = some f

/-- The weight given for the `i`th output is `w`. -/
def WeightAt (outputs : List String) (weights : Weights) (i : ℕ) (w : ℝ) : Prop :=
  match weights with
  | .none => w = 1
  | .dict items => ∃ o, outputs[i]? = some o ∧ ((o, w) ∈ items ∨ (∀ v, (o, v) ∉ items) ∧ w = 1)
  | .list ws => ws[i]? = some w

/-- Keys of dictionaries are different. -/
def Arg.Distinct : Arg P Y T → Prop
  | .dict items => (items.map Prod.fst).Nodup
  | _ => True

def Weights.Distinct : Weights → Prop
  | .dict items => (items.map Prod.fst).Nodup
  | _ => True

theorem lookup_of_mem {γ : Type} {l : List (String × γ)} (hd : (l.map Prod.fst).Nodup) {k : String} {v : γ} (h : (k, v) ∈ l) :
    l.lookup k = some v := by
  induction l with
  | nil => simp at h
  | cons x l ih =>
    simp only [List.map_cons, List.nodup_cons] at hd
    rw [List.lookup_cons]
    rcases List.mem_cons.1 h with rfl | h
    · simp
    · have : (k == x.1) = false := by
        simp only [beq_eq_false_iff_ne]
        rintro rfl
        exact hd.1 (List.mem_map.2 ⟨_, h, rfl⟩)
      rw [this]; exact ih hd.2 h

theorem lookup_of_not_mem {γ : Type} {l : List (String × γ)} {k : String} (h : ∀ v, (k, v) ∉ l) : l.lookup k = none := by
  induction l with
  | nil => rfl
  | cons x l ih =>
    rw [List.lookup_cons]
    have : (k == x.1) = false := by
      simp only [beq_eq_false_iff_ne]
      rintro rfl
      exact h x.2 (List.mem_cons_self ..)
    rw [this]
    exact ih fun v hv => h v (List.mem_cons_of_mem _ hv)

theorem mapM_ok {γ δ : Type} (g : γ → Except String δ) (h : γ → δ) (l : List γ) (hl : ∀ x ∈ l, g x = .ok (h x)) :
    l.mapM g = .ok (l.map h) := by
  induction l with
  | nil => rfl
  | cons x l ih =>
    rw [List.mapM_cons, hl x (List.mem_cons_self ..), ih fun y hy => hl y (List.mem_cons_of_mem _ hy)]
    rfl

theorem mapM_get {γ δ : Type} (g : γ → Except String δ) (l : List γ) (l' : List δ) (hlen : l'.length = l.length)
    (h : ∀ i (hi : i < l.length) (hi' : i < l'.length), g l[i] = .ok l'[i]) : l.mapM g = .ok l' := by
  induction l generalizing l' with
  | nil =>
    have : l' = [] := List.length_eq_zero_iff.1 (by simpa using hlen)
    subst this; rfl
  | cons x l ih =>
    match l', hlen with
    | y :: l', hlen =>
      rw [List.mapM_cons]
      have h0 := h 0 (by simp) (by simp)
      simp only [List.getElem_cons_zero] at h0
      rw [h0, ih l' (by simpa using hlen) fun i hi hi' => by
        have := h (i + 1) (by simpa using hi) (by simpa using hi')
        simpa using this]
      rfl

theorem deserialize_meaning {deser : String → P → Y → T} {it : Item P Y T} {f : P → Y → T} (h : meaning deser it = some f) :
    deserialize deser it = .fn f := by
  cases it with
  | str s => cases h; rfl
  | fn g => cases h; rfl
  | ser => cases h

/-- The losses of a list or dictionary, prepared. -/
theorem prepare_many {deser : String → P → Y → T} {outputs : List String} {loss : Arg P Y T} (hd : loss.Distinct) {k : ℕ}
    (f : Fin k → P → Y → T) (ho : outputs.length = k) (hf : ∀ i : Fin k, LossAt deser outputs loss i (f i))
    (hm : (∃ items, loss = .dict items) ∨ ∃ items, loss = .list items ∧ items.length = k) :
    prepare deser outputs loss = .ok (.inr (List.ofFn fun i => .fn (f i))) := by
  rcases hm with ⟨items, rfl⟩ | ⟨items, rfl, hl⟩
  · have hex : ∀ i : Fin k, ∃ it, items.lookup (outputs[(i : ℕ)]'(by omega)) = some it ∧ meaning deser it = some (f i) := by
      intro i
      obtain ⟨o, it, h1, h2, h3⟩ := hf i
      rw [List.getElem?_eq_getElem (by omega)] at h1
      cases h1
      exact ⟨it, lookup_of_mem hd h2, h3⟩
    choose it hit hmean using hex
    have hmap : outputs.mapM (item items) = .ok (List.ofFn it) := by
      apply mapM_get
      · simp [ho]
      · intro i hi hi'
        have := hit ⟨i, by omega⟩
        simp only at this
        simp [item, this]
    simp only [prepare, hmap, Except.map]
    congr 2
    rw [List.map_ofFn]
    congr 1
    funext i
    exact deserialize_meaning (hmean i)
  · simp only [prepare]
    congr 2
    apply List.ext_getElem
    · simp [hl]
    · intro i hi hi'
      simp only [List.length_ofFn] at hi'
      obtain ⟨it, h1, h2⟩ := hf ⟨i, hi'⟩
      simp only at h1
      rw [List.getElem?_eq_getElem (by omega)] at h1
      cases h1
      simp [deserialize_meaning h2]

/-- The weights, prepared; no weights means all ones. -/
theorem prepareWeights_eq {outputs : List String} {weights : Weights} (hd : weights.Distinct) {k : ℕ} (w : Fin k → ℝ)
    (ho : outputs.length = k) (hw : ∀ i : Fin k, WeightAt outputs weights i (w i))
    (hl : ∀ ws, weights = .list ws → ws.length = k) :
    (prepareWeights outputs weights = [] ∧ ∀ i, w i = 1) ∨ prepareWeights outputs weights = List.ofFn w := by
  cases weights with
  | none => exact .inl ⟨rfl, fun i => hw i⟩
  | dict items =>
    right
    apply List.ext_getElem
    · simp [prepareWeights, ho]
    · intro i hi hi'
      simp only [List.length_ofFn] at hi'
      obtain ⟨o, h1, h2⟩ := hw ⟨i, hi'⟩
      simp only at h1
      rw [List.getElem?_eq_getElem (by omega)] at h1
      cases h1
      simp only [prepareWeights, List.getElem_map, List.getElem_ofFn]
      rcases h2 with h2 | ⟨h2, h3⟩
      · rw [lookup_of_mem hd h2]; rfl
      · rw [lookup_of_not_mem h2, h3]; rfl
  | list ws =>
    right
    apply List.ext_getElem
    · simp [prepareWeights, hl ws rfl]
    · intro i hi hi'
      simp only [List.length_ofFn] at hi'
      have h1 := hw ⟨i, hi'⟩
      simp only [WeightAt] at h1
      have := hl ws rfl
      rw [List.getElem?_eq_getElem (by omega)] at h1
      simpa [prepareWeights] using h1

/-- C69 for models that return a list of `k ≥ 1` predictions, with as many losses, labels and weights: the result is the
weighted sum of the reduced losses plus the losses of the model. Missing: everything else (see the counterexamples). -/
theorem C69_many_partial (deser : String → P → Y → T) (reduce : T → ℝ) (outputs : List String) (modelLosses : List ℝ)
    (loss : Arg P Y T) (weights : Weights) (hd : loss.Distinct) (hwd : weights.Distinct) {k : ℕ} (hk : 0 < k)
    (f : Fin k → P → Y → T) (w : Fin k → ℝ) (p : Fin k → P) (y : Fin k → Y) (ho : outputs.length = k)
    (hf : ∀ i : Fin k, LossAt deser outputs loss i (f i))
    (hm : (∃ items, loss = .dict items) ∨ ∃ items, loss = .list items ∧ items.length = k)
    (hw : ∀ i : Fin k, WeightAt outputs weights i (w i)) (hl : ∀ ws, weights = .list ws → ws.length = k) :
    lossFn deser reduce outputs modelLosses loss weights (.many (List.ofFn p)) (.many (List.ofFn y)) =
      .ok (∑ i, w i * reduce (f i (p i) (y i)) + modelLosses.sum) := by
  have hz : (List.ofFn fun i => (Item.fn (f i) : Item P Y T)).zip ((List.ofFn p).zip (List.ofFn y)) =
      List.ofFn fun i => (Item.fn (f i), p i, y i) := by
    apply List.ext_getElem <;> simp
  have hmap : (List.ofFn fun i => ((Item.fn (f i) : Item P Y T), p i, y i)).mapM (fun e => call reduce e.1 e.2.1 e.2.2) =
      .ok (List.ofFn fun i => reduce (f i (p i) (y i))) := by
    apply mapM_get
    · simp
    · intro i hi hi'
      simp [call]
  have hne : ∀ g : Fin k → ℝ, (List.ofFn g).isEmpty = false := by
    intro g
    rw [Bool.eq_false_iff]
    intro h
    have := congrArg List.length (List.isEmpty_iff.1 h)
    simp at this
    omega
  have hsum : (if modelLosses.isEmpty then ∑ i, w i * reduce (f i (p i) (y i)) else
      ∑ i, w i * reduce (f i (p i) (y i)) + modelLosses.sum) = ∑ i, w i * reduce (f i (p i) (y i)) + modelLosses.sum := by
    cases modelLosses <;> simp
  simp only [lossFn, prepare_many hd f ho hf hm, dataLoss, hz, hmap]
  rcases prepareWeights_eq hwd w ho hw hl with ⟨h1, h2⟩ | h1
  · simp only [h1, List.isEmpty_nil, if_true, hne, Bool.false_eq_true, if_false, List.sum_ofFn]
    rw [← hsum]
    simp [h2]
  · have hz2 : ((List.ofFn fun i => reduce (f i (p i) (y i))).zip (List.ofFn w)).map (fun e => e.1 * e.2) =
        List.ofFn fun i => w i * reduce (f i (p i) (y i)) := by
      apply List.ext_getElem
      · simp
      · intro i h1 h2
        simp only [List.getElem_map, List.getElem_zip, List.getElem_ofFn]
        exact mul_comm _ _
    simp only [h1, hne, Bool.false_eq_true, if_false, hz2, List.sum_ofFn]
    rw [hsum]

/-- C69 for models with a single prediction, a single loss and no weight. -/
theorem C69_single_partial (deser : String → P → Y → T) (reduce : T → ℝ) (outputs : List String) (modelLosses : List ℝ)
    (it : Item P Y T) (f : P → Y → T) (hf : LossAt deser outputs (.one it) 0 f) (p : P) (y : Y) :
    lossFn deser reduce outputs modelLosses (.one it) .none (.one p) (.one y) =
      .ok (reduce (f p y) + modelLosses.sum) := by
  obtain ⟨-, hf⟩ := hf
  cases it with
  | ser => cases hf
  | str s => cases hf; cases modelLosses <;> simp [lossFn, prepare, dataLoss, call]
  | fn g => cases hf; cases modelLosses <;> simp [lossFn, prepare, dataLoss, call]

/-- C69, violated: the weight of the loss of a model with a single output is ignored. -/
theorem C69_single_weight_counterexample (deser : String → P → Y → T) (reduce : T → ℝ) (o : String) (f : P → Y → T)
    (w : ℝ) (p : P) (y : Y) (hw : w ≠ 1) (hr : reduce (f p y) ≠ 0) :
    ∃ x, lossFn deser reduce [o] [] (.one (.fn f)) (.list [w]) (.one p) (.one y) = .ok x ∧ x ≠ w * reduce (f p y) := by
  refine ⟨reduce (f p y), by simp [lossFn, prepare, dataLoss, call], ?_⟩
  intro h
  exact hw (mul_right_cancel₀ hr (by rw [one_mul]; exact h.symm))

/-- C69, violated: a dictionary with the loss of the single output of a model is accepted by `get_loss_fn` but the
function generated raises. -/
theorem C69_single_dict_counterexample (deser : String → P → Y → T) (reduce : T → ℝ) (o : String) (f : P → Y → T)
    (weights : Weights) (p : P) (y : Y) :
    lossFn deser reduce [o] [] (.dict [(o, .fn f)]) weights (.one p) (.one y) = .error "TypeError: list is not callable" := by
  have : [o].mapM (item [(o, (.fn f : Item P Y T))]) = .ok [.fn f] :=
    mapM_get _ _ _ rfl (by intro i hi hi'; have : i = 0 := by simpa using hi
                           subst this; simp [item])
  simp [lossFn, prepare, this, Except.map, dataLoss]

/-- C69, violated: with a list of weights that is too short, the remaining losses are dropped without an error. -/
theorem C69_short_weights_counterexample (deser : String → P → Y → T) (reduce : T → ℝ) (o o' : String) (f g : P → Y → T)
    (w : ℝ) (p q : P) (y z : Y) :
    lossFn deser reduce [o, o'] [] (.list [.fn f, .fn g]) (.list [w]) (.many [p, q]) (.many [y, z]) =
      .ok (w * reduce (f p y)) := by
  have : [((Item.fn f : Item P Y T), p, y), (.fn g, q, z)].mapM (fun e => call reduce e.1 e.2.1 e.2.2) =
      .ok [reduce (f p y), reduce (g q z)] := rfl
  simp [lossFn, prepare, deserialize, dataLoss, prepareWeights, this, mul_comm]

/-- C69, violated: a serialised loss class (what `get_config` holds) raises. -/
theorem C69_class_counterexample (deser : String → P → Y → T) (reduce : T → ℝ) (o : String) (modelLosses : List ℝ)
    (weights : Weights) (p : Many P) (y : Many Y) :
    lossFn deser reduce [o] modelLosses (.one .ser) weights p y = .error "KeyError" := by
  simp [lossFn, prepare]

/-- Two outputs with losses by name and by function, in a dictionary in another order, one weight given. -/
example : lossFn (P := ℝ) (Y := ℝ) (T := ℝ) (fun _ p y => (p - y) ^ 2) id ["a", "b"] [10]
    (.dict [("b", .fn fun p y => p * y), ("a", .str "mse")]) (.dict [("b", 3)]) (.many [5, 2]) (.many [1, 7]) =
      .ok (1 * (5 - 1) ^ 2 + 3 * (2 * 7) + 10) := by
  have := C69_many_partial (P := ℝ) (Y := ℝ) (T := ℝ) (fun _ p y => (p - y) ^ 2) id ["a", "b"] [10]
    (.dict [("b", .fn fun p y => p * y), ("a", .str "mse")]) (.dict [("b", 3)]) (by simp [Arg.Distinct]) (by simp [Weights.Distinct])
    (k := 2) (by decide) ![fun p y => (p - y) ^ 2, fun p y => p * y] ![1, 3] ![5, 2] ![1, 7] rfl
    (by intro i; match i with
      | 0 => exact ⟨"a", .str "mse", rfl, by simp, rfl⟩
      | 1 => exact ⟨"b", .fn fun p y => p * y, rfl, by simp, rfl⟩)
    (.inl ⟨_, rfl⟩)
    (by intro i; match i with
      | 0 => exact ⟨"a", rfl, .inr ⟨by simp, rfl⟩⟩
      | 1 => exact ⟨"b", rfl, .inl (by simp)⟩) (by simp)
  simpa [List.ofFn_succ, Fin.sum_univ_two] using this

end Kfac.Keras.LossFn
