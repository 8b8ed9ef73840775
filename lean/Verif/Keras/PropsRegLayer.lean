import Verif.Keras.RegLayer
import Verif.Match.PropsPatterns
import Mathlib.Tactic.FieldSimp
import Mathlib.Tactic.Ring
import Mathlib.Data.List.Nodup

/-! # C88: a Keras layer is registered as what it computes -/

namespace Kfac.Keras.RegLayer

open Kfac.Match (TFGraph IdentityOp)

/-! ### What layers compute and what registrations say -/

/-- Spatial strides, whether the padding is "same", spatial dilations. -/
structure Geo where
  strides : List ℕ
  same : Bool
  dilations : List ℕ

/-- The operations, on values of any kind; `conv n` is the convolution over `n` spatial dimensions. -/
structure KSem (V : Type) where
  matmul : V → V → V
  /-- the rows of the second argument given by the first -/
  lookup : V → V → V
  conv : ℕ → Geo → V → V → V
  addBias : V → V → V

variable {V : Type} {S : KSem V}

/-- The linear part of the layer with the result of the given operation, according to the documentation of Keras: kernel
first, then the bias if there is one. -/
def withBias (S : KSem V) (f : V → V) : List V → Option V
  | [w] => some (f w)
  | [w, b] => some (S.addBias (f w) b)
  | _ => none

/-- "same" or "valid". -/
def samePadding (s : String) : Option Bool :=
  if s = "same" then some true else if s = "valid" then some false else none

/-- What the layer computes before the activation, from the values of its weights and its input, according to the
documentation of Keras. -/
def kerasValue (S : KSem V) (l : KLayer) (ws : List V) (x : V) : Option V :=
  match l.cls, l.geometry with
  | .dense, _ => withBias S (S.matmul x) ws
  | .embedding, _ => match ws with
    | [w] => some (S.lookup x w)
    | _ => none
  | .conv1d, some geo => do
    let same ← samePadding geo.padding
    withBias S (S.conv 1 ⟨geo.strides, same, geo.dilationRate⟩ x) ws
  | .conv2d, some geo => do
    let same ← samePadding geo.padding
    withBias S (S.conv 2 ⟨geo.strides, same, geo.dilationRate⟩ x) ws
  | _, _ => none

/-- The padding of `tf.nn.conv2d`. -/
def tfPadding (s : String) (same : Bool) : Prop := (s = "SAME" ∧ same = true) ∨ (s = "VALID" ∧ same = false)

/-- What a registration says about its tensors, according to the documentation of `LayerCollection`: strides and
dilations are given for all dimensions, the first of which is the batch and the last the channels. -/
def Says (S : KSem V) (var tens : ℕ → V) : Call → Prop
  | .fullyConnected p x y dense _ =>
    some (tens y) = withBias S (fun w => if dense then S.matmul (tens x) w else S.lookup (tens x) w) (p.vars.map var)
  | .conv1d p x y strides padding dilations _ => ∃ s same d, strides = 1 :: s ++ [1] ∧ dilations = 1 :: d ++ [1] ∧
    tfPadding padding same ∧ some (tens y) = withBias S (S.conv 1 ⟨s, same, d⟩ (tens x)) (p.vars.map var)
  | .conv2d p x y strides padding dilations _ => ∃ s same d, strides = 1 :: s ++ [1] ∧ dilations = 1 :: d ++ [1] ∧
    tfPadding padding same ∧ some (tens y) = withBias S (S.conv 2 ⟨s, same, d⟩ (tens x)) (p.vars.map var)
  | _ => False

/-- The variables of a registration. -/
def Call.params : Call → List ℕ
  | .fullyConnected p _ _ _ _ => p.vars
  | .scaleAndShift p _ _ _ => p.vars
  | .conv1d p _ _ _ _ _ _ => p.vars
  | .conv2d p _ _ _ _ _ _ => p.vars
  | .addUses vs _ => vs

/-- The approximation requested. -/
def Call.approx : Call → Option String
  | .fullyConnected _ _ _ _ a => a
  | .scaleAndShift _ _ _ a => a
  | .conv1d _ _ _ _ _ _ a => a
  | .conv2d _ _ _ _ _ _ a => a
  | .addUses _ _ => none

/-- The output tensor `o` is that of the pre-activation `y` put through the activation of the layer, which is none, or
linear, or a single operation with a single argument, with identities anywhere. -/
def Activates (g : TFGraph) (l : KLayer) (y o : ℕ) : Prop :=
  ((l.activation = none ∨ l.activation = some "linear") ∧ y = o) ∨
    (∃ a, l.activation = some a ∧ a ≠ "linear") ∧ g.leafTensor o = false ∧
      ∃ i, g.opInputs (g.producer (g.reduce o)) = [i] ∧ g.reduce i = g.reduce y

variable {g : TFGraph}

theorem getParent_of {o i y : ℕ} (hl : g.leafTensor o = false) (hi : g.opInputs (g.producer (g.reduce o)) = [i])
    (hr : g.reduce i = g.reduce y) : getParent g (.one o) = .ok (g.reduce y) := by
  simp [getParent, expandOut, TFGraph.expandInputs, hl, hi, hr]

theorem preActivation_of {l : KLayer} {y o : ℕ} (ho : l.last.outputs = .one o) (ha : Activates g l y o) :
    ∃ p, preActivation g l = .ok (.one p) ∧ (p = y ∨ p = g.reduce y) := by
  rcases ha with ⟨h, rfl⟩ | ⟨⟨a, ha, hne⟩, hl, i, hi, hr⟩
  · refine ⟨y, ?_, .inl rfl⟩
    have : nonlinear l = false := by
      unfold nonlinear
      rcases h with h | h <;> rw [h]
      decide
    simp [preActivation, this, ho]
  · refine ⟨g.reduce y, ?_, .inr rfl⟩
    have : nonlinear l = true := by
      unfold nonlinear
      rw [ha]
      simpa using hne
    simp [preActivation, this, ho, getParent_of hl hi hr, Except.map]

/-- Identity operations keep the value. -/
def KeepsIdentity (g : TFGraph) (tens : ℕ → V) : Prop :=
  ∀ t x l, IdentityOp (g.opType (g.producer t)) → g.opInputs (g.producer t) = x :: l → (∀ y ∈ l, y = x) →
    tens t = tens x

theorem tens_reduce {tens : ℕ → V} (hg : g.WellFormed) (hk : KeepsIdentity g tens) (t : ℕ) :
    tens (g.reduce t) = tens t := by
  refine Kfac.Match.reduceN_induct (C := fun s => tens s = tens t) ?_ _ t rfl
  intro s x l hi hl hs
  rw [← hk s x l ((Kfac.Match.identityOp_iff _).1 hi) hl (hg.same _ x l hi hl), hs]

theorem paramsOf_withBias {f : V → V} {ws : List ℕ} {var : ℕ → V} {v : V}
    (h : withBias S f (ws.map var) = some v) : ∃ p, paramsOf ws = .ok p ∧ p.vars = ws := by
  match ws, h with
  | [w], _ => exact ⟨.single w, rfl, rfl⟩
  | [w, b], _ => exact ⟨.list [w, b], rfl, rfl⟩
  | [], h => simp [withBias] at h
  | _ :: _ :: _ :: _, h => simp [withBias] at h

theorem upper_padding {s : String} {same : Bool} (h : samePadding s = some same) : tfPadding (upper s) same := by
  unfold samePadding at h
  split at h
  · rename_i hs; subst hs; cases h; exact .inl ⟨by decide, rfl⟩
  · split at h
    · rename_i hs; subst hs; cases h; exact .inr ⟨by decide, rfl⟩
    · cases h

theorem registerLayer_of {phase : Phase} {l : KLayer} {approx : Option String} {x o p : ℕ} {ps : Params}
    (hc : l.countParams ≠ 0) (ht : l.trainable = true) (hx : l.last.inputs = .one x) (ho : l.last.outputs = .one o)
    (hp : preActivation g l = .ok (.one p)) (hps : paramsOf l.weights = .ok ps) :
    registerLayer g phase l approx = dispatch phase l ps x p approx := by
  simp [registerLayer, hp, hc, ht, hx, ho, hps]

/-- C88 for fully connected, embedding and convolutional layers: the layer is registered once, with its weights and the
approximation asked for, and the registration says what the layer computes. The activation must be a single operation:
see `C88_composite_counterexample`. -/
theorem C88_layer_partial {tens var : ℕ → V} (hg : g.WellFormed) (hk : KeepsIdentity g tens) (phase : Phase)
    (approx : Option String) {l : KLayer} {x y o : ℕ} (hc : l.countParams ≠ 0) (ht : l.trainable = true)
    (hx : l.last.inputs = .one x) (ho : l.last.outputs = .one o) (ha : Activates g l y o)
    (hv : kerasValue S l (l.weights.map var) (tens x) = some (tens y))
    (hf : ∀ geo, l.geometry = some geo → geo.dataFormat = "channels_last") :
    ∃ c, registerLayer g phase l approx = .ok [c] ∧ c.params = l.weights ∧ c.approx = approx ∧ Says S var tens c := by
  obtain ⟨p, hp, hpy⟩ := preActivation_of ho ha
  have hval : tens p = tens y := by
    rcases hpy with rfl | rfl
    · rfl
    · exact tens_reduce hg hk y
  have hconv : ∀ n geo ps, (n = 1 ∧ l.cls = .conv1d) ∨ (n = 2 ∧ l.cls = .conv2d) → l.geometry = some geo →
      ps.vars = l.weights →
      (samePadding geo.padding).bind (fun same =>
        withBias S (S.conv n ⟨geo.strides, same, geo.dilationRate⟩ (tens x)) (l.weights.map var)) = some (tens y) →
      ∃ c, dispatch phase l ps x p approx = .ok [c] ∧ c.params = l.weights ∧ c.approx = approx ∧ Says S var tens c := by
    intro n geo ps hcls hgeo hps hb
    cases hs : samePadding geo.padding with
    | none => rw [hs] at hb; cases hb
    | some same =>
      rw [hs] at hb
      rcases hcls with ⟨rfl, hcls⟩ | ⟨rfl, hcls⟩
      · refine ⟨.conv1d ps x p (1 :: geo.strides ++ [1]) (upper geo.padding) (1 :: geo.dilationRate ++ [1]) approx,
          ?_, hps, rfl, geo.strides, same, geo.dilationRate, rfl, rfl, upper_padding hs, ?_⟩
        · simp [dispatch, registerConv, isInstance, Cls.bases, hcls, hgeo, hf geo hgeo]
        · rw [hps, hval]; exact hb.symm
      · refine ⟨.conv2d ps x p (1 :: geo.strides ++ [1]) (upper geo.padding) (1 :: geo.dilationRate ++ [1]) approx,
          ?_, hps, rfl, geo.strides, same, geo.dilationRate, rfl, rfl, upper_padding hs, ?_⟩
        · simp [dispatch, registerConv, isInstance, Cls.bases, hcls, hgeo, hf geo hgeo]
        · rw [hps, hval]; exact hb.symm
  have hws : ∃ ps, paramsOf l.weights = .ok ps ∧ ps.vars = l.weights := by
    match hl : l.weights with
    | [w] => exact ⟨.single w, rfl, rfl⟩
    | w :: b :: r => exact ⟨.list (w :: b :: r), rfl, rfl⟩
    | [] =>
      exfalso
      rw [hl] at hv
      unfold kerasValue at hv
      split at hv <;> simp [withBias] at hv
  obtain ⟨ps, hps, hvars⟩ := hws
  rw [registerLayer_of hc ht hx ho hp hps]
  match hcls : l.cls, hgeo : l.geometry with
  | .dense, _ =>
    have hv' : withBias S (S.matmul (tens x)) (l.weights.map var) = some (tens y) := by
      simpa [kerasValue, hcls] using hv
    refine ⟨.fullyConnected ps x p true approx, by simp [dispatch, isInstance, Cls.bases, hcls], hvars, rfl, ?_⟩
    simp only [Says, hvars, hval, if_true]
    exact hv'.symm
  | .embedding, _ =>
    refine ⟨.fullyConnected ps x p false approx, by simp [dispatch, isInstance, Cls.bases, hcls], hvars, rfl, ?_⟩
    simp only [Says, hvars, hval]
    match hl : l.weights with
    | [w] => simp [kerasValue, hcls, hl] at hv; simp [withBias, hv]
    | [] => simp [kerasValue, hcls, hl] at hv
    | _ :: _ :: _ => simp [kerasValue, hcls, hl] at hv
  | .conv1d, some geo =>
    refine hconv 1 geo ps (.inl ⟨rfl, hcls⟩) hgeo hvars ?_
    simpa [kerasValue, hcls, hgeo] using hv
  | .conv2d, some geo =>
    refine hconv 2 geo ps (.inr ⟨rfl, hcls⟩) hgeo hvars ?_
    simpa [kerasValue, hcls, hgeo] using hv
  | .conv1d, none => simp [kerasValue, hcls, hgeo] at hv
  | .conv2d, none => simp [kerasValue, hcls, hgeo] at hv
  | .batchNormalization, _ => simp [kerasValue, hcls] at hv
  | .layerNormalization, _ => simp [kerasValue, hcls] at hv
  | .conv3d, _ => simp [kerasValue, hcls] at hv
  | .conv2dTranspose, _ => simp [kerasValue, hcls] at hv
  | .conv3dTranspose, _ => simp [kerasValue, hcls] at hv
  | .depthwiseConv2d, _ => simp [kerasValue, hcls] at hv
  | .separableConv1d, _ => simp [kerasValue, hcls] at hv
  | .separableConv2d, _ => simp [kerasValue, hcls] at hv
  | .locallyConnected1d, _ => simp [kerasValue, hcls] at hv
  | .locallyConnected2d, _ => simp [kerasValue, hcls] at hv
  | .activation, _ => simp [kerasValue, hcls] at hv
  | .recurrent, _ => simp [kerasValue, hcls] at hv
  | .other, _ => simp [kerasValue, hcls] at hv

/-! ### Normalisation layers -/

/-- The value at `idx` of the tensor registered as the inputs of a tensor of the given rank; variables are broadcast
along the first dimensions. `none` stands for an infinite value or NaN. -/
noncomputable def sourceValue (tens var : ℕ → List ℕ → ℝ) (varRank : ℕ → ℕ) (rank : ℕ) (idx : List ℕ) :
    Source → Option ℝ
  | .tensor t => some (tens t idx)
  | .unscaled out scale shift =>
    let at' (v : ℕ) := var v (idx.drop (rank - varRank v))
    let num := tens out idx - (match shift with | some b => at' b | none => 0)
    if at' scale = 0 then none else some (num / at' scale)

/-- A normalisation layer along `axes`, according to the documentation of Keras: the variables have one dimension for
every axis. -/
def Normalises (tens var : ℕ → List ℕ → ℝ) (l : KLayer) (axes : List ℕ) (rank : ℕ) (xhat : List ℕ → ℝ) (o : ℕ) : Prop :=
  match l.scale, l.center, l.weights with
  | true, true, [γ, β] => ∀ idx, idx.length = rank →
      tens o idx = var γ (axes.map fun a => idx.getD a 0) * xhat idx + var β (axes.map fun a => idx.getD a 0)
  | true, false, [γ] => ∀ idx, idx.length = rank → tens o idx = var γ (axes.map fun a => idx.getD a 0) * xhat idx
  | _, _, _ => False

theorem trailing_axes {idx : List ℕ} {rank k : ℕ} (hl : idx.length = rank) (hk : k ≤ rank) :
    (List.range' (rank - k) k).map (fun a => idx.getD a 0) = idx.drop (rank - k) := by
  apply List.ext_getElem
  · simp; omega
  · intro n h1 h2
    simp at h1 h2
    have : rank - k + n < idx.length := by omega
    simp [List.getD_eq_getElem?_getD, List.getElem?_eq_getElem this]

/-- C88 for normalisation along the last dimensions with nonzero scale: the layer is registered as scaling and shifting
of the normalised inputs. Missing: other axes, see `C88_axis_counterexample`, and scales with a zero, see
`C88_zero_scale_counterexample`. -/
theorem C88_norm_partial {tens var : ℕ → List ℕ → ℝ} {varRank : ℕ → ℕ} (phase : Phase) (approx : Option String)
    {l : KLayer} {x o rank k : ℕ} {xhat : List ℕ → ℝ} (hc : l.countParams ≠ 0) (ht : l.trainable = true)
    (hcls : l.cls = .batchNormalization ∨ l.cls = .layerNormalization)
    (hx : l.last.inputs = .one x) (ho : l.last.outputs = .one o) (ha : l.activation = none)
    (hn : Normalises tens var l (List.range' (rank - k) k) rank xhat o) (hk : k ≤ rank)
    (hr : ∀ v ∈ l.weights, varRank v = k) (hz : ∀ v ∈ l.weights.head?, ∀ i, var v i ≠ 0) :
    ∃ p s rest, registerLayer g phase l approx = .ok (.scaleAndShift p s o approx :: rest) ∧ p.vars = l.weights ∧
      (∀ c ∈ rest, c = .addUses l.weights 1) ∧
      ∀ idx, idx.length = rank → sourceValue tens var varRank rank idx s = some (xhat idx) := by
  have hp : preActivation g l = .ok (.one o) := by simp [preActivation, nonlinear, ha, ho]
  have hnorm : ∀ ps, dispatch phase l ps x o approx = registerNorm phase l ps o approx := by
    intro ps
    rcases hcls with h | h <;> simp [dispatch, isInstance, Cls.bases, h]
  unfold Normalises at hn
  split at hn
  · rename_i γ β hs hcen hw
    rw [registerLayer_of hc ht hx ho hp (by rw [hw]; rfl : paramsOf l.weights = .ok (.list [γ, β])), hnorm]
    refine ⟨.list [γ, β], .unscaled o γ (some β),
      if l.fused.getD false && !(phase.value.ne (.bool false)) then [.addUses l.weights 1] else [], ?_, ?_, ?_, ?_⟩
    · simp [registerNorm, normSource, hs, hcen, hw, Except.map]
    · rw [hw]; rfl
    · intro c hc'
      split at hc'
      · simpa using hc'
      · simp at hc'
    · intro idx hidx
      have h1 := hn idx hidx
      rw [trailing_axes hidx hk] at h1
      have hγ : varRank γ = k := hr γ (by rw [hw]; simp)
      have hβ : varRank β = k := hr β (by rw [hw]; simp)
      have hne : var γ (idx.drop (rank - k)) ≠ 0 := hz γ (by rw [hw]; simp) _
      simp only [sourceValue, hγ, hβ, hne, if_false, h1]
      congr 1
      field_simp
      ring
  · rename_i γ hs hcen hw
    rw [registerLayer_of hc ht hx ho hp (by rw [hw]; rfl : paramsOf l.weights = .ok (.single γ)), hnorm]
    refine ⟨.single γ, .unscaled o γ none,
      if l.fused.getD false && !(phase.value.ne (.bool false)) then [.addUses l.weights 1] else [], ?_, ?_, ?_, ?_⟩
    · simp [registerNorm, normSource, hs, hcen, hw, Except.map]
    · rw [hw]; rfl
    · intro c hc'
      split at hc'
      · simpa using hc'
      · simp at hc'
    · intro idx hidx
      have h1 := hn idx hidx
      rw [trailing_axes hidx hk] at h1
      have hγ : varRank γ = k := hr γ (by rw [hw]; simp)
      have hne : var γ (idx.drop (rank - k)) ≠ 0 := hz γ (by rw [hw]; simp) _
      simp only [sourceValue, hγ, hne, if_false, h1]
      congr 1
      field_simp
      ring
  · exact absurd hn (by simp)

/-- The operations in the graph that use the scale of a normalisation layer (see the comment in utils.py 185-199): the
fused kind makes one for training and one for inference unless the phase was set when the layer was made. -/
def normUses (fused : Bool) : Phase → ℕ
  | .unset => if fused then 2 else 1
  | _ => 1

/-- C88: the uses registered for the scale of a normalisation layer are those in the graph, if the phase was not set or
set to training. Missing: the phase set to 0, see `C88_phase_counterexample`. -/
theorem C88_uses_partial {phase : Phase} {approx : Option String} {l : KLayer} {cs : List Call} {v : ℕ}
    (hc : l.countParams ≠ 0) (ht : l.trainable = true)
    (hcls : l.cls = .batchNormalization ∨ l.cls = .layerNormalization) (hd : l.weights.Nodup) (hv : v ∈ l.weights)
    (h : registerLayer g phase l approx = .ok cs) (hph : phase ≠ .test) :
    (cs.map (Call.uses v)).sum = normUses (l.fused.getD false) phase := by
  unfold registerLayer at h
  split at h
  · cases h
  · rename_i pre hp
    simp only [hc, ht, ne_eq, not_false_eq_true, decide_true, Bool.and_self, if_true] at h
    split at h
    · rename_i x o' out h1 h2
      split at h
      · cases h
      · rename_i ps hps
        have hvars : ps.vars = l.weights := by
          match hw : l.weights with
          | [] => rw [hw] at hps; cases hps
          | [w] => rw [hw] at hps; cases hps; rfl
          | w :: b :: r => rw [hw] at hps; cases hps; rfl
        have hcount : l.weights.count v = 1 := List.count_eq_one_of_mem hd hv
        have hnorm : dispatch phase l ps x out approx = registerNorm phase l ps out approx := by
          rcases hcls with h | h <;> simp [dispatch, isInstance, Cls.bases, h]
        rw [hnorm] at h
        unfold registerNorm at h
        split at h
        · cases h
        · have key : ∀ s : Source, cs = [Call.scaleAndShift ps s out approx] ++
              (if l.fused.getD false && !(phase.value.ne (.bool false)) then [.addUses l.weights 1] else []) →
              (cs.map (Call.uses v)).sum = normUses (l.fused.getD false) phase := by
            rintro s rfl
            cases phase with
            | test => exact absurd rfl hph
            | train =>
              have : (Phase.train.value.ne (.bool false)) = true := rfl
              simp [this, Call.uses, hvars, hcount, normUses]
            | unset =>
              have : (Phase.unset.value.ne (.bool false)) = false := rfl
              cases l.fused.getD false <;> simp [this, Call.uses, hvars, hcount, normUses]
          cases hs : normSource l out with
          | error e => rw [hs] at h; cases h
          | ok src => rw [hs] at h; exact key src (Except.ok.inj h).symm
    · cases h

/-! ### What is rejected -/

/-- The classes that the documentation of `register_layer` names. -/
def supported : List Cls := [.conv1d, .conv2d, .dense, .batchNormalization, .layerNormalization, .embedding]

/-- C88: trainable layers of other classes are rejected. Missing: subclasses of `Conv2D`, see
`C88_subclass_counterexample`. -/
theorem C88_rejects_partial (phase : Phase) (approx : Option String) {l : KLayer} (hc : l.countParams ≠ 0)
    (ht : l.trainable = true) (hcls : l.cls ∉ supported) (hsub : l.cls ≠ .conv2dTranspose ∧ l.cls ≠ .depthwiseConv2d) :
    ∃ e, registerLayer g phase l approx = .error e := by
  unfold registerLayer
  split
  · exact ⟨_, rfl⟩
  · simp only [hc, ht, ne_eq, not_false_eq_true, decide_true, Bool.and_self, if_true]
    split
    · split
      · exact ⟨_, rfl⟩
      · unfold dispatch
        have hb : l.cls.bases = [l.cls] ∨ l.cls = .conv3dTranspose := by
          cases hl : l.cls <;> simp_all [Cls.bases]
        have key : ∀ d ∈ supported, isInstance l.cls d = false := by
          intro d hd
          unfold isInstance
          rcases hb with hb | hb
          · rw [hb]
            simp only [List.contains_eq_mem, List.mem_singleton, decide_eq_false_iff_not]
            rintro rfl
            exact hcls hd
          · rw [hb]
            revert d
            decide
        rw [key .dense (by decide), key .embedding (by decide), key .batchNormalization (by decide),
          key .layerNormalization (by decide)]
        simp only [Bool.or_self, Bool.false_eq_true, if_false]
        split
        · unfold registerConv
          rw [key .conv2d (by decide), key .conv1d (by decide)]
          split <;> exact ⟨_, rfl⟩
        · exact ⟨_, rfl⟩
    · exact ⟨_, rfl⟩

/-- C88: convolutions with the channels first are rejected. -/
theorem C88_rejects_format (phase : Phase) (approx : Option String) {l : KLayer} {geo : Geometry}
    (hc : l.countParams ≠ 0) (ht : l.trainable = true) (hcls : l.cls = .conv1d ∨ l.cls = .conv2d)
    (hgeo : l.geometry = some geo) (hf : geo.dataFormat ≠ "channels_last") :
    ∃ e, registerLayer g phase l approx = .error e := by
  unfold registerLayer
  split
  · exact ⟨_, rfl⟩
  · simp only [hc, ht, ne_eq, not_false_eq_true, decide_true, Bool.and_self, if_true]
    split
    · split
      · exact ⟨_, rfl⟩
      · rcases hcls with h | h <;> simp [dispatch, isInstance, Cls.bases, h, hgeo, registerConv, hf]
    · exact ⟨_, rfl⟩

/-- C88: normalisation without scale is rejected. -/
theorem C88_rejects_scale (phase : Phase) (approx : Option String) {l : KLayer}
    (hc : l.countParams ≠ 0) (ht : l.trainable = true)
    (hcls : l.cls = .batchNormalization ∨ l.cls = .layerNormalization) (hs : l.scale = false) :
    ∃ e, registerLayer g phase l approx = .error e := by
  unfold registerLayer
  split
  · exact ⟨_, rfl⟩
  · simp only [hc, ht, ne_eq, not_false_eq_true, decide_true, Bool.and_self, if_true]
    split
    · split
      · exact ⟨_, rfl⟩
      · rcases hcls with h | h <;> simp [dispatch, isInstance, Cls.bases, h, registerNorm, hs]
    · exact ⟨_, rfl⟩

/-- C88: layers without parameters or not trained are passed over, whatever their class. Missing: activations that are
not a single operation, see `C88_passed_counterexample`. -/
theorem C88_passed_partial (phase : Phase) (approx : Option String) {l : KLayer} {y o : ℕ}
    (hc : l.countParams = 0 ∨ l.trainable = false) (ha : l.activation = none ∨ l.activation = some "linear" ∨
      (l.last.outputs = .one o ∧ Activates g l y o)) : registerLayer g phase l approx = .ok [] := by
  have hp : ∃ pre, preActivation g l = .ok pre := by
    rcases ha with h | h | ⟨ho, h⟩
    · exact ⟨_, by simp only [preActivation, nonlinear, h]; rfl⟩
    · exact ⟨_, by simp only [preActivation, nonlinear, h]; rfl⟩
    · obtain ⟨p, hp, -⟩ := preActivation_of ho h
      exact ⟨_, hp⟩
  obtain ⟨pre, hp⟩ := hp
  have : (decide (l.countParams ≠ 0) && l.trainable) = false := by
    rcases hc with h | h <;> simp [h]
  simp only [registerLayer, hp, this, Bool.false_eq_true, if_false]

/-! ### Violations -/

open Kfac.Match (listGraph)

/-- A dense layer with bias whose activation is `exp ∘ tanh`, then `z = x * y` from its output. -/
def netK : TFGraph := listGraph [("Placeholder", [], [2, 3]), ("VarHandleOp", [], [3, 3]),
  ("ReadVariableOp", [1], [3, 3]), ("MatMul", [0, 2], [2, 3]), ("VarHandleOp", [], [3]), ("ReadVariableOp", [4], [3]),
  ("BiasAdd", [3, 5], [2, 3]), ("Tanh", [6], [2, 3]), ("Exp", [7], [2, 3]), ("Sigmoid", [8], [2, 3]),
  ("Mul", [8, 9], [2, 3])] fun _ => {}

/-- A trained layer of the class `c` with these tensors and weights. -/
def mk (c : Cls) (activation : Option String) (x o : ℕ) (weights : List ℕ) : KLayer where
  cls := c
  activation := activation
  last := ⟨.one x, .one o⟩
  countParams := weights.length
  trainable := true
  weights := weights

/-- A dense layer with a single operation as activation: the registration names input and pre-activation. -/
example : registerLayer netK .unset (mk .dense (some "tanh") 0 7 [1, 4]) none =
    .ok [.fullyConnected (.list [1, 4]) 0 6 true none] := rfl

/-- The hypotheses of `C88_layer_partial` hold for it. -/
example : netK.WellFormed ∧ Activates netK (mk .dense (some "tanh") 0 7 [1, 4]) 6 7 := by
  refine ⟨⟨?_, ?_, ?_⟩, .inr ⟨⟨_, rfl, by decide⟩, by decide, 6, rfl, rfl⟩⟩
  · intro o ho
    match o with
    | 2 | 5 => decide
    | 0 | 1 | 3 | 4 | 6 | 7 | 8 | 9 | 10 => exact absurd ho (by decide)
    | n + 11 => exact absurd ho (by show ¬ Kfac.Match.identityType "NoOp" = true; decide)
  · intro o x l hi hl
    match o with
    | 2 | 5 => cases hl; simp
    | 0 | 1 | 3 | 4 | 6 | 7 | 8 | 9 | 10 => exact absurd hi (by decide)
    | n + 11 => exact absurd hi (by show ¬ Kfac.Match.identityType "NoOp" = true; decide)
  · intro o ho
    match o with
    | 2 | 5 => decide
    | 0 | 1 | 3 | 4 | 6 | 7 | 8 | 9 | 10 => exact absurd ho (by decide)
    | n + 11 => exact absurd ho (by show ¬ Kfac.Match.identityType "NoOp" = true; decide)

/-- Those of `C88_norm_partial` for a layer over the last of two dimensions. -/
example : Normalises (fun _ idx => 2 * (idx.getD 0 0 : ℝ) + 3) (fun v _ => if v = 0 then 2 else 3)
    (mk .batchNormalization none 0 1 [0, 2]) (List.range' (2 - 1) 1) 2 (fun idx => idx.getD 0 0) 1 := by
  intro idx _
  simp

/-- C88 is violated for activations made of several operations: what is registered as the output of the layer (tensor 7) is
not its pre-activation (tensor 6). -/
theorem C88_composite_counterexample : registerLayer netK .unset (mk .dense (some "exp_tanh") 0 8 [1, 4]) none =
      .ok [.fullyConnected (.list [1, 4]) 0 7 true none] ∧ netK.opType (netK.producer 6) = "BiasAdd" ∧
    netK.opType (netK.producer 7) = "Tanh" := ⟨rfl, rfl, rfl⟩

/-- C88 is violated for a layer without parameters, such as `Activation(swish)`, whose activation ends with an operation
of two arguments: the model is rejected. -/
theorem C88_passed_counterexample : registerLayer netK .unset (mk .activation (some "swish") 8 10 []) none =
    .error "ValueError: has more than one parent tensor." := rfl

/-- C88 is violated for transposed and depthwise convolutions, whatever the graph: they are registered as convolutions. -/
theorem C88_subclass_counterexample (g : TFGraph) (phase : Phase) (approx : Option String) (x o w b : ℕ) (c : Cls)
    (hc : c = .conv2dTranspose ∨ c = .depthwiseConv2d) :
    registerLayer g phase { mk c none x o [w, b] with geometry := some ⟨[2, 2], "same", [1, 1], "channels_last"⟩ }
        approx =
      .ok [.conv2d (.list [w, b]) x o [1, 2, 2, 1] "SAME" [1, 1, 1, 1] approx] := by
  have hu : upper "same" = "SAME" := by decide
  rcases hc with rfl | rfl <;>
    simp [registerLayer, preActivation, nonlinear, paramsOf, dispatch, isInstance, Cls.bases, registerConv, hu, mk]

/-- The registration of a batch normalisation layer with scale `γ` and offset `β`. -/
theorem registerLayer_bn (g : TFGraph) (phase : Phase) (approx : Option String) (x o γ β : ℕ) (fused : Option Bool) :
    registerLayer g phase { mk .batchNormalization none x o [γ, β] with fused := fused } approx =
      .ok (.scaleAndShift (.list [γ, β]) (.unscaled o γ (some β)) o approx ::
        if fused.getD false && !(phase.value.ne (.bool false)) then [.addUses [γ, β] 1] else []) := by
  simp [registerLayer, preActivation, nonlinear, paramsOf, dispatch, isInstance, Cls.bases, registerNorm, normSource,
    Except.map, mk]

/-- C88 is violated if the scale is zero (as when the last normalisation of a residual branch is started at zero): the
inputs registered are not finite. -/
theorem C88_zero_scale_counterexample (tens var : ℕ → List ℕ → ℝ) (varRank : ℕ → ℕ) (rank γ β o x : ℕ) (idx : List ℕ)
    (hz : ∀ i, var γ i = 0) : ∃ s p, registerLayer g .train (mk .batchNormalization none x o [γ, β]) none =
        .ok [.scaleAndShift p s o none] ∧
      sourceValue tens var varRank rank idx s = none :=
  ⟨_, _, registerLayer_bn g .train none x o γ β none, by simp [sourceValue, hz]⟩

/-- C88 is violated for normalisation along another axis: with axis 1 of three and sizes that fit, the scale is taken
from the wrong index. -/
theorem C88_axis_counterexample : ∃ (tens var : ℕ → List ℕ → ℝ) (xhat : List ℕ → ℝ) (l : KLayer) (s : Source) (p : Params),
    l.cls = .batchNormalization ∧ Normalises tens var l [1] 3 xhat 1 ∧ (∀ i, var 0 i ≠ 0) ∧
    (∀ phase, registerLayer g phase l none = .ok [.scaleAndShift p s 1 none]) ∧
    sourceValue tens var (fun _ => 1) 3 [0, 0, 1] s = some (1 / 2) ∧ xhat [0, 0, 1] = 1 := by
  refine ⟨fun _ idx => if idx.getD 1 0 = 0 then 1 else 2, fun v i => if v = 0 then (if i = [0] then 1 else 2) else 0,
    fun _ => 1, mk .batchNormalization none 0 1 [0, 2], .unscaled 1 0 (some 2), .list [0, 2], rfl, ?_, ?_, ?_, ?_, rfl⟩
  · intro idx _
    simp
  · intro i
    simp only [if_true]
    split <;> norm_num
  · intro phase
    exact registerLayer_bn g phase none 0 1 0 2 none
  · simp [sourceValue]

/-- C88 is violated if the learning phase was set to 0: `0 != False` is false, so that a use is added that is not in the
graph. -/
theorem C88_phase_counterexample (g : TFGraph) (approx : Option String) (x o γ β : ℕ) (h : γ ≠ β) :
    ∃ cs, registerLayer g .test { mk .batchNormalization none x o [γ, β] with fused := some true } approx = .ok cs ∧
      (cs.map (Call.uses γ)).sum = 2 ∧ normUses true .test = 1 := by
  refine ⟨_, registerLayer_bn _ _ _ _ _ _ _ _, ?_, rfl⟩
  have : (Phase.test.value.ne (.bool false)) = false := rfl
  have hc : List.count γ [γ, β] = 1 := by simp [h.symm]
  simp [this, Call.uses, Params.vars, hc]

/-- A convolution with dilations. -/
example (x o w : ℕ) (g : TFGraph) : registerLayer g .train
      { mk .conv1d (some "linear") x o [w] with geometry := some ⟨[2], "valid", [3], "channels_last"⟩ } (some "kron") =
    .ok [.conv1d (.single w) x o [1, 2, 1] "VALID" [1, 3, 1] (some "kron")] := by
  have hu : upper "valid" = "VALID" := by decide
  simp [registerLayer, preActivation, nonlinear, paramsOf, dispatch, isInstance, Cls.bases, registerConv, hu, mk]

end Kfac.Keras.RegLayer
