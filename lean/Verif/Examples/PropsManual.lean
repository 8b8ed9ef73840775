import Verif.Examples.Manual
import Verif.Reg.PropsUses

/-! # C132: the layers that the examples register by hand -/

namespace Kfac.Examples.Manual

open Kfac.Reg

/-! ### Specification -/

/-- The layers below a tensor: the varsOf, the input and the result before the activation function. -/
def layersBelow : Tensor → List (List Var × Nat × Nat)
  | .input _ => []
  | .layer id params x => layersBelow x ++ [(params, x.id, id)]
  | .other _ x => layersBelow x

/-- How many layers below a tensor use a variable (`SubGraph.variable_uses`). -/
def usesBelow (t : Tensor) (v : Var) : Nat := (layersBelow t).countP fun l => l.1.contains v

/-- What has to be registered for a layer. -/
def registered (spec : BlockSpec) (l : List Var × Nat × Nat) : Params × Block :=
  (.seq l.1, ⟨spec, [.io (.tensor l.2.1) (.tensor l.2.2)]⟩)

/-- The variables of a network. -/
def varsOf (layers : List (Var × Var)) : List Var := layers.flatMap fun l => [l.1, l.2]

/-! ### Lemmas -/

/-- A collection with default approximation `spec` for fully connected layers and no linked parameters. -/
structure Ready (lc : LC) (spec : BlockSpec) : Prop where
  wf : WF lc.blocks
  opened : lc.finalized = false
  unlinked : lc.linked = []
  default : lookup (table .fullyConnected) (lc.defaults .fullyConnected) = some spec

theorem upsert_new {K V : Type} [DecidableEq K] {l : List (K × V)} {k : K} {v : V} (h : k ∉ l.map (·.1)) :
    upsert l k v = l ++ [(k, v)] := if_neg h

theorem call_fresh {lc : LC} {spec : BlockSpec} (h : Ready lc spec) {w b : Var} (hwb : w ≠ b) (i o : TensorArg)
    (hk : ∀ k ∈ lc.blocks.keys, w ∉ k.vars ∧ b ∉ k.vars) (hw : w ∉ lc.uses.map (·.1)) (hb : b ∉ lc.uses.map (·.1)) :
    ∃ lc', call lc (.fullyConnected (.seq [w, b]) i o none true (.explicit .no)) = .ok lc' ∧ Ready lc' spec ∧
      lc'.blocks.entries = lc.blocks.entries ++ [(.seq [w, b], ⟨spec, [.io i o]⟩)] ∧
      lc'.uses = lc.uses ++ [(w, .fin 1), (b, .fin 1)] ∧ lc'.lossDict = lc.lossDict := by
  have hnew : Params.seq [w, b] ∉ lc.blocks.keys := fun hm => (hk _ hm).1 (by simp [Params.vars])
  have hno : ∀ k' ∈ lc.blocks.keys, ∀ x ∈ (Params.seq [w, b]).vars, x ∉ k'.vars := by
    intro k' hk' x hx
    simp only [Params.vars, List.mem_cons, List.not_mem_nil, or_false] at hx
    rcases hx with rfl | rfl
    · exact (hk k' hk').1
    · exact (hk k' hk').2
  have hany : ((Params.seq [w, b]).vars.any fun v => (lc.blocks.keys.flatMap Params.vars).contains v) = false := by
    rw [List.any_eq_false]
    intro x hx hc
    rw [List.contains_iff_mem, List.mem_flatMap] at hc
    obtain ⟨k, hk', hxk⟩ := hc
    exact hno k hk' x hx hxk
  have hlink : linkedApprox lc (.seq [w, b]) = none := by simp [linkedApprox, h.unlinked, lookup_nil]
  have hblock : (getBlockType lc .fullyConnected (.seq [w, b]) none).map (·.1) = .ok spec := by
    simp only [getBlockType, hlink, h.default]
    rfl
  have hreg : registerBlock lc (.seq [w, b]) spec (.explicit .no) =
      .ok { lc with blocks := ⟨lc.blocks.entries ++ [(.seq [w, b], ⟨spec, []⟩)], lc.blocks.tensors ∪ ([w, b] : List Var).toFinset⟩ } := by
    unfold registerBlock
    rw [if_neg (by simp [h.opened])]
    simp only [ReuseArg.resolve]
    rw [if_neg (by simp), if_neg (by simp [hnew]), if_neg hnew, if_neg (by rw [hany]; simp), setItem_ok h.wf _ _ hno, upsert_new hnew]
    rfl
  have hmap : ∀ es : List (Params × Block), Params.seq [w, b] ∉ es.map (·.1) →
      (es.map fun e => if e.1 = Params.seq [w, b] then (e.1, { e.2 with towers := e.2.towers ++ [Data.io i o] }) else e) = es := by
    intro es hes
    conv_rhs => rw [← List.map_id es]
    refine List.map_congr_left fun e he => ?_
    rw [if_neg]
    · rfl
    · intro heq
      exact hes (heq ▸ List.mem_map_of_mem he)
  have hrun : runLayer lc ((LayerOp.fullyConnected (.seq [w, b]) i o none true (.explicit .no)).call lc) =
      ({ lc with
          blocks := ⟨lc.blocks.entries ++ [(.seq [w, b], ⟨spec, [.io i o]⟩)], lc.blocks.tensors ∪ ([w, b] : List Var).toFinset⟩
          uses := lc.uses ++ [(w, .fin 1), (b, .fin 1)] }, .ok ()) := by
    unfold runLayer
    simp only [LayerOp.call, hblock, hreg, if_true]
    have hb' : b ∉ (lc.uses ++ [(w, Uses.fin 1)]).map (·.1) := by
      simp only [List.map_append, List.mem_append, hb, false_or]
      simpa using Ne.symm hwb
    have e1 : bump (.fin 1) lc.uses w = lc.uses ++ [(w, .fin 1)] := by
      unfold bump
      rw [(lookup_eq_none _ _).mpr hw, upsert_new hw]
      rfl
    have e2 : bump (.fin 1) (lc.uses ++ [(w, .fin 1)]) b = lc.uses ++ [(w, .fin 1), (b, .fin 1)] := by
      unfold bump
      rw [(lookup_eq_none _ _).mpr hb', upsert_new hb', List.append_assoc]
      rfl
    simp only [addTower, addUses, Params.vars, List.foldl_cons, List.foldl_nil, e1, e2, List.map_append, hmap _ hnew]
    simp
  refine ⟨(runLayer lc ((LayerOp.fullyConnected (.seq [w, b]) i o none true (.explicit .no)).call lc)).1,
    by unfold call; rw [hrun], ?_, by rw [hrun], by rw [hrun], by rw [hrun]⟩
  have hwf := h.wf.runLayer ((LayerOp.fullyConnected (.seq [w, b]) i o none true (.explicit .no)).call lc)
  rw [hrun] at hwf ⊢
  exact ⟨hwf, h.opened, h.unlinked, h.default⟩

theorem mlp_registers (activateFinal : Bool) (layers : List (Var × Var)) {spec : BlockSpec} : ∀ (lc : LC) (next : Nat) (net : Tensor),
    Ready lc spec → (varsOf layers).Nodup → (∀ v ∈ varsOf layers, ∀ k ∈ lc.blocks.keys, v ∉ k.vars) →
    (∀ v ∈ varsOf layers, v ∉ lc.uses.map (·.1)) →
    ∃ lc' next' out new, mlp activateFinal layers (some lc) next net = .ok (some lc', next', out) ∧
      mlp activateFinal layers none next net = .ok (none, next', out) ∧ Ready lc' spec ∧
      layersBelow out = layersBelow net ++ new ∧ new.map (·.1) = layers.map (fun l => [l.1, l.2]) ∧
      lc'.blocks.entries = lc.blocks.entries ++ new.map (registered spec) ∧
      lc'.uses = lc.uses ++ (varsOf layers).map (·, .fin 1) ∧ lc'.lossDict = lc.lossDict := by
  induction layers with
  | nil =>
    intro lc next net h _ _ _
    exact ⟨lc, next, net, [], rfl, rfl, h, by simp, rfl, by simp, by simp [varsOf], rfl⟩
  | cons l rest ih =>
    obtain ⟨w, b⟩ := l
    intro lc next net h hnd hk hu
    have hv : varsOf ((w, b) :: rest) = w :: b :: varsOf rest := rfl
    rw [hv] at hnd hk hu
    obtain ⟨hw, hnd⟩ := List.nodup_cons.mp hnd
    obtain ⟨hb, hnd⟩ := List.nodup_cons.mp hnd
    have hwb : w ≠ b := fun e => hw (by simp [e])
    obtain ⟨lc1, hc, h1, he, hu1, hl⟩ := call_fresh h hwb (.tensor net.id) (.tensor next)
      (fun k hkk => ⟨hk w (by simp) k hkk, hk b (by simp) k hkk⟩) (hu w (by simp)) (hu b (by simp))
    have hne : ∀ v ∈ varsOf rest, v ≠ w ∧ v ≠ b := fun v hv =>
      ⟨fun e => hw (by simp [← e, hv]), fun e => hb (by simp [← e, hv])⟩
    have hk1 : ∀ v ∈ varsOf rest, ∀ k ∈ lc1.blocks.keys, v ∉ k.vars := by
      intro v hv k hkk
      rw [LPD.keys, he, List.map_append, List.mem_append] at hkk
      rcases hkk with hkk | hkk
      · exact hk v (by simp [hv]) k hkk
      · simp only [List.map_cons, List.map_nil, List.mem_singleton] at hkk
        subst hkk
        simpa [Params.vars] using hne v hv
    have hu2 : ∀ v ∈ varsOf rest, v ∉ lc1.uses.map (·.1) := by
      intro v hv
      rw [hu1, List.map_append, List.mem_append, not_or]
      exact ⟨hu v (by simp [hv]), by simpa using hne v hv⟩
    have hr : register (some lc) w b net (.layer next [w, b] net) = .ok (some lc1) := by
      simp only [register, show (Tensor.layer next [w, b] net).id = next from rfl, hc]
    have hr0 : register none w b net (.layer next [w, b] net) = .ok none := rfl
    by_cases hf : rest ≠ [] ∨ activateFinal = true
    · obtain ⟨lc', next', out, new, i1, i0, i2, i3, i4, i5, i6, i7⟩ :=
        ih lc1 (next + 2) (.other (next + 1) (.layer next [w, b] net)) h1 hnd hk1 hu2
      refine ⟨lc', next', out, ([w, b], net.id, next) :: new, ?_, ?_, i2, ?_, ?_, ?_, ?_, i7.trans hl⟩
      · simp only [mlp, hr]
        rw [if_pos hf, i1]
      · simp only [mlp, hr0]
        rw [if_pos hf, i0]
      · rw [i3]
        simp [layersBelow]
      · simp [i4]
      · rw [i5, he, List.append_assoc]
        rfl
      · rw [i6, hu1, hv, List.append_assoc]
        rfl
    · obtain ⟨lc', next', out, new, i1, i0, i2, i3, i4, i5, i6, i7⟩ := ih lc1 (next + 1) (.layer next [w, b] net) h1 hnd hk1 hu2
      refine ⟨lc', next', out, ([w, b], net.id, next) :: new, ?_, ?_, i2, ?_, ?_, ?_, ?_, i7.trans hl⟩
      · simp only [mlp, hr]
        rw [if_neg hf, i1]
      · simp only [mlp, hr0]
        rw [if_neg hf, i0]
      · rw [i3]
        simp [layersBelow]
      · simp [i4]
      · rw [i5, he, List.append_assoc]
        rfl
      · rw [i6, hu1, hv, List.append_assoc]
        rfl

theorem ready_init : Ready LC.init { cls := "FullyConnectedKFACBasicFB" } :=
  ⟨WF.empty, rfl, rfl, by decide⟩

theorem varsOf_append (xs ys : List (Var × Var)) : varsOf (xs ++ ys) = varsOf xs ++ varsOf ys := by
  simp [varsOf]

theorem autoencoder_registers (encoder decoder : List (Var × Var)) (hnd : (varsOf (encoder ++ decoder)).Nodup) (next : Nat)
    (features : Tensor) (hf : layersBelow features = []) :
    ∃ lc next' logits, autoencoder encoder decoder (some LC.init) next features = .ok (some lc, next', logits) ∧
      autoencoder encoder decoder none next features = .ok (none, next', logits) ∧
      Ready lc { cls := "FullyConnectedKFACBasicFB" } ∧
      (layersBelow logits).map (·.1) = (encoder ++ decoder).map (fun l => [l.1, l.2]) ∧
      lc.blocks.entries = (layersBelow logits).map (registered { cls := "FullyConnectedKFACBasicFB" }) ∧
      lc.uses = (varsOf (encoder ++ decoder)).map (·, .fin 1) ∧ lc.lossDict = [] := by
  rw [varsOf_append] at hnd ⊢
  obtain ⟨hn1, hn2, hd⟩ := List.nodup_append.mp hnd
  obtain ⟨lc1, n1, code, new1, a1, a0, a2, a3, a4, a5, a6, a7⟩ := mlp_registers false encoder LC.init next features ready_init hn1
    (by simp [LC.init, LPD.keys, LPD.empty]) (by simp [LC.init])
  have e0 : LC.init.blocks.entries = [] := rfl
  have u0 : LC.init.uses = [] := rfl
  rw [e0, List.nil_append] at a5
  rw [u0, List.nil_append] at a6
  rw [hf, List.nil_append] at a3
  have hmem : ∀ v, v ∈ varsOf encoder ↔ ∃ l ∈ new1, v ∈ l.1 := by
    intro v
    have : varsOf encoder = (new1.map (·.1)).flatten := by
      rw [a4, varsOf, List.flatMap_def]
    rw [this]
    simp only [List.mem_flatten, List.mem_map, exists_exists_and_eq_and]
  obtain ⟨lc2, n2, out, new2, b1, b0, b2, b3, b4, b5, b6, b7⟩ := mlp_registers false decoder lc1 n1 code a2 hn2
    (by
      intro v hv k hk hvk
      rw [LPD.keys, a5, List.map_map, List.mem_map] at hk
      obtain ⟨l, hl, rfl⟩ := hk
      exact hd v ((hmem v).mpr ⟨l, hl, hvk⟩) v hv rfl)
    (by
      intro v hv hm
      rw [a6, List.map_map] at hm
      have : v ∈ varsOf encoder := by simpa using hm
      exact hd v this v hv rfl)
  refine ⟨lc2, n2, out, ?_, ?_, b2, ?_, ?_, ?_, b7.trans a7⟩
  · simp only [autoencoder, a1, b1]
  · simp only [autoencoder, a0, b0]
  · rw [b3, a3, List.map_append, a4, b4, List.map_append]
  · rw [b5, a5, b3, a3, List.map_append]
  · rw [b6, a6, List.map_append]

/-- `check_registration` and `finalize` succeed when the registered uses are those of the graph. -/
theorem finalize_passes {lc : LC} {g : Var → Nat} {vars : List Var} (ho : lc.finalized = false) (hl : lc.losses ≠ [])
    (hlen : lc.uses.length ≤ vars.length) (hu : ∀ v ∈ vars, g v ≠ 0 ∧ lookup lc.uses v = some (.fin (g v))) :
    (estimatorFinalize g vars lc false).2 = (true, .ok ()) := by
  have hfin : finalize lc = ({ lc with finalized := true }, .ok ()) := by
    unfold finalize
    rw [if_neg (by simp [ho]), if_neg hl]
  have hs := checkLoop_spec g vars lc.uses
  have h1 : (checkLoop g vars lc.uses).2 = true := hs.1.mpr fun v hv => .inr (hu v hv)
  have h2 := hs.2 h1
  unfold estimatorFinalize
  simp only [hfin, Bool.false_eq_true, if_false]
  unfold checkRegistration
  rw [if_neg (by simp)]
  rcases hc : checkLoop g vars lc.uses with ⟨m, good⟩
  rw [hc] at h1 h2
  simp only at h1 h2
  subst h2
  simp only [h1]
  rw [if_pos (by simpa using hlen)]

/-- Each variable of a network with different variables is used by one layer. -/
theorem count_one (layers : List (Var × Var)) (hnd : (varsOf layers).Nodup) {v : Var} (hv : v ∈ varsOf layers) :
    (layers.map fun l => [l.1, l.2]).countP (fun l => l.contains v) = 1 := by
  have h1 : ∀ ls : List (Var × Var), (varsOf ls).count v = 0 → (ls.map fun l => [l.1, l.2]).countP (fun l => l.contains v) = 0 := by
    intro ls h
    rw [List.countP_eq_zero]
    intro l hl hc
    rw [List.count_eq_zero] at h
    obtain ⟨x, hx, rfl⟩ := List.mem_map.mp hl
    exact h (List.mem_flatMap.mpr ⟨x, hx, by simpa using hc⟩)
  induction layers with
  | nil => simp [varsOf] at hv
  | cons l rest ih =>
    obtain ⟨w, b⟩ := l
    have hvs : varsOf ((w, b) :: rest) = w :: b :: varsOf rest := rfl
    rw [hvs] at hnd hv
    obtain ⟨hw, hnd⟩ := List.nodup_cons.mp hnd
    obtain ⟨hb, hnd⟩ := List.nodup_cons.mp hnd
    rw [List.map_cons, List.countP_cons]
    by_cases hm : v ∈ varsOf rest
    · rw [ih hnd hm, if_neg]
      have h2 : v ≠ w := fun e => hw (by simp [← e, hm])
      have h3 : v ≠ b := fun e => hb (by rw [← e]; exact hm)
      simp [h2, h3]
    · rw [h1 rest (List.count_eq_zero.mpr hm), if_pos]
      have : v = w ∨ v = b := by
        rcases List.mem_cons.mp hv with h | h
        · exact .inl h
        · rcases List.mem_cons.mp h with h | h
          · exact .inr h
          · exact absurd h hm
      simpa using this

theorem lookup_ones {vs : List Var} {v : Var} (hv : v ∈ vs) (n : Nat) :
    lookup (vs.map fun x => (x, Uses.fin n)) v = some (.fin n) := by
  induction vs with
  | nil => simp at hv
  | cons x vs ih =>
    rw [List.map_cons, lookup_cons]
    by_cases h : x = v
    · simp [h]
    · rw [if_neg h]
      exact ih ((List.mem_cons.mp hv).resolve_left fun e => h e.symm)

/-! ### Theorems -/

/-- C132: building the autoencoder with registration by hand succeeds; the collection then has exactly one block for every layer of
the network, in order, with the input of the layer and its result before the activation function. The network is the one
that is built without the collection, so that the loss on other batches can be computed. An optimizer for all variables
accepts the collection. -/
theorem C132_autoencoder (encoder decoder : List (Var × Var)) (hnd : (varsOf (encoder ++ decoder)).Nodup) (graphName : String)
    (next : Nat) (features : Tensor) (hf : layersBelow features = []) :
    ∃ lc next' logits, construct encoder decoder graphName next features = .ok (lc, next', logits) ∧
      autoencoder encoder decoder none next features = .ok (none, next', logits) ∧
      (layersBelow logits).map (·.1) = (encoder ++ decoder).map (fun l => [l.1, l.2]) ∧
      lc.blocks.entries = (layersBelow logits).map (registered { cls := "FullyConnectedKFACBasicFB" }) ∧
      lc.losses.length = 1 ∧
      ∀ vars : List Var, vars.Perm (varsOf (encoder ++ decoder)) →
        (estimatorFinalize (usesBelow logits) vars lc false).2 = (true, .ok ()) := by
  obtain ⟨lc, next', logits, h1, h0, h2, h3, h4, h5, h6⟩ := autoencoder_registers encoder decoder hnd next features hf
  have hloss : registerLoss lc none graphName 1 (.variableScope .no) =
      ({ lc with lossDict := [(graphName, [lc.nextLoss])], lossCoeffs := upsert lc.lossCoeffs lc.nextLoss 1,
                 nextLoss := lc.nextLoss + 1 }, .ok ()) := by
    unfold registerLoss
    simp [h2.opened, ReuseArg.resolve, h6, upsert]
  refine ⟨{ lc with lossDict := [(graphName, [lc.nextLoss])], lossCoeffs := upsert lc.lossCoeffs lc.nextLoss 1,
                    nextLoss := lc.nextLoss + 1 }, next', logits, ?_, h0, h3, h4, ?_, fun vars hp => ?_⟩
  · simp only [construct, h1, hloss]
  · simp [LC.losses, LC.towersByLoss]
  · refine finalize_passes h2.opened (by simp [LC.losses, LC.towersByLoss]) ?_ fun v hv => ?_
    · simp [h5, hp.length_eq]
    · have hv' := hp.mem_iff.mp hv
      have hc : usesBelow logits v = 1 := by
        have := count_one (encoder ++ decoder) hnd hv'
        rw [← h3, List.countP_map] at this
        exact this
      rw [hc]
      exact ⟨Nat.one_ne_zero, by simpa [h5] using lookup_ones hv' 1⟩

/-- C132: building the network a second time with the same collection raises, instead of counting a batch twice. -/
theorem C132_twice (w b : Var) (rest decoder : List (Var × Var)) (lc : LC) (hk : Params.seq [w, b] ∈ lc.blocks.keys) (next : Nat)
    (features : Tensor) : ∃ e, autoencoder ((w, b) :: rest) decoder (some lc) next features = .error e := by
  have h1 : ∃ e, call lc (.fullyConnected (.seq [w, b]) (.tensor features.id) (.tensor next) none true (.explicit .no)) = .error e := by
    rcases hr : runLayer lc ((LayerOp.fullyConnected (.seq [w, b]) (.tensor features.id) (.tensor next) none true (.explicit .no)).call lc)
      with ⟨lc', e | u⟩
    · exact ⟨e, by unfold call; rw [hr]⟩
    · exfalso
      obtain ⟨spec, lc1, _, hreg, _⟩ := runLayer_ok hr
      rcases (registerBlock_ok hreg).2 with ⟨_, _, hno, _⟩ | ⟨hn, _⟩
      · exact hno rfl
      · exact hn hk
  obtain ⟨e, he⟩ := h1
  refine ⟨e, ?_⟩
  simp only [autoencoder, mlp, register, show (Tensor.layer next [w, b] features).id = next from rfl, he]

/-! ### Towers -/

/-- The variables of the layers of the convolutional network, in order. -/
def ConvNet.layers (net : ConvNet) : List (Var × Var) :=
  [(net.kernel0, net.bias0), (net.kernel2, net.bias2), (net.kernel4, net.bias4)]

/-- The logits of one tower. -/
def logitsOf (net : ConvNet) (next : Nat) (x : Tensor) : Tensor :=
  .layer (next + 7) [net.kernel4, net.bias4] (.other (next + 6) (.other (next + 5) (.other (next + 4)
    (.layer (next + 3) [net.kernel2, net.bias2] (.other (next + 2) (.other (next + 1)
      (.layer next [net.kernel0, net.bias0] x)))))))

/-- A collection in which the layers have the given towers and uses, with `n` registrations of the loss. -/
def collection (net : ConvNet) (t0 t2 t4 : List Data) (u0 u2 u4 n : Nat) : LC :=
  { LC.init with
    blocks := ⟨[(.seq [net.kernel0, net.bias0], ⟨{ cls := "ConvKFCBasicFB" }, t0⟩),
        (.seq [net.kernel2, net.bias2], ⟨{ cls := "ConvKFCBasicFB" }, t2⟩),
        (.seq [net.kernel4, net.bias4], ⟨{ cls := "FullyConnectedKFACBasicFB" }, t4⟩)],
      (∅ ∪ [net.kernel0, net.bias0].toFinset) ∪ [net.kernel2, net.bias2].toFinset ∪ [net.kernel4, net.bias4].toFinset⟩
    lossDict := [("logits", List.range n)]
    lossCoeffs := (List.range n).map (·, 1)
    nextLoss := n
    uses := [(net.kernel0, .fin u0), (net.bias0, .fin u0), (net.kernel2, .fin u2), (net.bias2, .fin u2), (net.kernel4, .fin u4),
      (net.bias4, .fin u4)] }

/-- The collection after towers with the given examples and first numbers. -/
def towersDone (net : ConvNet) (done : List (Nat × Nat)) : LC :=
  collection net (done.map fun d => .io (.tensor d.1) (.tensor d.2)) (done.map fun d => .io (.tensor (d.2 + 2)) (.tensor (d.2 + 3)))
    (done.map fun d => .io (.tensor (d.2 + 6)) (.tensor (d.2 + 7))) done.length done.length done.length done.length

theorem call_again {lc : LC} {op : LayerOp} {spec : BlockSpec} {b : Block} (ho : lc.finalized = false)
    (hb : (op.call lc).block = .ok spec) (hm : (op.call lc).mid = none) (hp : (op.call lc).post = none)
    (hr : op.reuse.resolve = .yes) (hk : lookup lc.blocks.entries op.params = some b) (hc : b.spec.cls = spec.cls) :
    call lc op = .ok (addUses (addTower lc op.params (op.call lc).data) op.params (op.call lc).uses) := by
  have hreg : registerBlock lc op.params spec op.reuse = .ok lc := by
    unfold registerBlock
    rw [if_neg (by simp [ho])]
    simp only [hr, LPD.get, hk]
    simp [hc]
  unfold call runLayer
  simp only [hb, call_params, call_reuse, hreg, hm, hp]

theorem call_first {lc : LC} {op : LayerOp} {spec : BlockSpec} (ho : lc.finalized = false)
    (hb : (op.call lc).block = .ok spec) (hm : (op.call lc).mid = none) (hp : (op.call lc).post = none)
    (hr : op.reuse.resolve = .no) (hwf : WF lc.blocks) (hk : op.params ∉ lc.blocks.keys)
    (hno : ∀ k ∈ lc.blocks.keys, ∀ v ∈ op.params.vars, v ∉ k.vars) :
    call lc op = .ok (addUses (addTower { lc with blocks := ⟨lc.blocks.entries ++ [(op.params, ⟨spec, []⟩)],
      lc.blocks.tensors ∪ op.params.vars.toFinset⟩ } op.params (op.call lc).data) op.params (op.call lc).uses) := by
  have hany : (op.params.vars.any fun v => (lc.blocks.keys.flatMap Params.vars).contains v) = false := by
    rw [List.any_eq_false]
    intro x hx hc
    rw [List.contains_iff_mem, List.mem_flatMap] at hc
    obtain ⟨k, hk', hxk⟩ := hc
    exact hno k hk' x hx hxk
  have hreg : registerBlock lc op.params spec op.reuse = .ok { lc with blocks := ⟨lc.blocks.entries ++ [(op.params, ⟨spec, []⟩)],
      lc.blocks.tensors ∪ op.params.vars.toFinset⟩ } := by
    unfold registerBlock
    rw [if_neg (by simp [ho])]
    simp only [hr]
    rw [if_neg (by simp), if_neg (by simp [hk]), if_neg hk, if_neg (by rw [hany]; simp), setItem_ok hwf _ _ hno, upsert_new hk]
  unfold call runLayer
  simp only [hb, call_params, call_reuse, hreg, hm, hp]

theorem distinct {net : ConvNet} (hnd : (varsOf net.layers).Nodup) :
    (net.kernel0 ≠ net.bias0 ∧ net.kernel0 ≠ net.kernel2 ∧ net.kernel0 ≠ net.bias2 ∧ net.kernel0 ≠ net.kernel4 ∧ net.kernel0 ≠ net.bias4) ∧
    (net.bias0 ≠ net.kernel2 ∧ net.bias0 ≠ net.bias2 ∧ net.bias0 ≠ net.kernel4 ∧ net.bias0 ≠ net.bias4) ∧
    (net.kernel2 ≠ net.bias2 ∧ net.kernel2 ≠ net.kernel4 ∧ net.kernel2 ≠ net.bias4) ∧
    (net.bias2 ≠ net.kernel4 ∧ net.bias2 ≠ net.bias4) ∧ net.kernel4 ≠ net.bias4 := by
  simpa only [varsOf, ConvNet.layers, List.flatMap_cons, List.flatMap_nil, List.cons_append, List.nil_append, List.append_nil,
    List.nodup_cons, List.mem_cons, List.not_mem_nil, or_false, not_or, not_false_eq_true, List.nodup_nil, and_true] using hnd

section steps

set_option linter.unusedSimpArgs false

variable {net : ConvNet} (hnd : (varsOf net.layers).Nodup) (t0 t2 t4 : List Data) (u0 u2 u4 n : Nat) (i o : TensorArg)

include hnd

theorem conv0_again : call (collection net t0 t2 t4 u0 u2 u4 n) (.conv2d (.seq [net.kernel0, net.bias0]) [1, 1, 1, 1] none i o none
    (.variableScope .yes)) = .ok (collection net (t0 ++ [.io i o]) t2 t4 (u0 + 1) u2 u4 n) := by
  obtain ⟨⟨a1, a2, a3, a4, a5⟩, ⟨b1, b2, b3, b4⟩, ⟨c1, c2, c3⟩, ⟨d1, d2⟩, e1⟩ := distinct hnd
  rw [call_again (spec := { cls := "ConvKFCBasicFB" }) (b := ⟨{ cls := "ConvKFCBasicFB" }, t0⟩)
    rfl (by rfl) rfl rfl rfl (by simp [collection, lookup_cons, LayerOp.params, LayerOp.call]) rfl]
  simp [LayerOp.params, LayerOp.call, addTower, addUses, collection, Params.vars, bump, upsert, lookup_cons, Uses.add,
    a1, a2, a3, a4, a5, b1, b2, b3, b4, c1, c2, c3, d1, d2, e1, a1.symm, a2.symm, a3.symm, a4.symm, a5.symm, b1.symm, b2.symm, b3.symm,
    b4.symm, c1.symm, c2.symm, c3.symm, d1.symm, d2.symm, e1.symm]

theorem conv2_again : call (collection net t0 t2 t4 u0 u2 u4 n) (.conv2d (.seq [net.kernel2, net.bias2]) [1, 1, 1, 1] none i o none
    (.variableScope .yes)) = .ok (collection net t0 (t2 ++ [.io i o]) t4 u0 (u2 + 1) u4 n) := by
  obtain ⟨⟨a1, a2, a3, a4, a5⟩, ⟨b1, b2, b3, b4⟩, ⟨c1, c2, c3⟩, ⟨d1, d2⟩, e1⟩ := distinct hnd
  rw [call_again (spec := { cls := "ConvKFCBasicFB" }) (b := ⟨{ cls := "ConvKFCBasicFB" }, t2⟩)
    rfl (by rfl) rfl rfl rfl (by simp [collection, lookup_cons, LayerOp.params, LayerOp.call, a2]) rfl]
  simp [LayerOp.params, LayerOp.call, addTower, addUses, collection, Params.vars, bump, upsert, lookup_cons, Uses.add,
    a1, a2, a3, a4, a5, b1, b2, b3, b4, c1, c2, c3, d1, d2, e1, a1.symm, a2.symm, a3.symm, a4.symm, a5.symm, b1.symm, b2.symm, b3.symm,
    b4.symm, c1.symm, c2.symm, c3.symm, d1.symm, d2.symm, e1.symm]

theorem fc4_again : call (collection net t0 t2 t4 u0 u2 u4 n) (.fullyConnected (.seq [net.kernel4, net.bias4]) i o none true
    (.variableScope .yes)) = .ok (collection net t0 t2 (t4 ++ [.io i o]) u0 u2 (u4 + 1) n) := by
  obtain ⟨⟨a1, a2, a3, a4, a5⟩, ⟨b1, b2, b3, b4⟩, ⟨c1, c2, c3⟩, ⟨d1, d2⟩, e1⟩ := distinct hnd
  rw [call_again (spec := { cls := "FullyConnectedKFACBasicFB" }) (b := ⟨{ cls := "FullyConnectedKFACBasicFB" }, t4⟩)
    rfl (by rfl) rfl rfl rfl (by simp [collection, lookup_cons, LayerOp.params, LayerOp.call, a4, c2]) rfl]
  simp [LayerOp.params, LayerOp.call, addTower, addUses, collection, Params.vars, bump, upsert, lookup_cons, Uses.add,
    a1, a2, a3, a4, a5, b1, b2, b3, b4, c1, c2, c3, d1, d2, e1, a1.symm, a2.symm, a3.symm, a4.symm, a5.symm, b1.symm, b2.symm, b3.symm,
    b4.symm, c1.symm, c2.symm, c3.symm, d1.symm, d2.symm, e1.symm]

end steps

theorem loss_again (net : ConvNet) (t0 t2 t4 : List Data) (u0 u2 u4 n : Nat) :
    registerLoss (collection net t0 t2 t4 u0 u2 u4 (n + 1)) (some "logits") "" 1 (.variableScope .yes) =
      (collection net t0 t2 t4 u0 u2 u4 (n + 2), .ok ()) := by
  unfold registerLoss
  have h1 : lookup (List.map (fun x => (x, (1 : ℚ))) (List.range (n + 1))) 0 = some 1 := by
    rw [List.range_succ_eq_map]
    simp [lookup_cons]
  have h2 : n + 1 ∉ (List.map (fun x => (x, (1 : ℚ))) (List.range (n + 1))).map (·.1) := by simp
  have h3 : (List.range (n + 1)).head? = some 0 := by rw [List.range_succ_eq_map]; rfl
  have h4 : List.range (n + 2) = List.range (n + 1) ++ [n + 1] := List.range_succ
  have h5 : (List.range (n + 1)).head?.bind (lookup (List.map (fun x => (x, (1 : ℚ))) (List.range (n + 1)))) = some 1 := by
    rw [h3]
    exact h1
  simp only [collection, LC.init, ReuseArg.resolve, Bool.false_eq_true, if_false, lookup_cons, upsert_new h2, h4]
  simp [upsert, h5]

theorem tower_next (net : ConvNet) (hnd : (varsOf net.layers).Nodup) (done : List (Nat × Nat)) (hd : done ≠ []) (next : Nat) (x : Tensor) :
    buildModel net .yes (towersDone net done) next x =
      .ok (towersDone net (done ++ [(x.id, next)]), next + 8, logitsOf net next x) := by
  obtain ⟨n, hn⟩ : ∃ n, done.length = n + 1 := ⟨done.length - 1, by have := List.length_pos_iff.mpr hd; omega⟩
  simp only [buildModel, towersDone, hn, loss_again]
  rw [conv0_again hnd]
  simp only [bind, Except.bind]
  rw [conv2_again hnd]
  simp only []
  rw [fc4_again hnd]
  simp [pure, Except.pure, hn, logitsOf, Tensor.id]

theorem call_wf {lc lc' : LC} {op : LayerOp} (h : WF lc.blocks) (hc : call lc op = .ok lc') : WF lc'.blocks := by
  have h1 := h.runLayer (op.call lc)
  unfold call at hc
  rcases hr : runLayer lc (op.call lc) with ⟨l, e | u⟩
  · rw [hr] at hc
    exact absurd hc (by simp)
  · rw [hr] at hc h1
    exact Except.ok.inj hc ▸ h1

set_option linter.unusedSimpArgs false in
theorem tower_first (net : ConvNet) (hnd : (varsOf net.layers).Nodup) (next : Nat) (x : Tensor) :
    buildModel net .no LC.init next x = .ok (towersDone net [(x.id, next)], next + 8, logitsOf net next x) := by
  obtain ⟨⟨a1, a2, a3, a4, a5⟩, ⟨b1, b2, b3, b4⟩, ⟨c1, c2, c3⟩, ⟨d1, d2⟩, e1⟩ := distinct hnd
  have hloss : registerLoss LC.init (some "logits") "" 1 (.variableScope .no) =
      ({ LC.init with lossDict := [("logits", [0])], lossCoeffs := [(0, 1)], nextLoss := 1 }, .ok ()) := by
    simp [registerLoss, LC.init, ReuseArg.resolve, upsert]
  simp only [buildModel, hloss]
  have h0 : call { LC.init with lossDict := [("logits", [0])], lossCoeffs := [(0, 1)], nextLoss := 1 }
      (.conv2d (.seq [net.kernel0, net.bias0]) [1, 1, 1, 1] none (.tensor x.id) (.tensor next) none (.variableScope .no)) =
      .ok { LC.init with
        lossDict := [("logits", [0])], lossCoeffs := [(0, 1)], nextLoss := 1
        blocks := ⟨[(.seq [net.kernel0, net.bias0], ⟨{ cls := "ConvKFCBasicFB" }, [.io (.tensor x.id) (.tensor next)]⟩)],
          ∅ ∪ [net.kernel0, net.bias0].toFinset⟩
        uses := [(net.kernel0, .fin 1), (net.bias0, .fin 1)] } := by
    rw [call_first (spec := { cls := "ConvKFCBasicFB" }) rfl (by rfl) rfl rfl rfl WF.empty (by simp [LC.init, LPD.keys, LPD.empty])
      (by simp [LC.init, LPD.keys, LPD.empty])]
    simp [LayerOp.params, LayerOp.call, addTower, addUses, LC.init, LPD.empty, Params.vars, bump, upsert, lookup_cons, lookup_nil,
      Uses.add, a1, a1.symm]
  have w0 := call_wf WF.empty h0
  have h2 : call { LC.init with
        lossDict := [("logits", [0])], lossCoeffs := [(0, 1)], nextLoss := 1
        blocks := ⟨[(.seq [net.kernel0, net.bias0], ⟨{ cls := "ConvKFCBasicFB" }, [.io (.tensor x.id) (.tensor next)]⟩)],
          ∅ ∪ [net.kernel0, net.bias0].toFinset⟩
        uses := [(net.kernel0, .fin 1), (net.bias0, .fin 1)] }
      (.conv2d (.seq [net.kernel2, net.bias2]) [1, 1, 1, 1] none (.tensor (next + 2)) (.tensor (next + 3)) none (.variableScope .no)) =
      .ok { LC.init with
        lossDict := [("logits", [0])], lossCoeffs := [(0, 1)], nextLoss := 1
        blocks := ⟨[(.seq [net.kernel0, net.bias0], ⟨{ cls := "ConvKFCBasicFB" }, [.io (.tensor x.id) (.tensor next)]⟩),
            (.seq [net.kernel2, net.bias2], ⟨{ cls := "ConvKFCBasicFB" }, [.io (.tensor (next + 2)) (.tensor (next + 3))]⟩)],
          (∅ ∪ [net.kernel0, net.bias0].toFinset) ∪ [net.kernel2, net.bias2].toFinset⟩
        uses := [(net.kernel0, .fin 1), (net.bias0, .fin 1), (net.kernel2, .fin 1), (net.bias2, .fin 1)] } := by
    rw [call_first (spec := { cls := "ConvKFCBasicFB" }) rfl (by rfl) rfl rfl rfl w0
      (by simp [LPD.keys, LayerOp.params, LayerOp.call, a2.symm])
      (by simp [LPD.keys, LayerOp.params, LayerOp.call, Params.vars, a2.symm, a3.symm, b1.symm, b2.symm])]
    simp [LayerOp.params, LayerOp.call, addTower, addUses, LC.init, LPD.empty, Params.vars, bump, upsert, lookup_cons, lookup_nil,
      Uses.add, a1, a2, a3, b1, b2, c1, a1.symm, a2.symm, a3.symm, b1.symm, b2.symm, c1.symm]
  have w2 := call_wf w0 h2
  have h4 : call { LC.init with
        lossDict := [("logits", [0])], lossCoeffs := [(0, 1)], nextLoss := 1
        blocks := ⟨[(.seq [net.kernel0, net.bias0], ⟨{ cls := "ConvKFCBasicFB" }, [.io (.tensor x.id) (.tensor next)]⟩),
            (.seq [net.kernel2, net.bias2], ⟨{ cls := "ConvKFCBasicFB" }, [.io (.tensor (next + 2)) (.tensor (next + 3))]⟩)],
          (∅ ∪ [net.kernel0, net.bias0].toFinset) ∪ [net.kernel2, net.bias2].toFinset⟩
        uses := [(net.kernel0, .fin 1), (net.bias0, .fin 1), (net.kernel2, .fin 1), (net.bias2, .fin 1)] }
      (.fullyConnected (.seq [net.kernel4, net.bias4]) (.tensor (next + 6)) (.tensor (next + 7)) none true (.variableScope .no)) =
      .ok (towersDone net [(x.id, next)]) := by
    rw [call_first (spec := { cls := "FullyConnectedKFACBasicFB" }) rfl (by rfl) rfl rfl rfl w2
      (by simp [LPD.keys, LayerOp.params, LayerOp.call, a4.symm, c2.symm])
      (by simp [LPD.keys, LayerOp.params, LayerOp.call, Params.vars, a4.symm, a5.symm, b3.symm, b4.symm, c2.symm, c3.symm, d1.symm,
        d2.symm])]
    simp [LayerOp.params, LayerOp.call, addTower, addUses, LC.init, Params.vars, bump, upsert, lookup_cons, lookup_nil,
      towersDone, collection, Uses.add, a1, a2, a3, a4, a5, b1, b2, b3, b4, c1, c2, c3, d1, d2, e1, a1.symm, a2.symm, a3.symm, a4.symm,
      a5.symm, b1.symm, b2.symm, b3.symm, b4.symm, c1.symm, c2.symm, c3.symm, d1.symm, d2.symm, e1.symm]
  have key : ∀ {α β : Type} {m : Except String α} {a : α} {f : α → Except String β}, m = .ok a → (m >>= f) = f a := by
    rintro α β m a f rfl
    rfl
  exact (key h0).trans ((key h2).trans ((key h4).trans rfl))

/-- The collection and the logits of all towers after the first. -/
theorem towers_next (net : ConvNet) (hnd : (varsOf net.layers).Nodup) (xs : List Tensor) : ∀ (done : List (Nat × Nat)) (next : Nat),
    done ≠ [] → ∃ zs : List (Nat × Tensor), zs.map (·.2) = xs ∧
      buildTowers net xs false (towersDone net done) next =
        .ok (towersDone net (done ++ zs.map fun z => (z.2.id, z.1)), zs.map fun z => logitsOf net z.1 z.2) := by
  induction xs with
  | nil =>
    intro done next _
    exact ⟨[], rfl, by simp [buildTowers]⟩
  | cons x xs ih =>
    intro done next hd
    obtain ⟨zs, hl, h⟩ := ih (done ++ [(x.id, next)]) (next + 8) (by simp)
    refine ⟨(next, x) :: zs, by simp [hl], ?_⟩
    simp only [buildTowers, Bool.false_eq_true, if_false, tower_next net hnd done hd, bind, Except.bind, h]
    simp [pure, Except.pure]

/-- C132: with any number of towers, building and registering the convolutional network succeeds; there is one block for every
layer, with one pair of an input and a result before the activation function for each tower, in the order of the towers, and one
loss for each tower under one name. An optimizer for all variables accepts the collection. -/
theorem C132_towers (net : ConvNet) (hnd : (varsOf net.layers).Nodup) (xs : List Tensor) (hx : ∀ x ∈ xs, layersBelow x = [])
    (hne : xs ≠ []) (next : Nat) :
    ∃ lc logits, buildTowers net xs true LC.init next = .ok (lc, logits) ∧
      logits.map (fun t => (layersBelow t).head?.map (·.2.1)) = xs.map (fun x => some x.id) ∧
      (∀ t ∈ logits, (layersBelow t).map (·.1) = net.layers.map fun l => [l.1, l.2]) ∧
      lc.blocks.entries.map (fun e => (e.1, e.2.spec.cls)) = [(.seq [net.kernel0, net.bias0], "ConvKFCBasicFB"),
        (.seq [net.kernel2, net.bias2], "ConvKFCBasicFB"), (.seq [net.kernel4, net.bias4], "FullyConnectedKFACBasicFB")] ∧
      (∀ j < 3, (lc.blocks.entries[j]?).map (fun e => e.2.towers.map some) =
        some (logits.map fun t => ((layersBelow t)[j]?).map fun l => Data.io (.tensor l.2.1) (.tensor l.2.2))) ∧
      lc.towersByLoss = [List.range xs.length] ∧
      ∀ vars : List Var, vars.Perm (varsOf net.layers) →
        (estimatorFinalize (fun v => (logits.map (usesBelow · v)).sum) vars lc false).2 = (true, .ok ()) := by
  obtain ⟨zs, hz, h⟩ : ∃ zs : List (Nat × Tensor), zs.map (·.2) = xs ∧ buildTowers net xs true LC.init next =
      .ok (towersDone net (zs.map fun z => (z.2.id, z.1)), zs.map fun z => logitsOf net z.1 z.2) := by
    obtain ⟨x, xs, rfl⟩ := List.exists_cons_of_ne_nil hne
    obtain ⟨zs, hz, h⟩ := towers_next net hnd xs [(x.id, next)] (next + 8) (by simp)
    refine ⟨(next, x) :: zs, by simp [hz], ?_⟩
    simp only [buildTowers, if_true, tower_first net hnd, bind, Except.bind, h]
    simp [pure, Except.pure]
  subst hz
  have hbelow : ∀ z ∈ zs, layersBelow (logitsOf net z.1 z.2) = [([net.kernel0, net.bias0], z.2.id, z.1),
      ([net.kernel2, net.bias2], z.1 + 2, z.1 + 3), ([net.kernel4, net.bias4], z.1 + 6, z.1 + 7)] := by
    intro z hz
    have := hx z.2 (List.mem_map_of_mem hz)
    simp [logitsOf, layersBelow, this, Tensor.id]
  refine ⟨_, _, h, ?_, ?_, rfl, ?_, ?_, fun vars hp => ?_⟩
  · rw [List.map_map, List.map_map]
    refine List.map_congr_left fun z hz => ?_
    simp [hbelow z hz]
  · intro t ht
    obtain ⟨z, hz, rfl⟩ := List.mem_map.mp ht
    rw [hbelow z hz]
    rfl
  · intro j hj
    have hj' : j = 0 ∨ j = 1 ∨ j = 2 := by omega
    rcases hj' with rfl | rfl | rfl
    all_goals
      simp only [towersDone, collection, List.getElem?_cons_zero, List.getElem?_cons_succ, Option.map_some, List.map_map]
      refine congrArg some (List.map_congr_left fun z hz => ?_)
      simp [hbelow z hz]
  · simp [LC.towersByLoss, towersDone, collection]
  · have hpos : zs.length ≠ 0 := by
      intro h0
      exact hne (by simp [List.length_eq_zero_iff.mp h0])
    refine finalize_passes rfl ?_ ?_ fun v hv => ?_
    · simpa [LC.losses, LC.towersByLoss, towersDone, collection] using hpos
    · rw [hp.length_eq]
      simp [towersDone, collection, varsOf, ConvNet.layers]
    · have hv' := hp.mem_iff.mp hv
      have hc : ∀ z ∈ zs, usesBelow (logitsOf net z.1 z.2) v = 1 := by
        intro z hz
        have := count_one net.layers hnd hv'
        have e : net.layers.map (fun l => [l.1, l.2]) = (layersBelow (logitsOf net z.1 z.2)).map (·.1) := by
          rw [hbelow z hz]
          rfl
        rw [e, List.countP_map] at this
        exact this
      have hsum : (List.map (usesBelow · v) (zs.map fun z => logitsOf net z.1 z.2)).sum = zs.length := by
        rw [List.map_map, List.map_congr_left (f := (usesBelow · v) ∘ fun z : Nat × Tensor => logitsOf net z.1 z.2) (g := fun _ => 1) fun z hz => hc z hz]
        simp
      rw [hsum]
      refine ⟨hpos, ?_⟩
      have := lookup_ones hv' zs.length
      simpa [towersDone, collection, varsOf, ConvNet.layers] using this

/-! ### Examples -/

/-- Four layers in the autoencoder: the first layer of the decoder follows the last one of the encoder directly. -/
example : ∃ lc, construct [(⟨0, [4, 3]⟩, ⟨1, [3]⟩), (⟨2, [3, 2]⟩, ⟨3, [2]⟩)] [(⟨4, [2, 3]⟩, ⟨5, [3]⟩), (⟨6, [3, 4]⟩, ⟨7, [4]⟩)] "loss" 1 (.input 0) =
    .ok (lc, 7, .layer 6 [⟨6, [3, 4]⟩, ⟨7, [4]⟩] (.other 5 (.layer 4 [⟨4, [2, 3]⟩, ⟨5, [3]⟩] (.layer 3 [⟨2, [3, 2]⟩, ⟨3, [2]⟩]
      (.other 2 (.layer 1 [⟨0, [4, 3]⟩, ⟨1, [3]⟩] (.input 0))))))) ∧ lc.blocks.keys.length = 4 := by
  obtain ⟨lc, n, t, h1, h2, h3, h4, -, -⟩ := C132_autoencoder [(⟨0, [4, 3]⟩, ⟨1, [3]⟩), (⟨2, [3, 2]⟩, ⟨3, [2]⟩)]
    [(⟨4, [2, 3]⟩, ⟨5, [3]⟩), (⟨6, [3, 4]⟩, ⟨7, [4]⟩)] (by decide) "loss" 1 (.input 0) rfl
  have h5 := h2.symm.trans (show autoencoder [(⟨0, [4, 3]⟩, ⟨1, [3]⟩), (⟨2, [3, 2]⟩, ⟨3, [2]⟩)]
    [(⟨4, [2, 3]⟩, ⟨5, [3]⟩), (⟨6, [3, 4]⟩, ⟨7, [4]⟩)] none 1 (.input 0) = .ok (none, 7, _) from rfl)
  have h6 := Except.ok.inj h5
  simp only [Prod.mk.injEq, true_and] at h6
  obtain ⟨rfl, rfl⟩ := h6
  refine ⟨lc, h1, ?_⟩
  rw [LPD.keys, h4]
  rfl

/-- The hypotheses of the theorem about towers hold for three towers. -/
example : ∃ (net : ConvNet) (xs : List Tensor), (varsOf net.layers).Nodup ∧ (∀ x ∈ xs, layersBelow x = []) ∧ xs.length = 3 :=
  ⟨⟨⟨0, [5, 5, 1, 16]⟩, ⟨1, [16]⟩, ⟨2, [5, 5, 16, 16]⟩, ⟨3, [16]⟩, ⟨4, [784, 10]⟩, ⟨5, [10]⟩⟩,
    [.other 1 (.input 0), .other 2 (.input 0), .other 3 (.input 0)], by decide, by simp [layersBelow], rfl⟩

end Kfac.Examples.Manual
