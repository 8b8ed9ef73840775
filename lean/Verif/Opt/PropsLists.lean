import Verif.Opt.Lists
import Verif.Est.PropsTransform
import Mathlib.Tactic.Ring
import Mathlib.Tactic.NormNum
import Mathlib.Tactic.FinCases
import Mathlib.LinearAlgebra.Matrix.Notation
import Mathlib.Algebra.BigOperators.Fin

/-!
# C94 — `minimize` moves every registered variable by the update of the vector model, and no other variable
-/

namespace Kfac.Opt
open Kfac.Exec Kfac.Est Matrix

set_option linter.unusedSectionVars false

variable {K E κ : Type} [DecidableEq K] [Fintype E] [Fintype κ]

/-! ### Specification -/

/-- The registered variables as a type. -/
abbrev Reg (reg : List K) : Type := {k // k ∈ reg}

instance (reg : List K) : Fintype (Reg reg) := List.Subtype.fintype reg

/-- The part of an assignment of tensors that belongs to registered variables, as one vector. -/
def flat (reg : List K) (x : K → Tens E) : Vec (Reg reg × E) := fun i => x i.1.1 i.2

/-- The registered part of the state. -/
def restrict (reg : List K) (s : State (K × E)) : State (Reg reg × E) :=
  { counter := s.counter, params := fun i => s.params (i.1.1, i.2), velocity := fun i => s.velocity (i.1.1, i.2),
    damping := s.damping, prevLoss := s.prevLoss, qChange := s.qChange, rho := s.rho, qLearningRate := s.qLearningRate,
    qMomentum := s.qMomentum }

/-- Values for all variables, from values for the registered ones and values for the others. -/
def glue (reg : List K) (θ : Vec (Reg reg × E)) (frozen : Vec (K × E)) : Vec (K × E) := fun i =>
  if h : i.1 ∈ reg then θ (⟨i.1, h⟩, i.2) else frozen i

/-- What the vector model of a run needs, when the unregistered variables have the values `frozen`, the inverses act as the matrix
`P` and the blocks as the matrix `C`. -/
def ListIn.vectorIn (inp : ListIn K E κ) (reg : List K) (frozen : Vec (K × E)) (grad : Vec (Reg reg × E) → Vec (Reg reg × E))
    (P C : Matrix (Reg reg × E) (Reg reg × E) ℝ) : StepIn (Reg reg × E) κ :=
  { passedLoss := fun θ => inp.passedLoss (glue reg θ frozen)
    fnLoss := fun θ => inp.fnLoss (glue reg θ frozen)
    prevFnLoss := fun θ => inp.prevFnLoss (glue reg θ frozen)
    grad := grad
    precon := P
    curv := C
    factor := Matrix.of fun i c => inp.factor (i.1.1, i.2) c
    batchSize := inp.batchSize }

/-- The blocks of the program: `ops` gives for every block the function of `multiply_inverse` and that of `multiply`; together
they are the matrices `P` and `C`; no variable is in two blocks and there is at least one. -/
structure Described (reg : List K) (inp : ListIn K E κ) (ops : List (BlockOp K (Tens E) × BlockOp K (Tens E)))
    (P C : Matrix (Reg reg × E) (Reg reg × E) ℝ) : Prop where
  registered : inp.registered = reg
  blocks : inp.blocks = ops.map fun o => (o.1.key, o.1.run, o.2.run)
  keys : ∀ o ∈ ops, o.2.key = o.1.key
  keepsInverse : ∀ o ∈ ops, o.1.Keeps
  keepsMultiply : ∀ o ∈ ops, o.2.Keeps
  nodup : reg.Nodup
  nonempty : reg ≠ []
  inverse : ∀ x (i : Reg reg), blockwise (ops.map (·.1)) x i.1 = some fun e => (P *ᵥ flat reg x) (i, e)
  multiply : ∀ x (i : Reg reg), blockwise (ops.map (·.2)) x i.1 = some fun e => (C *ᵥ flat reg x) (i, e)

/-- A list of variables that names every registered variable once, and no other. -/
structure Lists (reg : List K) (l : List K) : Prop where
  nodup : l.Nodup
  same : ∀ k, k ∈ l ↔ k ∈ reg

/-! ### Lemmas -/

/-- The pairs of an assignment in the order of `l`. -/
def pairsOf (l : List K) (x : K → Tens E) : Pairs K E := l.map fun k => (x k, k)

theorem pairsOf_fst (l : List K) (x : K → Tens E) : (pairsOf l x).map (·.1) = l.map x := by
  simp [pairsOf, Function.comp_def]

theorem pairsOf_snd (l : List K) (x : K → Tens E) : (pairsOf l x).map (·.2) = l := by
  simp [pairsOf, Function.comp_def]

theorem sum_reg (reg : List K) (l : List K) (hl : Lists reg l) (f : K → ℝ) :
    (l.map f).sum = ∑ i : Reg reg, f i.1 := by
  rw [← List.sum_toFinset f hl.nodup]
  exact (Finset.sum_subtype l.toFinset (fun k => by rw [List.mem_toFinset]; exact hl.same k) f)

theorem zip_self {α β γ : Type} (l : List α) (f : α → β) (g : α → γ) :
    (l.map f).zip (l.map g) = l.map fun k => (f k, g k) := by
  induction l with
  | nil => rfl
  | cons a l ih => simp [ih]

theorem dot_reg (reg : List K) (x y : K → Tens E) :
    flat reg x ⬝ᵥ flat reg y = ∑ i : Reg reg, innerProduct (x i.1) (y i.1) := by
  simp only [dotProduct, Fintype.sum_prod_type, flat, innerProduct]

theorem ip_pairs (reg : List K) (l : List K) (hl : Lists reg l) (hne : l ≠ []) (x y : K → Tens E) :
    ip (l.map x) (l.map y) = .ok (flat reg x ⬝ᵥ flat reg y) := by
  unfold ip
  rw [zip_self, if_neg (by simpa using hne), List.map_map, dot_reg]
  congr 1
  exact sum_reg reg l hl fun k => innerProduct (x k) (y k)

theorem checkMatch_pairs (l : List K) (x y : K → Tens E) : checkMatch (pairsOf l x) (pairsOf l y) = .ok () := by
  unfold checkMatch pairsOf
  rw [zip_self, if_neg (by simp)]

theorem ipP_pairs (reg : List K) (l : List K) (hl : Lists reg l) (hne : l ≠ []) (x y : K → Tens E) :
    ipP (pairsOf l x) (pairsOf l y) = .ok (flat reg x ⬝ᵥ flat reg y) := by
  unfold ipP
  rw [checkMatch_pairs, pairsOf_fst, pairsOf_fst, ip_pairs reg l hl hne]
  rfl

theorem assertMatch_pairs (l : List K) (hne : l ≠ []) (x y : K → Tens E) :
    assertVariablesMatch (pairsOf l x) (pairsOf l y) = .ok () := by
  unfold assertVariablesMatch
  rw [pairsOf_snd, pairsOf_snd, if_neg (by simp [pairsOf, hne]), if_neg]
  have := zip_self l (fun k => k) fun k => k
  simp only [List.map_id'] at this
  rw [this]
  simp

theorem sprodP_pairs (l : List K) (c : ℝ) (x : K → Tens E) : sprodP c (pairsOf l x) = pairsOf l fun k => c • x k := by
  simp [sprodP, pairsOf, Function.comp_def]

theorem flat_smul (reg : List K) (c : ℝ) (x : K → Tens E) : flat reg (fun k => c • x k) = c • flat reg x := rfl

theorem flat_add (reg : List K) (x y : K → Tens E) : flat reg (fun k => x k + y k) = flat reg x + flat reg y := rfl

theorem keyVars_key (b : BlockOp K (Tens E)) : keyVars b.key = b.vars := by
  cases b with
  | single k f => rfl
  | many ks f =>
    simp only [BlockOp.key, keyVars, BlockOp.vars, List.filterMap_map, Function.comp_def]
    exact List.filterMap_some

theorem registered_eq (inp : ListIn K E κ) (ops : List (BlockOp K (Tens E) × BlockOp K (Tens E)))
    (h : inp.blocks = ops.map fun o => (o.1.key, o.1.run, o.2.run)) :
    inp.registered = (ops.map (·.1)).flatMap BlockOp.vars := by
  unfold ListIn.registered
  rw [h]
  simp only [List.map_map, Function.comp_def, List.flatMap_map, keyVars_key]

theorem vars_of_key (a b : BlockOp K (Tens E)) (h : a.key = b.key) : a.vars = b.vars := by
  rw [← keyVars_key, h, keyVars_key]

theorem asTensor_pairs (l : List K) (y : K → Tens E) :
    (l.map fun k => ((Val.leaf (y k), k) : Val (Tens E) × K)).mapM asTensor = .ok (pairsOf l y) := by
  rw [List.mapM_map]
  exact mapM_ok' _ (fun k => (y k, k)) l fun k _ => rfl

theorem transform_pairs (reg : List K) (bs : List (BlockOp K (Tens E))) (M : Matrix (Reg reg × E) (Reg reg × E) ℝ)
    (hreg : reg = bs.flatMap BlockOp.vars) (hn : reg.Nodup) (hk : ∀ b ∈ bs, b.Keeps)
    (hM : ∀ x (i : Reg reg), blockwise bs x i.1 = some fun e => (M *ᵥ flat reg x) (i, e))
    (l : List K) (hl : Lists reg l) (x : K → Tens E) :
    ∃ y, flat reg y = M *ᵥ flat reg x ∧
      computeTransformation (D := Unit) .none (bs.map fun b => (b.key, b.run)) (pairsOf l x) =
        .ok (l.map fun k => (.leaf (y k), k)) := by
  have hfit : Fitting bs (pairsOf l x) := by
    refine ⟨hreg ▸ hn, hk, ?_, ?_⟩
    · rw [pairsOf_snd]; exact hl.nodup
    · intro k
      rw [pairsOf_snd, hl.same, hreg]
  obtain ⟨y, hy1, hy2⟩ := C80_blockwise (D := Unit) .none (Or.inl rfl) bs (pairsOf l x) hfit x (by
    intro p hp
    obtain ⟨k, -, rfl⟩ := List.mem_map.1 hp
    rfl)
  refine ⟨y, ?_, ?_⟩
  · funext i
    have hmem : (x i.1.1, i.1.1) ∈ pairsOf l x := List.mem_map.2 ⟨i.1.1, (hl.same _).2 i.1.2, rfl⟩
    have h1 := hy1 _ hmem
    rw [hM x i.1] at h1
    exact (congrFun (Option.some.inj h1) i.2).symm
  · rw [hy2]
    simp [pairsOf, Function.comp_def]

section
variable {reg : List K} {inp : ListIn K E κ} {ops : List (BlockOp K (Tens E) × BlockOp K (Tens E))}
  {P C : Matrix (Reg reg × E) (Reg reg × E) ℝ}

theorem inverse_pairs (h : Described reg inp ops P C) (l : List K) (hl : Lists reg l) (x : K → Tens E) :
    ∃ y, flat reg y = P *ᵥ flat reg x ∧ inp.multiplyInverse (pairsOf l x) = .ok (pairsOf l y) := by
  obtain ⟨y, hy1, hy2⟩ := transform_pairs reg (ops.map (·.1)) P (h.registered ▸ registered_eq inp ops h.blocks) h.nodup
    (by simpa using fun a b hab => h.keepsInverse (a, b) hab) h.inverse l hl x
  refine ⟨y, hy1, ?_⟩
  unfold ListIn.multiplyInverse
  rw [h.blocks, List.map_map]
  rw [List.map_map] at hy2
  simp only [Function.comp_def] at hy2 ⊢
  rw [hy2]
  exact asTensor_pairs l y

theorem multiply_pairs (h : Described reg inp ops P C) (l : List K) (hl : Lists reg l) (x : K → Tens E) :
    ∃ y, flat reg y = C *ᵥ flat reg x ∧ inp.multiply (pairsOf l x) = .ok (pairsOf l y) := by
  have hreg : reg = (ops.map (·.2)).flatMap BlockOp.vars := by
    rw [← h.registered, registered_eq inp ops h.blocks, List.flatMap_map, List.flatMap_map]
    exact List.flatMap_congr fun o ho => vars_of_key _ _ (h.keys o ho).symm
  obtain ⟨y, hy1, hy2⟩ := transform_pairs reg (ops.map (·.2)) C hreg h.nodup
    (by simpa using fun a b hab => h.keepsMultiply (b, a) hab) h.multiply l hl x
  refine ⟨y, hy1, ?_⟩
  unfold ListIn.multiply
  rw [h.blocks, List.map_map]
  rw [List.map_map] at hy2
  simp only [Function.comp_def] at hy2 ⊢
  rw [show (ops.map fun o => (o.1.key, o.2.run)) = ops.map fun o => (o.2.key, o.2.run) from
    List.map_congr_left fun o ho => by rw [h.keys o ho], hy2]
  exact asTensor_pairs l y

theorem clip_pairs (cfg : Config) (l : List K) (hl : Lists reg l) (hne : l ≠ []) (g x : K → Tens E) :
    ∃ y, flat reg y = clipUpdates cfg (flat reg g) (flat reg x) ∧
      clipUpdatesL cfg (pairsOf l g) (pairsOf l x) = .ok (pairsOf l y) := by
  unfold clipUpdates clipUpdatesL
  cases cfg.normConstraint with
  | none => exact ⟨x, rfl, rfl⟩
  | some c =>
    refine ⟨fun k => clipCoeff c cfg.learningRate (flat reg g) (flat reg x) • x k, rfl, ?_⟩
    dsimp only
    unfold clipCoeffL
    rw [ipP_pairs reg l hl hne, ← sprodP_pairs]
    rfl

end

theorem updateVelocities_pairs (l : List K) (hn : l.Nodup) (v : Vec (K × E)) (x : K → Tens E) (d c : ℝ) :
    updateVelocities v (pairsOf l x) d c =
      (pairsOf l fun k => d • readVar v k + c • x k, fun i => if i.1 ∈ l then d * v i + c * x i.1 i.2 else v i) := by
  induction l generalizing v with
  | nil => simp [updateVelocities, pairsOf]
  | cons a l ih =>
    have ha : a ∉ l := (List.nodup_cons.1 hn).1
    have hstep := ih (List.nodup_cons.1 hn).2 (setVar v a (d • readVar v a + c • x a))
    have hread : ∀ k ∈ l, readVar (setVar v a (d • readVar v a + c • x a)) k = readVar v k := by
      intro k hk
      funext e
      simp [readVar, setVar, ne_of_mem_of_not_mem hk ha]
    change (let new := d • readVar v a + c • x a
      let r := updateVelocities (setVar v a new) (pairsOf l x) d c
      ((new, a) :: r.1, r.2)) = _
    dsimp only
    rw [hstep]
    refine Prod.ext ?_ ?_
    · simp only [pairsOf, List.map_cons, List.cons.injEq, true_and]
      exact List.map_congr_left fun k hk => by rw [hread k hk]
    · funext i
      obtain ⟨k, e⟩ := i
      by_cases hk : k = a
      · subst hk
        simp [ha, setVar, readVar]
      · by_cases hkl : k ∈ l
        · simp [hkl, setVar, hk]
        · simp [hkl, hk, setVar]

theorem descend_pairs (l : List K) (hn : l.Nodup) (lr : ℝ) (x : K → Tens E) (θ : Vec (K × E)) :
    descend lr (pairsOf l x) θ = fun i => if i.1 ∈ l then θ i - lr * x i.1 i.2 else θ i := by
  induction l generalizing θ with
  | nil => simp [descend, pairsOf]
  | cons a l ih =>
    have ha : a ∉ l := (List.nodup_cons.1 hn).1
    have hstep := ih (List.nodup_cons.1 hn).2 (setVar θ a (readVar θ a - lr • x a))
    change descend lr (pairsOf l x) (setVar θ a (readVar θ a - lr • x a)) = _
    rw [hstep]
    funext i
    obtain ⟨k, e⟩ := i
    by_cases hk : k = a
    · subst hk
      simp [ha, setVar, readVar]
    · by_cases hkl : k ∈ l <;> simp [hkl, hk, setVar]

theorem factorTranspose_pairs (reg : List K) (inp : ListIn K E κ) (l : List K) (hl : Lists reg l) (x : K → Tens E) :
    factorTranspose inp.factor l (l.map x) =
      (Matrix.of fun (i : Reg reg × E) c => inp.factor (i.1.1, i.2) c)ᵀ *ᵥ flat reg x := by
  funext c
  unfold factorTranspose
  have hz : l.zip (l.map x) = l.map fun k => (k, x k) := by
    have := zip_self l (fun k => k) x
    rwa [List.map_id'] at this
  rw [hz, List.map_map]
  have := sum_reg reg l hl fun k => ∑ e, inp.factor (k, e) c * x k e
  rw [show ((fun p : K × Tens E => ∑ e, inp.factor (p.1, e) c * p.2 e) ∘ fun k => (k, x k)) =
    fun k => ∑ e, inp.factor (k, e) c * x k e from rfl, this]
  simp only [mulVec, dotProduct, Fintype.sum_prod_type, transpose_apply, of_apply, flat]

theorem qmodel_pairs (reg : List K) (inp : ListIn K E κ) (l : List K) (hl : Lists reg l) (hne : l ≠ []) (damping : ℝ) (x y z : K → Tens E) :
    computeQmodelL damping inp (pairsOf l x) (pairsOf l y) (pairsOf l z) =
      .ok (computeQmodel damping (Matrix.of fun (i : Reg reg × E) c => inp.factor (i.1.1, i.2) c) inp.batchSize (flat reg x)
        (flat reg y) (flat reg z)) := by
  unfold computeQmodelL
  rw [assertMatch_pairs l hne, assertMatch_pairs l hne, pairsOf_snd, pairsOf_fst, pairsOf_fst, pairsOf_fst]
  simp only [bind, Except.bind, ip_pairs reg l hl hne, factorTranspose_pairs reg inp l hl]
  rfl

section
variable {reg : List K} {inp : ListIn K E κ} {ops : List (BlockOp K (Tens E) × BlockOp K (Tens E))}
  {P C : Matrix (Reg reg × E) (Reg reg × E) ℝ}

theorem approx_pairs (h : Described reg inp ops P C) (cfg : Config) (damping : ℝ) (l : List K) (hl : Lists reg l) (hne : l ≠ [])
    (x g : K → Tens E) :
    approxQmodelChangeL cfg damping inp (pairsOf l x) (pairsOf l g) =
      .ok (approxQmodelChange cfg damping C (flat reg x) (flat reg g)) := by
  obtain ⟨y, hy, hm⟩ := multiply_pairs h l hl x
  unfold approxQmodelChangeL approxQmodelChange
  rw [hm, ← hy]
  simp only [bind, Except.bind, ipP_pairs reg l hl hne]
  rfl

/-- The velocity slots after the update of the variables of the list. -/
def slots (l : List K) (v : Vec (K × E)) (x : K → Tens E) (d c : ℝ) : Vec (K × E) := fun i =>
  if i.1 ∈ l then d * v i + c * x i.1 i.2 else v i

theorem slots_reg (l : List K) (hl : Lists reg l) (v : Vec (K × E)) (x : K → Tens E) (d c : ℝ) :
    (fun i : Reg reg × E => slots l v x d c (i.1.1, i.2)) =
      d • (fun i : Reg reg × E => v (i.1.1, i.2)) + c • flat reg x := by
  funext i
  simp [slots, (hl.same i.1.1).2 i.1.2, flat]

theorem slots_other (l : List K) (hl : Lists reg l) (v : Vec (K × E)) (x : K → Tens E) (d c : ℝ) (k : K)
    (hk : k ∉ reg) (e : E) : slots l v x d c (k, e) = v (k, e) := by
  have : k ∉ l := fun h => hk ((hl.same k).1 h)
  simp [slots, this]

theorem flat_velocity (s : State (K × E)) (x : K → Tens E) (d c : ℝ) :
    flat reg (fun k => d • readVar s.velocity k + c • x k) = d • (restrict reg s).velocity + c • flat reg x := rfl

theorem store_pos (cfg : Config) (s : State (K × E)) (v : Vec (K × E)) (ht : adaptationTime cfg s) (c : ℝ) :
    storeQmodelChange cfg { s with velocity := v } c = { s with velocity := v, qChange := some c } := if_pos ht

theorem store_neg (cfg : Config) (s : State (K × E)) (v : Vec (K × E)) (ht : ¬ adaptationTime cfg s) (c : ℝ) :
    storeQmodelChange cfg { s with velocity := v } c = { s with velocity := v } := if_neg ht

theorem raw_pairs (h : Described reg inp ops P C) (cfg : Config) (s : State (K × E)) (l : List K) (hl : Lists reg l) (hne : l ≠ [])
    (x : K → Tens E) :
    ∃ y s', rawUpdateStepsL cfg inp s (pairsOf l x) = .ok (pairsOf l y, s') ∧
      (flat reg y, restrict reg s') = rawUpdateWith cfg (flat reg x) P C
        (computeQmodel s.damping (Matrix.of fun (i : Reg reg × E) c => inp.factor (i.1.1, i.2) c) inp.batchSize)
        (restrict reg s) ∧
      s'.params = s.params ∧ ∀ k ∉ reg, ∀ e, s'.velocity (k, e) = s.velocity (k, e) := by
  have hq : ∀ mu : Option ℝ, ∃ y s', qmodelStepL cfg inp s (pairsOf l x) mu = .ok (pairsOf l y, s') ∧
      (let precon := P *ᵥ flat reg x
       let hyper := qmodelHyperparams cfg (restrict reg s).damping (computeQmodel s.damping
        (Matrix.of fun (i : Reg reg × E) c => inp.factor (i.1.1, i.2) c) inp.batchSize precon (-(restrict reg s).velocity)
        (flat reg x)) mu
       let velocity := hyper.2.1 • (restrict reg s).velocity + (-hyper.1) • precon
       (flat reg y, restrict reg s') = (velocity, { restrict reg s with
        velocity := velocity, qChange := some hyper.2.2, qLearningRate := some (-hyper.1),
        qMomentum := some hyper.2.1 })) ∧
      s'.params = s.params ∧ ∀ k ∉ reg, ∀ e, s'.velocity (k, e) = s.velocity (k, e) := by
    intro mu
    obtain ⟨p, hp, hm⟩ := inverse_pairs h l hl x
    have hprev : computePrevUpdates s.velocity ((pairsOf l x).map (·.2)) =
        pairsOf l fun k => (-1 : ℝ) • readVar s.velocity k := by
      rw [pairsOf_snd]
      rfl
    have hneg : flat reg (fun k => (-1 : ℝ) • readVar s.velocity k) = -(restrict reg s).velocity := by
      funext i
      simp [flat, restrict, readVar]
    unfold qmodelStepL
    rw [hm, hprev]
    simp only [bind, Except.bind, qmodel_pairs reg inp l hl hne, hp, hneg]
    rw [updateVelocities_pairs l hl.nodup]
    refine ⟨_, _, rfl, ?_, rfl, ?_⟩
    · dsimp only
      rw [flat_velocity, hp]
      refine Prod.ext rfl ?_
      have := slots_reg l hl s.velocity p
      simp only [restrict, State.mk.injEq, true_and, and_true]
      rw [← hp]
      exact slots_reg l hl s.velocity p _ _
    · exact fun k hk e => slots_other l hl s.velocity p _ _ k hk e
  unfold rawUpdateStepsL rawUpdateWith
  cases cfg.momentumType with
  | regular =>
    dsimp only
    obtain ⟨p, hp, hm⟩ := inverse_pairs h l hl x
    obtain ⟨c, hc, hcl⟩ := clip_pairs (reg := reg) cfg l hl hne x p
    rw [hm]
    simp only [bind, Except.bind, hcl]
    rw [updateVelocities_pairs l hl.nodup]
    rw [hp] at hc
    have hv : (fun i : Reg reg × E => slots l s.velocity c cfg.momentum 1 (i.1.1, i.2)) =
        cfg.momentum • (restrict reg s).velocity + clipUpdates cfg (flat reg x) (P *ᵥ flat reg x) := by
      rw [slots_reg l hl, hc, one_smul]
      rfl
    have hf : flat reg (fun k => cfg.momentum • readVar s.velocity k + (1 : ℝ) • c k) =
        cfg.momentum • (restrict reg s).velocity + clipUpdates cfg (flat reg x) (P *ᵥ flat reg x) := by
      rw [flat_velocity, hc, one_smul]
    by_cases had : cfg.adaptDamping ∧ cfg.isChief
    · simp only [if_pos had, sprodP_pairs, approx_pairs h cfg _ l hl hne]
      refine ⟨_, _, rfl, ?_, ?_, ?_⟩
      · rw [flat_smul, hf]
        by_cases ht : adaptationTime cfg s
        · rw [if_pos ⟨had.1, had.2, ht⟩, store_pos cfg s _ ht]
          refine Prod.ext rfl ?_
          simp only [restrict, State.mk.injEq, true_and, and_true]
          exact hv
        · rw [if_neg (fun hh => ht hh.2.2), store_neg cfg s _ ht]
          refine Prod.ext rfl ?_
          simp only [restrict, State.mk.injEq, true_and, and_true]
          exact hv
      · unfold storeQmodelChange; split_ifs <;> rfl
      · intro k hk e
        have := slots_other l hl s.velocity c cfg.momentum 1 k hk e
        unfold storeQmodelChange; split_ifs <;> exact this
    · simp only [if_neg had]
      refine ⟨_, _, rfl, ?_, rfl, ?_⟩
      · rw [hf, if_neg (fun hh => had ⟨hh.1, hh.2.1⟩)]
        refine Prod.ext rfl ?_
        simp only [restrict, State.mk.injEq, true_and, and_true]
        exact hv
      · exact fun k hk e => slots_other l hl s.velocity c _ _ k hk e
  | adam =>
    dsimp only
    rw [updateVelocities_pairs l hl.nodup]
    obtain ⟨p, hp, hm⟩ := inverse_pairs h l hl fun k => cfg.momentum • readVar s.velocity k + (1 : ℝ) • x k
    obtain ⟨c, hc, hcl⟩ := clip_pairs (reg := reg) cfg l hl hne
      (fun k => cfg.momentum • readVar s.velocity k + (1 : ℝ) • x k) p
    have hf : flat reg (fun k => cfg.momentum • readVar s.velocity k + (1 : ℝ) • x k) =
        cfg.momentum • (restrict reg s).velocity + flat reg x := by
      rw [flat_velocity, one_smul]
    have hv : (fun i : Reg reg × E => slots l s.velocity x cfg.momentum 1 (i.1.1, i.2)) =
        cfg.momentum • (restrict reg s).velocity + flat reg x := by
      rw [slots_reg l hl, one_smul]
      rfl
    rw [hp, hf] at hc
    rw [hm]
    simp only [bind, Except.bind, hcl]
    by_cases had : cfg.adaptDamping ∧ cfg.isChief
    · simp only [if_pos had, ipP_pairs reg l hl hne]
      refine ⟨_, _, rfl, ?_, ?_, ?_⟩
      · rw [hf, hc]
        by_cases ht : adaptationTime cfg s
        · rw [if_pos ⟨had.1, had.2, ht⟩, store_pos cfg s _ ht]
          refine Prod.ext rfl ?_
          simp only [restrict, State.mk.injEq, true_and, and_true]
          exact hv
        · rw [if_neg (fun hh => ht hh.2.2), store_neg cfg s _ ht]
          refine Prod.ext rfl ?_
          simp only [restrict, State.mk.injEq, true_and, and_true]
          exact hv
      · unfold storeQmodelChange; split_ifs <;> rfl
      · intro k hk e
        have := slots_other l hl s.velocity x cfg.momentum 1 k hk e
        unfold storeQmodelChange; split_ifs <;> exact this
    · simp only [if_neg had]
      refine ⟨_, _, rfl, ?_, rfl, ?_⟩
      · rw [hc, if_neg (fun hh => had ⟨hh.1, hh.2.1⟩)]
        refine Prod.ext rfl ?_
        simp only [restrict, State.mk.injEq, true_and, and_true]
        exact hv
      · exact fun k hk e => slots_other l hl s.velocity x _ _ k hk e
  | qmodel => exact hq none
  | qmodelFixedMu => exact hq (some cfg.momentum)

theorem glue_restrict (s : State (K × E)) : glue reg (restrict reg s).params s.params = s.params := by
  funext i
  unfold glue
  split_ifs <;> rfl

theorem addWeightDecay_pairs (cfg : Config) (l : List K) (y : K → Tens E) (θ : Vec (K × E)) :
    ∃ z, addWeightDecayL cfg (pairsOf l y) θ = pairsOf l z ∧
      flat reg z = addWeightDecay cfg (flat reg y) fun i => θ (i.1.1, i.2) := by
  unfold addWeightDecayL addWeightDecay
  cases cfg.weightDecay with
  | none => exact ⟨y, rfl, rfl⟩
  | some c => exact ⟨fun k => y k + c • readVar θ k, by simp [pairsOf, Function.comp_def], rfl⟩

theorem updatePrevLoss_restrict [Fintype K] (cfg : Config) (g : Vec (Reg reg × E) → Vec (Reg reg × E)) (s : State (K × E)) :
    restrict reg (updatePrevLoss cfg inp.losses s) =
      updatePrevLoss cfg (inp.vectorIn reg s.params g P C) (restrict reg s) := by
  unfold updatePrevLoss
  by_cases h : cfg.adaptDamping ∧ adaptationTime cfg s
  · rw [if_pos h, if_pos (show cfg.adaptDamping ∧ adaptationTime cfg (restrict reg s) from h)]
    simp only [ListIn.vectorIn, glue_restrict]
    rfl
  · rw [if_neg h, if_neg (show ¬ (cfg.adaptDamping ∧ adaptationTime cfg (restrict reg s)) from h)]

theorem preUpdate_restrict [Fintype K] (cfg : Config) (g : Vec (Reg reg × E) → Vec (Reg reg × E)) (s : State (K × E)) :
    restrict reg (preUpdate cfg inp.losses s) = preUpdate cfg (inp.vectorIn reg s.params g P C) (restrict reg s) := by
  unfold preUpdate
  by_cases h : cfg.adaptDamping = false ∨ cfg.isChief = false ∨ cfg.immediate
  · rw [if_pos h, if_pos h]
  · rw [if_neg h, if_neg h]
    by_cases ht : justAfterAdaptationTime cfg s
    · rw [if_pos ht, if_pos (show justAfterAdaptationTime cfg (restrict reg s) = true from ht)]
      simp only [ListIn.vectorIn, glue_restrict]
      rfl
    · rw [if_neg ht, if_neg (show ¬ justAfterAdaptationTime cfg (restrict reg s) = true from ht)]

theorem postUpdate_restrict [Fintype K] (cfg : Config) (g : Vec (Reg reg × E) → Vec (Reg reg × E)) (frozen : Vec (K × E))
    (s : State (K × E)) (hs : s.params = glue reg (restrict reg s).params frozen) :
    restrict reg (postUpdate cfg inp.losses s) = postUpdate cfg (inp.vectorIn reg frozen g P C) (restrict reg s) := by
  unfold postUpdate
  by_cases h : cfg.immediate = false ∨ cfg.adaptDamping = false
  · rw [if_pos h, if_pos h]
  · rw [if_neg h, if_neg h]
    by_cases ht : adaptationTime cfg s
    · rw [if_pos ht, if_pos (show adaptationTime cfg (restrict reg s) = true from ht)]
      simp only [ListIn.vectorIn, ← hs]
      rfl
    · rw [if_neg ht, if_neg (show ¬ adaptationTime cfg (restrict reg s) = true from ht)]

theorem postUpdate_vars [Fintype K] (cfg : Config) (i : StepIn (K × E) κ) (s : State (K × E)) :
    (postUpdate cfg i s).params = s.params ∧ (postUpdate cfg i s).velocity = s.velocity := by
  unfold postUpdate
  split_ifs <;> simp

theorem preUpdate_vars [Fintype K] (cfg : Config) (i : StepIn (K × E) κ) (s : State (K × E)) :
    (preUpdate cfg i s).params = s.params ∧ (preUpdate cfg i s).velocity = s.velocity := by
  unfold preUpdate
  split_ifs <;> simp

theorem prevLoss_vars [Fintype K] (cfg : Config) (i : StepIn (K × E) κ) (s : State (K × E)) :
    (updatePrevLoss cfg i s).params = s.params ∧ (updatePrevLoss cfg i s).velocity = s.velocity ∧
    (updatePrevLoss cfg i s).damping = s.damping := by
  unfold updatePrevLoss
  split_ifs <;> simp

theorem pairs_eq (grads : Pairs K E) (x : K → Tens E) (hx : ∀ p ∈ grads, x p.2 = p.1) :
    grads = pairsOf (grads.map (·.2)) x := by
  unfold pairsOf
  rw [List.map_map]
  conv_lhs => rw [← List.map_id grads]
  exact List.map_congr_left fun p hp => Prod.ext (hx p hp).symm rfl

/-! ### The theorems -/

/-- `apply_gradients` with one gradient for every registered variable, in any order: the registered part of the state moves as in
the vector model, and the other variables and their slots keep their values. -/
theorem C94_apply [Fintype K] (h : Described reg inp ops P C) (cfg : Config) (grads : Pairs K E)
    (hl : Lists reg (grads.map (·.2))) (x : K → Tens E) (hx : ∀ p ∈ grads, x p.2 = p.1) (s : State (K × E)) :
    ∃ s', applyGradientsL cfg inp grads s = .ok s' ∧
      restrict reg s' = applyGradients cfg (inp.vectorIn reg s.params (fun _ => flat reg x) P C) (restrict reg s) ∧
      ∀ k ∉ reg, ∀ e, s'.params (k, e) = s.params (k, e) ∧ s'.velocity (k, e) = s.velocity (k, e) := by
  rw [pairs_eq grads x hx]
  generalize grads.map (·.2) = l at hl
  have hne : l ≠ [] := by
    rintro rfl
    obtain ⟨k, hk⟩ := List.exists_mem_of_ne_nil _ h.nonempty
    simpa using (hl.same k).2 hk
  obtain ⟨hp1, hv1, hd1⟩ := prevLoss_vars cfg inp.losses s
  obtain ⟨y, s1, hraw, hvec, hparams, hvel⟩ := raw_pairs h cfg (updatePrevLoss cfg inp.losses s) l hl hne x
  obtain ⟨z, hz, hzf⟩ := addWeightDecay_pairs (reg := reg) cfg l y s1.params
  have hempty : (pairsOf l y).isEmpty = false := by
    cases l with
    | nil => exact absurd rfl hne
    | cons a l => rfl
  unfold applyGradientsL
  simp only [bind, Except.bind, hraw, hempty, hz]
  rw [descend_pairs l hl.nodup]
  refine ⟨_, rfl, ?_, ?_⟩
  · have hup := updatePrevLoss_restrict (inp := inp) (P := P) (C := C) cfg (fun _ => flat reg x) s
    have hrs : rawUpdateSteps cfg (inp.vectorIn reg s.params (fun _ => flat reg x) P C)
        (updatePrevLoss cfg (inp.vectorIn reg s.params (fun _ => flat reg x) P C) (restrict reg s)) =
        (flat reg y, restrict reg s1) := by
      rw [hvec, ← hup]
      rfl
    unfold applyGradients
    simp only [hrs]
    have hdesc : restrict reg { s1 with
          params := fun i => if i.1 ∈ l then s1.params i - cfg.learningRate * z i.1 i.2 else s1.params i } =
        { restrict reg s1 with
          params := (restrict reg s1).params -
            cfg.learningRate • addWeightDecay cfg (flat reg y) (restrict reg s1).params } := by
      simp only [restrict, State.mk.injEq, true_and, and_true]
      funext i
      have hm : i.1.1 ∈ l := (hl.same _).2 i.1.2
      simp only [if_pos hm]
      have := congrFun hzf i
      simp only [Pi.sub_apply, Pi.smul_apply, smul_eq_mul]
      rw [← this]
      rfl
    have hpost := postUpdate_restrict (inp := inp) (P := P) (C := C) cfg (fun _ => flat reg x) s.params
      { s1 with params := fun i => if i.1 ∈ l then s1.params i - cfg.learningRate * z i.1 i.2 else s1.params i } (by
        funext i
        unfold glue
        by_cases hi : i.1 ∈ reg
        · rw [dif_pos hi]
          rfl
        · rw [dif_neg hi]
          have : i.1 ∉ l := fun hh => hi ((hl.same _).1 hh)
          simp only [if_neg this]
          rw [hparams, hp1])
    rw [hdesc] at hpost
    rw [← hpost]
    rfl
  · intro k hk e
    have hkl : k ∉ l := fun hh => hk ((hl.same _).1 hh)
    obtain ⟨h1, h2⟩ := postUpdate_vars cfg inp.losses
      { s1 with params := fun i => if i.1 ∈ l then s1.params i - cfg.learningRate * z i.1 i.2 else s1.params i }
    constructor
    · dsimp only
      rw [h1]
      simp only [if_neg hkl]
      rw [hparams, hp1]
    · dsimp only
      rw [h2]
      dsimp only
      rw [hvel k hk e, hv1]

/-- The gradients of the loss with respect to the registered variables. -/
def ListIn.regGrad (inp : ListIn K E κ) (reg : List K) (frozen : Vec (K × E)) (θ : Vec (Reg reg × E)) : Vec (Reg reg × E) :=
  flat reg (readVar (inp.grad (glue reg θ frozen)))

theorem check_ok (inp : ListIn K E κ) (l : List K) (hl : Lists inp.registered l) : inp.checkVarList l = .ok () := by
  unfold ListIn.checkVarList
  rw [if_pos ⟨fun k hk => (hl.same k).1 hk, fun k hk => (hl.same k).2 hk⟩]

theorem gradients_ok (inp : ListIn K E κ) (θ : Vec (K × E)) (l : List K) (hc : ∀ k ∈ l, inp.connected k) :
    (l.map fun k => (inp.gradient θ k, k)).mapM checkShape = .ok (pairsOf l (readVar (inp.grad θ))) := by
  rw [List.mapM_map]
  refine mapM_ok' _ (fun k => (readVar (inp.grad θ) k, k)) l fun k hk => ?_
  simp [ListIn.gradient, hc k hk, checkShape]

/-- `minimize` with the default variable list, or with any list that names every registered variable once: the registered part of
the state moves as in the vector model with the gradient of the loss, and the other variables keep their values. -/
theorem C94_minimize_partial [Fintype K] (h : Described reg inp ops P C) (cfg : Config) (varList : Option (List K))
    (hl : ∀ l, varList = some l → Lists reg l) (hc : ∀ k ∈ reg, inp.connected k) (s : State (K × E)) :
    ∃ s', minimizeL cfg inp varList s = .ok s' ∧
      restrict reg s' =
        applyGradients cfg (inp.vectorIn reg s.params (inp.regGrad reg s.params) P C) (restrict reg s) ∧
      ∀ k ∉ reg, ∀ e, s'.params (k, e) = s.params (k, e) ∧ s'.velocity (k, e) = s.velocity (k, e) := by
  have hL : Lists reg (varList.getD inp.registered) := by
    cases varList with
    | none => exact ⟨h.registered ▸ h.nodup, fun k => by rw [Option.getD_none, h.registered]⟩
    | some l => exact hl l rfl
  have hgiven : inp.checkGiven varList = .ok () := by
    cases varList with
    | none => rfl
    | some l => exact check_ok inp l (h.registered ▸ hl l rfl)
  generalize hle : varList.getD inp.registered = l at hL
  have hne : l.isEmpty = false := by
    obtain ⟨k, hk⟩ := List.exists_mem_of_ne_nil _ h.nonempty
    cases l with
    | nil => simpa using (hL.same k).2 hk
    | cons => rfl
  have hgr : inp.computeGradients s.params (some l) = .ok (pairsOf l (readVar (inp.grad s.params))) := by
    unfold ListIn.computeGradients
    simp only [ListIn.checkGiven, check_ok inp l (h.registered ▸ hL), bind, Except.bind, Option.getD_some, hne]
    exact gradients_ok inp s.params l fun k hk => hc k ((hL.same k).1 hk)
  obtain ⟨s', h1, h2, h3⟩ := C94_apply h cfg (pairsOf l (readVar (inp.grad s.params))) (by rwa [pairsOf_snd])
    (readVar (inp.grad s.params)) (by
      intro p hp
      obtain ⟨k, -, rfl⟩ := List.mem_map.1 hp
      rfl) s
  refine ⟨s', ?_, ?_, h3⟩
  · unfold minimizeL
    simp only [hgiven, bind, Except.bind, hle, hgr, h1]
  · rw [h2]
    unfold applyGradients rawUpdateSteps
    have hq := (prevLoss_vars (K := Reg reg) cfg (inp.vectorIn reg s.params (inp.regGrad reg s.params) P C) (restrict reg s)).1
    have hpl : updatePrevLoss cfg (inp.vectorIn reg s.params (fun _ => flat reg (readVar (inp.grad s.params))) P C)
        (restrict reg s) = updatePrevLoss cfg (inp.vectorIn reg s.params (inp.regGrad reg s.params) P C) (restrict reg s) := rfl
    have hg : (inp.vectorIn reg s.params (inp.regGrad reg s.params) P C).grad
        (updatePrevLoss cfg (inp.vectorIn reg s.params (inp.regGrad reg s.params) P C) (restrict reg s)).params =
        flat reg (readVar (inp.grad s.params)) := by
      rw [hq]
      simp only [ListIn.vectorIn, ListIn.regGrad, glue_restrict]
    rw [hpl]
    dsimp only
    rw [hg]
    rfl

/-- One session run with the adaptation of the damping. -/
theorem run_restrict [Fintype K] (h : Described reg inp ops P C) (cfg : Config) (varList : Option (List K))
    (hl : ∀ l, varList = some l → Lists reg l) (hc : ∀ k ∈ reg, inp.connected k) (s : State (K × E)) :
    ∃ s', runL cfg inp varList s = .ok s' ∧
      restrict reg s' = optStep cfg (inp.vectorIn reg s.params (inp.regGrad reg s.params) P C) (restrict reg s) ∧
      ∀ k ∉ reg, ∀ e, s'.params (k, e) = s.params (k, e) ∧ s'.velocity (k, e) = s.velocity (k, e) := by
  obtain ⟨s', h1, h2, h3⟩ := C94_minimize_partial h cfg varList hl hc (preUpdate cfg inp.losses s)
  obtain ⟨hp, hv⟩ := preUpdate_vars cfg inp.losses s
  rw [hp, preUpdate_restrict (inp := inp) (P := P) (C := C) cfg (inp.regGrad reg s.params)] at h2
  rw [hp, hv] at h3
  exact ⟨s', h1, h2, h3⟩

theorem glue_congr (θ : Vec (Reg reg × E)) (a b : Vec (K × E)) (h : ∀ k ∉ reg, ∀ e, a (k, e) = b (k, e)) :
    glue reg θ a = glue reg θ b := by
  funext i
  unfold glue
  split_ifs with hi
  · rfl
  · exact h i.1 hi i.2

end

/-- Any number of runs: the registered variables follow the trajectory of the vector model, all others keep their initial values.
The inputs of the runs may differ, as long as the same variables are registered. -/
theorem C94_trace_partial [Fintype K] (reg : List K) (inputs : ℕ → ListIn K E κ)
    (ops : ℕ → List (BlockOp K (Tens E) × BlockOp K (Tens E))) (P C : ℕ → Matrix (Reg reg × E) (Reg reg × E) ℝ)
    (h : ∀ t, Described reg (inputs t) (ops t) (P t) (C t)) (cfg : Config) (varList : Option (List K))
    (hl : ∀ l, varList = some l → Lists reg l) (hc : ∀ t, ∀ k ∈ reg, (inputs t).connected k) (s0 : State (K × E)) (t : ℕ) :
    ∃ s, traceL cfg inputs varList s0 t = .ok s ∧
      restrict reg s = trace cfg (fun t => (inputs t).vectorIn reg s0.params ((inputs t).regGrad reg s0.params) (P t) (C t))
        (restrict reg s0) t ∧
      ∀ k ∉ reg, ∀ e, s.params (k, e) = s0.params (k, e) ∧ s.velocity (k, e) = s0.velocity (k, e) := by
  induction t with
  | zero => exact ⟨s0, rfl, rfl, fun _ _ _ => ⟨rfl, rfl⟩⟩
  | succ t ih =>
    obtain ⟨s, h1, h2, h3⟩ := ih
    obtain ⟨s', g1, g2, g3⟩ := run_restrict (h t) cfg varList hl (hc t) s
    refine ⟨s', ?_, ?_, fun k hk e => ⟨(g3 k hk e).1.trans (h3 k hk e).1, (g3 k hk e).2.trans (h3 k hk e).2⟩⟩
    · simp only [traceL, h1, bind, Except.bind, g1]
    · have hglue : ∀ θ, glue reg θ s.params = glue reg θ s0.params := fun θ =>
        glue_congr θ _ _ fun k hk e => (h3 k hk e).1
      rw [g2, h2]
      simp only [trace]
      congr 1
      simp only [ListIn.vectorIn, hglue, StepIn.mk.injEq, true_and, and_true]
      funext θ
      simp only [ListIn.regGrad, hglue]

section
variable {reg : List K} {inp : ListIn K E κ} {ops : List (BlockOp K (Tens E) × BlockOp K (Tens E))}
  {P C : Matrix (Reg reg × E) (Reg reg × E) ℝ}

/-- The order in which the list names the variables has no influence. -/
theorem C94_order [Fintype K] (h : Described reg inp ops P C) (cfg : Config) (varList varList' : Option (List K))
    (hl : ∀ l, varList = some l → Lists reg l) (hl' : ∀ l, varList' = some l → Lists reg l)
    (hc : ∀ k ∈ reg, inp.connected k) (s : State (K × E)) :
    ∃ s', minimizeL cfg inp varList s = .ok s' ∧ minimizeL cfg inp varList' s = .ok s' := by
  obtain ⟨a, h1, h2, h3⟩ := C94_minimize_partial h cfg varList hl hc s
  obtain ⟨b, g1, g2, g3⟩ := C94_minimize_partial h cfg varList' hl' hc s
  have hab := h2.trans g2.symm
  refine ⟨a, h1, ?_⟩
  rw [g1]
  congr 1
  simp only [restrict, State.mk.injEq] at hab
  obtain ⟨e1, e2, e3, e4, e5, e6, e7, e8, e9⟩ := hab
  have hp : b.params = a.params := by
    funext i
    obtain ⟨k, e⟩ := i
    by_cases hk : k ∈ reg
    · exact (congrFun e2 (⟨k, hk⟩, e)).symm
    · rw [(g3 k hk e).1, (h3 k hk e).1]
  have hv : b.velocity = a.velocity := by
    funext i
    obtain ⟨k, e⟩ := i
    by_cases hk : k ∈ reg
    · exact (congrFun e3 (⟨k, hk⟩, e)).symm
    · rw [(g3 k hk e).2, (h3 k hk e).2]
  cases a
  cases b
  simp_all

/-- A list that names an unregistered variable or misses a registered one is rejected. -/
theorem C94_rejects [Fintype K] (inp : ListIn K E κ) (cfg : Config) (l : List K) (k : K)
    (hk : ¬ (k ∈ l ↔ k ∈ inp.registered)) (s : State (K × E)) :
    (∃ e, minimizeL cfg inp (some l) s = .error e) ∧ ∃ e, inp.computeGradients s.params (some l) = .error e := by
  have hchk : inp.checkVarList l =
      .error "ValueError: var_list doesn't match with set of Fisher-estimating variables" := by
    unfold ListIn.checkVarList
    rw [if_neg]
    rintro ⟨h1, h2⟩
    exact hk ⟨fun h => h1 h, fun h => h2 h⟩
  constructor
  · unfold minimizeL
    simp only [ListIn.checkGiven, hchk, bind, Except.bind]
    exact ⟨_, rfl⟩
  · unfold ListIn.computeGradients
    simp only [ListIn.checkGiven, hchk, bind, Except.bind]
    exact ⟨_, rfl⟩

theorem inverse_error (h : Described reg inp ops P C) (grads : Pairs K E) (hn : (grads.map (·.2)).Nodup) (k : K)
    (hk : ¬ (k ∈ grads.map (·.2) ↔ k ∈ reg)) : ∃ e, inp.multiplyInverse grads = .error e := by
  have hreg : reg = (ops.map (·.1)).flatMap BlockOp.vars := h.registered ▸ registered_eq inp ops h.blocks
  have herr : ∃ e, computeTransformation (D := Unit) .none ((ops.map (·.1)).map fun b => (b.key, b.run)) grads = .error e := by
    by_cases hkr : k ∈ reg
    · have hkg : k ∉ grads.map (·.2) := fun hh => hk ⟨fun _ => hkr, fun _ => hh⟩
      rw [hreg] at hkr
      obtain ⟨b, hb, hkb⟩ := List.mem_flatMap.1 hkr
      exact C80_missing_vector .none (Or.inl rfl) _ grads b hb k hkb hkg
    · have hkg : k ∈ grads.map (·.2) := by
        by_contra hh
        exact hk ⟨fun hx => absurd hx hh, fun hx => absurd hx hkr⟩
      obtain ⟨p, hp, rfl⟩ := List.mem_map.1 hkg
      refine C80_unregistered_variable .none (Or.inl rfl) _ grads (by simpa using fun a b hab => h.keepsInverse (a, b) hab) hn
        p hp ?_
      intro b hb hpb
      exact hkr (hreg ▸ List.mem_flatMap.2 ⟨b, hb, hpb⟩)
  obtain ⟨e, he⟩ := herr
  refine ⟨e, ?_⟩
  unfold ListIn.multiplyInverse
  rw [h.blocks, List.map_map]
  rw [List.map_map] at he
  simp only [Function.comp_def] at he ⊢
  rw [he]
  rfl

theorem updateVelocities_vars (l : Pairs K E) (v : Vec (K × E)) (d c : ℝ) :
    (updateVelocities v l d c).1.map (·.2) = l.map (·.2) := by
  induction l generalizing v with
  | nil => rfl
  | cons p l ih => simp only [updateVelocities, List.map_cons, ih]

/-- `apply_gradients` with gradients for a different set of variables fails, whatever the gradients and the momentum. -/
theorem C94_apply_rejects [Fintype K] (h : Described reg inp ops P C) (cfg : Config) (grads : Pairs K E)
    (hn : (grads.map (·.2)).Nodup) (k : K) (hk : ¬ (k ∈ grads.map (·.2) ↔ k ∈ reg)) (s : State (K × E)) :
    ∃ e, applyGradientsL cfg inp grads s = .error e := by
  have hraw : ∀ s, ∃ e, rawUpdateStepsL cfg inp s grads = .error e := by
    intro s
    obtain ⟨e, he⟩ := inverse_error h grads hn k hk
    unfold rawUpdateStepsL
    cases cfg.momentumType with
    | regular => exact ⟨e, by simp only [he, bind, Except.bind]⟩
    | adam =>
      have hv := updateVelocities_vars grads s.velocity cfg.momentum 1
      obtain ⟨e', he'⟩ := inverse_error h (updateVelocities s.velocity grads cfg.momentum 1).1 (by rw [hv]; exact hn) k
        (by rw [hv]; exact hk)
      exact ⟨e', by simp only [he', bind, Except.bind]⟩
    | qmodel => exact ⟨e, by simp only [qmodelStepL, he, bind, Except.bind]⟩
    | qmodelFixedMu => exact ⟨e, by simp only [qmodelStepL, he, bind, Except.bind]⟩
  obtain ⟨e, he⟩ := hraw (updatePrevLoss cfg inp.losses s)
  exact ⟨e, by simp only [applyGradientsL, he, bind, Except.bind]⟩

/-- `compute_gradients` without a list takes all trainable variables, not the registered ones. If some trainable variable is not
registered, or the other way round, the result cannot be applied; otherwise it gives the same step as `minimize`. -/
theorem C94_default_gradients [Fintype K] (h : Described reg inp ops P C) (cfg : Config) (hn : inp.trainable.Nodup)
    (hne : inp.trainable ≠ []) (hc : ∀ k ∈ inp.trainable, inp.connected k) (hc' : ∀ k ∈ reg, inp.connected k)
    (s : State (K × E)) :
    ∃ grads, inp.computeGradients s.params none = .ok grads ∧ grads.map (·.2) = inp.trainable ∧
      ((∀ k, k ∈ inp.trainable ↔ k ∈ reg) →
        applyGradientsL cfg inp grads s = minimizeL cfg inp none s) ∧
      (¬ (∀ k, k ∈ inp.trainable ↔ k ∈ reg) → ∃ e, applyGradientsL cfg inp grads s = .error e) := by
  refine ⟨pairsOf inp.trainable (readVar (inp.grad s.params)), ?_, pairsOf_snd _ _, ?_, ?_⟩
  · unfold ListIn.computeGradients
    have : inp.trainable.isEmpty = false := by simpa using hne
    simp only [ListIn.checkGiven, bind, Except.bind, Option.getD_none, this]
    exact gradients_ok inp s.params _ hc
  · intro hs
    have hL : Lists reg inp.trainable := ⟨hn, hs⟩
    obtain ⟨s', h1, h2⟩ := C94_order h cfg none (some inp.trainable) (by simp) (by
      intro l hl
      cases hl
      exact hL) hc' s
    rw [h1, ← h2]
    have hg : inp.computeGradients s.params (some inp.trainable) =
        .ok (pairsOf inp.trainable (readVar (inp.grad s.params))) := by
      unfold ListIn.computeGradients
      have : inp.trainable.isEmpty = false := by simpa using hne
      simp only [ListIn.checkGiven, check_ok inp _ (h.registered ▸ hL), bind, Except.bind, Option.getD_some, this]
      exact gradients_ok inp s.params _ hc
    unfold minimizeL
    simp only [ListIn.checkGiven, check_ok inp _ (h.registered ▸ hL), bind, Except.bind, Option.getD_some, hg]
  · intro hs
    obtain ⟨k, hk⟩ := not_forall.1 hs
    exact C94_apply_rejects h cfg _ (by rw [pairsOf_snd]; exact hn) k (by rw [pairsOf_snd]; exact hk) s

/-- A registered variable that the loss does not depend on makes every call of `minimize` fail. -/
theorem C94_unconnected [Fintype K] (inp : ListIn K E κ) (cfg : Config) (varList : Option (List K)) (k : K)
    (hk : k ∈ inp.registered) (hc : inp.connected k = false) (s : State (K × E)) :
    ∃ e, minimizeL cfg inp varList s = .error e := by
  unfold minimizeL
  cases hg : inp.checkGiven varList with
  | error e => exact ⟨e, by simp only [bind, Except.bind]⟩
  | ok u =>
    have hmem : k ∈ varList.getD inp.registered := by
      cases varList with
      | none => exact hk
      | some l =>
        simp only [ListIn.checkGiven, ListIn.checkVarList] at hg
        split_ifs at hg with hh
        exact hh.2 hk
    simp only [bind, Except.bind]
    have herr : ∃ e, inp.computeGradients s.params (some (varList.getD inp.registered)) = .error e := by
      unfold ListIn.computeGradients
      cases hchk : inp.checkGiven (some (varList.getD inp.registered)) with
      | error e => exact ⟨e, by simp only [bind, Except.bind]⟩
      | ok u =>
        have hne : (varList.getD inp.registered).isEmpty = false := by
          cases hh : varList.getD inp.registered with
          | nil => rw [hh] at hmem; simp at hmem
          | cons => rfl
        simp only [bind, Except.bind, Option.getD_some, hne]
        exact mapM_err _ _ ⟨(inp.gradient s.params k, k), List.mem_map.2 ⟨k, hmem, rfl⟩,
          "AttributeError: 'NoneType' object has no attribute 'shape'", by simp [ListIn.gradient, hc, checkShape]⟩
    obtain ⟨e, he⟩ := herr
    exact ⟨e, by simp only [he]⟩

end

/-! ### A variable that is named twice -/

/-- A block that multiplies the tensor of the first of two variables by a number. -/
def scaleBlock (c : ℝ) : BlockOp (Fin 2) (Tens Unit) := .single 0 fun v => c • v

/-- Two scalar variables, of which the first is registered; the preconditioner of its block multiplies by `p`. The loss has
gradient `g` with respect to both. -/
noncomputable def twoScalars (p g : ℝ) : ListIn (Fin 2) Unit Unit :=
  { passedLoss := fun _ => 0, fnLoss := fun _ => 0, prevFnLoss := fun _ => 0, grad := fun _ _ => g, connected := fun _ => true
    blocks := [((scaleBlock p).key, (scaleBlock p).run, (scaleBlock p⁻¹).run)]
    factor := fun _ _ => 1, batchSize := 1, trainable := [0, 1] }

/-- Plain gradient descent on preconditioned gradients. -/
noncomputable def plainConfig (lr : ℝ) : Config :=
  { momentumType := .regular, learningRate := lr, momentum := 0, normConstraint := none, weightDecay := none
    adaptDamping := false, immediate := false, isChief := true, adaptationDecay := 1, interval := 1, minDamping := 0
    l2Reg := 0, decreaseThreshold := 0, increaseThreshold := 0, usePassedLoss := true, rescale := none, includeDamping := true }

theorem twoScalars_described (p g : ℝ) : Described [0] (twoScalars p g)
    [(scaleBlock p, scaleBlock p⁻¹)] (p • 1) (p⁻¹ • 1) where
  registered := rfl
  blocks := rfl
  keys := by simp [BlockOp.key, scaleBlock]
  keepsInverse := by simp [BlockOp.Keeps, scaleBlock]
  keepsMultiply := by simp [BlockOp.Keeps, scaleBlock]
  nodup := by simp
  nonempty := by simp
  inverse := by
    rintro x ⟨k, hk⟩
    obtain rfl : k = 0 := by simpa using hk
    simp [blockwise, scaleBlock, BlockOp.vars, BlockOp.at, flat, smul_mulVec]
    rfl
  multiply := by
    rintro x ⟨k, hk⟩
    obtain rfl : k = 0 := by simpa using hk
    simp [blockwise, scaleBlock, BlockOp.vars, BlockOp.at, flat, smul_mulVec]
    rfl

/-- Naming the registered variable twice is accepted, since only the sets are compared, and moves it twice. -/
theorem C94_repeated_counterexample (lr p g : ℝ) (θ : Vec (Fin 2 × Unit)) (damping : ℝ) :
    ∃ s s', minimizeL (plainConfig lr) (twoScalars p g) (some [0]) (State.init θ damping) = .ok s ∧
      minimizeL (plainConfig lr) (twoScalars p g) (some [0, 0]) (State.init θ damping) = .ok s' ∧
      s.params (0, ()) = θ (0, ()) - lr * (p * g) ∧ s'.params (0, ()) = θ (0, ()) - 2 * (lr * (p * g)) := by
  refine ⟨_, _, rfl, rfl, ?_, ?_⟩
  · simp [descend, setVar, readVar, postUpdate, updatePrevLoss, plainConfig, twoScalars, addWeightDecayL, updateVelocities,
      State.init]
  · simp [descend, setVar, readVar, postUpdate, updatePrevLoss, plainConfig, twoScalars, addWeightDecayL, updateVelocities,
      State.init]
    ring

/-! ### Examples -/

/-- The registered variable is accepted on its own, the list of both variables is not. -/
example : Lists [0] [(0 : Fin 2)] := ⟨by simp, by simp⟩
example (p g : ℝ) (cfg : Config) (s : State (Fin 2 × Unit)) : ∃ e, minimizeL cfg (twoScalars p g) (some [0, 1]) s = .error e :=
  (C94_rejects (twoScalars p g) cfg [0, 1] 1 (by simp [ListIn.registered, twoScalars, scaleBlock, BlockOp.key, keyVars]) s).1

/-- `compute_gradients()` of this program takes both trainable variables, and its result cannot be applied. -/
example (p g : ℝ) (cfg : Config) (s : State (Fin 2 × Unit)) : ∃ grads, (twoScalars p g).computeGradients s.params none = .ok grads ∧
    ∃ e, applyGradientsL cfg (twoScalars p g) grads s = .error e := by
  obtain ⟨grads, h1, -, -, h4⟩ := C94_default_gradients (twoScalars_described p g) cfg (by simp [twoScalars])
    (by simp [twoScalars]) (by simp [twoScalars]) (by simp [twoScalars]) s
  exact ⟨grads, h1, h4 fun h => by simpa using (h 1).1 (by simp [twoScalars])⟩

/-- A block of two variables whose transformation exchanges their tensors, and an unregistered third variable. -/
def swapBlock : BlockOp (Fin 3) (Tens Unit) := .many [0, 1] List.reverse

def swapIn : ListIn (Fin 3) Unit Unit :=
  { passedLoss := fun θ => θ (2, ()), fnLoss := fun _ => 0, prevFnLoss := fun _ => 0, grad := fun θ i => θ i + i.1.1
    connected := fun _ => true, blocks := [(swapBlock.key, swapBlock.run, swapBlock.run)]
    factor := fun _ _ => 1, batchSize := 1, trainable := [2, 1, 0] }

theorem swapIn_described : Described [0, 1] swapIn [(swapBlock, swapBlock)]
    (Matrix.of fun i j => if i.1 = j.1 then 0 else 1) (Matrix.of fun i j => if i.1 = j.1 then 0 else 1) := by
  have hb : ∀ (x : Fin 3 → Tens Unit) (i : Reg [(0 : Fin 3), 1]), blockwise [swapBlock] x i.1 =
      some fun e => ((Matrix.of fun (i j : Reg [(0 : Fin 3), 1] × Unit) => if i.1 = j.1 then (0 : ℝ) else 1) *ᵥ
        flat [0, 1] x) (i, e) := by
    rintro x ⟨k, hk⟩
    have hu : (Finset.univ : Finset (Reg [(0 : Fin 3), 1])) = {⟨0, by simp⟩, ⟨1, by simp⟩} := by decide
    have hk' : k = 0 ∨ k = 1 := by simpa using hk
    rcases hk' with rfl | rfl
    · simp [blockwise, swapBlock, BlockOp.vars, BlockOp.at, mulVec, dotProduct, Fintype.sum_prod_type, flat, hu]
    · simp [blockwise, swapBlock, BlockOp.vars, BlockOp.at, mulVec, dotProduct, Fintype.sum_prod_type, flat, hu]
  exact {
    registered := rfl
    blocks := rfl
    keys := by simp
    keepsInverse := by simp [BlockOp.Keeps, swapBlock]
    keepsMultiply := by simp [BlockOp.Keeps, swapBlock]
    nodup := by simp
    nonempty := by simp
    inverse := hb
    multiply := hb }

example (cfg : Config) (s : State (Fin 3 × Unit)) :
    ∃ s', minimizeL cfg swapIn none s = .ok s' ∧ minimizeL cfg swapIn (some [1, 0]) s = .ok s' :=
  C94_order swapIn_described cfg none (some [1, 0]) (by simp) (by
    intro l hl
    cases hl
    exact ⟨by simp, fun k => by simp [or_comm]⟩) (by simp [swapIn]) s

end Kfac.Opt
