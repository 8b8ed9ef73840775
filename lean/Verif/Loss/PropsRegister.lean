import Verif.Loss.Register
import Verif.Loss.PropsHessian
import Verif.Reg.PropsLoss

/-! # C105: the registered losses are the documented ones -/

namespace Kfac.Loss

open Kfac.Reg (ReuseArg LC LossInv positions chosenName)

variable {B n P : ℕ}

/-! ### Specification -/

/-- `tf.nn.sparse_softmax_cross_entropy_with_logits`, added over the batch. -/
noncomputable def softmaxCrossEntropy (y : Fin B → Fin n) (z : Batch B n) : ℝ :=
  ∑ b, (Real.log (∑ j, Real.exp (z b j)) - z b (y b))

/-- `tf.nn.sigmoid_cross_entropy_with_logits`, added over the batch and the components, as TensorFlow documents it. -/
noncomputable def sigmoidCrossEntropy (y : Fin B × Fin n → Bool) (z : Batch B n) : ℝ :=
  ∑ b, ∑ i, (max (z b i) 0 - z b i * (if y (b, i) then 1 else 0) + Real.log (1 + Real.exp (-|z b i|)))

/-- The squared distance. -/
def squaredError (y : Fin B × Fin n → ℝ) (z : Batch B n) : ℝ := ∑ b, ∑ i, (y (b, i) - z b i) ^ 2

/-- The loss that the documentation of each function names, without the coefficient. -/
noncomputable def LossFn.documented (f : LossFn) : f.Targets B n → Batch B n → ℝ :=
  match f with
  | .categoricalPredictiveDistribution => softmaxCrossEntropy
  | .softmaxCrossEntropyLoss => softmaxCrossEntropy
  | .normalPredictiveDistribution none => squaredError
  | .normalPredictiveDistribution (some var) => fun y z => 1 / (2 * var) * squaredError y z
  | .squaredErrorLoss => squaredError
  | .multiBernoulliPredictiveDistribution => sigmoidCrossEntropy
  | .sigmoidCrossEntropyLoss => sigmoidCrossEntropy

/-- A variance is positive. -/
def LossFn.Valid : LossFn → Prop
  | .normalPredictiveDistribution (some var) => 0 < var
  | _ => True

/-- The registration of a statement with some outcome, if it did not raise. -/
def acceptedAt : Stmt P → Except String Unit → List (LossCall P)
  | .loss c, .ok _ => [c]
  | _, _ => []

/-- The registrations of a program that did not raise, in order. -/
def accepted (nm : Namer) (g : Reg.Var → ℕ) : Losses P → List (Stmt P) → List (LossCall P)
  | _, [] => []
  | s, st :: p => acceptedAt st (s.step nm g st).2 ++ accepted nm g (s.step nm g st).1 p

/-- The documented total loss of some registrations, for given targets. -/
noncomputable def documentedTotal (cs : List (LossCall P)) (y : (c : LossCall P) → c.fn.Targets c.B c.n) (θ : Fin P → ℝ) : ℝ :=
  (cs.map fun c => (c.coeff.getD 1 : ℝ) * c.fn.documented (y c) (c.inputs θ)).sum

/-- The same registration for the linearisation of the model at `θ`. -/
noncomputable def LossCall.linearised (c : LossCall P) (θ : Fin P → ℝ) : LossCall P :=
  { c with inputs := fun θ' b i => c.inputs θ b i + ∑ p, fderiv ℝ (fun θ => c.inputs θ b i) θ (Pi.single p 1) * (θ' p - θ p) }

/-! ### Lemmas -/

theorem softmax_documented (y : Fin B → Fin n) (z : Batch B n) : Categorical.evaluate ⟨z⟩ y = softmaxCrossEntropy y z := by
  simp only [Categorical.evaluate, softmaxCrossEntropy, log_softmax, ← Finset.sum_neg_distrib, neg_sub]

theorem log_sigmoid (x : ℝ) : Real.log (sigmoid x) = -(max (-x) 0 + Real.log (1 + Real.exp (-|x|))) := by
  have h1 : sigmoid x = (1 + Real.exp (-x))⁻¹ := by simp [sigmoid]
  rw [h1, Real.log_inv]
  congr 1
  rcases le_total 0 x with h | h
  · rw [abs_of_nonneg h, max_eq_right (by linarith), zero_add]
  · rw [abs_of_nonpos h, max_eq_left (by linarith), neg_neg]
    have : 1 + Real.exp (-x) = Real.exp (-x) * (1 + Real.exp x) := by
      rw [mul_add, mul_one, ← Real.exp_add]
      simp [add_comm]
    rw [this, Real.log_mul (Real.exp_pos _).ne' (by positivity), Real.log_exp]

theorem one_sub_sigmoid (x : ℝ) : 1 - sigmoid x = sigmoid (-x) := by
  have : (0 : ℝ) < Real.exp x := Real.exp_pos x
  simp only [sigmoid, neg_neg, Real.exp_neg]
  field_simp
  ring

theorem sigmoid_documented (y : Fin B × Fin n → Bool) (z : Batch B n) :
    MultiBernoulli.evaluate ⟨z⟩ y = sigmoidCrossEntropy y z := by
  rw [MultiBernoulli.evaluate, sigmoidCrossEntropy, ← Fintype.sum_prod_type', ← Finset.sum_neg_distrib]
  refine Finset.sum_congr rfl fun c _ => ?_
  rcases h : y c with - | -
  · rw [if_neg (by simp), if_neg (by simp), one_sub_sigmoid, log_sigmoid, neg_neg, abs_neg]
    simp
  · rw [if_pos rfl, if_pos (by simp), log_sigmoid]
    have : max (-z c.1 c.2) 0 = max (z c.1 c.2) 0 - z c.1 c.2 := by
      rcases le_total 0 (z c.1 c.2) with h | h
      · rw [max_eq_left h, max_eq_right (by linarith)]
        ring
      · rw [max_eq_right h, max_eq_left (by linarith)]
        ring
    rw [this]
    ring

theorem normal_documented {var : ℝ} (hv : 0 < var) (y : Fin B × Fin n → ℝ) (z : Batch B n) :
    NormalMean.evaluate ⟨z, var⟩ y = 1 / (2 * var) * squaredError y z +
      B * n * (1 / 2 * Real.log (2 * Real.pi) + Real.log (Real.sqrt var)) := by
  rw [NormalMean.evaluate, squaredError, ← Finset.sum_neg_distrib, Fintype.sum_prod_type]
  have h : ∀ b i, -normalLogProb (z b i) (Real.sqrt var) (y (b, i)) =
      1 / (2 * var) * (y (b, i) - z b i) ^ 2 + (1 / 2 * Real.log (2 * Real.pi) + Real.log (Real.sqrt var)) := by
    intro b i
    rw [normalLogProb, div_pow, Real.sq_sqrt hv.le]
    field_simp
    ring
  simp only [h, Finset.sum_add_distrib, ← Finset.mul_sum, Finset.sum_const, Finset.card_univ, Fintype.card_fin, nsmul_eq_mul]
  ring

/-- The constant by which a loss differs from the documented one. -/
theorem evaluate_documented (f : LossFn) (hf : f.Valid) : ∃ k : ℝ, ∀ (y : f.Targets B n) (z : Batch B n),
    f.evaluate y z = f.documented y z + k := by
  cases f with
  | categoricalPredictiveDistribution => exact ⟨0, fun y z => by rw [add_zero]; exact softmax_documented y z⟩
  | softmaxCrossEntropyLoss => exact ⟨0, fun y z => by rw [add_zero]; exact softmax_documented y z⟩
  | normalPredictiveDistribution var =>
    cases var with
    | none =>
      refine ⟨B * n * (1 / 2 * Real.log (2 * Real.pi) + Real.log (Real.sqrt 0.5)), fun y z => ?_⟩
      have := normal_documented (B := B) (n := n) (show (0 : ℝ) < 0.5 by norm_num) y z
      rw [show (1 : ℝ) / (2 * 0.5) = 1 by norm_num, one_mul] at this
      exact this
    | some var => exact ⟨_, fun y z => normal_documented hf y z⟩
  | squaredErrorLoss =>
    refine ⟨B * n * (1 / 2 * Real.log (2 * Real.pi) + Real.log (Real.sqrt 0.5)), fun y z => ?_⟩
    have := normal_documented (B := B) (n := n) (show (0 : ℝ) < 0.5 by norm_num) y z
    rw [show (1 : ℝ) / (2 * 0.5) = 1 by norm_num, one_mul] at this
    exact this
  | multiBernoulliPredictiveDistribution => exact ⟨0, fun y z => by rw [add_zero]; exact sigmoid_documented y z⟩
  | sigmoidCrossEntropyLoss => exact ⟨0, fun y z => by rw [add_zero]; exact sigmoid_documented y z⟩

/-- The name under which a call is registered. -/
theorem chosenName_cases (n : Option String) (gn : String) :
    (givenName n = true ∧ n = some (chosenName n gn)) ∨ (givenName n = false ∧ chosenName n gn = gn) := by
  cases n with
  | none => exact .inr ⟨rfl, rfl⟩
  | some s =>
    by_cases hs : s = ""
    · exact .inr ⟨by simp [givenName, hs], by simp [chosenName, hs]⟩
    · exact .inl ⟨by simp [givenName, hs], by simp [chosenName, hs]⟩

/-- What holds of the state after any program: the collection knows the names and coefficients of the objects. -/
structure Losses.Ok (s : Losses P) (ev : List (String × ℚ)) : Prop where
  inv : LossInv s.lc ev
  coeffs : ev.map (·.2) = s.objs.map LossCall.weight
  names : ∀ e ∈ ev, e.1 ∈ s.used ∨ ∃ c ∈ s.objs, c.name = some e.1

theorem step_loss (g : Reg.Var → ℕ) (lc : LC) (n : Option String) (gn : String) (c : ℚ) (r : ReuseArg) :
    Reg.step g lc (.loss n gn c r) = Reg.registerLoss lc n gn c r := rfl

theorem Losses.Ok.step {s : Losses P} {ev : List (String × ℚ)} (h : s.Ok ev) (nm : Namer) (g : Reg.Var → ℕ) (st : Stmt P) :
    ∃ ev', (s.step nm g st).1.Ok ev' ∧ (s.step nm g st).1.objs = s.objs ++ acceptedAt st (s.step nm g st).2 := by
  cases st with
  | loss c =>
    have h1 := h.inv.step g (.loss c.name (nm.fresh s.used c.fn.baseName) c.weight c.reuse)
    rw [step_loss] at h1
    simp only [Losses.step, Losses.register]
    have hu : ∀ k ∈ s.used, k ∈ (if s.lc.finalized ∨ givenName c.name then s.used else
        nm.fresh s.used c.fn.baseName :: s.used) := by
      intro k hk
      split
      · exact hk
      · exact List.mem_cons_of_mem _ hk
    rcases hr : (Reg.registerLoss s.lc c.name (nm.fresh s.used c.fn.baseName) c.weight c.reuse).2 with e | u
    · rw [hr] at h1
      exact ⟨ev, ⟨by simpa using h1, h.coeffs, fun e he => (h.names e he).imp_left (hu _)⟩, by simp [acceptedAt]⟩
    · have hf : s.lc.finalized = false := by
        by_contra hf
        rw [Reg.registerLoss_eq, if_pos (by simpa using hf)] at hr
        cases hr
      rw [hr] at h1
      refine ⟨_, ⟨h1, by simp [h.coeffs], ?_⟩, by simp [acceptedAt]⟩
      intro e he
      rcases List.mem_append.1 he with he | he
      · rcases h.names e he with h2 | ⟨c', hc', h2⟩
        · exact .inl (hu _ h2)
        · exact .inr ⟨c', by simp [hc'], h2⟩
      · rw [List.mem_singleton] at he
        subst he
        rcases chosenName_cases c.name (nm.fresh s.used c.fn.baseName) with ⟨h2, h3⟩ | ⟨h2, h3⟩
        · exact .inr ⟨c, by simp, h3⟩
        · refine .inl ?_
          show chosenName c.name (nm.fresh s.used c.fn.baseName) ∈ _
          rw [h3, if_neg (by simp [hf, h2])]
          simp
  | graphOp name =>
    exact ⟨ev, ⟨h.inv, h.coeffs, fun e he => (h.names e he).imp_left (List.mem_cons_of_mem _)⟩, by simp [Losses.step, acceptedAt]⟩
  | other op =>
    refine ⟨ev, ⟨?_, h.coeffs, h.names⟩, by simp [Losses.step, acceptedAt]⟩
    have h1 := h.inv.step g op.1
    obtain ⟨op, hop⟩ := op
    cases op with
    | loss n gn c r => exact absurd rfl (hop n gn c r)
    | _ => simpa [Losses.step] using h1

theorem Losses.Ok.run {s : Losses P} {ev : List (String × ℚ)} (h : s.Ok ev) (nm : Namer) (g : Reg.Var → ℕ) (p : List (Stmt P)) :
    ∃ ev', (s.run nm g p).Ok ev' ∧ (s.run nm g p).objs = s.objs ++ accepted nm g s p := by
  induction p generalizing s ev with
  | nil => exact ⟨ev, h, by simp [Losses.run, accepted]⟩
  | cons st p ih =>
    obtain ⟨ev1, h1, e1⟩ := h.step nm g st
    obtain ⟨ev2, h2, e2⟩ := ih h1
    refine ⟨ev2, h2, ?_⟩
    show ((s.step nm g st).1.run nm g p).objs = _
    rw [e2, e1, accepted, List.append_assoc]

theorem start_ok (used : List String) : (Losses.start used : Losses P).Ok [] := ⟨Reg.lossInv_init, rfl, by simp⟩

theorem mem_positions {ev : List (String × ℚ)} {nm : String} {i : ℕ} :
    i ∈ positions ev nm ↔ ∃ h : i < ev.length, ev[i].1 = nm := by
  unfold positions
  rw [List.mem_filter, List.mem_range, decide_eq_true_eq]
  constructor
  · rintro ⟨h, h2⟩
    exact ⟨h, by simpa [List.getElem?_eq_getElem h] using h2⟩
  · rintro ⟨h, h2⟩
    exact ⟨h, by simp [List.getElem?_eq_getElem h, h2]⟩

/-- The dictionary of losses lists every object once. -/
theorem losses_perm {lc : LC} {ev : List (String × ℚ)} (h : LossInv lc ev) : lc.losses.Perm (List.range ev.length) := by
  have hd : ∀ e ∈ lc.lossDict, e.2 = positions ev e.1 ∧ e.2 ≠ [] := by
    intro e he
    have := Reg.lookup_of_mem h.nodup he
    rw [h.dict] at this
    split at this
    · exact absurd this (by simp)
    · rename_i hp
      rw [Option.some.injEq] at this
      exact ⟨this.symm, this ▸ hp⟩
  rw [List.perm_ext_iff_of_nodup ?_ List.nodup_range]
  · intro i
    rw [LC.losses, LC.towersByLoss, List.mem_flatten, List.mem_range]
    constructor
    · rintro ⟨l, hl, hi⟩
      obtain ⟨e, he, rfl⟩ := List.mem_map.1 hl
      rw [(hd e he).1] at hi
      exact (mem_positions.1 hi).1
    · intro hi
      have hm : i ∈ positions ev ev[i].1 := mem_positions.2 ⟨hi, rfl⟩
      have hne : positions ev ev[i].1 ≠ [] := List.ne_nil_of_mem hm
      have hl := h.dict ev[i].1
      rw [if_neg hne] at hl
      exact ⟨_, List.mem_map.2 ⟨_, Reg.mem_of_lookup hl, rfl⟩, hm⟩
  · rw [LC.losses, LC.towersByLoss, List.nodup_flatten]
    constructor
    · intro l hl
      obtain ⟨e, he, rfl⟩ := List.mem_map.1 hl
      rw [(hd e he).1]
      exact List.nodup_range.filter _
    · rw [List.pairwise_map]
      have hk := h.nodup
      rw [List.Nodup, List.pairwise_map] at hk
      refine (List.Pairwise.and_mem.1 hk).imp ?_
      rintro e e' ⟨he, he', hne⟩ i hi hi'
      rw [(hd e he).1] at hi
      rw [(hd e' he').1] at hi'
      obtain ⟨h1, h2⟩ := mem_positions.1 hi
      obtain ⟨h3, h4⟩ := mem_positions.1 hi'
      exact hne (h2.symm.trans h4)

theorem mapM_except_ok {α β : Type} (f : α → Except String β) (g : α → β) (l : List α) (h : ∀ a ∈ l, f a = .ok (g a)) :
    l.mapM f = .ok (l.map g) := by
  induction l with
  | nil => rfl
  | cons a l ih =>
    rw [List.mapM_cons, h a (by simp), ih fun a ha => h a (by simp [ha])]
    rfl

theorem mapM_except_error {α β : Type} (f : α → Except String β) (l : List α) {a : α} (ha : a ∈ l) {e : String} (h : f a = .error e) :
    ∃ e, l.mapM f = .error e := by
  induction l with
  | nil => simp at ha
  | cons x l ih =>
    rw [List.mapM_cons]
    rcases hx : f x with e' | u
    · exact ⟨e', rfl⟩
    · rcases List.mem_cons.1 ha with rfl | ha
      · rw [h] at hx
        cases hx
      · obtain ⟨e', he'⟩ := ih ha
        rw [he']
        exact ⟨e', rfl⟩

/-- The losses are the accepted registrations with their coefficients, in some order. -/
theorem all_perm (nm : Namer) (g : Reg.Var → ℕ) (used : List String) (p : List (Stmt P)) :
    ∃ ls, ((Losses.start used).run nm g p).all = .ok ls ∧
      ls.Perm ((accepted nm g (Losses.start used) p).map fun c => (c, c.weight)) := by
  obtain ⟨ev, h, e⟩ := (start_ok (P := P) used).run nm g p
  set s := (Losses.start used).run nm g p
  have e' : s.objs = accepted nm g (Losses.start used) p := by simpa [Losses.start] using e
  have hlen : ev.length = s.objs.length := by simpa using congrArg List.length h.coeffs
  have hp := losses_perm h.inv
  let G : ℕ → LossCall P × ℚ := fun i => if hi : i < s.objs.length then (s.objs[i], s.objs[i].weight) else
    (⟨0, 0, .squaredErrorLoss, none, fun _ _ _ => 0, none, none, .explicit .no⟩, 0)
  have hget : ∀ i ∈ s.lc.losses, s.get i = .ok (G i) := by
    intro i hi
    have hi' : i < s.objs.length := by
      rw [← hlen]
      exact List.mem_range.1 (hp.mem_iff.1 hi)
    have hev : i < ev.length := by omega
    have h1 : Reg.lookup s.lc.lossCoeffs i = some ev[i].2 := h.inv.coeff i _ (List.getElem?_eq_getElem hev)
    have h2 : ev[i].2 = s.objs[i].weight := by
      have := congrArg (fun l => l[i]?) h.coeffs
      simpa [hev, hi'] using this
    simp only [Losses.get, h1, List.getElem?_eq_getElem hi', G, dif_pos hi', h2]
  refine ⟨s.lc.losses.map G, mapM_except_ok _ _ _ hget, ?_⟩
  refine (hp.map G).trans (List.Perm.of_eq ?_)
  rw [hlen, ← e']
  apply List.ext_getElem
  · simp
  · intro i h1 h2
    have hi : i < s.objs.length := by simpa using h1
    simp [G, hi]

/-- The loss with its targets. -/
noncomputable def LossFn.head (f : LossFn) : f.Targets B n → Head B n :=
  match f with
  | .categoricalPredictiveDistribution => .categorical
  | .softmaxCrossEntropyLoss => .categorical
  | .normalPredictiveDistribution var => .normalMean (var.getD 0.5)
  | .squaredErrorLoss => .normalMean 0.5
  | .multiBernoulliPredictiveDistribution => .multiBernoulli
  | .sigmoidCrossEntropyLoss => .multiBernoulli

theorem head_evaluate (f : LossFn) (y : f.Targets B n) (z : Batch B n) : (f.head y).evaluate z = f.evaluate y z := by
  cases f <;> rfl

theorem head_at (f : LossFn) (y : f.Targets B n) (z : Batch B n) : (f.head y).at z = f.loss z := by
  cases f <;> rfl

theorem head_valid {f : LossFn} (hf : f.Valid) (y : f.Targets B n) : (f.head y).Valid := by
  cases f with
  | normalPredictiveDistribution var =>
    cases var with
    | none => exact show (0 : ℝ) < 0.5 by norm_num
    | some var => exact hf
  | squaredErrorLoss => exact show (0 : ℝ) < 0.5 by norm_num
  | _ => trivial

/-- The directional derivative of the total loss has a derivative: the Gauss-Newton product plus the second derivatives of the
inputs. -/
theorem total_second (ls : List (FnLoss P)) (hv : ∀ l ∈ ls, l.head.Valid) (hc : ∀ l ∈ ls, ContDiff ℝ 2 l.inputs) (θ v : Fin P → ℝ) :
    ∃ (g : Fin P → ℝ) (L : (Fin P → ℝ) →L[ℝ] ℝ), fnMultiplyGGN ls θ v = .ok g ∧
      HasFDerivAt (fun θ => fderiv ℝ (fun θ => (ls.map fun l => l.coeff * l.head.evaluate (l.inputs θ)).sum) θ v) L θ ∧
      ∀ q, L (Pi.single q 1) = g q + (ls.map fun l => l.coeff * l.residual θ v q).sum := by
  choose! g H hg hH hq using fun l (hl : l ∈ ls) => hessian_loss l (hv l hl) (hc l hl) θ v
  refine ⟨fun q => (ls.map fun l => g l q).sum, (ls.map H).sum, ?_, ?_, ?_⟩
  · unfold fnMultiplyGGN multiplyGGN
    rw [List.mapM_map, Function.comp_def]
    rw [mapM_ok _ g ls fun l hl => hg l hl]
    simp only [bind, Except.bind, pure, Except.pure]
    congr 1
    funext q
    rw [sumContribs, List.map_map]
    rfl
  · have h1 : (fun θ => fderiv ℝ (fun θ => (ls.map fun l => l.coeff * l.head.evaluate (l.inputs θ)).sum) θ v) =
        fun θ => (ls.map fun l => ∑ p, v p * (l.coeff * ∑ b, ∑ i, l.head.slope (l.inputs θ) b i *
          fderiv ℝ (fun θ => l.inputs θ b i) θ (Pi.single p 1))).sum := by
      funext θ
      rw [(hasFDerivAt_list_sum ls _ _ θ fun l hl => tfGradients_loss l (hv l hl) (hc l hl) θ).fderiv]
      clear hg hH hq
      induction ls with
      | nil => simp
      | cons l ls ih =>
        simp only [List.map_cons, List.sum_cons, _root_.add_apply]
        rw [ih (fun l hl => hv l (by simp [hl])) fun l hl => hc l (by simp [hl])]
        congr 1
        set A := l.coeff • (∑ b, ∑ i, l.head.slope (l.inputs θ) b i • entry b i).comp (fderiv ℝ l.inputs θ) with hA
        have h2 : v = ∑ p, v p • (Pi.single p 1 : Fin P → ℝ) := by
          funext q
          simp [Finset.sum_apply, Pi.single_apply]
        calc A v = A (∑ p, v p • (Pi.single p 1 : Fin P → ℝ)) := by rw [← h2]
          _ = ∑ p, v p * A (Pi.single p 1) := by simp only [map_sum, map_smul, smul_eq_mul]
          _ = _ := Finset.sum_congr rfl fun p _ => by
            rw [hA, gradient_loss l (hv l (by simp)) (hc l (by simp))]
    rw [h1]
    exact hasFDerivAt_list_sum ls _ H θ fun l hl => hH l hl
  · intro q
    clear hg hH hv hc
    induction ls with
    | nil => simp
    | cons l ls ih =>
      simp only [List.map_cons, List.sum_cons, _root_.add_apply]
      rw [ih fun l hl => hq l (by simp [hl]), hq l (by simp)]
      ring

/-- A registration as a loss with targets. -/
noncomputable def LossCall.fnLoss (c : LossCall P) (y : c.fn.Targets c.B c.n) : FnLoss P :=
  ⟨c.B, c.n, c.fn.head y, c.inputs, c.weight⟩

theorem linearised_fderiv (c : LossCall P) (θ θ' : Fin P → ℝ) (b : Fin c.B) (i : Fin c.n) :
    HasFDerivAt (fun θ' => (c.linearised θ).inputs θ' b i)
      (∑ p, fderiv ℝ (fun θ => c.inputs θ b i) θ (Pi.single p 1) • ContinuousLinearMap.proj (R := ℝ) (φ := fun _ : Fin P => ℝ) p)
      θ' := by
  have := (HasFDerivAt.fun_sum (u := Finset.univ) fun p (_ : p ∈ Finset.univ) =>
    (((ContinuousLinearMap.proj (R := ℝ) (φ := fun _ : Fin P => ℝ) p).hasFDerivAt (x := θ')).sub_const (θ p)).const_mul
      (fderiv ℝ (fun θ => c.inputs θ b i) θ (Pi.single p 1))).const_add (c.inputs θ b i)
  exact this

theorem linearised_gradients (c : LossCall P) (θ θ' : Fin P → ℝ) (b : Fin c.B) (i : Fin c.n) :
    tfGradients (fun θ' => (c.linearised θ).inputs θ' b i) θ' = tfGradients (fun θ => c.inputs θ b i) θ := by
  funext p
  rw [tfGradients, (linearised_fderiv c θ θ' b i).fderiv]
  simp [Pi.single_apply, tfGradients]

theorem linearised_residual (c : LossCall P) (θ θ' v : Fin P → ℝ) (y : (c.linearised θ).fn.Targets c.B c.n) (q : Fin P) :
    ((c.linearised θ).fnLoss y).residual θ' v q = 0 := by
  have e : ∀ b i p, (fun θ' => fderiv ℝ (fun θ' => ((c.linearised θ).fnLoss y).inputs θ' b i) θ' (Pi.single p 1)) =
      fun _ => tfGradients (fun θ => c.inputs θ b i) θ p := by
    intro b i p
    funext θ'
    exact congrFun (linearised_gradients c θ θ' b i) p
  simp [FnLoss.residual, e]

theorem fnLoss_at (c : LossCall P) (θ : Fin P → ℝ) (y : (c.linearised θ).fn.Targets c.B c.n) :
    ((c.linearised θ).fnLoss y).at θ = c.at c.weight θ := by
  have h1 : (c.linearised θ).inputs θ = c.inputs θ := by
    funext b i
    simp [LossCall.linearised]
  have h2 := fun b i => linearised_gradients c θ θ b i
  have h3 : ((c.linearised θ).fn.head y).at ((c.linearised θ).inputs θ) = c.fn.loss ((c.linearised θ).inputs θ) :=
    head_at _ _ _
  have h4 : ((c.linearised θ).fnLoss y).at θ =
      ⟨⟨c.B, c.n, ((c.linearised θ).fn.head y).at ((c.linearised θ).inputs θ), c.weight⟩,
        .single fun b i => tfGradients (fun θ' => (c.linearised θ).inputs θ' b i) θ⟩ := rfl
  rw [h4, h3, h1]
  simp only [h2]
  rfl

/-! ### Theorems -/

/-- After any program `total_loss()` is, for every value of the parameters, the sum of the documented losses of the accepted
registrations times their coefficients, up to one constant, provided all of them were given targets. -/
theorem C105_total (nm : Namer) (g : Reg.Var → ℕ) (used : List String) (p : List (Stmt P))
    (hne : accepted nm g (Losses.start used) p ≠ [])
    (y : (c : LossCall P) → c.fn.Targets c.B c.n)
    (hc : ∀ c ∈ accepted nm g (Losses.start used) p, c.fn.Valid ∧ c.targets = some (y c)) :
    ∃ k : ℝ, ∀ θ, ((Losses.start used).run nm g p).totalLoss θ =
      .ok (documentedTotal (accepted nm g (Losses.start used) p) y θ + k) := by
  obtain ⟨ls, hls, hperm⟩ := all_perm nm g used p
  set cs := accepted nm g (Losses.start used) p
  have hk : ∀ c : LossCall P, ∃ k : ℝ, c.fn.Valid → ∀ (y : c.fn.Targets c.B c.n) z, c.fn.evaluate y z = c.fn.documented y z + k := by
    intro c
    by_cases hf : c.fn.Valid
    · obtain ⟨k, hk⟩ := evaluate_documented (B := c.B) (n := c.n) c.fn hf
      exact ⟨k, fun _ => hk⟩
    · exact ⟨0, fun h => absurd h hf⟩
  choose k hk using hk
  refine ⟨(cs.map fun c => (c.weight : ℝ) * k c).sum, fun θ => ?_⟩
  have hv : ls.mapM (fun l => (l.1.evaluate θ).map fun x => (l.2 : ℝ) * x) =
      .ok (ls.map fun l => (l.2 : ℝ) * (l.1.fn.documented (y l.1) (l.1.inputs θ) + k l.1)) := by
    refine mapM_except_ok _ _ _ fun l hl => ?_
    obtain ⟨c, hcm, rfl⟩ := List.mem_map.1 (hperm.mem_iff.1 hl)
    simp only [LossCall.evaluate, (hc c hcm).2, Except.map, hk c (hc c hcm).1]
  rw [Losses.totalLoss, hls]
  simp only [bind, Except.bind, hv]
  have hlne : ls ≠ [] := by
    rintro rfl
    exact hne (by simpa using hperm.length_eq.symm)
  rw [if_neg (by simpa using hlne)]
  congr 1
  rw [(hperm.map _).sum_eq, List.map_map, documentedTotal, ← List.sum_map_add]
  congr 1
  refine List.map_congr_left fun c _ => ?_
  simp only [Function.comp, LossCall.weight]
  cases c.coeff <;> simp [mul_add]

/-- It raises if an accepted registration was given no targets, or if there is none. -/
theorem C105_total_raises (nm : Namer) (g : Reg.Var → ℕ) (used : List String) (p : List (Stmt P))
    (h : accepted nm g (Losses.start used) p = [] ∨ ∃ c ∈ accepted nm g (Losses.start used) p, c.targets = none) (θ : Fin P → ℝ) :
    ∃ e, ((Losses.start used).run nm g p).totalLoss θ = .error e := by
  obtain ⟨ls, hls, hperm⟩ := all_perm nm g used p
  rw [Losses.totalLoss, hls]
  rcases h with h | ⟨c, hcm, hc⟩
  · rw [h] at hperm
    have : ls = [] := by simpa using hperm
    subst this
    exact ⟨_, rfl⟩
  · have hl : (c, c.weight) ∈ ls := hperm.mem_iff.2 (List.mem_map.2 ⟨c, hcm, rfl⟩)
    obtain ⟨e, he⟩ := mapM_except_error (fun l : LossCall P × ℚ => (l.1.evaluate θ).map fun x => (l.2 : ℝ) * x) ls hl
      (e := "Cannot evaluate losses with unspecified targets.") (by simp [LossCall.evaluate, hc, Except.map])
    refine ⟨e, ?_⟩
    simp only [bind, Except.bind, he]

/-- For every model, at all parameters and whether or not targets were given, `multiply_ggn` of the registered losses
multiplies by the Hessian of the documented total loss of the linearised model, whatever the targets are. -/
theorem C105_curvature (nm : Namer) (g : Reg.Var → ℕ) (used : List String) (p : List (Stmt P))
    (hc : ∀ c ∈ accepted nm g (Losses.start used) p, c.fn.Valid) (y : (c : LossCall P) → c.fn.Targets c.B c.n) (θ v : Fin P → ℝ) :
    ∃ (G : Fin P → ℝ) (L : (Fin P → ℝ) →L[ℝ] ℝ), ((Losses.start used).run nm g p).multiplyGGN θ v = .ok G ∧
      HasFDerivAt (fun θ' => fderiv ℝ (documentedTotal ((accepted nm g (Losses.start used) p).map (·.linearised θ)) y) θ' v) L θ ∧
      ∀ q, L (Pi.single q 1) = G q := by
  obtain ⟨ls, hls, hperm⟩ := all_perm nm g used p
  set cs := accepted nm g (Losses.start used) p
  have hmem : ∀ l ∈ ls, l.1 ∈ cs ∧ l.2 = l.1.weight := by
    intro l hl
    obtain ⟨c, hcm, rfl⟩ := List.mem_map.1 (hperm.mem_iff.1 hl)
    exact ⟨hcm, rfl⟩
  let fl : LossCall P × ℚ → FnLoss P := fun l => (l.1.linearised θ).fnLoss (y (l.1.linearised θ))
  obtain ⟨G, L, h1, h2, h3⟩ := total_second (ls.map fl)
    (by
      intro l hl
      obtain ⟨l', hl', rfl⟩ := List.mem_map.1 hl
      exact head_valid (f := (l'.1.linearised θ).fn) (hc l'.1 (hmem l' hl').1) _)
    (by
      intro l hl
      obtain ⟨l', hl', rfl⟩ := List.mem_map.1 hl
      refine contDiff_pi.2 fun b => contDiff_pi.2 fun i => ?_
      show ContDiff ℝ 2 fun θ' : Fin P → ℝ => l'.1.inputs θ b i +
        ∑ p, fderiv ℝ (fun θ => l'.1.inputs θ b i) θ (Pi.single p 1) * (θ' p - θ p)
      fun_prop) θ v
  refine ⟨G, L, ?_, ?_, fun q => ?_⟩
  · rw [Losses.multiplyGGN, hls]
    simp only [bind, Except.bind]
    rw [← h1, fnMultiplyGGN, List.map_map]
    congr 1
    refine List.map_congr_left fun l hl => ?_
    rw [(hmem l hl).2]
    exact (fnLoss_at l.1 θ _).symm
  · have hk : ∀ c : LossCall P, ∃ k : ℝ, c.fn.Valid → ∀ (y : c.fn.Targets c.B c.n) z,
        c.fn.evaluate y z = c.fn.documented y z + k := by
      intro c
      by_cases hf : c.fn.Valid
      · obtain ⟨k, hk⟩ := evaluate_documented (B := c.B) (n := c.n) c.fn hf
        exact ⟨k, fun _ => hk⟩
      · exact ⟨0, fun h => absurd h hf⟩
    choose k hk using hk
    have e : (fun θ' => ((ls.map fl).map fun l => l.coeff * l.head.evaluate (l.inputs θ')).sum) = fun θ' =>
        documentedTotal (cs.map (·.linearised θ)) y θ' +
          (cs.map fun c => ((c.linearised θ).weight : ℝ) * k (c.linearised θ)).sum := by
      funext θ'
      rw [List.map_map]
      have e1 : ls.map ((fun l : FnLoss P => l.coeff * l.head.evaluate (l.inputs θ')) ∘ fl) =
          ls.map fun l => ((l.1.linearised θ).weight : ℝ) *
            ((l.1.linearised θ).fn.documented (y (l.1.linearised θ)) ((l.1.linearised θ).inputs θ') + k (l.1.linearised θ)) := by
        refine List.map_congr_left fun l hl => ?_
        rw [← hk (l.1.linearised θ) (hc l.1 (hmem l hl).1), ← head_evaluate]
        rfl
      rw [e1, (hperm.map _).sum_eq, List.map_map, documentedTotal, List.map_map, ← List.sum_map_add]
      congr 1
      refine List.map_congr_left fun c _ => ?_
      simp only [Function.comp, mul_add, LossCall.weight]
    rw [e] at h2
    simpa only [fderiv_add_const] using h2
  · rw [h3]
    have : ((ls.map fl).map fun l => l.coeff * l.residual θ v q) = ls.map fun _ => 0 := by
      rw [List.map_map]
      refine List.map_congr_left fun l _ => ?_
      show _ * ((l.1.linearised θ).fnLoss (y (l.1.linearised θ))).residual θ v q = 0
      exact (congrArg _ (linearised_residual l.1 θ θ v _ q)).trans (mul_zero _)
    rw [this]
    simp


/-- A registration without a name and without reuse is accepted as long as the collection is not finalised, unless the name
that the graph makes up was given to an earlier loss by the user (see `C105_name_counterexample`). -/
theorem C105_unnamed_partial (nm : Namer) (g : Reg.Var → ℕ) (used : List String) (p : List (Stmt P)) (c : LossCall P)
    (hn : c.name = none ∨ c.name = some "") (hr : c.reuse.resolve = .no)
    (hf : ((Losses.start used).run nm g p).lc.finalized = false)
    (hg : ∀ c' ∈ accepted nm g (Losses.start used) p,
      c'.name ≠ some (nm.fresh ((Losses.start used).run nm g p).used c.fn.baseName)) :
    (((Losses.start used).run nm g p).step nm g (.loss c)).2 = .ok () := by
  obtain ⟨ev, h, e⟩ := (start_ok (P := P) used).run nm g p
  set s := (Losses.start used).run nm g p
  have e' : s.objs = accepted nm g (Losses.start used) p := by simpa [Losses.start] using e
  have hname : chosenName c.name (nm.fresh s.used c.fn.baseName) = nm.fresh s.used c.fn.baseName := by
    rcases hn with hn | hn <;> simp [hn, chosenName]
  have hk : nm.fresh s.used c.fn.baseName ∉ s.lc.lossDict.map (·.1) := by
    intro hm
    rw [← Reg.lookup_isSome, h.inv.dict] at hm
    by_cases hp : positions ev (nm.fresh s.used c.fn.baseName) = []
    · rw [if_pos hp] at hm
      simp at hm
    · obtain ⟨i, hi⟩ := List.exists_mem_of_ne_nil _ hp
      obtain ⟨hi, hi'⟩ := mem_positions.1 hi
      rcases h.names _ (List.getElem_mem hi) with h1 | ⟨c', hc', h1⟩
      · rw [hi'] at h1
        exact nm.new _ _ h1
      · rw [hi'] at h1
        exact hg c' (e' ▸ hc') h1
  have : (Reg.registerLoss s.lc c.name (nm.fresh s.used c.fn.baseName) c.weight c.reuse).2 = .ok () := by
    rw [Reg.registerLoss_eq, if_neg (by simp [hf]), if_neg (by simp [hr]), hname, if_neg hk]
  simp only [Losses.step, Losses.register, this]

/-- What a made-up name starts with: the name of the function without `register_`, and with `sparse_` for the softmax. -/
def LossFn.stem : LossFn → String
  | .categoricalPredictiveDistribution => "categorical_predictive_distribution"
  | .softmaxCrossEntropyLoss => "sparse_" ++ "softmax_cross_entropy_loss"
  | .normalPredictiveDistribution _ => "normal_predictive_distribution"
  | .squaredErrorLoss => "squared_error_loss"
  | .multiBernoulliPredictiveDistribution => "multi_bernoulli_predictive_distribution"
  | .sigmoidCrossEntropyLoss => "sigmoid_cross_entropy_loss"

/-- An accepted registration without a name and without reuse makes a new loss under the name that the graph makes up from the
name of the function. That name is taken in the graph afterwards, and the losses under all other names are as before. -/
theorem C105_made_up (nm : Namer) (g : Reg.Var → ℕ) (s : Losses P) (c : LossCall P)
    (hn : c.name = none ∨ c.name = some "") (hr : c.reuse.resolve = .no) (hok : (s.step nm g (.loss c)).2 = .ok ()) :
    let made := nm.fresh s.used c.fn.stem
    let s' := (s.step nm g (.loss c)).1
    made ∉ s.used ∧ s'.used = made :: s.used ∧ Reg.lookup s.lc.lossDict made = none ∧
    Reg.lookup s'.lc.lossDict made = some [s.lc.nextLoss] ∧
    ∀ k ≠ made, Reg.lookup s'.lc.lossDict k = Reg.lookup s.lc.lossDict k := by
  intro made s'
  have hb : c.fn.baseName = c.fn.stem := by cases c.fn <;> rfl
  have hname : chosenName c.name made = made := by rcases hn with hn | hn <;> simp [hn, chosenName]
  have hg : givenName c.name = false := by rcases hn with hn | hn <;> simp [hn, givenName]
  have hs' : s' = (s.register nm c).1 := rfl
  change (s.register nm c).2 = .ok () at hok
  simp only [Losses.register, hb] at hok hs'
  rw [Reg.registerLoss_eq] at hok hs'
  rw [show nm.fresh s.used c.fn.stem = made from rfl, hname] at hok hs'
  by_cases hf : s.lc.finalized
  · simp [hf] at hok
  by_cases hk : made ∈ s.lc.lossDict.map (·.1)
  · simp [hf, hr, hk] at hok
  rw [if_neg hf, if_neg (by simp [hr]), if_neg hk] at hs'
  simp only [hf, hg] at hs'
  refine ⟨nm.new _ _, by simp [hs'], ?_, by simp [hs', Reg.lookup_upsert], fun k hk' => by simp [hs', Reg.lookup_upsert, hk']⟩
  rw [← Reg.lookup_isSome] at hk
  simpa using hk

/-- Two quirks of the made-up names: the graph does not know the names that the user gave. In a new collection a loss is
registered under the name the graph would make up. A second loss without a name is then refused, although the documentation
says that a new name is generated; and with `reuse=True` and no name it becomes a second tower of the first, although the
documentation says that this raises. -/
theorem C105_name_counterexample (nm : Namer) (g : Reg.Var → ℕ) (used : List String) (c : LossCall P)
    (hne : nm.fresh used c.fn.baseName ≠ "") :
    let first := { c with name := some (nm.fresh used c.fn.baseName), reuse := .explicit .no }
    let s := (Losses.start used).run nm g [.loss first]
    accepted nm g (Losses.start used) [.loss first] = [first] ∧
    (s.step nm g (.loss { c with name := none, reuse := .explicit .no })).2 = .error "KeyError: Loss function already exists" ∧
    (s.step nm g (.loss { c with name := none, reuse := .explicit .yes })).2 = .ok () := by
  intro first s
  have hw : first.weight = c.weight := rfl
  have hr : Reg.registerLoss LC.init first.name (nm.fresh used first.fn.baseName) first.weight first.reuse =
      ({ LC.init with lossDict := [(nm.fresh used c.fn.baseName, [0])], lossCoeffs := [(0, c.weight)], nextLoss := 1 }, .ok ()) := by
    rw [Reg.registerLoss_eq]
    simp [first, LC.init, ReuseArg.resolve, chosenName, hne, Reg.upsert, LossCall.weight]
  have hs : (Losses.start used : Losses P).step nm g (.loss first) =
      (⟨{ LC.init with lossDict := [(nm.fresh used c.fn.baseName, [0])], lossCoeffs := [(0, c.weight)], nextLoss := 1 },
        used, [first]⟩, .ok ()) := by
    simp only [Losses.step, Losses.register, Losses.start, hr]
    simp [givenName, first, hne]
  have hs' : s = ⟨{ LC.init with lossDict := [(nm.fresh used c.fn.baseName, [0])], lossCoeffs := [(0, c.weight)], nextLoss := 1 },
      used, [first]⟩ := by
    show ((Losses.start used : Losses P).step nm g (.loss first)).1 = _
    rw [hs]
  refine ⟨?_, ?_, ?_⟩
  · simp [accepted, hs, acceptedAt]
  · rw [hs']
    simp [Losses.step, Losses.register, Reg.registerLoss_eq, LC.init, ReuseArg.resolve, chosenName]
  · rw [hs']
    simp [Losses.step, Losses.register, Reg.registerLoss_eq, LC.init, ReuseArg.resolve, chosenName, Reg.lookup, LossCall.weight]

/-- A way to make up names: a longer one than all in use. -/
def longNames : Namer where
  fresh used base := base ++ String.ofList (List.replicate ((used.map String.length).sum + 1) '_')
  new used base h := by
    have h1 : ∀ (l : List String) (s : String), s ∈ l → s.length ≤ (l.map String.length).sum := by
      intro l s hs
      exact List.le_sum_of_mem (List.mem_map.2 ⟨s, hs, rfl⟩)
    have := h1 _ _ h
    simp [String.length_append] at this
    omega

/-- A classifier with two logits and a squared penalty on two batches, with twice the weight. -/
def classify : LossCall 2 :=
  ⟨1, 2, .softmaxCrossEntropyLoss, some fun _ => 1, fun θ _ i => θ i, none, none, .explicit .no⟩

def penalty (r : Reg.Reuse) (q : ℚ) : LossCall 2 :=
  ⟨1, 1, .squaredErrorLoss, some fun _ => 0, fun θ _ _ => θ 0 * θ 1, some "penalty", some q, .explicit r⟩

/-- The third registration adds a tower, the fourth has another coefficient and is refused. -/
example (g : Reg.Var → ℕ) :
    accepted longNames g (Losses.start [])
      [.loss classify, .loss (penalty .no 2), .loss (penalty .yes 2), .loss (penalty .yes 3)] =
      [classify, penalty .no 2, penalty .yes 2] := by
  simp [accepted, acceptedAt, Losses.step, Losses.register, Losses.start, classify, penalty, Reg.registerLoss_eq, LC.init,
    ReuseArg.resolve, chosenName, Reg.lookup, Reg.upsert, LossCall.weight, longNames, LossFn.baseName]

/-- The first of these registrations has no name. -/
example (g : Reg.Var → ℕ) : ((Losses.start []).step longNames g (.loss classify)).2 = .ok () ∧
    Reg.lookup ((Losses.start []).step longNames g (.loss classify)).1.lc.lossDict "sparse_softmax_cross_entropy_loss_" =
      some [0] := by
  simp [Losses.step, Losses.register, Losses.start, classify, Reg.registerLoss_eq, LC.init,
    ReuseArg.resolve, chosenName, Reg.lookup, Reg.upsert, LossCall.weight, longNames, LossFn.baseName]

end Kfac.Loss
