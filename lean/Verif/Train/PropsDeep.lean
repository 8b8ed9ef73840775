import Verif.Train.PropsCluster
import Verif.Train.PropsFit
import Mathlib.Analysis.Calculus.Deriv.Slope
import Mathlib.Analysis.Calculus.Deriv.Mul
import Mathlib.Analysis.Calculus.Deriv.Add
import Mathlib.Analysis.Calculus.Deriv.Pi
import Mathlib.Analysis.Calculus.Deriv.Comp

/-! # C104: a small enough step of K-FAC decreases the loss of any network -/

namespace Kfac.Train

open Kfac.Stats Kfac.Block Kfac.Grad Matrix Filter Topology

/-! ### Specification -/

/-- The mean loss of a network. -/
noncomputable def batchLoss {N n o : ℕ} (x : Fin N → Fin n → ℝ) (loss : Fin N → (Fin o → ℝ) → ℝ) (net : Net n o) : ℝ :=
  (∑ i, loss i (net.eval (x i))) / N

/-- A direction in the space of the parameters of all layers. -/
def Net.Tangent : {n o : ℕ} → Net n o → Type
  | _, _, .nil => Unit
  | _, _, .cons (n := n) (q := q) bias _ _ rest => (Fin (n + bias.toNat) → Fin q → ℝ) × rest.Tangent

/-- The network with its parameters moved. -/
def Net.move : {n o : ℕ} → (net : Net n o) → net.Tangent → ℝ → Net n o
  | _, _, .nil, _, _ => .nil
  | _, _, .cons bias l φ rest, d, t => .cons bias { l with weights := l.weights + t • d.1 } φ (rest.move d.2 t)

theorem move_zero {n o : ℕ} (net : Net n o) (d : net.Tangent) : net.move d 0 = net := by
  induction net with
  | nil => rfl
  | cons bias l φ rest ih => simp only [Net.move, zero_smul, add_zero, ih]

/-- No direction changes the loss to first order. -/
def Net.StationaryFor {N n o : ℕ} (net : Net n o) (x : Fin N → Fin n → ℝ) (loss : Fin N → (Fin o → ℝ) → ℝ) : Prop :=
  ∀ d : net.Tangent, HasDerivAt (fun t => batchLoss x loss (net.move d t)) 0 0

/-- Every layer has outputs. -/
def Net.Wide {n o : ℕ} : Net n o → Prop
  | .nil => True
  | .cons (q := q) _ _ _ rest => q ≠ 0 ∧ rest.Wide

/-- Batches are not empty, decays not negative, dampings positive. -/
def Op.Sane {n o : ℕ} : Op n o → Prop
  | .cov (N := N) _ _ decay => N ≠ 0 ∧ 0 ≤ decay
  | .inv damping => 0 < damping
  | .train (N := N) _ _ => N ≠ 0

/-- The inverse updates among the operations. -/
def Op.isInv {n o : ℕ} : Op n o → Bool
  | .inv _ => true
  | _ => false

/-! ### The statistics -/

/-- What holds of the statistics of a layer, `warm` once the inverses have been computed. -/
def LayerOk {P q : ℕ} (warm : Bool) (l : Layer P q) : Prop :=
  0 ≤ l.input.avg.totalWeight ∧ 0 ≤ l.output.avg.totalWeight ∧ l.input.avg.var.PosSemidef ∧ l.output.avg.var.PosSemidef ∧
    (warm = true → l.input.inverse.PosDef ∧ l.output.inverse.PosDef)

/-- And of all layers. -/
def Net.Ok (warm : Bool) {n o : ℕ} : Net n o → Prop
  | .nil => True
  | .cons (q := q) _ l φ rest => (q ≠ 0 ∧ LayerOk warm l ∧ Differentiable ℝ φ) ∧ rest.Ok warm

theorem ok_fresh {n o : ℕ} {net : Net n o} (hf : net.Fresh) (hr : net.Regular) (hw : net.Wide) : net.Ok false := by
  induction net with
  | nil => trivial
  | cons bias l φ rest ih =>
    obtain ⟨-, h1, h2, h3⟩ := hf
    refine ⟨⟨hw.1, ⟨?_, ?_, ?_, ?_, by simp⟩, hr.1⟩, ih h3 hr.2 hw.2⟩
    · simp [h1, MovAvg.init]
    · simp [h2, MovAvg.init]
    · simp [h1, MovAvg.init, PosSemidef.zero]
    · simp [h2, MovAvg.init, PosSemidef.zero]

theorem damped_posDef {n : ℕ} {A : Matrix (Fin n) (Fin n) ℝ} (h : A.PosSemidef) {d : ℝ} (hd : 0 < d) :
    ((A + d • (1 : Matrix (Fin n) (Fin n) ℝ))⁻¹).PosDef :=
  (PosDef.posSemidef_add h (PosDef.one.smul hd)).inv

theorem layer_inv {P q : ℕ} {w : Bool} {rule : PiRule} {power damping : ℝ} (hd : 0 < damping) {l l' : Layer P q} (h : LayerOk w l)
    (hl : l.invUpdate rule power damping = .ok l') : LayerOk true l' := by
  obtain ⟨h1, h2, h3, h4, -⟩ := h
  unfold Layer.invUpdate at hl
  split at hl
  · rename_i a g ha hg
    obtain ⟨w1, rfl⟩ := value_of ha
    obtain ⟨w2, rfl⟩ := value_of hg
    have p1 : (l.input.avg.totalWeight⁻¹ • l.input.avg.var).PosSemidef := h3.smul (inv_nonneg.mpr h1)
    have p2 : (l.output.avg.totalWeight⁻¹ • l.output.avg.var).PosSemidef := h4.smul (inv_nonneg.mpr h2)
    obtain ⟨d, e, h6, -, -, h7, -⟩ := setupDamping_ok rule power _ _ damping P q p1.trace_nonneg p2.trace_nonneg hd.le
    rw [h6] at hl
    obtain rfl := Except.ok.inj hl
    simp only [LayerOk, DenseStat.step, ha, hg]
    exact ⟨h1, h2, h3, h4, fun _ => ⟨damped_posDef p1 (h7 hd).1, damped_posDef p2 (h7 hd).2⟩⟩
  · cases hl

theorem ok_step {n o : ℕ} {net net' : Net n o} (cfg : Config) {w : Bool} (h : net.Ok w) {op : Op n o} (ho : op.Sane)
    (hs : net.step cfg op = .ok net') : net'.Ok (w || op.isInv) := by
  cases op with
  | cov x sampled decay =>
    simp only [Op.isInv, Bool.or_false]
    obtain rfl := Except.ok.inj hs
    clear hs
    induction net with
    | nil => trivial
    | cons bias l φ rest ih =>
      obtain ⟨⟨h0, ⟨h1, h2, h3, h4, h5⟩, h6⟩, h7⟩ := h
      have hd : 0 ≤ decay := ho.2
      refine ⟨⟨h0, ⟨?_, ?_, ?_, ?_, h5⟩, h6⟩, ih h7 _ _ ho⟩
      · simp only [DenseStat.step, MovAvg.add]; positivity
      · simp only [DenseStat.step, MovAvg.add]; positivity
      · simp only [DenseStat.step, MovAvg.add, cov_one, one_smul]
        exact (h3.smul hd).add (computeCov_psd _)
      · simp only [DenseStat.step, MovAvg.add, cov_one, one_smul]
        exact (h4.smul hd).add (computeCov_psd _)
  | inv damping =>
    simp only [Net.step] at hs
    simp only [Op.isInv, Bool.or_true]
    have hd : 0 < damping := ho
    induction net with
    | nil => obtain rfl := Except.ok.inj hs; trivial
    | cons bias l φ rest ih =>
      simp only [Net.invUpdate, Bind.bind, Except.bind] at hs
      cases h1 : l.invUpdate cfg.rule cfg.power damping with
      | error m => rw [h1] at hs; cases hs
      | ok l' =>
        rw [h1] at hs
        cases h2 : rest.invUpdate cfg.rule cfg.power damping with
        | error m => rw [h2] at hs; cases hs
        | ok rest' =>
          rw [h2] at hs
          obtain rfl := Except.ok.inj hs
          exact ⟨⟨h.1.1, layer_inv hd h.1.2.1 h1, h.1.2.2⟩, ih h.2 ho h2⟩
  | train x loss =>
    simp only [Op.isInv, Bool.or_false]
    simp only [Net.step, Net.trainStep, Bind.bind, Except.bind] at hs
    cases h0 : net.sqNorm x loss with
    | error m => rw [h0] at hs; cases hs
    | ok sq =>
      rw [h0] at hs
      dsimp only at hs
      generalize clipFactor cfg.normConstraint cfg.learningRate sq = coeff at hs
      clear h0
      induction net with
      | nil => obtain rfl := Except.ok.inj hs; trivial
      | cons bias l φ rest ih =>
        simp only [Net.update, Bind.bind, Except.bind] at hs
        split at hs
        · cases hs
        · split at hs
          · cases hs
          · rename_i rest' h2
            obtain rfl := Except.ok.inj hs
            exact ⟨h.1, ih h.2 _ _ ho h2⟩

theorem ok_run {n o : ℕ} (cfg : Config) (ops : List (Op n o)) (ho : ∀ op ∈ ops, op.Sane) : ∀ {net net' : Net n o} {w : Bool}, net.Ok w →
    net.run cfg ops = .ok net' → net'.Ok (w || ops.any Op.isInv) := by
  induction ops with
  | nil =>
    intro net net' w h hs
    obtain rfl := Except.ok.inj hs
    simpa using h
  | cons op ops ih =>
    intro net net' w h hs
    simp only [Net.run] at hs
    cases h1 : net.step cfg op with
    | error m => rw [h1] at hs; cases hs
    | ok m =>
      rw [h1] at hs
      have := ih (fun op h => ho op (by simp [h])) (ok_step cfg h (ho op (by simp)) h1) hs
      simpa [List.any_cons, Bool.or_assoc] using this

theorem Net.Ok.regular {w : Bool} {n o : ℕ} {net : Net n o} (h : net.Ok w) : net.Regular := by
  induction net with
  | nil => trivial
  | cons bias l φ rest ih => exact ⟨h.1.2.2, ih h.2⟩

/-! ### The derivative of the loss by all parameters -/

/-- The derivative of `append_homog`. -/
def homogDeriv {n : ℕ} (bias : Bool) (v : Fin n → ℝ) : Fin (n + bias.toNat) → ℝ := Fin.append v fun _ => 0

theorem affine_path {n q : ℕ} (bias : Bool) {w : ℝ → Fin (n + bias.toNat) → Fin q → ℝ} {w' : Fin (n + bias.toNat) → Fin q → ℝ}
    {y : ℝ → Fin n → ℝ} {y' : Fin n → ℝ} (hw : HasDerivAt w w' 0) (hy : HasDerivAt y y' 0) :
    HasDerivAt (fun t => affine bias (w t) (y t)) (affine bias w' (y 0) + fun j => ∑ r, w 0 r j * homogDeriv bias y' r) 0 := by
  rw [hasDerivAt_pi]
  intro j
  have hh : ∀ r, HasDerivAt (fun t => appendHomog bias (y t) r) (homogDeriv bias y' r) 0 := by
    intro r
    refine Fin.addCases (fun i => ?_) (fun b => ?_) r
    · simp only [appendHomog, homogDeriv, Fin.append_left]
      exact (hasDerivAt_pi.mp hy) i
    · simp only [appendHomog, homogDeriv, Fin.append_right]
      exact hasDerivAt_const _ _
  have hs : HasDerivAt (fun t => ∑ r, w t r j * appendHomog bias (y t) r)
      (∑ r, (w' r j * appendHomog bias (y 0) r + w 0 r j * homogDeriv bias y' r)) 0 :=
    HasDerivAt.fun_sum fun r _ => (hasDerivAt_pi.mp (hasDerivAt_pi.mp hw r) j).mul (hh r)
  rw [Finset.sum_add_distrib] at hs
  exact hs

/-- The sum over the layers of the inner products of the gradient with a direction. -/
noncomputable def Net.pairing {N : ℕ} : {n o : ℕ} → (net : Net n o) → (Fin N → Fin n → ℝ) → (Fin N → (Fin o → ℝ) → ℝ) → net.Tangent → ℝ
  | _, _, .nil, _, _, _ => 0
  | _, _, .cons bias l φ rest, x, train, d => (∑ r, ∑ j, matGradient (lossOf bias φ rest x train) l.weights r j * d.1 r j) +
      rest.pairing (fun i => φ (affine bias l.weights (x i))) train d.2

theorem matGradient_pair {P q : ℕ} (f : (Fin P → Fin q → ℝ) → ℝ) (w d : Fin P → Fin q → ℝ) :
    ∑ r, ∑ j, matGradient f w r j * d r j = fderiv ℝ f w d := by
  have hd : d = ∑ r, ∑ j, d r j • (Pi.single r (Pi.single j 1) : Fin P → Fin q → ℝ) := by
    funext a b
    simp [Finset.sum_apply, Pi.single_apply, apply_ite, ite_apply]
  conv_rhs => rw [hd]
  simp only [map_sum, map_smul, smul_eq_mul, matGradient]
  exact Finset.sum_congr rfl fun r _ => Finset.sum_congr rfl fun j _ => mul_comm _ _

theorem line {P q : ℕ} (w d : Fin P → Fin q → ℝ) : HasDerivAt (fun t : ℝ => w + t • d) d 0 := by
  have := ((hasDerivAt_id (0 : ℝ)).smul_const d).const_add w
  simpa using this

theorem hasDeriv_move {N n o : ℕ} {net : Net n o} (hr : net.Regular) {train : Fin N → (Fin o → ℝ) → ℝ}
    (ht : ∀ i, Differentiable ℝ (train i)) (d : net.Tangent) {x : ℝ → Fin N → Fin n → ℝ} {x' : Fin N → Fin n → ℝ}
    (hx : ∀ i, HasDerivAt (fun t => x t i) (x' i) 0) :
    HasDerivAt (fun t => (∑ i, train i ((net.move d t).eval (x t i))) / (N : ℝ))
      (net.pairing (x 0) train d + (∑ i, fderiv ℝ (fun y => train i (net.eval y)) (x 0 i) (x' i)) / N) 0 := by
  induction net with
  | nil =>
    simp only [Net.move, Net.eval, Net.pairing, zero_add]
    exact (HasDerivAt.fun_sum fun i _ => ((ht i) (x 0 i)).hasFDerivAt.comp_hasDerivAt 0 (hx i)).div_const _
  | cons bias l φ rest ih =>
    let F : Fin N → _ → ℝ := fun i y => train i (rest.eval y)
    have hF : ∀ i, Differentiable ℝ (F i) := fun i => (ht i).comp hr.2.eval
    let s0 := fun i => affine bias l.weights (x 0 i)
    have hz : ∀ i, HasDerivAt (fun t => φ (affine bias (l.weights + t • d.1) (x t i)))
        (fderiv ℝ φ (s0 i) (affine bias d.1 (x 0 i) + fun j => ∑ r, l.weights r j * homogDeriv bias (x' i) r)) 0 := by
      intro i
      have h1 := affine_path bias (line l.weights d.1) (hx i)
      simp only [zero_smul, add_zero] at h1
      have h2 : HasFDerivAt φ (fderiv ℝ φ (s0 i)) (affine bias (l.weights + (0 : ℝ) • d.1) (x 0 i)) := by
        simp only [zero_smul, add_zero]
        exact (hr.1 (s0 i)).hasFDerivAt
      exact h2.comp_hasDerivAt 0 h1
    have h3 := ih hr.2 ht d.2 (x := fun t i => φ (affine bias (l.weights + t • d.1) (x t i))) hz
    simp only [zero_smul, add_zero] at h3
    -- the derivative by the weights of this layer
    have h4 : ∑ r, ∑ j, matGradient (lossOf bias φ rest (x 0) train) l.weights r j * d.1 r j =
        (∑ i, fderiv ℝ (F i) (φ (s0 i)) (fderiv ℝ φ (s0 i) (affine bias d.1 (x 0 i)))) / N := by
      rw [matGradient_pair]
      have hd : DifferentiableAt ℝ (lossOf bias φ rest (x 0) train) l.weights := by
        have : Differentiable ℝ (lossOf bias φ rest (x 0) train) := by
          have h1 : Differentiable ℝ fun w => ∑ i, train i (rest.eval (φ (affine bias w (x 0 i)))) :=
            Differentiable.fun_sum fun i _ => (hF i).comp (hr.1.comp (affine_differentiable_weights bias (x 0 i)))
          exact h1.mul_const (N : ℝ)⁻¹
        exact this _
      have e1 : HasDerivAt (fun t : ℝ => lossOf bias φ rest (x 0) train (l.weights + t • d.1))
          (fderiv ℝ (lossOf bias φ rest (x 0) train) l.weights d.1) 0 := by
        have h2 : HasFDerivAt (lossOf bias φ rest (x 0) train) (fderiv ℝ (lossOf bias φ rest (x 0) train) l.weights)
            (l.weights + (0 : ℝ) • d.1) := by
          simp only [zero_smul, add_zero]
          exact hd.hasFDerivAt
        exact h2.comp_hasDerivAt 0 (line l.weights d.1)
      refine e1.unique ?_
      unfold lossOf
      refine HasDerivAt.div_const ?_ _
      refine HasDerivAt.fun_sum fun i _ => ?_
      have h1 := affine_path bias (line l.weights d.1) (hasDerivAt_const (0 : ℝ) (x 0 i))
      have hzero : (fun j => ∑ r, (l.weights + (0 : ℝ) • d.1) r j * homogDeriv bias (0 : Fin _ → ℝ) r) = 0 := by
        funext j
        refine Finset.sum_eq_zero fun r _ => ?_
        have : homogDeriv bias (0 : Fin _ → ℝ) r = 0 := by
          refine Fin.addCases (fun i => ?_) (fun b => ?_) r <;> simp [homogDeriv]
        rw [this, mul_zero]
      rw [hzero, add_zero] at h1
      have h2 : HasFDerivAt (fun s => F i (φ s)) ((fderiv ℝ (F i) (φ (s0 i))).comp (fderiv ℝ φ (s0 i)))
          (affine bias (l.weights + (0 : ℝ) • d.1) (x 0 i)) := by
        simp only [zero_smul, add_zero]
        exact ((hF i) (φ (s0 i))).hasFDerivAt.comp (s0 i) (hr.1 (s0 i)).hasFDerivAt
      exact h2.comp_hasDerivAt 0 h1
    -- the derivative by the inputs
    have h5 : ∀ i, fderiv ℝ (fun y => train i ((Net.cons bias l φ rest).eval y)) (x 0 i) (x' i) =
        fderiv ℝ (F i) (φ (s0 i)) (fderiv ℝ φ (s0 i) fun j => ∑ r, l.weights r j * homogDeriv bias (x' i) r) := by
      intro i
      have e1 : HasDerivAt (fun t => train i ((Net.cons bias l φ rest).eval (x t i)))
          (fderiv ℝ (fun y => train i ((Net.cons bias l φ rest).eval y)) (x 0 i) (x' i)) 0 := by
        have : Differentiable ℝ fun y => train i ((Net.cons bias l φ rest).eval y) :=
          (ht i).comp (Net.Regular.eval (net := Net.cons bias l φ rest) hr)
        exact (this (x 0 i)).hasFDerivAt.comp_hasDerivAt 0 (hx i)
      refine e1.unique ?_
      have h1 := affine_path bias (hasDerivAt_const (0 : ℝ) l.weights) (hx i)
      have hzero : affine bias (0 * l.weights) (x 0 i) = 0 := by
        funext j; simp [affine]
      rw [zero_mul] at hzero
      rw [hzero, zero_add] at h1
      have h2 : HasFDerivAt (fun s => F i (φ s)) ((fderiv ℝ (F i) (φ (s0 i))).comp (fderiv ℝ φ (s0 i)))
          (affine bias l.weights (x 0 i)) :=
        ((hF i) (φ (s0 i))).hasFDerivAt.comp (s0 i) (hr.1 (s0 i)).hasFDerivAt
      exact h2.comp_hasDerivAt 0 h1
    refine h3.congr_deriv ?_
    simp only [Net.pairing, h4, h5, map_add, Finset.sum_add_distrib, add_div]
    ring

/-- The derivative of the mean loss along a direction is the pairing with the gradients of the layers. -/
theorem hasDeriv_batchLoss {N n o : ℕ} {net : Net n o} (hr : net.Regular) {train : Fin N → (Fin o → ℝ) → ℝ}
    (ht : ∀ i, Differentiable ℝ (train i)) (d : net.Tangent) (x : Fin N → Fin n → ℝ) :
    HasDerivAt (fun t => batchLoss x train (net.move d t)) (net.pairing x train d) 0 := by
  have := hasDeriv_move hr ht d (x := fun _ => x) (x' := fun _ => 0) fun i => hasDerivAt_const _ _
  simp only [map_zero, Finset.sum_const_zero, zero_div, add_zero] at this
  exact this

/-! ### The step -/

/-- The preconditioned gradient. -/
noncomputable def Net.natural {N : ℕ} : {n o : ℕ} → (net : Net n o) → (Fin N → Fin n → ℝ) → (Fin N → (Fin o → ℝ) → ℝ) → net.Tangent
  | _, _, .nil, _, _ => ()
  | _, _, .cons bias l φ rest, x, train =>
    (fun r j => (l.input.inverse * Matrix.of (matGradient (lossOf bias φ rest x train) l.weights) * l.output.inverse) r j,
      rest.natural (fun i => φ (affine bias l.weights (x i))) train)

theorem sqNorm_eq {N n o : ℕ} {w : Bool} {net : Net n o} (h : net.Ok w) (x : Fin N → Fin n → ℝ) (train : Fin N → (Fin o → ℝ) → ℝ) :
    net.sqNorm x train = .ok (net.pairing x train (net.natural x train)) := by
  induction net with
  | nil => rfl
  | cons bias l φ rest ih =>
    simp only [Net.sqNorm, precondition_eq h.1.1, ih h.2, Bind.bind, Except.bind, pure, Except.pure]
    rfl

theorem update_eq {N n o : ℕ} {w : Bool} {net : Net n o} (h : net.Ok w) (x : Fin N → Fin n → ℝ) (train : Fin N → (Fin o → ℝ) → ℝ)
    (lr coeff : ℝ) : ∃ net', net.update lr 0 coeff x train = .ok net' ∧
      net'.eval = (net.move (net.natural x train) (-(lr * coeff))).eval := by
  induction net with
  | nil => exact ⟨.nil, rfl, rfl⟩
  | cons bias l φ rest ih =>
    obtain ⟨rest', h1, h2⟩ := ih h.2 (fun i => φ (affine bias l.weights (x i))) train
    refine ⟨_, by simp only [Net.update, precondition_eq h.1.1, h1, Bind.bind, Except.bind, pure, Except.pure]; rfl, ?_⟩
    funext y
    simp only [Net.move, Net.eval, h2, Net.natural]
    congr 4
    funext r j
    simp only [Pi.sub_apply, Pi.add_apply, Pi.smul_apply, smul_eq_mul, zero_mul, zero_add]
    show l.weights r j - lr * (coeff * _) = _
    ring

/-- The inner product of the gradient with the preconditioned gradient is positive unless the gradient is zero. -/
theorem pairing_natural {N n o : ℕ} {net : Net n o} (h : net.Ok true) (x : Fin N → Fin n → ℝ) (train : Fin N → (Fin o → ℝ) → ℝ) :
    0 < net.pairing x train (net.natural x train) ∨
      (∀ d, net.pairing x train d = 0) ∧ ∀ t, (net.move (net.natural x train) t).eval = net.eval := by
  induction net with
  | nil => exact .inr ⟨fun _ => rfl, fun _ => rfl⟩
  | cons bias l φ rest ih =>
    set g := matGradient (lossOf bias φ rest x train) l.weights with hg
    obtain ⟨p1, p2⟩ := h.1.2.1.2.2.2.2 rfl
    have h1 : g ≠ 0 → 0 < ∑ r, ∑ j, g r j * (l.input.inverse * Matrix.of g * l.output.inverse) r j := fun hne =>
      inner_pos p1 p2 (X := Matrix.of g) hne
    have h2 : g = 0 → l.input.inverse * Matrix.of g * l.output.inverse = 0 := fun hz => by
      have : Matrix.of g = 0 := hz
      rw [this]; simp
    have hnn : 0 ≤ ∑ r, ∑ j, g r j * (l.input.inverse * Matrix.of g * l.output.inverse) r j := by
      by_cases hz : g = 0
      · simp [hz]
      · exact (h1 hz).le
    rcases ih h.2 (fun i => φ (affine bias l.weights (x i))) train with h3 | ⟨h3, h4⟩
    · left
      simp only [Net.pairing, Net.natural]
      linarith
    · by_cases hz : g = 0
      · right
        refine ⟨fun d => ?_, fun t => ?_⟩
        · simp only [Net.pairing, h3, ← hg, hz]
          simp
        · funext y
          simp only [Net.move, Net.eval, Net.natural, h4, ← hg]
          rw [h2 hz]
          congr 3
          funext r j
          simp
      · left
        simp only [Net.pairing, Net.natural, h3, add_zero]
        exact h1 hz

theorem trainStep_eq {N n o : ℕ} {w : Bool} {net : Net n o} (h : net.Ok w) (cfg : Config) (hm : cfg.momentum = 0) (x : Fin N → Fin n → ℝ)
    (train : Fin N → (Fin o → ℝ) → ℝ) (lr : ℝ) : ∃ net', net.trainStep { cfg with learningRate := lr } x train = .ok net' ∧
      net'.eval = (net.move (net.natural x train)
        (-(lr * clipFactor cfg.normConstraint lr (net.pairing x train (net.natural x train))))).eval := by
  simp only [Net.trainStep, sqNorm_eq h, Bind.bind, Except.bind, hm]
  exact update_eq h x train lr _

/-- Small learning rates are not clipped. -/
theorem clip_small (c : Option ℝ) (hc : ∀ v ∈ c, 0 < v) {s : ℝ} (hs : 0 ≤ s) : ∀ᶠ lr in 𝓝[>] (0 : ℝ), clipFactor c lr s = 1 := by
  cases c with
  | none => exact Eventually.of_forall fun _ => rfl
  | some c =>
    have hc : 0 < c := hc c rfl
    have h1 : Tendsto (fun lr : ℝ => s * lr ^ 2) (𝓝[>] 0) (𝓝 0) := by
      have : Continuous fun lr : ℝ => s * lr ^ 2 := by fun_prop
      have h2 := this.tendsto 0
      simp only [ne_eq, OfNat.ofNat_ne_zero, not_false_eq_true, zero_pow, mul_zero] at h2
      exact h2.mono_left nhdsWithin_le_nhds
    filter_upwards [h1.eventually (gt_mem_nhds hc), self_mem_nhdsWithin] with lr h2 h3
    simp only [clipFactor]
    split_ifs with h4
    · rfl
    · rw [min_eq_left]
      have h5 : 0 < s * lr ^ 2 := lt_of_le_of_ne (by positivity) (Ne.symm h4)
      rw [Real.one_le_sqrt, one_le_div h5]
      exact h2.le

/-- The step as a function of the learning rate. -/
theorem step_rate {N n o : ℕ} {net : Net n o} (h : net.Ok true) {train : Fin N → (Fin o → ℝ) → ℝ} (ht : ∀ i, Differentiable ℝ (train i))
    (cfg : Config) (hm : cfg.momentum = 0) (hc : ∀ v ∈ cfg.normConstraint, 0 < v) (x : Fin N → Fin n → ℝ) :
    ∃ next : ℝ → Net n o, (∀ lr, net.trainStep { cfg with learningRate := lr } x train = .ok (next lr)) ∧
      Tendsto (fun lr => (batchLoss x train net - batchLoss x train (next lr)) / lr) (𝓝[>] 0)
        (𝓝 (net.pairing x train (net.natural x train))) := by
  choose next h1 h2 using trainStep_eq h cfg hm x train
  refine ⟨next, h1, ?_⟩
  set s := net.pairing x train (net.natural x train) with hs
  have hs0 : 0 ≤ s := by
    rcases pairing_natural h x train with h3 | ⟨h3, -⟩
    · exact h3.le
    · rw [hs, h3]
  have h3 := hasDeriv_batchLoss h.regular ht (net.natural x train) x
  have h4 : HasDerivAt (fun lr : ℝ => batchLoss x train (net.move (net.natural x train) (-lr))) (-s) 0 := by
    have h5 : HasDerivAt (fun t => batchLoss x train (net.move (net.natural x train) t)) s (-(0 : ℝ)) := by rwa [neg_zero]
    have := h5.comp (0 : ℝ) (hasDerivAt_neg (0 : ℝ))
    rw [mul_neg, mul_one] at this
    exact this
  have h5 := hasDerivAt_iff_tendsto_slope.mp h4
  have h6 : Tendsto (fun lr : ℝ => -slope (fun lr : ℝ => batchLoss x train (net.move (net.natural x train) (-lr))) 0 lr) (𝓝[>] 0) (𝓝 s) := by
    have := (h5.mono_left (nhdsWithin_mono 0 (fun y hy => ne_of_gt hy : Set.Ioi (0 : ℝ) ⊆ {0}ᶜ))).neg
    simpa using this
  refine h6.congr' ?_
  filter_upwards [clip_small cfg.normConstraint hc hs0, self_mem_nhdsWithin] with lr h7 h8
  have e0 : batchLoss x train (net.move (net.natural x train) (-0)) = batchLoss x train net := by
    simp only [batchLoss]
    congr 1
    refine Finset.sum_congr rfl fun i _ => ?_
    rw [neg_zero, move_zero]
  have e1 : batchLoss x train (next lr) = batchLoss x train (net.move (net.natural x train) (-lr)) := by
    simp only [batchLoss, h2, h7, mul_one]
  have h8 : (0 : ℝ) < lr := h8
  rw [slope_def_field, e0, e1, sub_zero, ← neg_div, neg_sub]

theorem ok_warm {n o : ℕ} {start net : Net n o} (hf : start.Fresh) (hr : start.Regular) (hw : start.Wide) (before : Config)
    (ops : List (Op n o)) (ho : ∀ op ∈ ops, op.Sane) (hi : ∃ damping, Op.inv damping ∈ ops) (hrun : start.run before ops = .ok net) :
    net.Ok true := by
  have := ok_run before ops ho (ok_fresh hf hr hw) hrun
  have e : ops.any Op.isInv = true := by
    obtain ⟨d, hd⟩ := hi
    exact List.any_eq_true.mpr ⟨_, hd, rfl⟩
  simpa [e] using this

/-! ### Success -/

/-- There have been covariance updates. -/
def Net.Fed {n o : ℕ} : Net n o → Prop
  | .nil => True
  | .cons _ l _ rest => 0 < l.input.avg.totalWeight ∧ 0 < l.output.avg.totalWeight ∧ rest.Fed

theorem fed_cov {N n o : ℕ} {w : Bool} {net : Net n o} (h : net.Ok w) {decay : ℝ} (hd : 0 ≤ decay) (x : Fin N → Fin n → ℝ)
    (sampled : Fin N → (Fin o → ℝ) → ℝ) : (net.covUpdate decay x sampled).Fed := by
  induction net with
  | nil => trivial
  | cons bias l φ rest ih =>
    obtain ⟨⟨-, ⟨h1, h2, -⟩, -⟩, h3⟩ := h
    refine ⟨?_, ?_, ih h3 _ _⟩ <;> simp only [DenseStat.step, MovAvg.add] <;> positivity

theorem fed_inv {n o : ℕ} {w : Bool} {net : Net n o} (h : net.Ok w) (hf : net.Fed) (rule : PiRule) (power : ℝ) {damping : ℝ}
    (hd : 0 < damping) : ∃ net', net.invUpdate rule power damping = .ok net' ∧ net'.Fed := by
  induction net with
  | nil => exact ⟨_, rfl, trivial⟩
  | cons bias l φ rest ih =>
    rename_i n q k o
    obtain ⟨⟨-, ⟨h1, h2, h3, h4, -⟩, -⟩, h5⟩ := h
    obtain ⟨f1, f2, f3⟩ := hf
    obtain ⟨rest', h6, h7⟩ := ih h5 f3
    have v1 : l.input.avg.value true = some (l.input.avg.totalWeight⁻¹ • l.input.avg.var) := by simp [MovAvg.value, f1.ne']
    have v2 : l.output.avg.value true = some (l.output.avg.totalWeight⁻¹ • l.output.avg.var) := by simp [MovAvg.value, f2.ne']
    obtain ⟨d, e, h8, -⟩ := setupDamping_ok rule power (l.input.avg.totalWeight⁻¹ • l.input.avg.var).trace
      (l.output.avg.totalWeight⁻¹ • l.output.avg.var).trace damping (n + bias.toNat) q (h3.smul (inv_nonneg.mpr h1)).trace_nonneg
      (h4.smul (inv_nonneg.mpr h2)).trace_nonneg hd.le
    refine ⟨.cons bias { l with input := l.input.step (.inv d), output := l.output.step (.inv e) } φ rest', ?_, ?_⟩
    · simp only [Net.invUpdate, Layer.invUpdate, v1, v2, h8, h6, Except.map, Bind.bind, Except.bind, pure, Except.pure]
    · simp only [Net.Fed, DenseStat.step, v1, v2]
      exact ⟨f1, f2, h7⟩

theorem fed_update {N n o : ℕ} {w : Bool} {net : Net n o} (h : net.Ok w) (hf : net.Fed) (x : Fin N → Fin n → ℝ)
    (train : Fin N → (Fin o → ℝ) → ℝ) (lr momentum coeff : ℝ) :
    ∃ net', net.update lr momentum coeff x train = .ok net' ∧ net'.Fed := by
  induction net with
  | nil => exact ⟨_, rfl, trivial⟩
  | cons bias l φ rest ih =>
    obtain ⟨rest', h1, h2⟩ := ih h.2 hf.2.2 (fun i => φ (affine bias l.weights (x i))) train
    refine ⟨_, by simp only [Net.update, precondition_eq h.1.1, h1, Bind.bind, Except.bind, pure, Except.pure]; rfl, ?_⟩
    exact ⟨hf.1, hf.2.1, h2⟩

theorem fed_step {n o : ℕ} (cfg : Config) {net : Net n o} {w : Bool} (h : net.Ok w) (hf : net.Fed) {op : Op n o} (hs : op.Sane) :
    ∃ m, net.step cfg op = .ok m ∧ m.Fed := by
  cases op with
  | cov x sampled decay => exact ⟨_, rfl, fed_cov h hs.2 _ _⟩
  | inv damping => exact fed_inv h hf _ _ hs
  | train x loss =>
    simp only [Net.step, Net.trainStep, sqNorm_eq h, Bind.bind, Except.bind]
    exact fed_update h hf _ _ _ _ _

theorem fed_run {n o : ℕ} (cfg : Config) (ops : List (Op n o)) (ho : ∀ op ∈ ops, op.Sane) : ∀ {net : Net n o} {w : Bool}, net.Ok w →
    net.Fed → ∃ net', net.run cfg ops = .ok net' := by
  induction ops with
  | nil => exact fun _ _ => ⟨_, rfl⟩
  | cons op ops ih =>
    intro net w h hf
    obtain ⟨m, h1, h2⟩ := fed_step cfg h hf (ho op (by simp))
    obtain ⟨net', h3⟩ := ih (fun op h => ho op (by simp [h])) (ok_step cfg h (ho op (by simp)) h1) h2
    exact ⟨net', by rw [Net.run, h1]; exact h3⟩

/-! ### Theorems -/

/-- C104: training that begins with an update of the covariances never fails: all inverses and norms exist, whatever the network
has learnt. -/
theorem C104_succeeds {N n o : ℕ} {start : Net n o} (hf : start.Fresh) (hr : start.Regular) (hw : start.Wide) (cfg : Config)
    (x : Fin N → Fin n → ℝ) (sampled : Fin N → (Fin o → ℝ) → ℝ) (decay : ℝ) (ops : List (Op n o))
    (ho : ∀ op ∈ Op.cov x sampled decay :: ops, op.Sane) : ∃ net, start.run cfg (.cov x sampled decay :: ops) = .ok net := by
  have h := ok_fresh hf hr hw
  have h0 := ho _ (List.mem_cons_self ..)
  exact fed_run cfg ops (fun op h => ho op (by simp [h])) (ok_step cfg h h0 rfl) (fed_cov h h0.2 x sampled)

/-- C104: at any time after the first inverse update, whatever happened before: either the loss is stationary, or every training
step with a small enough learning rate decreases the loss. -/
theorem C104_descends {N n o : ℕ} {start net : Net n o} (hf : start.Fresh) (hr : start.Regular) (hw : start.Wide) (before : Config)
    (ops : List (Op n o)) (ho : ∀ op ∈ ops, op.Sane) (hi : ∃ damping, Op.inv damping ∈ ops) (hrun : start.run before ops = .ok net)
    (cfg : Config) (hm : cfg.momentum = 0) (hc : ∀ v ∈ cfg.normConstraint, 0 < v) (x : Fin (N + 1) → Fin n → ℝ)
    {loss : Fin (N + 1) → (Fin o → ℝ) → ℝ} (hl : ∀ i, Differentiable ℝ (loss i)) :
    net.StationaryFor x loss ∨ ∃ ε, 0 < ε ∧ ∀ lr, 0 < lr → lr < ε → ∃ net',
      net.trainStep { cfg with learningRate := lr } x loss = .ok net' ∧ batchLoss x loss net' < batchLoss x loss net := by
  have hok := ok_warm hf hr hw before ops ho hi hrun
  rcases pairing_natural hok x loss with h1 | ⟨h1, -⟩
  · right
    obtain ⟨next, h2, h3⟩ := step_rate hok hl cfg hm hc x
    have h4 := h3.eventually (lt_mem_nhds h1)
    rw [eventually_nhdsWithin_iff, Metric.eventually_nhds_iff] at h4
    obtain ⟨ε, hε, h5⟩ := h4
    refine ⟨ε, hε, fun lr h6 h7 => ⟨next lr, h2 lr, ?_⟩⟩
    have := h5 (show dist lr 0 < ε by simpa [abs_of_pos h6] using h7) h6
    have := (div_pos_iff_of_pos_right h6).mp this
    linarith
  · left
    intro d
    have := hasDeriv_batchLoss hok.regular hl d x
    rwa [h1] at this

/-- C104: the decrease per unit of learning rate is, to first order, the squared Fisher norm the optimizer computes. -/
theorem C104_rate {N n o : ℕ} {start net : Net n o} (hf : start.Fresh) (hr : start.Regular) (hw : start.Wide) (before : Config)
    (ops : List (Op n o)) (ho : ∀ op ∈ ops, op.Sane) (hi : ∃ damping, Op.inv damping ∈ ops) (hrun : start.run before ops = .ok net)
    (cfg : Config) (hm : cfg.momentum = 0) (hc : ∀ v ∈ cfg.normConstraint, 0 < v) (x : Fin (N + 1) → Fin n → ℝ)
    {loss : Fin (N + 1) → (Fin o → ℝ) → ℝ} (hl : ∀ i, Differentiable ℝ (loss i)) :
    ∃ (s : ℝ) (next : ℝ → Net n o), net.sqNorm x loss = .ok s ∧ 0 ≤ s ∧
      (∀ lr, net.trainStep { cfg with learningRate := lr } x loss = .ok (next lr)) ∧
      Tendsto (fun lr => (batchLoss x loss net - batchLoss x loss (next lr)) / lr) (𝓝[>] 0) (𝓝 s) := by
  have hok := ok_warm hf hr hw before ops ho hi hrun
  obtain ⟨next, h1, h2⟩ := step_rate hok hl cfg hm hc x
  refine ⟨_, next, sqNorm_eq hok x loss, ?_, h1, h2⟩
  rcases pairing_natural hok x loss with h3 | ⟨h3, -⟩
  · exact h3.le
  · rw [h3]

/-- C104: where the loss is stationary, a training step of any learning rate leaves the network as it is. -/
theorem C104_stationary {N n o : ℕ} {start net : Net n o} (hf : start.Fresh) (hr : start.Regular) (hw : start.Wide) (before : Config)
    (ops : List (Op n o)) (ho : ∀ op ∈ ops, op.Sane) (hi : ∃ damping, Op.inv damping ∈ ops) (hrun : start.run before ops = .ok net)
    (cfg : Config) (hm : cfg.momentum = 0) (x : Fin (N + 1) → Fin n → ℝ)
    {loss : Fin (N + 1) → (Fin o → ℝ) → ℝ} (hl : ∀ i, Differentiable ℝ (loss i)) (hs : net.StationaryFor x loss) :
    ∃ net', net.trainStep cfg x loss = .ok net' ∧ net'.eval = net.eval := by
  have hok := ok_warm hf hr hw before ops ho hi hrun
  obtain ⟨net', h1, h2⟩ := trainStep_eq hok cfg hm x loss cfg.learningRate
  refine ⟨net', h1, h2.trans ?_⟩
  rcases pairing_natural hok x loss with h3 | ⟨-, h3⟩
  · have := (hasDeriv_batchLoss hok.regular hl (net.natural x loss) x).unique (hs _)
    exact absurd this h3.ne'
  · exact h3 _

/-- A network with two layers of two and one unit and the exponential as activation, on the batch (1, 2), after one update of the
covariances and one of the inverses; the hypotheses of the theorems hold. -/
example : ∃ (start net : Net 1 1) (ops : List (Op 1 1)) (loss : Fin 2 → (Fin 1 → ℝ) → ℝ) (cfg : Config), start.Fresh ∧ start.Regular ∧
    start.Wide ∧ (∀ op ∈ ops, op.Sane) ∧ (∃ damping, Op.inv damping ∈ ops) ∧ start.run cfg ops = .ok net ∧ cfg.momentum = 0 ∧
    (∀ v ∈ cfg.normConstraint, 0 < v) ∧ ∀ i, Differentiable ℝ (loss i) := by
  let start : Net 1 1 := .cons (q := 2) true (fresh fun _ _ => 1) (fun s j => Real.exp (s j))
    (.cons (q := 1) false (fresh fun _ _ => 1) id .nil)
  let loss : Fin 2 → (Fin 1 → ℝ) → ℝ := fun i z => (z 0 - i) ^ 2
  let cfg : Config := ⟨1 / 10, 0, some 1, .tracenorm, 1⟩
  have hf : start.Fresh := ⟨rfl, rfl, rfl, rfl, rfl, rfl, trivial⟩
  have hr : start.Regular := ⟨by
    rw [differentiable_pi]
    intro j
    exact Real.differentiable_exp.comp (differentiable_apply j), differentiable_id, trivial⟩
  have hw : start.Wide := ⟨by decide, by decide, trivial⟩
  have ho : ∀ op ∈ [Op.cov (N := 2) (n := 1) (fun i _ => (i : ℝ) + 1) loss (95 / 100), .inv (1 / 100)], op.Sane := by
    intro op h
    simp only [List.mem_cons, List.not_mem_nil, or_false] at h
    rcases h with rfl | rfl
    · exact ⟨by decide, by norm_num⟩
    · show (0 : ℝ) < 1 / 100
      norm_num
  obtain ⟨net, hn⟩ := C104_succeeds hf hr hw cfg _ _ _ _ ho
  refine ⟨start, net, _, loss, cfg, hf, hr, hw, ho, ⟨1 / 100, by simp⟩, hn, rfl, by simp [cfg], fun i => ?_⟩
  exact ((differentiable_apply (0 : Fin 1)).sub_const _).pow 2

end Kfac.Train
