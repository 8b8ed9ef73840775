import Verif.Train.Lemmas
import Mathlib.Algebra.Order.Star.Real
import Mathlib.LinearAlgebra.Matrix.PosDef
import Mathlib.LinearAlgebra.Matrix.Notation
import Mathlib.LinearAlgebra.Matrix.Determinant.Basic
import Mathlib.Tactic.FinCases
import Mathlib.Tactic.FieldSimp
import Mathlib.Analysis.Complex.Trigonometric
import Mathlib.Analysis.Calculus.FDeriv.Pow

/-! # C91: without damping, training does not depend on how the layers are parametrised

Martens and Grosse (2015), Theorem 1, for whole runs of the optimizer. -/

namespace Kfac.Train

open Kfac.Stats Kfac.Block Kfac.Grad Kfac.Params Matrix

/-! ### Specification -/

/-- Two networks are parametrisations of the same one: the inputs, the outputs before each activation, the activations and
the outputs correspond. `f` maps the inputs of the first network to those of the second and `g` the outputs. At each layer
the inputs correspond by an invertible linear map (affine if the layer has a bias), and the outputs before the activation by
an invertible linear map. -/
inductive Corresponds : {n o : ℕ} → ((Fin n → ℝ) → Fin n → ℝ) → Net n o → Net n o → ((Fin o → ℝ) → Fin o → ℝ) → Prop
  | nil {n : ℕ} (f : (Fin n → ℝ) → Fin n → ℝ) : Corresponds f .nil .nil f
  | cons {n q k o : ℕ} {bias : Bool} {l l' : Layer (n + bias.toNat) q} {φ φ' : (Fin q → ℝ) → Fin k → ℝ} {rest rest' : Net k o}
      {f : (Fin n → ℝ) → Fin n → ℝ} {f₂ : (Fin k → ℝ) → Fin k → ℝ} {g : (Fin o → ℝ) → Fin o → ℝ}
      (T : Matrix (Fin (n + bias.toNat)) (Fin (n + bias.toNat)) ℝ) (Φ : Matrix (Fin q) (Fin q) ℝ)
      (hq : q ≠ 0) (hT : IsUnit T.det) (hΦ : IsUnit Φ.det)
      (inputs : ∀ x, appendHomog bias (f x) = T *ᵥ appendHomog bias x)
      (outputs : ∀ x, affine bias l'.weights (f x) = Φ *ᵥ affine bias l.weights x)
      (activations : ∀ s, φ' (Φ *ᵥ s) = f₂ (φ s))
      (next : Corresponds f₂ rest rest' g) :
      Corresponds f (.cons bias l φ rest) (.cons bias l' φ' rest') g

/-- Freshly created variables: no velocity, no statistics. -/
def Net.Fresh {n o : ℕ} : Net n o → Prop
  | .nil => True
  | .cons _ l _ rest => l.velocity = 0 ∧ l.input = ⟨MovAvg.init, 0⟩ ∧ l.output = ⟨MovAvg.init, 0⟩ ∧ rest.Fresh

/-- The losses have derivatives by the outputs of all layers, so that `tf.gradients` has a meaning. -/
def Net.Smooth {N n o : ℕ} (net : Net n o) (x : Fin N → Fin n → ℝ) (loss : Fin N → (Fin o → ℝ) → ℝ) : Prop :=
  match net with
  | .nil => True
  | .cons bias l φ rest =>
    (∀ i, DifferentiableAt ℝ (fun s => loss i (rest.eval (φ s))) (affine bias l.weights (x i))) ∧
      rest.Smooth (fun i => φ (affine bias l.weights (x i))) loss

/-- The statistics of all factors are defined and nonsingular. -/
def Net.NonSingular {n o : ℕ} : Net n o → Prop
  | .nil => True
  | .cons _ l _ rest => (∃ a, l.input.avg.value true = some a ∧ a.PosDef) ∧
      (∃ g, l.output.avg.value true = some g ∧ g.PosDef) ∧ rest.NonSingular

/-- The operations of a run have a meaning without damping. -/
def Net.Undamped {n o : ℕ} (net : Net n o) : Op n o → Prop
  | .cov x sampled _ => net.Smooth x sampled
  | .inv damping => damping = 0 ∧ net.NonSingular
  | .train x loss => net.Smooth x loss

/-- All operations of a run do. -/
def UndampedRun {n o : ℕ} (cfg : Config) : Net n o → List (Op n o) → Prop
  | _, [] => True
  | net, op :: ops => net.Undamped op ∧ ∀ net₂, net.step cfg op = .ok net₂ → UndampedRun cfg net₂ ops

/-- The same operation on the other parametrisation: the same batch in terms of its inputs, the same losses in terms of
its outputs. -/
inductive SameOp {n o : ℕ} (f : (Fin n → ℝ) → Fin n → ℝ) (g : (Fin o → ℝ) → Fin o → ℝ) : Op n o → Op n o → Prop
  | cov {N : ℕ} (x : Fin N → Fin n → ℝ) {s s' : Fin N → (Fin o → ℝ) → ℝ} (decay : ℝ) (h : ∀ i z, s' i (g z) = s i z) :
      SameOp f g (.cov x s decay) (.cov (fun i => f (x i)) s' decay)
  | inv (damping : ℝ) : SameOp f g (.inv damping) (.inv damping)
  | train {N : ℕ} (x : Fin N → Fin n → ℝ) {s s' : Fin N → (Fin o → ℝ) → ℝ} (h : ∀ i z, s' i (g z) = s i z) :
      SameOp f g (.train x s) (.train (fun i => f (x i)) s')

/-! ### Lemmas -/

/-- How all variables of corresponding layers are related. -/
structure LayerRel {P q : ℕ} (T : Matrix (Fin P) (Fin P) ℝ) (Φ : Matrix (Fin q) (Fin q) ℝ) (l l' : Layer P q) : Prop where
  weights : Tᵀ * Matrix.of l'.weights = Matrix.of l.weights * Φᵀ
  velocity : Tᵀ * Matrix.of l'.velocity = Matrix.of l.velocity * Φᵀ
  inVar : l'.input.avg.var = T * l.input.avg.var * Tᵀ
  inWeight : l'.input.avg.totalWeight = l.input.avg.totalWeight
  inInverse : Tᵀ * l'.input.inverse * T = l.input.inverse
  outVar : Φᵀ * l'.output.avg.var * Φ = l.output.avg.var
  outWeight : l'.output.avg.totalWeight = l.output.avg.totalWeight
  outInverse : l'.output.inverse = Φ * l.output.inverse * Φᵀ

/-- `Corresponds` with the relation of all variables. -/
inductive Reparam : {n o : ℕ} → ((Fin n → ℝ) → Fin n → ℝ) → Net n o → Net n o → ((Fin o → ℝ) → Fin o → ℝ) → Prop
  | nil {n : ℕ} (f : (Fin n → ℝ) → Fin n → ℝ) : Reparam f .nil .nil f
  | cons {n q k o : ℕ} {bias : Bool} {l l' : Layer (n + bias.toNat) q} {φ φ' : (Fin q → ℝ) → Fin k → ℝ} {rest rest' : Net k o}
      {f : (Fin n → ℝ) → Fin n → ℝ} {f₂ : (Fin k → ℝ) → Fin k → ℝ} {g : (Fin o → ℝ) → Fin o → ℝ}
      (T : Matrix (Fin (n + bias.toNat)) (Fin (n + bias.toNat)) ℝ) (Φ : Matrix (Fin q) (Fin q) ℝ)
      (hq : q ≠ 0) (hT : IsUnit T.det) (hΦ : IsUnit Φ.det)
      (inputs : ∀ x, appendHomog bias (f x) = T *ᵥ appendHomog bias x)
      (layers : LayerRel T Φ l l')
      (activations : ∀ s, φ' (Φ *ᵥ s) = f₂ (φ s))
      (next : Reparam f₂ rest rest' g) :
      Reparam f (.cons bias l φ rest) (.cons bias l' φ' rest') g

theorem affine_eq {n q : ℕ} (bias : Bool) (w : Fin (n + bias.toNat) → Fin q → ℝ) (x : Fin n → ℝ) :
    affine bias w x = (Matrix.of w)ᵀ *ᵥ appendHomog bias x := by
  funext j; rfl

theorem affine_rel {n q : ℕ} {bias : Bool} {w w' : Fin (n + bias.toNat) → Fin q → ℝ}
    {T : Matrix (Fin (n + bias.toNat)) (Fin (n + bias.toNat)) ℝ} {Φ : Matrix (Fin q) (Fin q) ℝ} {f : (Fin n → ℝ) → Fin n → ℝ}
    (inputs : ∀ x, appendHomog bias (f x) = T *ᵥ appendHomog bias x)
    (h : Tᵀ * Matrix.of w' = Matrix.of w * Φᵀ) (x : Fin n → ℝ) :
    affine bias w' (f x) = Φ *ᵥ affine bias w x := by
  rw [affine_eq, affine_eq, inputs, Matrix.mulVec_mulVec, Matrix.mulVec_mulVec]
  congr 1
  have := congrArg Matrix.transpose h
  simpa [Matrix.transpose_mul] using this

theorem affine_rel_iff {n q : ℕ} {bias : Bool} {w w' : Fin (n + bias.toNat) → Fin q → ℝ}
    {T : Matrix (Fin (n + bias.toNat)) (Fin (n + bias.toNat)) ℝ} {Φ : Matrix (Fin q) (Fin q) ℝ} {f : (Fin n → ℝ) → Fin n → ℝ}
    (inputs : ∀ x, appendHomog bias (f x) = T *ᵥ appendHomog bias x)
    (h : ∀ x, affine bias w' (f x) = Φ *ᵥ affine bias w x) : Tᵀ * Matrix.of w' = Matrix.of w * Φᵀ := by
  have h1 : (Matrix.of w')ᵀ * T = Φ * (Matrix.of w)ᵀ := by
    apply eq_of_homog bias
    intro x
    have := h x
    rwa [affine_eq, affine_eq, inputs, Matrix.mulVec_mulVec, Matrix.mulVec_mulVec] at this
  have := congrArg Matrix.transpose h1
  simpa [Matrix.transpose_mul] using this

theorem Reparam.corresponds {n o : ℕ} {f : (Fin n → ℝ) → Fin n → ℝ} {net net' : Net n o} {g : (Fin o → ℝ) → Fin o → ℝ}
    (h : Reparam f net net' g) : Corresponds f net net' g := by
  induction h with
  | nil f => exact .nil f
  | cons T Φ hq hT hΦ inputs layers activations next ih =>
    exact .cons T Φ hq hT hΦ inputs (affine_rel inputs layers.weights) activations ih

theorem Corresponds.reparam {n o : ℕ} {f : (Fin n → ℝ) → Fin n → ℝ} {net net' : Net n o} {g : (Fin o → ℝ) → Fin o → ℝ}
    (h : Corresponds f net net' g) (h1 : net.Fresh) (h2 : net'.Fresh) : Reparam f net net' g := by
  induction h with
  | nil f => exact .nil f
  | cons T Φ hq hT hΦ inputs outputs activations next ih =>
    obtain ⟨a1, a2, a3, a4⟩ := h1
    obtain ⟨b1, b2, b3, b4⟩ := h2
    refine .cons T Φ hq hT hΦ inputs ⟨affine_rel_iff inputs outputs, ?_, ?_, ?_, ?_, ?_, ?_, ?_⟩ activations (ih a4 b4)
    · rw [a1, b1]; simp
    all_goals simp [a2, a3, b2, b3, MovAvg.init]

/-- Corresponding networks compute the same function. -/
theorem Corresponds.eval {n o : ℕ} {f : (Fin n → ℝ) → Fin n → ℝ} {net net' : Net n o} {g : (Fin o → ℝ) → Fin o → ℝ}
    (h : Corresponds f net net' g) (x : Fin n → ℝ) : net'.eval (f x) = g (net.eval x) := by
  induction h with
  | nil f => rfl
  | cons T Φ hq hT hΦ inputs outputs activations next ih =>
    simp only [Net.eval]
    rw [outputs, activations, ih]

theorem Reparam.eval {n o : ℕ} {f : (Fin n → ℝ) → Fin n → ℝ} {net net' : Net n o} {g : (Fin o → ℝ) → Fin o → ℝ}
    (h : Reparam f net net' g) (x : Fin n → ℝ) : net'.eval (f x) = g (net.eval x) := h.corresponds.eval x

theorem Reparam.covUpdate {N n o : ℕ} {f : (Fin n → ℝ) → Fin n → ℝ} {net net' : Net n o} {g : (Fin o → ℝ) → Fin o → ℝ}
    (h : Reparam f net net' g) (decay : ℝ) (x : Fin N → Fin n → ℝ) {s s' : Fin N → (Fin o → ℝ) → ℝ}
    (hs : ∀ i z, s' i (g z) = s i z) :
    Reparam f (net.covUpdate decay x s) (net'.covUpdate decay (fun i => f (x i)) s') g := by
  induction h with
  | nil f => exact .nil f
  | @cons n q k o bias l l' φ φ' rest rest' f f₂ g T Φ hq hT hΦ inputs layers activations next ih =>
    have e := affine_rel inputs layers.weights
    have e2 : (fun i => φ' (affine bias l'.weights (f (x i)))) = fun i => f₂ (φ (affine bias l.weights (x i))) := by
      funext i; rw [e, activations]
    simp only [Net.covUpdate]
    rw [e2]
    refine .cons T Φ hq hT hΦ inputs ?_ activations (ih _ hs)
    refine ⟨layers.weights, layers.velocity, ?_, ?_, layers.inInverse, ?_, ?_, layers.outInverse⟩
    · simp only [DenseStat.step, MovAvg.add, cov_one, inputs, computeCov_map, layers.inVar]
      simp only [Matrix.mul_add, Matrix.add_mul, Matrix.mul_smul, Matrix.smul_mul]
    · simp only [DenseStat.step, MovAvg.add, layers.inWeight]
    · have hd : (fun i => gradient (fun s' => s i (rest.eval (φ s'))) (affine bias l.weights (x i))) =
          fun i => Φᵀ *ᵥ gradient (fun t => s' i (rest'.eval (φ' t))) (affine bias l'.weights (f (x i))) := by
        funext i
        rw [e]
        refine gradient_equiv hΦ (fun t => ?_) _
        rw [activations, next.eval, hs]
      rw [hd]
      simp only [DenseStat.step, MovAvg.add, cov_one, computeCov_map, ← layers.outVar, Matrix.transpose_transpose]
      simp only [Matrix.mul_add, Matrix.add_mul, Matrix.mul_smul, Matrix.smul_mul]
    · simp only [DenseStat.step, MovAvg.add, layers.outWeight]

theorem setupDamping_zero (rule : PiRule) (power lt rt : ℝ) (ld rd : ℕ) (h : 0 ≤ rt) :
    setupDamping rule power lt ld rt rd 0 none = .ok (0, 0) := by
  have h0 : (0 : ℝ) ^ (1 / 2 : ℝ) = 0 := Real.zero_rpow (by norm_num)
  simp only [setupDamping, h0, piAdjustedDamping]
  cases rule with
  | off => rfl
  | tracenorm =>
    simp only [piTracenorm]
    split_ifs with h1 h2
    · simp [bind, Except.bind, pure, Except.pure]
    · simp [bind, Except.bind, pure, Except.pure]
    · exfalso
      apply h2
      have h3 : rt * (ld : ℝ) ≠ 0 := fun h => h1 (by rw [h, mul_zero])
      exact lt_of_le_of_ne (by positivity) h3.symm

theorem value_of {V : Type} [AddCommGroup V] [Module ℝ V] {s : MovAvg V} {a : V} (h : s.value true = some a) :
    s.totalWeight ≠ 0 ∧ a = s.totalWeight⁻¹ • s.var := by
  simp only [MovAvg.value, if_true] at h
  split_ifs at h with h1
  exact ⟨h1, (Option.some.inj h).symm⟩

theorem value_eq {V : Type} [AddCommGroup V] [Module ℝ V] {s : MovAvg V} (h : s.totalWeight ≠ 0) :
    s.value true = some (s.totalWeight⁻¹ • s.var) := by
  simp [MovAvg.value, h]

theorem LayerRel.invUpdate {P q : ℕ} {T : Matrix (Fin P) (Fin P) ℝ} {Φ : Matrix (Fin q) (Fin q) ℝ} {l l' : Layer P q}
    (h : LayerRel T Φ l l') (hT : IsUnit T.det) (hΦ : IsUnit Φ.det) (rule : PiRule) (power : ℝ)
    (hA : ∃ a, l.input.avg.value true = some a ∧ a.PosDef) (hG : ∃ g, l.output.avg.value true = some g ∧ g.PosDef) :
    ∃ m m', l.invUpdate rule power 0 = .ok m ∧ l'.invUpdate rule power 0 = .ok m' ∧ LayerRel T Φ m m' := by
  obtain ⟨a, ha, pa⟩ := hA
  obtain ⟨g, hg, pg⟩ := hG
  obtain ⟨wa, ea⟩ := value_of ha
  obtain ⟨wg, eg⟩ := value_of hg
  have ha' : l'.input.avg.value true = some (T * a * Tᵀ) := by
    rw [value_eq (by rw [h.inWeight]; exact wa), h.inWeight, h.inVar, ea, Matrix.mul_smul, Matrix.smul_mul]
  have hΦ' : IsUnit Φᵀ.det := by rwa [Matrix.det_transpose]
  have hT' : IsUnit Tᵀ.det := by rwa [Matrix.det_transpose]
  obtain ⟨g', hg', eg'⟩ : ∃ g', l'.output.avg.value true = some g' ∧ Φᵀ * g' * Φ = g := by
    refine ⟨_, value_eq (by rw [h.outWeight]; exact wg), ?_⟩
    rw [Matrix.mul_smul, Matrix.smul_mul, h.outVar, h.outWeight, eg]
  have eg2 : g' = (Φ⁻¹)ᵀ * g * Φ⁻¹ := by
    rw [← eg', Matrix.transpose_nonsing_inv]
    rw [Matrix.mul_assoc, Matrix.mul_assoc, Matrix.mul_nonsing_inv _ hΦ, Matrix.mul_one, ← Matrix.mul_assoc,
      Matrix.nonsing_inv_mul _ hΦ', Matrix.one_mul]
  have tr : ∀ {n : ℕ} {M : Matrix (Fin n) (Fin n) ℝ}, M.PosSemidef → 0 ≤ M.trace := fun h => h.trace_nonneg
  have pg' : g'.PosSemidef := by
    rw [eg2]
    simpa using pg.posSemidef.conjTranspose_mul_mul_same Φ⁻¹
  have s1 := setupDamping_zero rule power a.trace g.trace P q (tr pg.posSemidef)
  have s2 := setupDamping_zero rule power (T * a * Tᵀ).trace g'.trace P q (tr pg')
  refine ⟨{ l with input := l.input.step (.inv 0), output := l.output.step (.inv 0) },
    { l' with input := l'.input.step (.inv 0), output := l'.output.step (.inv 0) }, ?_, ?_, ?_⟩
  · simp only [Layer.invUpdate, ha, hg, s1]; rfl
  · simp only [Layer.invUpdate, ha', hg', s2]; rfl
  · refine ⟨h.weights, h.velocity, ?_, ?_, ?_, ?_, ?_, ?_⟩
    · simp only [DenseStat.step, ha, ha']; exact h.inVar
    · simp only [DenseStat.step, ha, ha']; exact h.inWeight
    · simp only [DenseStat.step, ha, ha', zero_smul, add_zero]
      rw [Matrix.mul_inv_rev, Matrix.mul_inv_rev]
      rw [← Matrix.mul_assoc, Matrix.mul_nonsing_inv _ hT', Matrix.one_mul, Matrix.mul_assoc, Matrix.nonsing_inv_mul _ hT,
        Matrix.mul_one]
    · simp only [DenseStat.step, hg, hg']; exact h.outVar
    · simp only [DenseStat.step, hg, hg']; exact h.outWeight
    · simp only [DenseStat.step, hg, hg', zero_smul, add_zero]
      rw [← eg', Matrix.mul_inv_rev, Matrix.mul_inv_rev]
      rw [← Matrix.mul_assoc, Matrix.mul_nonsing_inv _ hΦ, Matrix.one_mul, Matrix.mul_assoc, Matrix.nonsing_inv_mul _ hΦ',
        Matrix.mul_one]

theorem Reparam.invUpdate {n o : ℕ} {f : (Fin n → ℝ) → Fin n → ℝ} {net net' : Net n o} {g : (Fin o → ℝ) → Fin o → ℝ}
    (h : Reparam f net net' g) (rule : PiRule) (power : ℝ) (hn : net.NonSingular) :
    ∃ m m', net.invUpdate rule power 0 = .ok m ∧ net'.invUpdate rule power 0 = .ok m' ∧ Reparam f m m' g := by
  induction h with
  | nil f => exact ⟨.nil, .nil, rfl, rfl, .nil f⟩
  | cons T Φ hq hT hΦ inputs layers activations next ih =>
    obtain ⟨hA, hG, hr⟩ := hn
    obtain ⟨l1, l1', e1, e1', r1⟩ := layers.invUpdate hT hΦ rule power hA hG
    obtain ⟨l2, l2', e2, e2', r2⟩ := ih hr
    refine ⟨.cons _ l1 _ l2, .cons _ l1' _ l2', ?_, ?_, .cons T Φ hq hT hΦ inputs r1 activations r2⟩
    · simp [Net.invUpdate, e1, e2, bind, Except.bind, pure, Except.pure]
    · simp [Net.invUpdate, e1', e2', bind, Except.bind, pure, Except.pure]

/-- The gradients and preconditioned gradients of corresponding layers. -/
theorem LayerRel.precondition {N n q k o : ℕ} {bias : Bool} {T : Matrix (Fin (n + bias.toNat)) (Fin (n + bias.toNat)) ℝ}
    {Φ : Matrix (Fin q) (Fin q) ℝ} {l l' : Layer (n + bias.toNat) q} (h : LayerRel T Φ l l') (hq : q ≠ 0)
    (hT : IsUnit T.det) (hΦ : IsUnit Φ.det) {f : (Fin n → ℝ) → Fin n → ℝ} {f₂ : (Fin k → ℝ) → Fin k → ℝ}
    {g : (Fin o → ℝ) → Fin o → ℝ} (inputs : ∀ x, appendHomog bias (f x) = T *ᵥ appendHomog bias x)
    {φ φ' : (Fin q → ℝ) → Fin k → ℝ} (activations : ∀ s, φ' (Φ *ᵥ s) = f₂ (φ s)) {rest rest' : Net k o}
    (next : Reparam f₂ rest rest' g) (x : Fin N → Fin n → ℝ) {s s' : Fin N → (Fin o → ℝ) → ℝ}
    (hs : ∀ i z, s' i (g z) = s i z) :
    ∃ u u' : Fin (n + bias.toNat) → Fin q → ℝ,
      l.precondition bias (matGradient (lossOf bias φ rest x s) l.weights) = .ok u ∧
      l'.precondition bias (matGradient (lossOf bias φ' rest' (fun i => f (x i)) s') l'.weights) = .ok u' ∧
      Tᵀ * Matrix.of u' = Matrix.of u * Φᵀ ∧
      ∑ r, ∑ j, matGradient (lossOf bias φ' rest' (fun i => f (x i)) s') l'.weights r j * u' r j =
        ∑ r, ∑ j, matGradient (lossOf bias φ rest x s) l.weights r j * u r j := by
  have hΦ' : IsUnit Φᵀ.det := by rwa [Matrix.det_transpose]
  have hT' : IsUnit Tᵀ.det := by rwa [Matrix.det_transpose]
  have hw : l'.weights = (Tᵀ⁻¹ * Matrix.of l.weights * Φᵀ : Matrix _ _ ℝ) := by
    show Matrix.of l'.weights = _
    rw [Matrix.mul_assoc, ← h.weights, ← Matrix.mul_assoc, Matrix.nonsing_inv_mul _ hT', Matrix.one_mul]
  have hg := matGradient_equiv (f := lossOf bias φ rest x s) (f' := lossOf bias φ' rest' (fun i => f (x i)) s')
    (S := Tᵀ⁻¹) (S' := Tᵀ) (Φ := Φᵀ) (Φ' := Φᵀ⁻¹) (Matrix.mul_nonsing_inv _ hT') (Matrix.mul_nonsing_inv _ hΦ')
    (fun w => by
      simp only [lossOf]
      congr 1
      refine Finset.sum_congr rfl fun i _ => ?_
      rw [affine_rel (w := w) (w' := (Tᵀ⁻¹ * w * Φᵀ : Matrix _ _ ℝ)) inputs (Φ := Φ) (by
        show Tᵀ * (Tᵀ⁻¹ * w * Φᵀ) = w * Φᵀ
        rw [← Matrix.mul_assoc, ← Matrix.mul_assoc, Matrix.mul_nonsing_inv _ hT', Matrix.one_mul]), activations, next.eval, hs])
    (Matrix.of l.weights)
  rw [Matrix.transpose_nonsing_inv, Matrix.transpose_transpose, Matrix.transpose_transpose] at hg
  change Matrix.of (matGradient (lossOf bias φ rest x s) l.weights) = _ at hg
  rw [← hw] at hg
  set γ := matGradient (lossOf bias φ rest x s) l.weights
  set γ' := matGradient (lossOf bias φ' rest' (fun i => f (x i)) s') l'.weights
  have hu : Tᵀ * (l'.input.inverse * Matrix.of γ' * l'.output.inverse) =
      l.input.inverse * Matrix.of γ * l.output.inverse * Φᵀ := by
    have e : ∀ M : Matrix (Fin (n + bias.toNat)) (Fin q) ℝ, T * (T⁻¹ * M) = M := fun M => by
      rw [← Matrix.mul_assoc, Matrix.mul_nonsing_inv _ hT, Matrix.one_mul]
    rw [hg, ← h.inInverse, h.outInverse]
    simp only [Matrix.mul_assoc, e]
  refine ⟨_, _, precondition_eq hq bias l γ, precondition_eq hq bias l' γ', hu, ?_⟩
  have ip : ∀ (a b : Matrix (Fin (n + bias.toNat)) (Fin q) ℝ), ∑ r, ∑ j, a r j * b r j = (bᵀ * a).trace := by
    intro a b
    simp only [Matrix.trace, Matrix.diag_apply, Matrix.mul_apply, Matrix.transpose_apply]
    rw [Finset.sum_comm]
    exact Finset.sum_congr rfl fun _ _ => Finset.sum_congr rfl fun _ _ => mul_comm _ _
  rw [ip γ', ip γ]
  set u := l.input.inverse * Matrix.of γ * l.output.inverse
  set u' := l'.input.inverse * Matrix.of γ' * l'.output.inverse
  have h2 : u'ᵀ * T = Φ * uᵀ := by
    have := congrArg Matrix.transpose hu
    simpa [Matrix.transpose_mul] using this
  have h3 : (γ' : Matrix _ _ ℝ) = T * Matrix.of γ * Φ⁻¹ := by
    rw [hg]
    rw [Matrix.mul_assoc, Matrix.mul_assoc, Matrix.mul_assoc, Matrix.mul_nonsing_inv _ hΦ, Matrix.mul_one, ← Matrix.mul_assoc,
      Matrix.mul_nonsing_inv _ hT, Matrix.one_mul]
    rfl
  rw [h3, ← Matrix.mul_assoc, ← Matrix.mul_assoc, h2, Matrix.trace_mul_comm, ← Matrix.mul_assoc, ← Matrix.mul_assoc,
    Matrix.nonsing_inv_mul _ hΦ, Matrix.one_mul]
  rfl

theorem Reparam.sqNorm {N n o : ℕ} {f : (Fin n → ℝ) → Fin n → ℝ} {net net' : Net n o} {g : (Fin o → ℝ) → Fin o → ℝ}
    (h : Reparam f net net' g) (x : Fin N → Fin n → ℝ) {s s' : Fin N → (Fin o → ℝ) → ℝ} (hs : ∀ i z, s' i (g z) = s i z) :
    ∃ r, net.sqNorm x s = .ok r ∧ net'.sqNorm (fun i => f (x i)) s' = .ok r := by
  induction h with
  | nil f => exact ⟨0, rfl, rfl⟩
  | @cons n q k o bias l l' φ φ' rest rest' f f₂ g T Φ hq hT hΦ inputs layers activations next ih =>
    obtain ⟨u, u', h1, h2, -, h4⟩ := layers.precondition hq hT hΦ inputs activations next x hs
    obtain ⟨r, r1, r2⟩ := ih (fun i => φ (affine bias l.weights (x i))) hs
    have e2 : (fun i => φ' (affine bias l'.weights (f (x i)))) = fun i => f₂ (φ (affine bias l.weights (x i))) := by
      funext i; rw [affine_rel inputs layers.weights, activations]
    refine ⟨_, by simp only [Net.sqNorm, h1, r1, bind, Except.bind]; rfl, ?_⟩
    simp only [Net.sqNorm, h2, e2, r2, bind, Except.bind, h4]
    rfl

theorem Reparam.update {N n o : ℕ} {f : (Fin n → ℝ) → Fin n → ℝ} {net net' : Net n o} {g : (Fin o → ℝ) → Fin o → ℝ}
    (h : Reparam f net net' g) (lr momentum coeff : ℝ) (x : Fin N → Fin n → ℝ) {s s' : Fin N → (Fin o → ℝ) → ℝ}
    (hs : ∀ i z, s' i (g z) = s i z) :
    ∃ m m', net.update lr momentum coeff x s = .ok m ∧ net'.update lr momentum coeff (fun i => f (x i)) s' = .ok m' ∧
      Reparam f m m' g := by
  induction h with
  | nil f => exact ⟨.nil, .nil, rfl, rfl, .nil f⟩
  | @cons n q k o bias l l' φ φ' rest rest' f f₂ g T Φ hq hT hΦ inputs layers activations next ih =>
    obtain ⟨u, u', h1, h2, h3, -⟩ := layers.precondition hq hT hΦ inputs activations next x hs
    obtain ⟨m, m', r1, r2, r3⟩ := ih (fun i => φ (affine bias l.weights (x i))) hs
    have e2 : (fun i => φ' (affine bias l'.weights (f (x i)))) = fun i => f₂ (φ (affine bias l.weights (x i))) := by
      funext i; rw [affine_rel inputs layers.weights, activations]
    have hv : Tᵀ * Matrix.of (momentum • l'.velocity + coeff • u') = Matrix.of (momentum • l.velocity + coeff • u) * Φᵀ := by
      show Tᵀ * (momentum • Matrix.of l'.velocity + coeff • Matrix.of u') =
        (momentum • Matrix.of l.velocity + coeff • Matrix.of u) * Φᵀ
      rw [Matrix.mul_add, Matrix.mul_smul, Matrix.mul_smul, layers.velocity, h3, Matrix.add_mul, Matrix.smul_mul, Matrix.smul_mul]
    refine ⟨.cons bias { l with
        weights := l.weights - lr • (momentum • l.velocity + coeff • u), velocity := momentum • l.velocity + coeff • u } φ m,
      .cons bias { l' with
        weights := l'.weights - lr • (momentum • l'.velocity + coeff • u'), velocity := momentum • l'.velocity + coeff • u' } φ' m',
      ?_, ?_, .cons T Φ hq hT hΦ inputs ?_ activations r3⟩
    · simp only [Net.update, h1, r1, bind, Except.bind]; rfl
    · simp only [Net.update, h2, e2, r2, bind, Except.bind]; rfl
    · refine ⟨?_, hv, layers.inVar, layers.inWeight, layers.inInverse, layers.outVar, layers.outWeight, layers.outInverse⟩
      show Tᵀ * (Matrix.of l'.weights - lr • Matrix.of (momentum • l'.velocity + coeff • u')) =
        (Matrix.of l.weights - lr • Matrix.of (momentum • l.velocity + coeff • u)) * Φᵀ
      rw [Matrix.mul_sub, Matrix.mul_smul, hv, layers.weights, Matrix.sub_mul, Matrix.smul_mul]

theorem Reparam.step {n o : ℕ} {f : (Fin n → ℝ) → Fin n → ℝ} {net net' : Net n o} {g : (Fin o → ℝ) → Fin o → ℝ}
    (h : Reparam f net net' g) (cfg : Config) {op op' : Op n o} (hop : SameOp f g op op') (hu : net.Undamped op) :
    ∃ m m', net.step cfg op = .ok m ∧ net'.step cfg op' = .ok m' ∧ Reparam f m m' g := by
  cases hop with
  | cov x decay hs => exact ⟨_, _, rfl, rfl, h.covUpdate decay x hs⟩
  | inv damping =>
    obtain ⟨rfl, hn⟩ := hu
    exact h.invUpdate cfg.rule cfg.power hn
  | train x hs =>
    obtain ⟨r, r1, r2⟩ := h.sqNorm x hs
    obtain ⟨m, m', h1, h2, h3⟩ := h.update cfg.learningRate cfg.momentum (clipFactor cfg.normConstraint cfg.learningRate r) x hs
    refine ⟨m, m', ?_, ?_, h3⟩
    · simp only [Net.step, Net.trainStep, r1, bind, Except.bind]; exact h1
    · simp only [Net.step, Net.trainStep, r2, bind, Except.bind]; exact h2

/-! ### The theorems -/

/-- Any run without damping, on two parametrisations of a network: both runs succeed and the trained networks are again
parametrisations of the same network. Momentum, norm constraint, decays, order and number of the updates are arbitrary. -/
theorem C91_invariance {n o : ℕ} {f : (Fin n → ℝ) → Fin n → ℝ} {g : (Fin o → ℝ) → Fin o → ℝ} (cfg : Config)
    (net net' : Net n o) (h1 : net.Fresh) (h2 : net'.Fresh) (h : Corresponds f net net' g) (ops ops' : List (Op n o))
    (hops : List.Forall₂ (SameOp f g) ops ops') (hu : UndampedRun cfg net ops) :
    ∃ trained trained', net.run cfg ops = .ok trained ∧ net'.run cfg ops' = .ok trained' ∧
      Corresponds f trained trained' g := by
  have key : ∀ ops ops' (net net' : Net n o), Reparam f net net' g → List.Forall₂ (SameOp f g) ops ops' →
      UndampedRun cfg net ops →
      ∃ m m', net.run cfg ops = .ok m ∧ net'.run cfg ops' = .ok m' ∧ Reparam f m m' g := by
    intro ops
    induction ops with
    | nil =>
      intro ops' net net' hr ho _
      cases ho
      exact ⟨net, net', rfl, rfl, hr⟩
    | cons op ops ih =>
      intro ops' net net' hr ho hu
      cases ho with
      | cons hop hops =>
        obtain ⟨m, m', e1, e2, r⟩ := hr.step cfg hop hu.1
        obtain ⟨t, t', e3, e4, r2⟩ := ih _ m m' r hops (hu.2 m e1)
        refine ⟨t, t', ?_, ?_, r2⟩
        · rw [Net.run, e1]; exact e3
        · rw [Net.run, e2]; exact e4
  obtain ⟨m, m', e1, e2, r⟩ := key ops ops' net net' (h.reparam h1 h2) hops hu
  exact ⟨m, m', e1, e2, r.corresponds⟩

/-- In particular the trained networks compute the same function, so all losses agree. -/
theorem C91_function {n o : ℕ} {f : (Fin n → ℝ) → Fin n → ℝ} {g : (Fin o → ℝ) → Fin o → ℝ} (cfg : Config)
    (net net' : Net n o) (h1 : net.Fresh) (h2 : net'.Fresh) (h : Corresponds f net net' g) (ops ops' : List (Op n o))
    (hops : List.Forall₂ (SameOp f g) ops ops') (hu : UndampedRun cfg net ops) :
    ∃ trained trained', net.run cfg ops = .ok trained ∧ net'.run cfg ops' = .ok trained' ∧
      ∀ x, trained'.eval (f x) = g (trained.eval x) := by
  obtain ⟨t, t', e1, e2, r⟩ := C91_invariance cfg net net' h1 h2 h ops ops' hops hu
  exact ⟨t, t', e1, e2, r.eval⟩

/-! ### Examples -/

/-- A layer with one input, a bias and one output, freshly created. -/
noncomputable def exLayer (w b : ℝ) : Layer (1 + true.toNat) 1 :=
  ⟨fun r _ => if r.1 = 0 then w else b, 0, ⟨MovAvg.init, 0⟩, ⟨MovAvg.init, 0⟩⟩

/-- A network with a hidden layer. -/
noncomputable def exNet (φ : ℝ → ℝ) (w b v c : ℝ) : Net 1 1 :=
  .cons true (exLayer w b) (fun s _ => φ (s 0)) (.cons true (exLayer v c) id .nil)

theorem exLayer_affine (w b : ℝ) (x : Fin 1 → ℝ) : affine true (exLayer w b).weights x = fun _ => w * x 0 + b := by
  funext j
  show ∑ r : Fin 2, (if r.1 = 0 then w else b) * appendHomog true x r = _
  rw [Fin.sum_univ_two]
  have h0 : appendHomog true x (0 : Fin 2) = x 0 := appendHomog_left true x 0
  have h1 : appendHomog true x (1 : Fin 2) = 1 := appendHomog_right true x ⟨0, by decide⟩
  rw [h0, h1]
  simp

/-- The case of the paper: a network with the activation `tanh` and one with the sigmoid. -/
example (w b v c : ℝ) : Corresponds id (exNet Real.tanh w b v c)
    (exNet (fun s => 1 / (1 + Real.exp (-s))) (2 * w) (2 * b) (2 * v) (c - v)) id := by
  let f₂ : (Fin 1 → ℝ) → Fin 1 → ℝ := fun a _ => (a 0 + 1) / 2
  let T : Matrix (Fin (1 + true.toNat)) (Fin (1 + true.toNat)) ℝ := (!![1/2, 1/2; 0, 1] : Matrix (Fin 2) (Fin 2) ℝ)
  refine .cons (f₂ := f₂) (1 : Matrix _ _ ℝ) ((2 : ℝ) • (1 : Matrix (Fin 1) (Fin 1) ℝ)) (by decide) (by simp) (by simp)
    (fun x => by simp) (fun x => ?_) (fun s => ?_) (.cons (f₂ := id) T (1 : Matrix _ _ ℝ) (by decide) ?_ (by simp) (fun a => ?_)
      (fun a => ?_) (fun s => by simp) (.nil id))
  · rw [exLayer_affine, exLayer_affine]
    funext j
    simp [Matrix.smul_mulVec]
    ring
  · funext j
    simp only [Matrix.smul_mulVec, Matrix.one_mulVec, Pi.smul_apply, smul_eq_mul, f₂]
    rw [Real.tanh_eq_sinh_div_cosh, Real.sinh_eq, Real.cosh_eq]
    have h1 : Real.exp (-(2 * s 0)) = Real.exp (-s 0) / Real.exp (s 0) := by
      rw [← Real.exp_sub]; congr 1; ring
    have h2 := Real.exp_pos (s 0)
    have h3 := Real.exp_pos (-s 0)
    rw [h1]
    field_simp
    ring
  · show IsUnit (Matrix.det (!![1/2, 1/2; 0, 1] : Matrix (Fin 2) (Fin 2) ℝ))
    rw [Matrix.det_fin_two_of]
    norm_num
  · funext r
    have h0 : ∀ x : Fin 1 → ℝ, appendHomog true x (0 : Fin 2) = x 0 := fun x => appendHomog_left true x 0
    have h1 : ∀ x : Fin 1 → ℝ, appendHomog true x (1 : Fin 2) = 1 := fun x => appendHomog_right true x ⟨0, by decide⟩
    change Fin 2 at r
    show appendHomog true (f₂ a) r = ∑ k : Fin 2, (!![1/2, 1/2; 0, 1] : Matrix (Fin 2) (Fin 2) ℝ) r k * appendHomog true a k
    rw [Fin.sum_univ_two, h0, h1]
    fin_cases r
    · show appendHomog true (f₂ a) (0 : Fin 2) = _
      rw [h0]; simp [f₂]; ring
    · show appendHomog true (f₂ a) (1 : Fin 2) = _
      rw [h1]; simp
  · rw [exLayer_affine, exLayer_affine]
    funext j
    simp [f₂]
    ring

/-- A layer without bias. -/
noncomputable def exSmall (w : ℝ) : Layer (1 + false.toNat) 1 :=
  ⟨fun _ _ => w, 0, ⟨MovAvg.init, 0⟩, ⟨MovAvg.init, 0⟩⟩

theorem smooth_any (l : Layer (1 + false.toNat) 1) (x : Fin 2 → Fin 1 → ℝ) :
    (Net.cons false l id .nil).Smooth x (fun _ z => z 0 ^ 2) := by
  refine ⟨fun i => ?_, trivial⟩
  show DifferentiableAt ℝ (fun s : Fin 1 → ℝ => s 0 ^ 2) _
  fun_prop

theorem posDef_one {a : Matrix (Fin 1) (Fin 1) ℝ} (h : 0 < a 0 0) : a.PosDef := by
  have e : a = Matrix.diagonal fun _ => a 0 0 := by
    ext i j; fin_cases i; fin_cases j; simp
  rw [e]
  exact Matrix.PosDef.diagonal fun _ => h

/-- An undamped run with all operations on a network with one layer, the inputs 1 and 2, and the loss `z²`. -/
example (cfg : Config) : UndampedRun cfg (.cons false (exSmall 1) id .nil : Net 1 1)
    [.cov (fun i : Fin 2 => fun _ => (i : ℝ) + 1) (fun _ z => z 0 ^ 2) 1, .inv 0,
      .train (fun i : Fin 2 => fun _ => (i : ℝ) + 1) (fun _ z => z 0 ^ 2)] := by
  refine ⟨smooth_any _ _, fun net₂ h => ?_⟩
  obtain rfl := Except.ok.inj h
  refine ⟨⟨rfl, ?_⟩, fun net₃ h => ?_⟩
  · have hx : ∀ x : Fin 1 → ℝ, appendHomog false x (0 : Fin 1) = x 0 := fun x => appendHomog_left false x 0
    have hg : ∀ s : Fin 1 → ℝ, gradient (fun z : Fin 1 → ℝ => z 0 ^ 2) s 0 = 2 * s 0 := by
      intro s
      have h1 := ((ContinuousLinearMap.proj (R := ℝ) (φ := fun _ : Fin 1 => ℝ) 0).hasFDerivAt (x := s)).pow 2
      have h2 : HasFDerivAt (fun z : Fin 1 → ℝ => z 0 ^ 2) _ s := h1
      rw [gradient, h2.fderiv]
      simp
    refine ⟨⟨_, value_eq (by simp [DenseStat.step, MovAvg.add, exSmall, MovAvg.init]), posDef_one ?_⟩,
      ⟨_, value_eq (by simp [DenseStat.step, MovAvg.add, exSmall, MovAvg.init]), posDef_one ?_⟩, trivial⟩
    · simp only [DenseStat.step, MovAvg.add, exSmall, MovAvg.init, cov_one]
      rw [Matrix.smul_apply, Matrix.add_apply, Matrix.smul_apply, Matrix.smul_apply, computeCov_apply]
      simp only [List.ofFn_succ, List.map_cons, List.sum_cons, hx]
      simp
      norm_num
    · simp only [DenseStat.step, MovAvg.add, exSmall, MovAvg.init, cov_one]
      rw [Matrix.smul_apply, Matrix.add_apply, Matrix.smul_apply, Matrix.smul_apply, computeCov_apply]
      simp only [List.ofFn_succ, List.map_cons, List.sum_cons, Net.eval, id, hg, affine]
      have : ∀ x : Fin 1 → ℝ, ∑ r : Fin (1 + false.toNat), (1 : ℝ) * appendHomog false x r = x 0 := fun x => by
        show ∑ r : Fin 1, _ = _
        rw [Fin.sum_univ_one, one_mul]; exact hx x
      simp only [this]
      simp
      norm_num
  · refine ⟨?_, fun _ _ => trivial⟩
    simp only [Net.step, Net.invUpdate, Net.covUpdate, bind, Except.bind, pure, Except.pure] at h
    split at h
    · cases h
    · obtain rfl := Except.ok.inj h
      exact smooth_any _ _

end Kfac.Train
