import Verif.Mix.PropsRate
import Mathlib.Algebra.BigOperators.Fin
import Mathlib.Analysis.Calculus.FDeriv.Add

/-! # C114: training on randomly drawn mini-batches -/

namespace Kfac.Mix

open Kfac.Stats Kfac.Block Kfac.Train Kfac.Params Matrix Filter Topology

variable {B : ℕ} {shapes : Fin B → Shape}

/-! ### Specification -/

/-- Updates of covariances and inverses, no training. -/
def Op.Update (lam b Λ : ℝ) : Op shapes → Prop
  | .cov new decay => (∀ k, (shapes k).Psd (new k)) ∧ (∀ k, (shapes k).NewBelow b (new k)) ∧ 0 ≤ decay
  | .inv damping => lam ≤ damping ∧ damping ≤ Λ
  | .train _ _ => False

/-- Several operations, one after the other. -/
noncomputable def execute (cfg : Config) (net : Net shapes) (ops : List (Op shapes)) : Except String (Net shapes) :=
  ops.foldlM (fun s op => s.step cfg op) net

/-- The loss of all batches. -/
noncomputable def meanLoss {n : ℕ} (ℓ : Fin n → Params shapes → ℝ) (θ : Params shapes) : ℝ := (∑ i, ℓ i θ) / n

/-- The expected value when `t` batches are drawn independently; the last one drawn is the first of the list. -/
noncomputable def expect (n : ℕ) (t : ℕ) (φ : List (Fin n) → ℝ) : ℝ := (∑ s : Fin t → Fin n, φ (List.ofFn s)) / n ^ t

/-- The states after all histories of drawn batches. Before the first training step and after each one the operations
`updates` are executed; these and the damping may depend on everything drawn before. -/
def Sampling {n : ℕ} (cfg : Config) (start : Net shapes) (ℓ : Fin n → Params shapes → ℝ)
    (updates : List (Fin n) → List (Op shapes)) (damping : List (Fin n) → ℝ) (states : List (Fin n) → Net shapes) : Prop :=
  execute cfg start (updates []) = .ok (states []) ∧
  ∀ i h, execute cfg (states h) (.train (ℓ i) (damping h) :: updates (i :: h)) = .ok (states (i :: h))

/-- The assumptions without that on the variance: the mean of the losses has an `L`-Lipschitz gradient; dampings, estimates
and learning rate as in C113. -/
structure Drawing {n : ℕ} (cfg : Config) (start : Net shapes) (ℓ : Fin n → Params shapes → ℝ)
    (updates : List (Fin n) → List (Op shapes)) (damping : List (Fin n) → ℝ) (lam L b Λ c : ℝ) : Prop where
  batches : 0 < n
  fresh : ∀ j, start.stats j = (shapes j).fresh
  proper : ∀ j, (shapes j).Proper
  pure : ∀ j, ¬(shapes j).Mixed
  power : cfg.power = 1
  momentum : cfg.momentum = 0
  unconstrained : cfg.normConstraint = none
  damped : 0 < lam
  allowed : ∀ h, ∀ op ∈ updates h, op.Update lam b Λ
  first : ∃ new decay rest d, updates [] = .cov new decay :: rest ∧ .inv d ∈ rest
  damping_lower : ∀ h, lam ≤ damping h
  damping_upper : ∀ h, damping h ≤ Λ
  differentiable : ∀ i, Differentiable ℝ (ℓ i)
  curved : 0 ≤ L
  smooth : ∀ θ d, meanLoss ℓ (θ + d) ≤ meanLoss ℓ θ + fderiv ℝ (meanLoss ℓ) θ d + L / 2 * inner d d
  rate : 0 < cfg.learningRate
  slow : L * cfg.learningRate ≤ lam
  worst : ∀ j, (shapes j).worst b Λ ≤ c
  positive : 0 < c

/-- The assumptions: moreover the gradients of the batches have a variance of at most `v`. -/
structure Drawn {n : ℕ} (cfg : Config) (start : Net shapes) (ℓ : Fin n → Params shapes → ℝ)
    (updates : List (Fin n) → List (Op shapes)) (damping : List (Fin n) → ℝ) (lam L b Λ c v : ℝ) : Prop
    extends Drawing cfg start ℓ updates damping lam L b Λ c where
  variance : ∀ θ, (∑ i, ∑ j, ∑ k, (grad (ℓ i) θ j k - grad (meanLoss ℓ) θ j k) ^ 2) / n ≤ v

/-! ### The preconditioner is linear -/

section linear

variable {rule : PiRule} {power damping : ℝ}

theorem kron_linear {kind : KronKind} {n q : ℕ} {bias i o : Bool} {s : Fac i (n + bias.toNat) × Fac o q} (hp : power = 1)
    (hd : 0 < damping) (hq : q ≠ 0) (hr : 0 < kind.renorm) (h1 : FacOk true i s.1) (h2 : FacOk true o s.2) :
    ∃ (A : Matrix (Fin (n + bias.toNat)) (Fin (n + bias.toNat)) ℝ) (G : Matrix (Fin q) (Fin q) ℝ),
      ∀ g, kronPrecondition rule power damping kind bias i o s g = .ok (kind.renorm⁻¹ • (A * Matrix.of g * G)) := by
  obtain ⟨d, e, h3, hd0, he0, -⟩ := kronDamping_ok (rule := rule) hp hr (h1.2.1 rfl) (h2.2.1 rfl) h1.2.2 h2.2.2 hd
  by_cases hio : (i || o) = true
  · obtain ⟨a, A, a1, a2⟩ := usable_factor h1 (d := d) fun _ => hd0
    obtain ⟨b, G, b1, b2⟩ := usable_factor h2 (d := e) fun _ => he0
    exact ⟨A, G, fun g => kron_precondition (d := (d, e)) hq (by rw [if_pos hio]; exact h3) a1 b1 a2 b2 g⟩
  · obtain ⟨rfl, rfl⟩ : i = false ∧ o = false := by simpa using hio
    exact ⟨_, _, fun g => kron_dense hq s g⟩

theorem kron_flat {P q : ℕ} (r : ℝ) (A : Matrix (Fin P) (Fin P) ℝ) (G : Matrix (Fin q) (Fin q) ℝ) :
    IsLinearMap ℝ fun (g : Fin (P * q) → ℝ) (k : Fin (P * q)) =>
      (r • (A * Matrix.of (fun i j => g (finProdFinEquiv (i, j))) * G)) (finProdFinEquiv.symm k).1 (finProdFinEquiv.symm k).2 := by
  constructor
  · intro x y
    funext k
    have : (Matrix.of fun (i : Fin P) (j : Fin q) => (x + y) (finProdFinEquiv (i, j))) =
        Matrix.of (fun i j => x (finProdFinEquiv (i, j))) + Matrix.of (fun i j => y (finProdFinEquiv (i, j))) := rfl
    rw [this, Matrix.mul_add, Matrix.add_mul, smul_add]
    rfl
  · intro t x
    funext k
    have : (Matrix.of fun (i : Fin P) (j : Fin q) => (t • x) (finProdFinEquiv (i, j))) =
        t • Matrix.of (fun i j => x (finProdFinEquiv (i, j))) := rfl
    rw [this, Matrix.mul_smul, Matrix.smul_mul, smul_comm]
    rfl

theorem block_linear (hp : power = 1) (hd : 0 < damping) : (sh : Shape) → {s : sh.State} → sh.Proper → sh.Ok true s →
    ∃ P : (Fin sh.dim → ℝ) →ₗ[ℝ] (Fin sh.dim → ℝ), ∀ g, sh.precondition rule power damping s g = .ok (P g)
  | .kron kind n q bias i o, s, hpr, hok => by
    obtain ⟨A, G, h⟩ := kron_linear (rule := rule) hp hd hpr.1 hpr.2 hok.1 hok.2
    refine ⟨IsLinearMap.mk' _ (kron_flat kind.renorm⁻¹ A G), fun g => ?_⟩
    simp only [Shape.precondition, h]
    rfl
  | .full n, s, _, _ => ⟨Matrix.mulVecLin (DenseStat.inverse (n := n) s), fun g => full_precondition s g⟩
  | .diagonal kind n, s, _, hok => by
    have hw : 0 < (DiagStat.avg s).totalWeight := hok.2.1 rfl
    refine ⟨IsLinearMap.mk' (fun (g : Fin n → ℝ) i => (((DiagStat.avg s).totalWeight⁻¹ • (DiagStat.avg s).var) i +
      kind.damping power damping)⁻¹ * g i) ⟨fun x y => ?_, fun t x => ?_⟩, fun g => ?_⟩
    · funext i
      simp only [Pi.add_apply]
      ring
    · funext i
      simp only [Pi.smul_apply, smul_eq_mul]
      ring
    · exact diag_precondition (c := (DiagStat.avg s).totalWeight⁻¹ • (DiagStat.avg s).var) (by simp [MovAvg.value, hw.ne']) g

end linear

/-! ### The state between the steps -/

section run

variable {cfg : Config} {lam b Λ c : ℝ}

/-- What is known of the statistics: the covariances have been estimated if `w`, the inverses computed if `y`. -/
def Cond (lam b c : ℝ) (w y : Bool) (net : Net shapes) : Prop :=
  ∀ j, (shapes j).Ok w (net.stats j) ∧ (shapes j).Stored lam (if y then some c else none) (net.stats j) ∧
    (shapes j).Below b (net.stats j)

/-- An update of the inverses. -/
def Op.isInv : Op shapes → Bool
  | .inv _ => true
  | _ => false

theorem cond_cov {w y : Bool} {net : Net shapes} (h : Cond lam b c w y net) {new : (k : Fin B) → (shapes k).New} {decay : ℝ}
    (hop : Op.Update lam b Λ (.cov new decay)) :
    ∃ net', net.step cfg (.cov new decay) = .ok net' ∧ Cond lam b c true y net' ∧ net'.params = net.params :=
  ⟨_, rfl, fun j => ⟨ok_cov hop.2.2 _ (h j).1 (hop.1 j), stored_cov _ _ (h j).2.1, below_cov hop.2.2 _ (h j).2.2 (hop.2.1 j)⟩, rfl⟩

theorem cond_update (hpr : ∀ j, (shapes j).Proper) (hp : cfg.power = 1) (hlam : 0 < lam) (hw : ∀ j, (shapes j).worst b Λ ≤ c) {y : Bool}
    {net : Net shapes} (h : Cond lam b c true y net) {op : Op shapes} (hop : op.Update lam b Λ) :
    ∃ net', net.step cfg op = .ok net' ∧ Cond lam b c true (y || op.isInv) net' ∧ net'.params = net.params := by
  cases op with
  | cov new decay =>
    rw [show (y || (Op.cov new decay).isInv) = y by cases y <;> rfl]
    exact cond_cov h hop
  | inv damping =>
    have h1 : ∀ j, ∃ s', (shapes j).invUpdate cfg.rule cfg.power damping (net.stats j) = .ok s' := fun j =>
      invertible hp (hlam.trans_le hop.1) _ (hpr j) (h j).1
    choose s' hs using h1
    refine ⟨{ net with stats := s' }, ?_, fun j => ?_, rfl⟩
    · simp only [Net.step, collect_ok hs]
      rfl
    · rw [show (y || (Op.inv (shapes := shapes) damping).isInv) = true by cases y <;> rfl]
      exact ⟨ok_inv _ (h j).1 (hs j), stored_inv hp hlam hop.1 true _ (hpr j) (h j).1 (fun _ => ⟨(h j).2.2, hop.2, hw j⟩) (hs j),
        below_inv _ (h j).2.2 (hs j)⟩
  | train f d => exact hop.elim

theorem execute_cons (net : Net shapes) (op : Op shapes) (ops : List (Op shapes)) :
    execute cfg net (op :: ops) = (net.step cfg op).bind fun s => execute cfg s ops := by
  simp only [execute, List.foldlM_cons]
  rfl

theorem cond_execute (hpr : ∀ j, (shapes j).Proper) (hp : cfg.power = 1) (hlam : 0 < lam) (hw : ∀ j, (shapes j).worst b Λ ≤ c) :
    ∀ (ops : List (Op shapes)) {y : Bool} {net : Net shapes}, Cond lam b c true y net → (∀ op ∈ ops, op.Update lam b Λ) →
    ∃ net', execute cfg net ops = .ok net' ∧ Cond lam b c true (y || ops.any Op.isInv) net' ∧ net'.params = net.params
  | [], y, net, h, _ => ⟨net, rfl, by simpa using h, rfl⟩
  | op :: ops, y, net, h, ho => by
    obtain ⟨net1, h1, h2, h3⟩ := cond_update hpr hp hlam hw h (ho op (by simp))
    obtain ⟨net2, h4, h5, h6⟩ := cond_execute hpr hp hlam hw ops h2 fun op' h' => ho op' (by simp [h'])
    refine ⟨net2, ?_, ?_, h6.trans h3⟩
    · rw [execute_cons, h1]
      exact h4
    · rw [List.any_cons, ← Bool.or_assoc]
      exact h5

/-- The preconditioned gradient is a linear function of the gradient. -/
theorem cond_velocity (hpr : ∀ j, (shapes j).Proper) (hmix : ∀ j, ¬(shapes j).Mixed) (hp : cfg.power = 1) (hlam : 0 < lam)
    (hw : ∀ j, (shapes j).worst b Λ ≤ c) (hn : cfg.normConstraint = none)
    {net : Net shapes} (h : Cond lam b c true true net) {damping : ℝ} (hd : lam ≤ damping) (hd' : damping ≤ Λ) :
    ∃ P : Params shapes →ₗ[ℝ] Params shapes, (∀ g, lam * inner (P g) (P g) ≤ inner g (P g) ∧ inner g g ≤ c * inner g (P g)) ∧
      ∀ f : Params shapes → ℝ, ∃ net', net.step cfg (.train f damping) = .ok net' ∧ Cond lam b c true true net' ∧
        net'.velocity = cfg.momentum • net.velocity + P (grad f net.params) ∧
        net'.params = net.params - cfg.learningRate • net'.velocity := by
  have h1 : ∀ j, ∃ P : (Fin (shapes j).dim → ℝ) →ₗ[ℝ] (Fin (shapes j).dim → ℝ), ∀ g,
      (shapes j).precondition cfg.rule cfg.power damping (net.stats j) g = .ok (P g) := fun j =>
    block_linear hp (hlam.trans_le hd) _ (hpr j) (h j).1
  choose P hP using h1
  have h2 : ∀ g : Params shapes, net.precondition cfg damping g = .ok fun j => P j (g j) := fun g =>
    collect_ok fun j => hP j (g j)
  refine ⟨⟨⟨fun g j => P j (g j), fun x y => ?_⟩, fun t x => ?_⟩, fun g => ?_, fun f => ?_⟩
  · funext j
    exact (P j).map_add _ _
  · funext j
    exact (P j).map_smul _ _
  · have h3 := net_small (g := g) (u := fun j => P j (g j)) (lam := lam) (K := some c) fun j =>
      tame (K := some c) hp hlam hd _ (hmix j) (hpr j) (h j).1 (h j).2.1 (fun k' hk' => by
        obtain rfl : c = k' := by simpa using hk'
        exact ⟨b, Λ, (h j).2.2, hd', hw j⟩) (hP j (g j))
    exact ⟨h3.1, h3.2 c rfl⟩
  · refine ⟨{ net with
      params := net.params - cfg.learningRate • (cfg.momentum • net.velocity + fun j => P j (grad f net.params j))
      velocity := cfg.momentum • net.velocity + fun j => P j (grad f net.params j) }, ?_, h, rfl, rfl⟩
    simp only [Net.step, Net.trainStep, h2, Bind.bind, Except.bind, Pure.pure, Except.pure, hn, clipFactor, one_smul]

/-- The step of the parameters is a linear function of the gradient. -/
theorem cond_train (hpr : ∀ j, (shapes j).Proper) (hmix : ∀ j, ¬(shapes j).Mixed) (hp : cfg.power = 1) (hlam : 0 < lam)
    (hw : ∀ j, (shapes j).worst b Λ ≤ c) (hm : cfg.momentum = 0) (hn : cfg.normConstraint = none)
    {net : Net shapes} (h : Cond lam b c true true net) {damping : ℝ} (hd : lam ≤ damping) (hd' : damping ≤ Λ) :
    ∃ P : Params shapes →ₗ[ℝ] Params shapes, (∀ g, lam * inner (P g) (P g) ≤ inner g (P g) ∧ inner g g ≤ c * inner g (P g)) ∧
      ∀ f : Params shapes → ℝ, ∃ net', net.step cfg (.train f damping) = .ok net' ∧ Cond lam b c true true net' ∧
        net'.params = net.params - cfg.learningRate • P (grad f net.params) := by
  obtain ⟨P, h1, h2⟩ := cond_velocity hpr hmix hp hlam hw hn h hd hd'
  refine ⟨P, h1, fun f => ?_⟩
  obtain ⟨net', h3, h4, h5, h6⟩ := h2 f
  refine ⟨net', h3, h4, ?_⟩
  rw [h6, h5, hm, zero_smul, zero_add]

end run

/-! ### One step in the mean -/

section mean

variable {n : ℕ} {ℓ : Fin n → Params shapes → ℝ}

theorem mean_grad (hn : 0 < n) (hf : ∀ i, Differentiable ℝ (ℓ i)) (θ : Params shapes) :
    ∑ i, grad (ℓ i) θ = (n : ℝ) • grad (meanLoss ℓ) θ := by
  have h0 : (n : ℝ) ≠ 0 := by exact_mod_cast hn.ne'
  have h1 : HasFDerivAt (meanLoss ℓ) ((n : ℝ)⁻¹ • ∑ i, fderiv ℝ (ℓ i) θ) θ := by
    have h2 : HasFDerivAt (fun θ => ∑ i, ℓ i θ) (∑ i, fderiv ℝ (ℓ i) θ) θ :=
      HasFDerivAt.fun_sum fun i _ => (hf i θ).hasFDerivAt
    have h3 := h2.const_mul (n : ℝ)⁻¹
    have e : meanLoss ℓ = fun θ => (n : ℝ)⁻¹ * ∑ i, ℓ i θ := by
      funext θ
      rw [meanLoss, div_eq_inv_mul]
    rw [e]
    exact h3
  funext j k
  simp only [grad, h1.fderiv, Finset.sum_apply, Pi.smul_apply, smul_eq_mul]
  simp [h0]

theorem inner_sum_right {ι : Type*} (s : Finset ι) (g : Params shapes) (u : ι → Params shapes) :
    inner g (∑ i ∈ s, u i) = ∑ i ∈ s, inner g (u i) := by
  classical
  induction s using Finset.induction_on with
  | empty => simp [inner]
  | insert a s ha ih => rw [Finset.sum_insert ha, Finset.sum_insert ha, inner_add_right, ih]

theorem linear_small {P : Params shapes →ₗ[ℝ] Params shapes} {lam : ℝ} (hlam : 0 < lam)
    (h : ∀ g, lam * inner (P g) (P g) ≤ inner g (P g)) (e : Params shapes) : lam ^ 2 * inner (P e) (P e) ≤ inner e e := by
  have h1 := h e
  have h2 := inner_sq_le e (P e)
  have h3 := inner_self_nonneg (P e)
  have h4 := inner_self_nonneg e
  rcases h3.eq_or_lt with h0 | h0
  · rw [← h0, mul_zero]
    exact h4
  · refine le_of_mul_le_mul_right (a := inner (P e) (P e)) ?_ h0
    have h5 : (lam * inner (P e) (P e)) ^ 2 ≤ inner e (P e) ^ 2 := pow_le_pow_left₀ (by positivity) h1 2
    nlinarith

/-- The loss after one step on a batch drawn at random. -/
theorem mean_step (hn : 0 < n) (hf : ∀ i, Differentiable ℝ (ℓ i)) {L lam v lr : ℝ} (hL : 0 ≤ L) (hlam : 0 < lam) (hlr : 0 < lr)
    (hslow : L * lr ≤ lam)
    (hsm : ∀ θ d, meanLoss ℓ (θ + d) ≤ meanLoss ℓ θ + fderiv ℝ (meanLoss ℓ) θ d + L / 2 * inner d d)
    {P : Params shapes →ₗ[ℝ] Params shapes} (hP : ∀ g, lam * inner (P g) (P g) ≤ inner g (P g)) (θ : Params shapes)
    (hv : (∑ i, ∑ j, ∑ k, (grad (ℓ i) θ j k - grad (meanLoss ℓ) θ j k) ^ 2) / n ≤ v) :
    (∑ i, meanLoss ℓ (θ - lr • P (grad (ℓ i) θ))) / n ≤ meanLoss ℓ θ - lr / 2 * inner (grad (meanLoss ℓ) θ) (P (grad (meanLoss ℓ) θ)) +
      L * lr ^ 2 * v / (2 * lam ^ 2) := by
  have hn' : (0 : ℝ) < n := by exact_mod_cast hn
  set g := grad (meanLoss ℓ) θ with hg
  set x : Fin n → Params shapes := fun i => grad (ℓ i) θ with hx
  have hsum : ∑ i, x i = (n : ℝ) • g := mean_grad hn hf θ
  have h1 : ∀ i, meanLoss ℓ (θ - lr • P (x i)) ≤ meanLoss ℓ θ - lr * inner g (P (x i)) + L / 2 * lr ^ 2 * inner (P (x i)) (P (x i)) := by
    intro i
    have := hsm θ (-(lr • P (x i)))
    rw [← sub_eq_add_neg, fderiv_inner, ← neg_smul, inner_smul, inner_smul, inner_smul_left] at this
    linarith
  have h2 : ∑ i, inner g (P (x i)) = n * inner g (P g) := by
    rw [← inner_sum_right, ← map_sum, hsum, map_smul, inner_smul]
  have h3 : ∑ i, inner (P (x i)) (P (x i)) = n * inner (P g) (P g) + ∑ i, inner (P (x i - g)) (P (x i - g)) := by
    have h4 : ∀ i, inner (P (x i)) (P (x i)) = inner (P (x i - g)) (P (x i - g)) + 2 * inner (P g) (P (x i)) - inner (P g) (P g) := by
      intro i
      have e : P (x i) = P (x i - g) + P g := by rw [← map_add, sub_add_cancel]
      set y := P (x i - g)
      rw [e]
      simp only [inner_add_left, inner_add_right]
      rw [inner_comm y (P g)]
      ring
    have h5 : ∑ i, inner (P g) (P (x i)) = n * inner (P g) (P g) := by
      rw [← inner_sum_right, ← map_sum, hsum, map_smul, inner_smul]
    simp only [h4, Finset.sum_add_distrib, Finset.sum_sub_distrib, ← Finset.mul_sum, h5]
    simp
    ring
  have h6 : ∑ i, inner (P (x i - g)) (P (x i - g)) ≤ n * v / lam ^ 2 := by
    have h7 : ∑ i, inner (x i - g) (x i - g) ≤ n * v := by
      have := hv
      rw [div_le_iff₀ hn'] at this
      refine le_trans (le_of_eq ?_) (this.trans_eq (mul_comm _ _))
      refine Finset.sum_congr rfl fun i _ => ?_
      simp only [inner, pow_two]
      rfl
    rw [le_div_iff₀ (by positivity), Finset.sum_mul]
    refine (Finset.sum_le_sum fun i _ => ?_).trans h7
    rw [mul_comm]
    exact linear_small hlam hP _
  have h8 : ∑ i, meanLoss ℓ (θ - lr • P (x i)) ≤ n * (meanLoss ℓ θ - lr / 2 * inner g (P g) + L * lr ^ 2 * v / (2 * lam ^ 2)) := by
    refine (Finset.sum_le_sum fun i _ => h1 i).trans ?_
    rw [Finset.sum_add_distrib, Finset.sum_sub_distrib, ← Finset.mul_sum, ← Finset.mul_sum, h2, h3]
    simp only [Finset.sum_const, Finset.card_univ, Fintype.card_fin, nsmul_eq_mul]
    have h9 : L * lr * inner (P g) (P g) ≤ inner g (P g) :=
      (mul_le_mul_of_nonneg_right hslow (inner_self_nonneg _)).trans (hP g)
    have h10 := mul_le_mul_of_nonneg_left h6 (by positivity : 0 ≤ L / 2 * lr ^ 2)
    have h11 := mul_le_mul_of_nonneg_left h9 (by positivity : 0 ≤ (n : ℝ) * lr / 2)
    have e : L / 2 * lr ^ 2 * (n * v / lam ^ 2) = n * (L * lr ^ 2 * v / (2 * lam ^ 2)) := by
      field_simp
    linarith
  rw [div_le_iff₀ hn', mul_comm]
  exact h8

end mean

/-! ### Expected values -/

section expected

variable {n : ℕ}

theorem expect_zero (φ : List (Fin n) → ℝ) : expect n 0 φ = φ [] := by
  simp [expect]

theorem expect_succ (t : ℕ) (φ : List (Fin n) → ℝ) :
    expect n (t + 1) φ = expect n t fun h => (∑ i, φ (i :: h)) / n := by
  have h1 : ∑ s : Fin (t + 1) → Fin n, φ (List.ofFn s) = ∑ s : Fin t → Fin n, ∑ i, φ (i :: List.ofFn s) := by
    rw [← (Fin.consEquiv fun _ => Fin n).sum_comp, Fintype.sum_prod_type_right]
    refine Finset.sum_congr rfl fun s _ => Finset.sum_congr rfl fun i _ => ?_
    congr 1
    simp [Fin.consEquiv, List.ofFn_succ]
  simp only [expect, h1, ← Finset.sum_div]
  rw [div_div, pow_succ, mul_comm]

theorem expect_mono {t : ℕ} {φ ψ : List (Fin n) → ℝ} (h : ∀ l, φ l ≤ ψ l) : expect n t φ ≤ expect n t ψ :=
  div_le_div_of_nonneg_right (Finset.sum_le_sum fun _ _ => h _) (by positivity)

theorem expect_linear (hn : 0 < n) {t : ℕ} (φ ψ : List (Fin n) → ℝ) (p q r : ℝ) :
    expect n t (fun l => p * φ l + q * ψ l + r) = p * expect n t φ + q * expect n t ψ + r := by
  have hn' : (n : ℝ) ≠ 0 := by exact_mod_cast hn.ne'
  simp only [expect, Finset.sum_add_distrib, ← Finset.mul_sum]
  simp
  field_simp

end expected

/-! ### Theorems -/

section theorems

variable {n : ℕ} {cfg : Config} {start : Net shapes} {ℓ : Fin n → Params shapes → ℝ}
  {updates : List (Fin n) → List (Op shapes)} {damping : List (Fin n) → ℝ} {states : List (Fin n) → Net shapes}
  {lam L b Λ c v low μ : ℝ}

theorem drawn_first (h : Drawing cfg start ℓ updates damping lam L b Λ c) :
    ∃ net, execute cfg start (updates []) = .ok net ∧ Cond lam b c true true net ∧ net.params = start.params := by
  obtain ⟨new, decay, rest, d, h1, h2⟩ := h.first
  have h3 : ∀ op ∈ (.cov new decay :: rest : List (Op shapes)), op.Update lam b Λ := h1 ▸ h.allowed []
  have h0 : Cond lam b c false false start := fun j => by
    rw [h.fresh j]
    exact ⟨ok_fresh _, stored_fresh _ _, below_fresh _ _⟩
  obtain ⟨net1, h4, h5, h6⟩ := cond_cov (cfg := cfg) h0 (h3 (.cov new decay) (by simp))
  obtain ⟨net2, h7, h8, h9⟩ := cond_execute h.proper h.power h.damped h.worst rest h5 fun op h' => h3 op (by simp [h'])
  refine ⟨net2, ?_, ?_, h9.trans h6⟩
  · rw [h1, execute_cons, h4]
    exact h7
  · rwa [show (false || rest.any Op.isInv) = true by simpa using ⟨_, h2, rfl⟩] at h8

theorem drawn_next (h : Drawing cfg start ℓ updates damping lam L b Λ c) {net : Net shapes} (hc : Cond lam b c true true net)
    (l : List (Fin n)) :
    ∃ P : Params shapes →ₗ[ℝ] Params shapes, (∀ g, lam * inner (P g) (P g) ≤ inner g (P g) ∧ inner g g ≤ c * inner g (P g)) ∧
      ∀ i, ∃ net', execute cfg net (.train (ℓ i) (damping l) :: updates (i :: l)) = .ok net' ∧ Cond lam b c true true net' ∧
        net'.params = net.params - cfg.learningRate • P (grad (ℓ i) net.params) := by
  obtain ⟨P, h1, h2⟩ := cond_train h.proper h.pure h.power h.damped h.worst h.momentum h.unconstrained hc
    (h.damping_lower l) (h.damping_upper l)
  refine ⟨P, h1, fun i => ?_⟩
  obtain ⟨net1, h3, h4, h5⟩ := h2 (ℓ i)
  obtain ⟨net2, h6, h7, h8⟩ := cond_execute h.proper h.power h.damped h.worst (updates (i :: l)) h4 (h.allowed _)
  refine ⟨net2, ?_, by simpa using h7, h8.trans h5⟩
  rw [execute_cons, h3]
  exact h6

theorem drawing_succeeds (h : Drawing cfg start ℓ updates damping lam L b Λ c) :
    ∃ states, Sampling cfg start ℓ updates damping states := by
  classical
  obtain ⟨first, h1, h2, -⟩ := drawn_first h
  have h3 : ∀ (l : List (Fin n)) (i : Fin n) (s : {net : Net shapes // Cond lam b c true true net}),
      ∃ s' : {net : Net shapes // Cond lam b c true true net},
        execute cfg s.1 (.train (ℓ i) (damping l) :: updates (i :: l)) = .ok s'.1 := by
    intro l i s
    obtain ⟨P, -, h4⟩ := drawn_next h s.2 l
    obtain ⟨net', h5, h6, -⟩ := h4 i
    exact ⟨⟨net', h6⟩, h5⟩
  choose next hnext using h3
  let st : List (Fin n) → {net : Net shapes // Cond lam b c true true net} := fun l =>
    List.rec (motive := fun _ => {net : Net shapes // Cond lam b c true true net}) ⟨first, h2⟩ (fun i l s => next l i s) l
  exact ⟨fun l => (st l).1, h1, fun i l => hnext l i (st l)⟩

/-- C114: whatever batches are drawn, no operation fails. -/
theorem C114_succeeds (h : Drawn cfg start ℓ updates damping lam L b Λ c v) :
    ∃ states, Sampling cfg start ℓ updates damping states := drawing_succeeds h.toDrawing

theorem sampling_cond (h : Drawing cfg start ℓ updates damping lam L b Λ c) (hs : Sampling cfg start ℓ updates damping states) :
    ∀ l, Cond lam b c true true (states l)
  | [] => by
    obtain ⟨net, h1, h2, -⟩ := drawn_first h
    rwa [← Except.ok.inj (hs.1.symm.trans h1)] at h2
  | i :: l => by
    obtain ⟨P, -, h1⟩ := drawn_next h (sampling_cond h hs l) l
    obtain ⟨net', h2, h3, -⟩ := h1 i
    rwa [← Except.ok.inj ((hs.2 i l).symm.trans h2)] at h3

theorem sampling_first (h : Drawing cfg start ℓ updates damping lam L b Λ c) (hs : Sampling cfg start ℓ updates damping states) :
    (states []).params = start.params := by
  obtain ⟨net, h1, -, h2⟩ := drawn_first h
  rwa [← Except.ok.inj (hs.1.symm.trans h1)] at h2

/-- The mean of the losses after one more batch. -/
theorem cond_step (h : Drawing cfg start ℓ updates damping lam L b Λ c) {net : Net shapes} (hc : Cond lam b c true true net)
    {next : Fin n → Net shapes} (l : List (Fin n))
    (hs : ∀ i, execute cfg net (.train (ℓ i) (damping l) :: updates (i :: l)) = .ok (next i))
    (hv : (∑ i, ∑ j, ∑ k, (grad (ℓ i) net.params j k - grad (meanLoss ℓ) net.params j k) ^ 2) / n ≤ v) :
    (∑ i, meanLoss ℓ (next i).params) / n ≤ meanLoss ℓ net.params -
      cfg.learningRate / (2 * c) * (∑ j, ∑ k, grad (meanLoss ℓ) net.params j k ^ 2) +
      L * cfg.learningRate ^ 2 * v / (2 * lam ^ 2) := by
  obtain ⟨P, h1, h2⟩ := drawn_next h hc l
  have h3 : ∀ i, (next i).params = net.params - cfg.learningRate • P (grad (ℓ i) net.params) := by
    intro i
    obtain ⟨net', h4, -, h5⟩ := h2 i
    rwa [← Except.ok.inj ((hs i).symm.trans h4)] at h5
  have h6 := mean_step h.batches h.differentiable h.curved h.damped h.rate h.slow h.smooth (fun g => (h1 g).1) net.params hv
  simp only [← h3] at h6
  refine h6.trans ?_
  have h7 := (h1 (grad (meanLoss ℓ) net.params)).2
  rw [inner_grad] at h7
  have h8 := mul_le_mul_of_nonneg_left h7 (div_nonneg h.rate.le (mul_nonneg zero_le_two h.positive.le))
  have hc := h.positive.ne'
  have e : cfg.learningRate / (2 * c) * (c * inner (grad (meanLoss ℓ) net.params) (P (grad (meanLoss ℓ) net.params))) =
      cfg.learningRate / 2 * inner (grad (meanLoss ℓ) net.params) (P (grad (meanLoss ℓ) net.params)) := by
    field_simp
  rw [e] at h8
  linarith

/-- The expected loss after one more batch. -/
theorem drawing_step (h : Drawing cfg start ℓ updates damping lam L b Λ c) (hs : Sampling cfg start ℓ updates damping states)
    (l : List (Fin n))
    (hv : (∑ i, ∑ j, ∑ k, (grad (ℓ i) (states l).params j k - grad (meanLoss ℓ) (states l).params j k) ^ 2) / n ≤ v) :
    (∑ i, meanLoss ℓ (states (i :: l)).params) / n ≤ meanLoss ℓ (states l).params -
      cfg.learningRate / (2 * c) * (∑ j, ∑ k, grad (meanLoss ℓ) (states l).params j k ^ 2) +
      L * cfg.learningRate ^ 2 * v / (2 * lam ^ 2) :=
  cond_step h (sampling_cond h hs l) l (fun i => hs.2 i l) hv

theorem sampling_step (h : Drawn cfg start ℓ updates damping lam L b Λ c v) (hs : Sampling cfg start ℓ updates damping states)
    (l : List (Fin n)) :
    (∑ i, meanLoss ℓ (states (i :: l)).params) / n ≤ meanLoss ℓ (states l).params -
      cfg.learningRate / (2 * c) * (∑ j, ∑ k, grad (meanLoss ℓ) (states l).params j k ^ 2) +
      L * cfg.learningRate ^ 2 * v / (2 * lam ^ 2) :=
  drawing_step h.toDrawing hs l (h.variance _)

/-- C114: the expected squared gradients of the whole loss, summed over the first `T` steps. Their mean tends to at most
`c L v learning rate / lam²`. -/
theorem C114_average (h : Drawn cfg start ℓ updates damping lam L b Λ c v) (hs : Sampling cfg start ℓ updates damping states)
    (hlow : ∀ θ, low ≤ meanLoss ℓ θ) (T : ℕ) :
    ∑ t ∈ Finset.range T, expect n t (fun l => ∑ j, ∑ k, grad (meanLoss ℓ) (states l).params j k ^ 2) ≤
      2 * c * (meanLoss ℓ start.params - low) / cfg.learningRate + T * (c * L * cfg.learningRate * v / lam ^ 2) := by
  have hc := h.positive
  have hlr := h.rate
  have hlam := h.damped
  have h1 : ∀ t, expect n (t + 1) (fun l => meanLoss ℓ (states l).params) ≤ expect n t (fun l => meanLoss ℓ (states l).params) -
      cfg.learningRate / (2 * c) * expect n t (fun l => ∑ j, ∑ k, grad (meanLoss ℓ) (states l).params j k ^ 2) +
      L * cfg.learningRate ^ 2 * v / (2 * lam ^ 2) := by
    intro t
    rw [expect_succ]
    refine (expect_mono (sampling_step h hs)).trans (le_of_eq ?_)
    have := expect_linear (t := t) h.batches (fun l => meanLoss ℓ (states l).params)
      (fun l => ∑ j, ∑ k, grad (meanLoss ℓ) (states l).params j k ^ 2) 1 (-(cfg.learningRate / (2 * c)))
      (L * cfg.learningRate ^ 2 * v / (2 * lam ^ 2))
    simp only [one_mul, neg_mul, ← sub_eq_add_neg] at this
    exact this
  have h2 : cfg.learningRate / (2 * c) * ∑ t ∈ Finset.range T, expect n t
      (fun l => ∑ j, ∑ k, grad (meanLoss ℓ) (states l).params j k ^ 2) ≤ meanLoss ℓ start.params -
      expect n T (fun l => meanLoss ℓ (states l).params) + T * (L * cfg.learningRate ^ 2 * v / (2 * lam ^ 2)) := by
    induction T with
    | zero => simp [expect_zero, sampling_first h.toDrawing hs]
    | succ T ih =>
      rw [Finset.sum_range_succ, mul_add]
      have := h1 T
      push_cast
      linarith
  have h3 : low ≤ expect n T (fun l => meanLoss ℓ (states l).params) := by
    have := expect_linear (t := T) h.batches (fun _ => 0) (fun _ => 0) 0 0 low
    simp only [mul_zero, zero_add, zero_mul] at this
    rw [← this]
    exact expect_mono fun l => hlow _
  have h4 : cfg.learningRate / (2 * c) * ∑ t ∈ Finset.range T, expect n t
      (fun l => ∑ j, ∑ k, grad (meanLoss ℓ) (states l).params j k ^ 2) ≤ cfg.learningRate / (2 * c) *
      (2 * c * (meanLoss ℓ start.params - low) / cfg.learningRate + T * (c * L * cfg.learningRate * v / lam ^ 2)) := by
    have e : cfg.learningRate / (2 * c) * (2 * c * (meanLoss ℓ start.params - low) / cfg.learningRate +
        T * (c * L * cfg.learningRate * v / lam ^ 2)) = meanLoss ℓ start.params - low +
        T * (L * cfg.learningRate ^ 2 * v / (2 * lam ^ 2)) := by
      field_simp
    rw [e]
    linarith
  exact le_of_mul_le_mul_left h4 (by positivity)

/-- C114: under the Polyak-Łojasiewicz condition the expected distance to the minimum decreases geometrically to a level
given by the variance. -/
theorem C114_linear (h : Drawn cfg start ℓ updates damping lam L b Λ c v) (hs : Sampling cfg start ℓ updates damping states)
    (hlow : ∀ θ, low ≤ meanLoss ℓ θ) (hμ : 0 < μ) (hμ' : cfg.learningRate * μ ≤ c)
    (hst : ∀ θ, 2 * μ * (meanLoss ℓ θ - low) ≤ ∑ j, ∑ k, grad (meanLoss ℓ) θ j k ^ 2) (T : ℕ) :
    expect n T (fun l => meanLoss ℓ (states l).params) - low ≤
      Real.exp (-(cfg.learningRate * μ / c * T)) * (meanLoss ℓ start.params - low) + c * L * cfg.learningRate * v / (2 * μ * lam ^ 2) := by
  have hc := h.positive
  have hlr := h.rate
  have hlam := h.damped
  have hL := h.curved
  have hv : 0 ≤ v := le_trans (div_nonneg (Finset.sum_nonneg fun i _ => Finset.sum_nonneg fun j _ => Finset.sum_nonneg fun k _ => sq_nonneg _)
    (Nat.cast_nonneg n)) (h.variance start.params)
  set ρ := cfg.learningRate * μ / c with hρ
  set N := L * cfg.learningRate ^ 2 * v / (2 * lam ^ 2) with hN
  have hρ0 : 0 < ρ := by positivity
  have h3 : ρ ≤ 1 := by
    rw [hρ, div_le_one hc]
    exact hμ'
  have hN0 : 0 ≤ N := by positivity
  have e : c * L * cfg.learningRate * v / (2 * μ * lam ^ 2) = N / ρ := by
    rw [hN, hρ]
    field_simp
  rw [e]
  have h1 : ∀ t, expect n (t + 1) (fun l => meanLoss ℓ (states l).params) - low ≤
      (1 - ρ) * (expect n t (fun l => meanLoss ℓ (states l).params) - low) + N := by
    intro t
    rw [expect_succ]
    have h2 : ∀ l, (∑ i, meanLoss ℓ (states (i :: l)).params) / n ≤ (1 - ρ) * meanLoss ℓ (states l).params + 0 * 0 + (ρ * low + N) := by
      intro l
      refine (sampling_step h hs l).trans ?_
      have h3 := mul_le_mul_of_nonneg_left (hst (states l).params) (by positivity : 0 ≤ cfg.learningRate / (2 * c))
      have e : cfg.learningRate / (2 * c) * (2 * μ * (meanLoss ℓ (states l).params - low)) = ρ * (meanLoss ℓ (states l).params - low) := by
        rw [hρ]
        field_simp
      rw [e] at h3
      linarith
    have h3 := (expect_mono (t := t) h2).trans_eq (expect_linear h.batches _ (fun _ => 0) (1 - ρ) 0 (ρ * low + N))
    linarith
  have h2 : ∀ t, 0 ≤ expect n t (fun l => meanLoss ℓ (states l).params) - low := by
    intro t
    have := expect_linear (t := t) h.batches (fun _ => 0) (fun _ => 0) 0 0 low
    simp only [mul_zero, zero_add, zero_mul] at this
    rw [sub_nonneg]
    nth_rw 1 [← this]
    exact expect_mono fun l => hlow _
  induction T with
  | zero =>
    rw [expect_zero, sampling_first h.toDrawing hs]
    simp
    positivity
  | succ T ih =>
    refine (h1 T).trans ?_
    have hE0 : 0 ≤ meanLoss ℓ start.params - low := sub_nonneg.mpr (hlow _)
    have h4 := mul_le_mul_of_nonneg_left ih (sub_nonneg.mpr h3)
    have h5 : 1 - ρ ≤ Real.exp (-ρ) := by
      have := Real.add_one_le_exp (-ρ)
      linarith
    have h6 := mul_le_mul_of_nonneg_right h5 (mul_nonneg (Real.exp_pos (-(ρ * T))).le hE0)
    have h7 : Real.exp (-ρ) * (Real.exp (-(ρ * T)) * (meanLoss ℓ start.params - low)) =
        Real.exp (-(ρ * (T + 1 : ℕ))) * (meanLoss ℓ start.params - low) := by
      rw [← mul_assoc, ← Real.exp_add]
      congr 2
      push_cast
      ring
    rw [h7] at h6
    have h8 : (1 - ρ) * (N / ρ) + N = N / ρ := by
      field_simp
      ring
    linarith

end theorems

theorem shifted_fderiv (s : ℝ) (a θ d : Params shapes) :
    Differentiable ℝ (fun θ : Params shapes => inner θ θ / 2 + s * inner a θ) ∧
    fderiv ℝ (fun θ : Params shapes => inner θ θ / 2 + s * inner a θ) θ d = inner θ d + s * inner a d := by
  let A : Params shapes →ₗ[ℝ] ℝ := ⟨⟨fun θ => inner a θ, inner_add_right a⟩, fun t x => inner_smul a x t⟩
  have h1 : HasFDerivAt (fun θ : Params shapes => inner a θ) A.toContinuousLinearMap θ := A.toContinuousLinearMap.hasFDerivAt
  have h2 := (half_differentiable θ).hasFDerivAt.add (h1.const_mul s)
  refine ⟨fun θ => ((half_differentiable θ).hasFDerivAt.add
    ((A.toContinuousLinearMap.hasFDerivAt (x := θ)).const_mul s)).differentiableAt, ?_⟩
  have h3 : fderiv ℝ (fun θ : Params shapes => inner θ θ / 2 + s * inner a θ) θ = _ := h2.fderiv
  rw [h3]
  simp only [_root_.add_apply, half_fderiv, _root_.smul_apply, smul_eq_mul]
  rfl

theorem inner_single (θ : Params shapes) (k : Fin B) (i : Fin (shapes k).dim) :
    inner θ (Pi.single k (Pi.single i 1)) = θ k i := by
  rw [← half_fderiv]
  exact congrFun (congrFun (half_grad θ) k) i

/-- A net with all kinds of blocks, two batches with different losses, estimates and dampings that depend on the batches: the
hypotheses of the theorems hold with a positive variance. -/
theorem drawn_example : ∃ (shapes : Fin 4 → Shape) (cfg : Config) (start : Net shapes) (ℓ : Fin 2 → Params shapes → ℝ)
    (updates : List (Fin 2) → List (Op shapes)) (damping : List (Fin 2) → ℝ) (states : List (Fin 2) → Net shapes) (c v : ℝ),
    Drawn cfg start ℓ updates damping 1 1 3 2 c v ∧ Sampling cfg start ℓ updates damping states ∧ cfg.learningRate * 1 ≤ c ∧
    (∀ θ, 0 ≤ meanLoss ℓ θ) ∧ (∀ θ, 2 * 1 * (meanLoss ℓ θ - 0) ≤ ∑ j, ∑ k, grad (meanLoss ℓ) θ j k ^ 2) ∧
    0 < meanLoss ℓ start.params ∧ ℓ 0 ≠ ℓ 1 ∧ start.velocity = 0 ∧ Lipschitz 1 (meanLoss ℓ) := by
  let shapes : Fin 4 → Shape := ![.kron (.conv 5) 2 3 true false false, .kron .fullyConnected 2 1 false true true, .full 3,
    .diagonal .naive 7]
  let a : Params shapes := fun _ _ => 1
  let ℓ : Fin 2 → Params shapes → ℝ := fun i θ => inner θ θ / 2 + (![1, -1] i) * inner a θ
  let cfg : Config := ⟨1, 0, none, .tracenorm, 1⟩
  let start : Net shapes := ⟨a, 0, fun j => (shapes j).fresh⟩
  let cov (x : ℝ) : Op shapes := .cov (fun j => (shapes j).unit 1 1) x
  let updates : List (Fin 2) → List (Op shapes) := fun h => match h with
    | [] => [cov (95 / 100), .inv 1]
    | i :: h => if h.length % 2 = 0 then [cov i.1] else [cov (1 / 2), .inv (1 + i.1)]
  let damping : List (Fin 2) → ℝ := fun h => 1 + (h.headD 0).1
  have hmean : meanLoss ℓ = fun θ => inner θ θ / 2 := by
    funext θ
    simp [meanLoss, ℓ, Fin.sum_univ_two]
    ring
  have hgrad : ∀ i θ, grad (ℓ i) θ = θ + (![1, -1] i : ℝ) • a := by
    intro i θ
    funext j k
    rw [grad, (shifted_fderiv _ a θ _).2, inner_single, inner_single]
    rfl
  have hpr : ∀ j, (shapes j).Proper := by
    intro j
    fin_cases j
    · exact ⟨by decide, by norm_num [KronKind.renorm]⟩
    · exact ⟨by decide, by norm_num [KronKind.renorm]⟩
    · trivial
    · intro l h; cases h
  have hmix : ∀ j, ¬(shapes j).Mixed := by
    intro j
    fin_cases j <;> simp [shapes, Shape.Mixed]
  have hbelow : ∀ j, (shapes j).NewBelow 3 ((shapes j).unit 1 1) := by
    intro j
    fin_cases j
    · exact unit_below (by norm_num) (by norm_num)
    · exact unit_below (by norm_num) (by norm_num)
    · show Matrix.trace (_ • (1 : Matrix (Fin 3) (Fin 3) ℝ)) ≤ (3 : ℝ)
      simp [Matrix.trace]
    · intro i
      show (1 : ℝ) ≤ 3
      norm_num
  have hcov : ∀ x : ℝ, 0 ≤ x → (cov x).Update 1 3 2 := fun x hx => ⟨fun j => unit_psd zero_le_one zero_le_one _, hbelow, hx⟩
  have hi : ∀ i : Fin 2, (i.1 : ℝ) ≤ 1 := fun i => by exact_mod_cast Nat.lt_succ_iff.mp i.2
  have hup : ∀ h, ∀ op ∈ updates h, op.Update 1 3 2 := by
    intro h op hop
    match h with
    | [] =>
      rcases List.mem_pair.mp hop with rfl | rfl
      · exact hcov _ (by norm_num)
      · exact ⟨le_refl _, one_le_two⟩
    | i :: h =>
      simp only [updates] at hop
      split_ifs at hop
      · rw [List.mem_singleton.mp hop]
        exact hcov _ (Nat.cast_nonneg _)
      · rcases List.mem_pair.mp hop with rfl | rfl
        · exact hcov _ (by norm_num)
        · have := hi i
          exact ⟨le_add_of_nonneg_right (Nat.cast_nonneg _), by linarith⟩
  obtain ⟨c, hc0, hcw⟩ : ∃ c : ℝ, 1 ≤ c ∧ ∀ j, (shapes j).worst 3 2 ≤ c := by
    refine ⟨1 + ∑ j, |(shapes j).worst 3 2|, le_add_of_nonneg_right (by positivity), fun j => ?_⟩
    have := Finset.single_le_sum (f := fun j => |(shapes j).worst 3 2|) (fun j _ => abs_nonneg _) (Finset.mem_univ j)
    have := le_abs_self ((shapes j).worst 3 2)
    linarith
  have hpos : 0 < inner a a := by
    refine Finset.sum_pos' (fun k _ => Finset.sum_nonneg fun i _ => mul_self_nonneg _) ⟨2, Finset.mem_univ _, ?_⟩
    show 0 < ∑ i : Fin 3, (1 : ℝ) * 1
    simp
  have hd : Drawn cfg start ℓ updates damping 1 1 3 2 c (inner a a) := by
    refine ⟨⟨by norm_num, fun _ => rfl, hpr, hmix, rfl, rfl, rfl, one_pos, hup, ⟨_, _, _, 1, rfl, by simp⟩,
      fun h => le_add_of_nonneg_right (Nat.cast_nonneg _), fun h => ?_, fun i => (shifted_fderiv _ a 0 0).1, zero_le_one, fun θ d => ?_,
      one_pos, by norm_num [cfg], hcw, by linarith⟩, fun θ => ?_⟩
    · have := hi (h.headD 0)
      show 1 + ((h.headD 0).1 : ℝ) ≤ 2
      linarith
    · rw [hmean, half_fderiv]
      have := half_smooth θ d 1
      rw [one_smul] at this
      linarith
    · rw [hmean, half_grad]
      simp only [hgrad]
      have : ∀ i : Fin 2, ∑ j, ∑ k, ((θ + (![1, -1] i : ℝ) • a) j k - θ j k) ^ 2 = inner a a := by
        intro i
        simp only [inner]
        refine Finset.sum_congr rfl fun j _ => Finset.sum_congr rfl fun k _ => ?_
        fin_cases i <;> simp [pow_two]
      simp only [this]
      simp
  obtain ⟨states, hs⟩ := C114_succeeds hd
  refine ⟨shapes, cfg, start, ℓ, updates, damping, states, c, _, hd, hs, by simpa [cfg] using hc0, fun θ => ?_, fun θ => ?_, ?_, fun h => ?_, rfl, hmean ▸ half_lipschitz⟩
  · rw [hmean]
    exact div_nonneg (inner_self_nonneg _) zero_le_two
  · rw [hmean, half_grad]
    simp only [inner, pow_two]
    linarith
  · rw [hmean]
    exact div_pos hpos two_pos
  · have := congrFun h a
    simp [ℓ] at this
    linarith

end Kfac.Mix
