import Verif.Train.PropsDeep
import Mathlib.Topology.Order.IntermediateValue
import Mathlib.Topology.Algebra.InfiniteSum.Real
import Mathlib.Topology.Algebra.InfiniteSum.Order

/-! # C107: training any network with K-FAC drives the gradient to zero -/

namespace Kfac.Train

open Kfac.Stats Kfac.Block Kfac.Grad Matrix Filter Topology

/-! ### Specification -/

/-- Networks of the same architecture: the same activations and shapes, and any parameters. -/
inductive Net.Alike : {n o : ℕ} → Net n o → Net n o → Prop
  | nil {n : ℕ} : Net.Alike (Net.nil (n := n)) Net.nil
  | cons {n q k o : ℕ} (bias : Bool) (l l' : Layer (n + bias.toNat) q) (φ : (Fin q → ℝ) → Fin k → ℝ) {rest rest' : Net k o}
      (h : Net.Alike rest rest') : Net.Alike (.cons bias l φ rest) (.cons bias l' φ rest')

/-- The sum of the squares of the entries of a direction. -/
def Net.size : {n o : ℕ} → (net : Net n o) → net.Tangent → ℝ
  | _, _, .nil, _ => 0
  | _, _, .cons _ _ _ rest, d => (∑ r, ∑ j, d.1 r j ^ 2) + rest.size d.2

/-- The loss, as a function of the parameters of all layers, is below a parabola of curvature `L` along any line, as far as the
loss stays below `c`. -/
def SmoothBelow {N n o : ℕ} (c L : ℝ) (arch : Net n o) (x : Fin N → Fin n → ℝ) (loss : Fin N → (Fin o → ℝ) → ℝ) : Prop :=
  ∀ net : Net n o, arch.Alike net → ∀ (d : net.Tangent) (t : ℝ), (∀ s ∈ Set.uIcc 0 t, batchLoss x loss (net.move d s) ≤ c) →
    batchLoss x loss (net.move d t) ≤ batchLoss x loss net + t * deriv (fun s => batchLoss x loss (net.move d s)) 0 +
      L / 2 * t ^ 2 * net.size d

/-- A training step on the training set, an update of the inverses with a damping of at least `lam`, or an update of the
covariances on any batch. -/
def Op.Fits {N n o : ℕ} (lam : ℝ) (x : Fin N → Fin n → ℝ) (loss : Fin N → (Fin o → ℝ) → ℝ) : Op n o → Prop
  | .cov (N := M) _ _ decay => M ≠ 0 ∧ 0 ≤ decay
  | .inv damping => lam ≤ damping
  | .train x' loss' => Op.train x' loss' = .train x loss

/-- Training without end. -/
def Trajectory {n o : ℕ} (cfg : Config) (start : Net n o) (ops : ℕ → Op n o) (states : ℕ → Net n o) : Prop :=
  states 0 = start ∧ ∀ k, (states k).step cfg (ops k) = .ok (states (k + 1))

/-- What the covariance update of every layer sees is bounded: the squared lengths of the inputs and of the derivatives of the losses
by the outputs are at most `B`. -/
def Net.SeenBelow {M : ℕ} (B : ℝ) {n o : ℕ} : Net n o → (Fin M → Fin n → ℝ) → (Fin M → (Fin o → ℝ) → ℝ) → Prop
  | .nil, _, _ => True
  | .cons bias l φ rest, x, sampled => (∀ i, ∑ r, appendHomog bias (x i) r ^ 2 ≤ B) ∧
    (∀ i, ∑ j, gradient (fun s => sampled i (rest.eval (φ s))) (affine bias l.weights (x i)) j ^ 2 ≤ B) ∧
    rest.SeenBelow B (fun i => φ (affine bias l.weights (x i))) sampled

/-- Bounded data and dampings. -/
def Op.Moderate {n o : ℕ} (B Λ : ℝ) (net : Net n o) : Op n o → Prop
  | .cov x sampled _ => net.SeenBelow B x sampled
  | .inv damping => damping ≤ Λ
  | .train _ _ => True

/-! ### Architectures -/

theorem Net.Alike.refl {n o : ℕ} (net : Net n o) : net.Alike net := by
  induction net with
  | nil => exact .nil
  | cons bias l φ rest ih => exact .cons bias l l φ ih

theorem Net.Alike.trans {n o : ℕ} {a b c : Net n o} (h1 : a.Alike b) (h2 : b.Alike c) : a.Alike c := by
  induction h1 with
  | nil => exact h2
  | cons bias l l' φ h ih =>
    cases h2 with
    | cons _ _ l'' _ h' => exact .cons bias l l'' φ (ih h')

theorem alike_step {n o : ℕ} {net net' : Net n o} (cfg : Config) {op : Op n o} (hs : net.step cfg op = .ok net') : net.Alike net' := by
  cases op with
  | cov x sampled decay =>
    obtain rfl := Except.ok.inj hs
    clear hs
    induction net with
    | nil => exact .nil
    | cons bias l φ rest ih => exact .cons _ _ _ _ (ih _ _)
  | inv damping =>
    simp only [Net.step] at hs
    induction net with
    | nil => obtain rfl := Except.ok.inj hs; exact .nil
    | cons bias l φ rest ih =>
      simp only [Net.invUpdate, Bind.bind, Except.bind] at hs
      cases h1 : l.invUpdate cfg.rule cfg.power damping with
      | error m => rw [h1] at hs; cases hs
      | ok l' =>
        rw [h1] at hs
        cases h2 : rest.invUpdate cfg.rule cfg.power damping with
        | error m => rw [h2] at hs; cases hs
        | ok rest' =>
          rw [h2] at hs
          obtain rfl := Except.ok.inj hs
          exact .cons _ _ _ _ (ih h2)
  | train x loss =>
    simp only [Net.step, Net.trainStep, Bind.bind, Except.bind] at hs
    cases h0 : net.sqNorm x loss with
    | error m => rw [h0] at hs; cases hs
    | ok sq =>
      rw [h0] at hs
      dsimp only at hs
      generalize clipFactor cfg.normConstraint cfg.learningRate sq = coeff at hs
      clear h0
      induction net with
      | nil => obtain rfl := Except.ok.inj hs; exact .nil
      | cons bias l φ rest ih =>
        simp only [Net.update, Bind.bind, Except.bind] at hs
        split at hs
        · cases hs
        · split at hs
          · cases hs
          · rename_i rest' h2
            obtain rfl := Except.ok.inj hs
            exact .cons _ _ _ _ (ih _ _ h2)

/-! ### Conditioning -/

/-- The preconditioned gradient of a layer against the gradient: bounds independent of the data, and with `K` from below. -/
def Tame {P q : ℕ} (lam : ℝ) (K : Option ℝ) (l : Layer P q) : Prop :=
  ∀ g : Matrix (Fin P) (Fin q) ℝ, lam * sqn (l.input.inverse * g * l.output.inverse) ≤
      ∑ r, ∑ j, g r j * (l.input.inverse * g * l.output.inverse) r j ∧
    ∀ k ∈ K, sqn g ≤ k * ∑ r, ∑ j, g r j * (l.input.inverse * g * l.output.inverse) r j

/-- And of all layers. -/
def Net.Tame (lam : ℝ) (K : Option ℝ) {n o : ℕ} : Net n o → Prop
  | .nil => True
  | .cons _ l _ rest => Kfac.Train.Tame lam K l ∧ rest.Tame lam K

theorem tame_fresh {n o : ℕ} {net : Net n o} (lam : ℝ) (hf : net.Fresh) : net.Tame lam none := by
  induction net with
  | nil => trivial
  | cons bias l φ rest ih =>
    obtain ⟨-, h1, h2, h3⟩ := hf
    refine ⟨fun g => ⟨?_, by simp⟩, ih h3⟩
    simp [h1, h2, sqn]

/-- What an inverse update computes. -/
theorem layer_conditioned {P q : ℕ} {w : Bool} {rule : PiRule} {power damping lam Λ B K : ℝ} (hl : 0 < lam) (hd : lam ≤ damping)
    {l l' : Layer P q} (h : LayerOk w l) (hi : l.invUpdate rule power damping = .ok l') (b : Bool)
    (hb : b = true → damping ≤ Λ ∧ (∀ a ∈ l.input.avg.value true, a.trace ≤ B) ∧ (∀ g ∈ l.output.avg.value true, g.trace ≤ B) ∧
      B * B + √Λ * (2 * √(B * q * (B * P)) + B * q + B * P) + P * q * Λ ≤ K) :
    Tame lam (if b then some K else none) l' := by
  have hd0 := hl.trans_le hd
  obtain ⟨h1, h2, h3, h4, -⟩ := h
  unfold Layer.invUpdate at hi
  split at hi
  · rename_i a g ha hg
    obtain ⟨w1, rfl⟩ := value_of ha
    obtain ⟨w2, rfl⟩ := value_of hg
    have p1 : (l.input.avg.totalWeight⁻¹ • l.input.avg.var).PosSemidef := h3.smul (inv_nonneg.mpr h1)
    have p2 : (l.output.avg.totalWeight⁻¹ • l.output.avg.var).PosSemidef := h4.smul (inv_nonneg.mpr h2)
    obtain ⟨d, e, h6, -, -, h7, h8⟩ := setupDamping_ok rule power _ _ damping P q p1.trace_nonneg p2.trace_nonneg hd0.le
    rw [h6] at hi
    obtain rfl := Except.ok.inj hi
    intro g
    simp only [DenseStat.step, ha, hg]
    obtain ⟨b1, b2⟩ := direction_bounds p1 p2 (h7 hd0).1 (h7 hd0).2 g
    rw [h8] at b1
    have b3 := (mul_le_mul_of_nonneg_right hd (sqn_nonneg _)).trans b1
    refine ⟨b3, fun k hk => ?_⟩
    cases b with
    | false => simp at hk
    | true =>
      simp at hk
      subst hk
      obtain ⟨c1, c2, c3, c4⟩ := hb rfl
      have c5 := setupDamping_bound rule power P q p1.trace_nonneg p2.trace_nonneg (c2 _ ha) (c3 _ hg) hd0.le c1 h6
      exact b2.trans (mul_le_mul_of_nonneg_right (c5.trans c4) ((mul_nonneg hl.le (sqn_nonneg _)).trans b3))
  · cases hi

/-- The traces of the estimated covariances are at most `B`. -/
def Net.Below (B : ℝ) {n o : ℕ} : Net n o → Prop
  | .nil => True
  | .cons _ l _ rest => (0 ≤ l.input.avg.totalWeight ∧ l.input.avg.var.trace ≤ B * l.input.avg.totalWeight) ∧
    (0 ≤ l.output.avg.totalWeight ∧ l.output.avg.var.trace ≤ B * l.output.avg.totalWeight) ∧ rest.Below B

theorem below_value {P : ℕ} {B : ℝ} {s : MovAvg (Matrix (Fin P) (Fin P) ℝ)} (h : 0 ≤ s.totalWeight ∧ s.var.trace ≤ B * s.totalWeight) :
    ∀ a ∈ s.value true, a.trace ≤ B := by
  intro a ha
  obtain ⟨h1, rfl⟩ := value_of ha
  rw [Matrix.trace_smul, smul_eq_mul, inv_mul_le_iff₀ (lt_of_le_of_ne h.1 (Ne.symm h1)), mul_comm]
  exact h.2

theorem below_fresh {n o : ℕ} {net : Net n o} (B : ℝ) (hf : net.Fresh) : net.Below B := by
  induction net with
  | nil => trivial
  | cons bias l φ rest ih =>
    obtain ⟨-, h1, h2, h3⟩ := hf
    exact ⟨by simp [h1, MovAvg.init], by simp [h2, MovAvg.init], ih h3⟩

theorem below_cov {M n o : ℕ} {B decay : ℝ} {net : Net n o} (hd : 0 ≤ decay) (h : net.Below B) {x : Fin (M + 1) → Fin n → ℝ}
    {sampled : Fin (M + 1) → (Fin o → ℝ) → ℝ} (hs : net.SeenBelow B x sampled) : (net.covUpdate decay x sampled).Below B := by
  induction net with
  | nil => trivial
  | cons bias l φ rest ih =>
    obtain ⟨⟨a1, a2⟩, ⟨b1, b2⟩, h3⟩ := h
    obtain ⟨s1, s2, s3⟩ := hs
    have t1 := cov_trace (fun i => appendHomog bias (x i)) s1
    have t2 := cov_trace (fun i => gradient (fun s => sampled i (rest.eval (φ s))) (affine bias l.weights (x i))) s2
    have a3 := mul_le_mul_of_nonneg_left a2 hd
    have b3 := mul_le_mul_of_nonneg_left b2 hd
    refine ⟨⟨?_, ?_⟩, ⟨?_, ?_⟩, ih h3 s3⟩ <;>
      simp only [DenseStat.step, MovAvg.add, cov_one, one_smul, Matrix.trace_add, Matrix.trace_smul, smul_eq_mul]
    · positivity
    · linarith
    · positivity
    · linarith

theorem below_keep {n o : ℕ} {net net' : Net n o} (cfg : Config) {B : ℝ} (h : net.Below B) {op : Op n o}
    (ho : ∀ {M : ℕ} (x : Fin M → Fin n → ℝ) (sampled : Fin M → (Fin o → ℝ) → ℝ) (decay : ℝ), op ≠ .cov x sampled decay)
    (hs : net.step cfg op = .ok net') : net'.Below B := by
  cases op with
  | cov x sampled decay => exact absurd rfl (ho x sampled decay)
  | inv damping =>
    simp only [Net.step] at hs
    clear ho
    induction net with
    | nil => obtain rfl := Except.ok.inj hs; trivial
    | cons bias l φ rest ih =>
      simp only [Net.invUpdate, Bind.bind, Except.bind] at hs
      cases h1 : l.invUpdate cfg.rule cfg.power damping with
      | error m => rw [h1] at hs; cases hs
      | ok l' =>
        rw [h1] at hs
        cases h2 : rest.invUpdate cfg.rule cfg.power damping with
        | error m => rw [h2] at hs; cases hs
        | ok rest' =>
          rw [h2] at hs
          obtain rfl := Except.ok.inj hs
          have h3 : l'.input.avg = l.input.avg ∧ l'.output.avg = l.output.avg := by
            unfold Layer.invUpdate at h1
            split at h1
            · rename_i a g ha hg
              cases h4 : setupDamping cfg.rule cfg.power a.trace _ g.trace _ damping none with
              | error m => rw [h4] at h1; cases h1
              | ok d =>
                rw [h4] at h1
                obtain rfl := Except.ok.inj h1
                simp [DenseStat.step, ha, hg]
            · cases h1
          refine ⟨?_, ?_, ih h.2.2 h2⟩
          · rw [h3.1]; exact h.1
          · rw [h3.2]; exact h.2.1
  | train x loss =>
    simp only [Net.step, Net.trainStep, Bind.bind, Except.bind] at hs
    cases h0 : net.sqNorm x loss with
    | error m => rw [h0] at hs; cases hs
    | ok sq =>
      rw [h0] at hs
      dsimp only at hs
      generalize clipFactor cfg.normConstraint cfg.learningRate sq = coeff at hs
      clear h0 ho
      induction net with
      | nil => obtain rfl := Except.ok.inj hs; trivial
      | cons bias l φ rest ih =>
        simp only [Net.update, Bind.bind, Except.bind] at hs
        split at hs
        · cases hs
        · split at hs
          · cases hs
          · rename_i rest' h2
            obtain rfl := Except.ok.inj hs
            exact ⟨h.1, h.2.1, ih h.2.2 _ _ h2⟩

/-- A bound for the damped factors of all layers. -/
noncomputable def Net.worst (B Λ : ℝ) {n o : ℕ} : Net n o → ℝ
  | .nil => 0
  | .cons (n := n) (q := q) bias _ _ rest =>
    (B * B + √Λ * (2 * √(B * q * (B * (n + bias.toNat : ℕ))) + B * q + B * (n + bias.toNat : ℕ)) + (n + bias.toNat : ℕ) * q * Λ) + rest.worst B Λ

theorem worst_nonneg {B Λ : ℝ} (hB : 0 ≤ B) (hΛ : 0 ≤ Λ) {n o : ℕ} (net : Net n o) : 0 ≤ net.worst B Λ := by
  induction net with
  | nil => exact le_refl _
  | cons bias l φ rest ih => simp only [Net.worst]; positivity

theorem worst_alike {B Λ : ℝ} {n o : ℕ} {net net' : Net n o} (h : net.Alike net') : net'.worst B Λ = net.worst B Λ := by
  induction h with
  | nil => rfl
  | cons bias l l' φ h ih => simp only [Net.worst, ih]

theorem tame_mono {lam : ℝ} {K : Option ℝ} {n o : ℕ} {net : Net n o} (h : net.Tame lam K) : net.Tame lam none := by
  induction net with
  | nil => trivial
  | cons bias l φ rest ih => exact ⟨fun g => ⟨(h.1 g).1, by simp⟩, ih h.2⟩

theorem tame_inv {n o : ℕ} {net net' : Net n o} {rule : PiRule} {power damping lam B Λ K : ℝ} {w : Bool} (hl : 0 < lam) (hB : 0 ≤ B) (hΛ : 0 ≤ Λ)
    (h : net.Ok w) (hd : lam ≤ damping) (b : Bool) (hb : b = true → damping ≤ Λ ∧ net.Below B ∧ net.worst B Λ ≤ K)
    (hs : net.invUpdate rule power damping = .ok net') : net'.Tame lam (if b then some K else none) := by
  induction net with
  | nil => obtain rfl := Except.ok.inj hs; trivial
  | cons bias l φ rest ih =>
    simp only [Net.invUpdate, Bind.bind, Except.bind] at hs
    cases h1 : l.invUpdate rule power damping with
    | error m => rw [h1] at hs; cases hs
    | ok l' =>
      rw [h1] at hs
      cases h2 : rest.invUpdate rule power damping with
      | error m => rw [h2] at hs; cases hs
      | ok rest' =>
        rw [h2] at hs
        obtain rfl := Except.ok.inj hs
        have hw := worst_nonneg hB hΛ rest
        refine ⟨layer_conditioned (Λ := Λ) (B := B) hl hd h.1.2.1 h1 b fun e => ?_, ih h.2 (fun e => ?_) h2⟩
        · obtain ⟨a1, a2, a3⟩ := hb e
          simp only [Net.worst] at a3
          exact ⟨a1, below_value a2.1, below_value a2.2.1, by linarith⟩
        · obtain ⟨a1, a2, a3⟩ := hb e
          simp only [Net.worst] at a3
          refine ⟨a1, a2.2.2, le_trans ?_ a3⟩
          have : 0 ≤ (Net.cons bias l φ (.nil)).worst B Λ := worst_nonneg hB hΛ _
          simp only [Net.worst] at this
          linarith

/-- Other operations leave the inverses alone. -/
theorem tame_keep {n o : ℕ} {net net' : Net n o} (cfg : Config) {lam : ℝ} {K : Option ℝ} (h : net.Tame lam K) {op : Op n o}
    (ho : op.isInv = false) (hs : net.step cfg op = .ok net') : net'.Tame lam K := by
  cases op with
  | cov x sampled decay =>
    obtain rfl := Except.ok.inj hs
    clear hs
    induction net with
    | nil => trivial
    | cons bias l φ rest ih => exact ⟨h.1, ih h.2 _ _ rfl⟩
  | inv damping => cases ho
  | train x loss =>
    simp only [Net.step, Net.trainStep, Bind.bind, Except.bind] at hs
    cases h0 : net.sqNorm x loss with
    | error m => rw [h0] at hs; cases hs
    | ok sq =>
      rw [h0] at hs
      dsimp only at hs
      generalize clipFactor cfg.normConstraint cfg.learningRate sq = coeff at hs
      clear h0
      induction net with
      | nil => obtain rfl := Except.ok.inj hs; trivial
      | cons bias l φ rest ih =>
        simp only [Net.update, Bind.bind, Except.bind] at hs
        split at hs
        · cases hs
        · split at hs
          · cases hs
          · rename_i rest' h2
            obtain rfl := Except.ok.inj hs
            exact ⟨h.1, ih h.2 _ _ rfl h2⟩

theorem size_nonneg {n o : ℕ} (net : Net n o) (d : net.Tangent) : 0 ≤ net.size d := by
  induction net with
  | nil => exact le_refl _
  | cons bias l φ rest ih => exact add_nonneg (sqn_nonneg d.1) (ih d.2)

theorem size_natural {N n o : ℕ} {net : Net n o} {lam : ℝ} {K : Option ℝ} (h : net.Tame lam K) (x : Fin N → Fin n → ℝ)
    (train : Fin N → (Fin o → ℝ) → ℝ) :
    lam * net.size (net.natural x train) ≤ net.pairing x train (net.natural x train) := by
  induction net with
  | nil => simp [Net.size, Net.pairing]
  | cons bias l φ rest ih =>
    simp only [Net.size, Net.pairing, Net.natural, mul_add]
    exact add_le_add (h.1 (Matrix.of (matGradient (lossOf bias φ rest x train) l.weights))).1 (ih h.2 _ _)

/-- Cauchy-Schwarz for all layers. -/
theorem pairing_sq {N n o : ℕ} {net : Net n o} {lam k : ℝ} (hl : 0 ≤ lam) (hk : 0 ≤ k) (h : net.Tame lam (some k)) (x : Fin N → Fin n → ℝ)
    (train : Fin N → (Fin o → ℝ) → ℝ) (d : net.Tangent) :
    net.pairing x train d ^ 2 ≤ k * net.pairing x train (net.natural x train) * net.size d := by
  induction net with
  | nil => simp [Net.size, Net.pairing]
  | cons bias l φ rest ih =>
    have h1 := h.1 (Matrix.of (matGradient (lossOf bias φ rest x train) l.weights))
    have h2 := ih h.2 (fun i => φ (affine bias l.weights (x i))) train d.2
    have h3 := h1.2 k rfl
    have h4 := ip_sq (matGradient (lossOf bias φ rest x train) l.weights) d.1
    have h5 : 0 ≤ rest.pairing (fun i => φ (affine bias l.weights (x i))) train (rest.natural (fun i => φ (affine bias l.weights (x i))) train) :=
      (mul_nonneg hl (size_nonneg _ _)).trans (size_natural h.2 _ _)
    have h6 := (mul_nonneg hl (sqn_nonneg _)).trans h1.1
    have h7 := size_nonneg rest d.2
    have h8 := sqn_nonneg d.1
    simp only [Net.size, Net.pairing, Net.natural]
    simp only [Matrix.of_apply] at h3 h6
    set a := ∑ r, ∑ j, matGradient (lossOf bias φ rest x train) l.weights r j * d.1 r j
    set p := rest.pairing (fun i => φ (affine bias l.weights (x i))) train d.2
    set s := rest.pairing (fun i => φ (affine bias l.weights (x i))) train (rest.natural (fun i => φ (affine bias l.weights (x i))) train)
    set u := ∑ r, ∑ j, matGradient (lossOf bias φ rest x train) l.weights r j *
      (l.input.inverse * Matrix.of (matGradient (lossOf bias φ rest x train) l.weights) * l.output.inverse) r j
    set y := rest.size d.2
    have e : ∑ r, ∑ j, d.1 r j ^ 2 = sqn d.1 := rfl
    rw [e]
    set z := sqn d.1
    have h9 : a ^ 2 ≤ k * u * z := h4.trans (mul_le_mul_of_nonneg_right h3 h8)
    have h10 : 2 * (a * p) ≤ k * u * y + k * s * z := by
      have q1 : (a * p) ^ 2 ≤ (k * u * y) * (k * s * z) := by
        have := mul_le_mul h9 h2 (sq_nonneg _) (by positivity)
        nlinarith
      have q2 : 0 ≤ k * u * y := by positivity
      have q3 : 0 ≤ k * s * z := by positivity
      have q4 : (2 * (a * p)) ^ 2 ≤ (k * u * y + k * s * z) ^ 2 := by nlinarith [sq_nonneg (k * u * y - k * s * z)]
      exact (le_abs_self _).trans (abs_le_of_sq_le_sq q4 (by positivity))
    nlinarith

/-! ### One step -/

theorem move_continuous {n o : ℕ} {net : Net n o} (hr : net.Regular) (d : net.Tangent) {x : ℝ → Fin n → ℝ} (hx : Continuous x) :
    Continuous fun t => (net.move d t).eval (x t) := by
  induction net with
  | nil => exact hx
  | cons bias l φ rest ih =>
    simp only [Net.move, Net.eval]
    refine ih hr.2 d.2 (hr.1.continuous.comp ?_)
    refine continuous_pi fun j => ?_
    simp only [affine]
    refine continuous_finsetSum _ fun r _ => ?_
    refine Continuous.mul ?_ ?_
    · simp only [Pi.add_apply, Pi.smul_apply, smul_eq_mul]
      fun_prop
    · unfold appendHomog
      refine Fin.addCases (fun i => ?_) (fun i => ?_) r
      · simp only [Fin.append_left]
        exact (continuous_apply i).comp hx
      · simp only [Fin.append_right]
        exact continuous_const

theorem loss_continuous {N n o : ℕ} {net : Net n o} (hr : net.Regular) {loss : Fin N → (Fin o → ℝ) → ℝ}
    (hl : ∀ i, Differentiable ℝ (loss i)) (d : net.Tangent) (x : Fin N → Fin n → ℝ) :
    Continuous fun t => batchLoss x loss (net.move d t) := by
  unfold batchLoss
  refine Continuous.div_const (continuous_finsetSum _ fun i _ => ?_) _
  exact (hl i).continuous.comp (move_continuous hr d continuous_const)

theorem move_of_size {n o : ℕ} {net : Net n o} {d : net.Tangent} (h : net.size d = 0) (t : ℝ) : net.move d t = net := by
  induction net with
  | nil => rfl
  | cons bias l φ rest ih =>
    simp only [Net.size] at h
    have h1 := sqn_nonneg d.1
    have h2 := size_nonneg rest d.2
    have e : ∑ r, ∑ j, d.1 r j ^ 2 = sqn d.1 := rfl
    rw [e] at h
    have h3 : sqn d.1 = 0 := by linarith
    have h4 : d.1 = 0 := by
      funext r j
      have := (Finset.sum_eq_zero_iff_of_nonneg fun r _ => Finset.sum_nonneg fun j _ => sq_nonneg (d.1 r j)).mp h3 r (Finset.mem_univ _)
      have := (Finset.sum_eq_zero_iff_of_nonneg fun j _ => sq_nonneg (d.1 r j)).mp this j (Finset.mem_univ _)
      exact pow_eq_zero_iff (two_ne_zero) |>.mp this
    simp only [Net.move, h4, smul_zero, add_zero, ih (d := d.2) (by linarith)]

/-- Descent on a line as long as the loss stays below the parabola. -/
theorem line_descent {g : ℝ → ℝ} (hg : Continuous g) {s L lam T c : ℝ} (hs : 0 < s) (hlam : 0 < lam) (hL : 0 ≤ L) (hT : L * T ≤ lam)
    (hd : HasDerivAt g (-s) 0) (h0 : g 0 ≤ c)
    (hq : ∀ t, 0 ≤ t → (∀ r ∈ Set.Icc 0 t, g r ≤ c) → g t ≤ g 0 - t * s + L / 2 * t ^ 2 * (s / lam)) (hT0 : 0 ≤ T) :
    g T ≤ g 0 - T / 2 * s := by
  have key : ∀ t, 0 ≤ t → t ≤ T → (∀ r ∈ Set.Icc 0 t, g r ≤ c) → g t ≤ g 0 - t / 2 * s := by
    intro t h1 h2 h3
    have h4 := hq t h1 h3
    have h5 : L * t ≤ lam := (mul_le_mul_of_nonneg_left h2 hL).trans hT
    have h6 : L / 2 * t ^ 2 * (s / lam) ≤ t / 2 * s := by
      have e : L / 2 * t ^ 2 * (s / lam) = t / 2 * s * (L * t / lam) := by field_simp
      rw [e]
      exact mul_le_of_le_one_right (by positivity) ((div_le_one hlam).mpr h5)
    linarith
  have sub : Set.Icc 0 T ⊆ {t | g t ≤ g 0} := by
    refine IsClosed.Icc_subset_of_forall_mem_nhdsGT_of_Icc_subset ?_ ?_ ?_
    · exact (isClosed_le hg continuous_const).inter isClosed_Icc
    · simp
    · intro t ht hsub
      rcases eq_or_lt_of_le ht.1 with rfl | h1
      · have h2 := hasDerivAt_iff_tendsto_slope.mp hd
        have h3 := (h2.mono_left (nhdsWithin_mono 0 (fun y hy => ne_of_gt hy : Set.Ioi (0 : ℝ) ⊆ {0}ᶜ))).eventually
          (gt_mem_nhds (neg_lt_zero.mpr hs))
        filter_upwards [h3, self_mem_nhdsWithin] with y h4 h5
        have h5 : 0 < y := h5
        rw [slope_def_field, sub_zero, div_lt_iff₀ h5, zero_mul] at h4
        show g y ≤ g 0
        linarith
      · have h2 := key t h1.le ht.2.le fun r hr => (show g r ≤ g 0 from hsub hr).trans h0
        have h3 : g t < g 0 := by nlinarith [mul_pos h1 hs]
        have h4 := (hg.tendsto t).eventually (gt_mem_nhds h3)
        refine mem_nhdsWithin_of_mem_nhds ?_
        filter_upwards [h4] with y hy
        exact le_of_lt hy
  exact key T hT0 (le_refl _) fun r hr => (show g r ≤ g 0 from sub hr).trans h0

/-- One training step. -/
theorem train_descent {N n o : ℕ} {arch net net' : Net n o} {w : Bool} (h : net.Ok w) (ha : arch.Alike net) {lam L c : ℝ} {K : Option ℝ}
    (hlam : 0 < lam) (hL : 0 ≤ L) (ht : net.Tame lam K) {x : Fin N → Fin n → ℝ} {loss : Fin N → (Fin o → ℝ) → ℝ}
    (hl : ∀ i, Differentiable ℝ (loss i)) (hsm : SmoothBelow c L arch x loss) (cfg : Config) (hm : cfg.momentum = 0)
    (hlr : 0 ≤ cfg.learningRate) (hlr' : L * cfg.learningRate ≤ lam) (hc : batchLoss x loss net ≤ c)
    (hs : net.trainStep cfg x loss = .ok net') : ∃ s, net.sqNorm x loss = .ok s ∧ 0 ≤ s ∧
      batchLoss x loss net' ≤ batchLoss x loss net - cfg.learningRate / 2 * (clipFactor cfg.normConstraint cfg.learningRate s * s) := by
  obtain ⟨net'', h1, h2⟩ := trainStep_eq h cfg hm x loss cfg.learningRate
  obtain rfl := Except.ok.inj (hs.symm.trans h1)
  have hsz := size_natural ht x loss
  set u := net.natural x loss
  set s := net.pairing x loss u with hsdef
  have hs0 : 0 ≤ s := (mul_nonneg hlam.le (size_nonneg _ _)).trans hsz
  refine ⟨s, sqNorm_eq h x loss, hs0, ?_⟩
  set κ := clipFactor cfg.normConstraint cfg.learningRate s
  obtain ⟨k0, k1⟩ := clipFactor_mem cfg.normConstraint cfg.learningRate s
  have e1 : batchLoss x loss net' = batchLoss x loss (net.move u (-(cfg.learningRate * κ))) := by simp only [batchLoss, h2]
  have e0 : batchLoss x loss (net.move u (-0)) = batchLoss x loss net := by rw [neg_zero, move_zero]
  rcases eq_or_lt_of_le hs0 with hz | hpos
  · have : net.size u = 0 := by
      have := size_nonneg net u
      rw [← hz] at hsz
      nlinarith
    rw [e1, move_of_size this, ← hz]
    simp
  · have hder := hasDeriv_batchLoss h.regular hl u x
    have := line_descent (g := fun t => batchLoss x loss (net.move u (-t))) ((loss_continuous h.regular hl u x).comp continuous_neg)
      (c := c) (T := cfg.learningRate * κ) hpos hlam hL ?_ ?_ (by rw [e0]; exact hc) ?_ (mul_nonneg hlr k0)
    · rw [e1]
      simp only [e0] at this
      linarith
    · exact (mul_le_mul_of_nonneg_left (mul_le_of_le_one_right hlr k1) hL).trans hlr'
    · have h5 : HasDerivAt (fun t => batchLoss x loss (net.move u t)) s (-(0 : ℝ)) := by rwa [neg_zero]
      have := h5.comp (0 : ℝ) (hasDerivAt_neg (0 : ℝ))
      rw [mul_neg, mul_one] at this
      exact this
    · intro t ht0 hb
      have := hsm net ha u (-t) fun r hr => by
        rw [Set.uIcc_of_ge (by linarith)] at hr
        have := hb (-r) ⟨by linarith [hr.2], by linarith [hr.1]⟩
        rwa [neg_neg] at this
      rw [hder.deriv] at this
      simp only [e0]
      have h6 : net.size u ≤ s / lam := by rw [le_div_iff₀ hlam]; linarith
      have h7 : L / 2 * t ^ 2 * net.size u ≤ L / 2 * t ^ 2 * (s / lam) := mul_le_mul_of_nonneg_left h6 (by positivity)
      rw [neg_sq] at this
      linarith

/-! ### Training without end -/

theorem Op.Fits.sane {N n o : ℕ} {lam : ℝ} (hl : 0 < lam) {x : Fin (N + 1) → Fin n → ℝ} {loss : Fin (N + 1) → (Fin o → ℝ) → ℝ} {op : Op n o}
    (h : op.Fits lam x loss) : op.Sane := by
  cases op with
  | cov _ _ decay => exact h
  | inv damping => exact hl.trans_le h
  | train x' loss' =>
    have h : Op.train x' loss' = .train x loss := h
    rw [h]
    exact Nat.succ_ne_zero N

theorem cov_eval {M n o : ℕ} (decay : ℝ) (net : Net n o) (x : Fin M → Fin n → ℝ) (sampled : Fin M → (Fin o → ℝ) → ℝ) :
    (net.covUpdate decay x sampled).eval = net.eval := by
  induction net with
  | nil => rfl
  | cons bias l φ rest ih =>
    funext y
    simp only [Net.covUpdate, Net.eval]
    rw [ih]

theorem inv_eval {n o : ℕ} {rule : PiRule} {power damping : ℝ} {net net' : Net n o} (hs : net.invUpdate rule power damping = .ok net') :
    net'.eval = net.eval := by
  induction net with
  | nil => obtain rfl := Except.ok.inj hs; rfl
  | cons bias l φ rest ih =>
    simp only [Net.invUpdate, Bind.bind, Except.bind] at hs
    cases h1 : l.invUpdate rule power damping with
    | error m => rw [h1] at hs; cases hs
    | ok l' =>
      rw [h1] at hs
      cases h2 : rest.invUpdate rule power damping with
      | error m => rw [h2] at hs; cases hs
      | ok rest' =>
        rw [h2] at hs
        obtain rfl := Except.ok.inj hs
        have h3 : l'.weights = l.weights := by
          unfold Layer.invUpdate at h1
          split at h1
          · cases h4 : setupDamping rule power _ _ _ _ damping none with
            | error m => rw [h4] at h1; cases h1
            | ok d => rw [h4] at h1; obtain rfl := Except.ok.inj h1; rfl
          · cases h1
        funext y
        simp only [Net.eval, h3, ih h2]

variable {N n o : ℕ} {cfg : Config} {start : Net n o} {ops : ℕ → Op n o} {states : ℕ → Net n o} {lam L m : ℝ}
  {x : Fin (N + 1) → Fin n → ℝ} {loss : Fin (N + 1) → (Fin o → ℝ) → ℝ}

theorem state_ok (ht : Trajectory cfg start ops states) (hf : start.Fresh) (hr : start.Regular) (hw : start.Wide) (hlam : 0 < lam)
    (ho : ∀ k, (ops k).Fits lam x loss) (k : ℕ) :
    (∃ w, (states k).Ok w) ∧ start.Alike (states k) ∧ (states k).Tame lam none := by
  induction k with
  | zero =>
    rw [ht.1]
    exact ⟨⟨_, ok_fresh hf hr hw⟩, .refl _, tame_fresh _ hf⟩
  | succ k ih =>
    obtain ⟨⟨w, h1⟩, h2, h3⟩ := ih
    have hs := ht.2 k
    refine ⟨⟨_, ok_step cfg h1 ((ho k).sane hlam) hs⟩, h2.trans (alike_step cfg hs), ?_⟩
    have hk := ho k
    cases hop : ops k with
    | inv damping =>
      rw [hop] at hs hk
      have := tame_inv (B := 0) (Λ := 0) (K := 0) hlam (le_refl _) (le_refl _) h1 hk false (by simp) hs
      simpa using this
    | cov x' sampled decay =>
      rw [hop] at hs
      exact tame_keep cfg h3 rfl hs
    | train x' loss' =>
      rw [hop] at hs
      exact tame_keep cfg h3 rfl hs

theorem upkeep_loss {net net' : Net n o} {op : Op n o} (h : op.Fits lam x loss) (hn : op ≠ .train x loss) (hs : net.step cfg op = .ok net') :
    net'.eval = net.eval := by
  cases op with
  | cov x' sampled decay =>
    obtain rfl := Except.ok.inj hs
    exact cov_eval _ _ _ _
  | inv damping => exact inv_eval hs
  | train x' loss' => exact absurd h hn

/-- Every operation. -/
theorem descent (ht : Trajectory cfg start ops states) (hf : start.Fresh) (hr : start.Regular) (hw : start.Wide) (hlam : 0 < lam)
    (ho : ∀ k, (ops k).Fits lam x loss) (hl : ∀ i, Differentiable ℝ (loss i)) (hL : 0 ≤ L)
    (hsm : SmoothBelow (batchLoss x loss start) L start x loss) (hm : cfg.momentum = 0)
    (hlr : 0 ≤ cfg.learningRate) (hlr' : L * cfg.learningRate ≤ lam) (k : ℕ) :
    batchLoss x loss (states k) ≤ batchLoss x loss start ∧
    (ops k = .train x loss → ∃ s, (states k).sqNorm x loss = .ok s ∧ 0 ≤ s ∧ batchLoss x loss (states (k + 1)) ≤
      batchLoss x loss (states k) - cfg.learningRate / 2 * (clipFactor cfg.normConstraint cfg.learningRate s * s)) ∧
    (ops k ≠ .train x loss → batchLoss x loss (states (k + 1)) = batchLoss x loss (states k)) := by
  have next : ∀ k, batchLoss x loss (states k) ≤ batchLoss x loss start →
      (ops k = .train x loss → ∃ s, (states k).sqNorm x loss = .ok s ∧ 0 ≤ s ∧ batchLoss x loss (states (k + 1)) ≤
        batchLoss x loss (states k) - cfg.learningRate / 2 * (clipFactor cfg.normConstraint cfg.learningRate s * s)) ∧
      (ops k ≠ .train x loss → batchLoss x loss (states (k + 1)) = batchLoss x loss (states k)) := by
    intro k hk
    have hs := ht.2 k
    obtain ⟨⟨w, h1⟩, h2, h3⟩ := state_ok ht hf hr hw hlam ho k
    refine ⟨fun h => ?_, fun h => ?_⟩
    · rw [h] at hs
      exact train_descent h1 h2 hlam hL h3 hl hsm cfg hm hlr hlr' hk hs
    · simp only [batchLoss, upkeep_loss (ho k) h hs]
  refine ⟨?_, next k ?_⟩ <;>
  · induction k with
    | zero => rw [ht.1]
    | succ k ih =>
      obtain ⟨h1, h2⟩ := next k ih
      by_cases h : ops k = .train x loss
      · obtain ⟨s, -, h3, h4⟩ := h1 h
        have := mul_nonneg (div_nonneg hlr zero_le_two) (mul_nonneg (clipFactor_mem cfg.normConstraint cfg.learningRate s).1 h3)
        linarith
      · rw [h2 h]
        exact ih

theorem clip_lower (c : Option ℝ) (hc : ∀ v ∈ c, 0 < v) {lr ε : ℝ} (hlr : 0 < lr) (hε : 0 < ε) :
    ∃ δ, 0 < δ ∧ ∀ s, ε ≤ s → δ ≤ clipFactor c lr s * s := by
  cases c with
  | none => exact ⟨ε, hε, fun s hs => by simpa [clipFactor] using hs⟩
  | some c =>
    have hc : 0 < c := hc c rfl
    refine ⟨min ε (√(c * ε) / lr), by positivity, fun s hs => ?_⟩
    have hs0 : 0 < s := hε.trans_le hs
    have hne : s * lr ^ 2 ≠ 0 := by positivity
    simp only [clipFactor, if_neg hne]
    rw [min_mul_of_nonneg _ _ hs0.le, one_mul]
    refine min_le_min hs ?_
    have e : √(c / (s * lr ^ 2)) * s = √(c * s) / lr := by
      rw [Real.sqrt_div hc.le, Real.sqrt_mul hs0.le, Real.sqrt_sq hlr.le, Real.sqrt_mul hc.le]
      have h1 : √s ≠ 0 := (Real.sqrt_pos.mpr hs0).ne'
      have h2 : s = √s * √s := (Real.mul_self_sqrt hs0.le).symm
      field_simp
      rw [pow_two, ← h2]
    rw [e]
    exact div_le_div_of_nonneg_right (Real.sqrt_le_sqrt (mul_le_mul_of_nonneg_left hs hc.le)) hlr.le

/-- Decreases of a bounded sequence tend to zero. -/
theorem decrease_small {f a : ℕ → ℝ} {m : ℝ} (ha : ∀ k, 0 ≤ a k) (h : ∀ k, f (k + 1) ≤ f k - a k) (hm : ∀ k, m ≤ f k) :
    (∀ K, ∑ k ∈ Finset.range K, a k ≤ f 0 - f K) ∧ Tendsto a atTop (𝓝 0) := by
  have h1 : ∀ K, ∑ k ∈ Finset.range K, a k ≤ f 0 - f K := by
    intro K
    induction K with
    | zero => simp
    | succ K ih =>
      rw [Finset.sum_range_succ]
      linarith [h K]
  exact ⟨h1, (summable_of_sum_range_le ha fun K => (h1 K).trans (by linarith [hm K] : _ ≤ f 0 - m)).tendsto_atTop_zero⟩

/-! ### Theorems -/

/-- C107: training that begins with an update of the covariances goes on for ever. -/
theorem C107_succeeds {M : ℕ} (hf : start.Fresh) (hr : start.Regular) (hw : start.Wide) (hlam : 0 < lam) (ho : ∀ k, (ops k).Fits lam x loss)
    {x' : Fin M → Fin n → ℝ} {sampled : Fin M → (Fin o → ℝ) → ℝ} {decay : ℝ} (h0 : ops 0 = .cov x' sampled decay) :
    ∃ states, Trajectory cfg start ops states := by
  have hs : ∀ k, (ops k).Sane := fun k => (ho k).sane hlam
  let states : ℕ → Net n o := fun k => Nat.rec start (fun k net => ((net.step cfg (ops k)).toOption).getD net) k
  have key : ∀ k, (states k).step cfg (ops k) = .ok (states (k + 1)) ∧ (∃ w, (states (k + 1)).Ok w) ∧ (states (k + 1)).Fed := by
    intro k
    have good : ∀ {net : Net n o}, (states k).step cfg (ops k) = .ok net → states (k + 1) = net := by
      intro net h
      show ((((states k).step cfg (ops k)).toOption).getD (states k)) = net
      rw [h]
      rfl
    induction k with
    | zero =>
      have e : (states 0).step cfg (ops 0) = .ok (start.covUpdate decay x' sampled) := by rw [h0]; rfl
      have hok := ok_fresh hf hr hw
      have hd := hs 0
      rw [h0] at hd
      refine ⟨by rw [good e]; exact e, ?_, ?_⟩
      · rw [good e]
        exact ⟨_, ok_step cfg hok (hs 0) e⟩
      · rw [good e]
        exact fed_cov hok hd.2 _ _
    | succ k ih =>
      obtain ⟨-, ⟨w, h1⟩, h2⟩ := ih fun h => by
        show ((((states k).step cfg (ops k)).toOption).getD (states k)) = _
        rw [h]
        rfl
      obtain ⟨net, h3, h4⟩ := fed_step cfg h1 h2 (hs (k + 1))
      rw [good h3]
      exact ⟨h3, ⟨_, ok_step cfg h1 (hs _) h3⟩, h4⟩
  exact ⟨states, rfl, fun k => (key k).1⟩

/-- C107: no training step increases the loss, and without a norm constraint every one lowers it by at least half the learning
rate times the squared Fisher norm that the optimizer computes. The other operations leave it as it is. -/
theorem C107_descends (ht : Trajectory cfg start ops states) (hf : start.Fresh) (hr : start.Regular) (hw : start.Wide) (hlam : 0 < lam)
    (ho : ∀ k, (ops k).Fits lam x loss) (hl : ∀ i, Differentiable ℝ (loss i)) (hL : 0 ≤ L)
    (hsm : SmoothBelow (batchLoss x loss start) L start x loss) (hm : cfg.momentum = 0)
    (hlr : 0 ≤ cfg.learningRate) (hlr' : L * cfg.learningRate ≤ lam) (k : ℕ) :
    (ops k = .train x loss → ∃ s, (states k).sqNorm x loss = .ok s ∧ 0 ≤ s ∧
      batchLoss x loss (states (k + 1)) ≤ batchLoss x loss (states k) ∧
      (cfg.normConstraint = none → batchLoss x loss (states (k + 1)) ≤ batchLoss x loss (states k) - cfg.learningRate / 2 * s)) ∧
    (ops k ≠ .train x loss → batchLoss x loss (states (k + 1)) = batchLoss x loss (states k)) := by
  obtain ⟨-, h1, h2⟩ := descent ht hf hr hw hlam ho hl hL hsm hm hlr hlr' k
  refine ⟨fun h => ?_, h2⟩
  obtain ⟨s, h3, h4, h5⟩ := h1 h
  refine ⟨s, h3, h4, ?_, fun hn => ?_⟩
  · have := mul_nonneg (div_nonneg hlr zero_le_two) (mul_nonneg (clipFactor_mem cfg.normConstraint cfg.learningRate s).1 h4)
    linarith
  · rw [hn] at h5
    simpa [clipFactor] using h5

open Classical in
/-- C107: without a norm constraint, the squared Fisher norms of all training steps together are at most twice the decrease of the
loss divided by the learning rate. -/
theorem C107_total (ht : Trajectory cfg start ops states) (hf : start.Fresh) (hr : start.Regular) (hw : start.Wide) (hlam : 0 < lam)
    (ho : ∀ k, (ops k).Fits lam x loss) (hl : ∀ i, Differentiable ℝ (loss i)) (hL : 0 ≤ L)
    (hsm : SmoothBelow (batchLoss x loss start) L start x loss) (hm : cfg.momentum = 0) (hn : cfg.normConstraint = none)
    (hlr : 0 < cfg.learningRate) (hlr' : L * cfg.learningRate ≤ lam) (norms : ℕ → ℝ)
    (hns : ∀ k, ops k = .train x loss → (states k).sqNorm x loss = .ok (norms k)) (K : ℕ) :
    ∑ k ∈ (Finset.range K).filter (fun k => ops k = .train x loss), norms k ≤
      2 * (batchLoss x loss start - batchLoss x loss (states K)) / cfg.learningRate := by
  have h1 : ∀ k, batchLoss x loss (states (k + 1)) ≤ batchLoss x loss (states k) -
      cfg.learningRate / 2 * (if ops k = .train x loss then norms k else 0) := by
    intro k
    obtain ⟨h1, h2⟩ := C107_descends ht hf hr hw hlam ho hl hL hsm hm hlr.le hlr' k
    split_ifs with h
    · obtain ⟨s, h3, -, -, h4⟩ := h1 h
      obtain rfl := Except.ok.inj (h3.symm.trans (hns k h))
      exact h4 hn
    · rw [h2 h, mul_zero, sub_zero]
  have h2 : cfg.learningRate / 2 * ∑ k ∈ Finset.range K, (if ops k = .train x loss then norms k else 0) ≤
      batchLoss x loss start - batchLoss x loss (states K) := by
    induction K with
    | zero => simp [ht.1]
    | succ K ih =>
      rw [Finset.sum_range_succ, mul_add]
      linarith [h1 K]
  rw [Finset.sum_filter, le_div_iff₀ hlr]
  linarith

/-- C107: if the loss is bounded below, then the squared Fisher norm of the training steps tends to zero, with a norm constraint
or without. -/
theorem C107_vanishes (ht : Trajectory cfg start ops states) (hf : start.Fresh) (hr : start.Regular) (hw : start.Wide) (hlam : 0 < lam)
    (ho : ∀ k, (ops k).Fits lam x loss) (hl : ∀ i, Differentiable ℝ (loss i)) (hL : 0 ≤ L)
    (hsm : SmoothBelow (batchLoss x loss start) L start x loss) (hm : cfg.momentum = 0) (hc : ∀ v ∈ cfg.normConstraint, 0 < v)
    (hlr : 0 < cfg.learningRate) (hlr' : L * cfg.learningRate ≤ lam) (hb : ∀ k, m ≤ batchLoss x loss (states k)) {ε : ℝ} (hε : 0 < ε) :
    ∃ K, ∀ k, K ≤ k → ops k = .train x loss → ∃ s, (states k).sqNorm x loss = .ok s ∧ 0 ≤ s ∧ s < ε := by
  classical
  have h0 := descent ht hf hr hw hlam ho hl hL hsm hm hlr.le hlr'
  choose s hs using fun k => (h0 k).2.1
  let a : ℕ → ℝ := fun k => if h : ops k = .train x loss then
    cfg.learningRate / 2 * (clipFactor cfg.normConstraint cfg.learningRate (s k h) * s k h) else 0
  have ha : ∀ k, 0 ≤ a k := by
    intro k
    simp only [a]
    split_ifs with h
    · exact mul_nonneg (div_nonneg hlr.le zero_le_two) (mul_nonneg (clipFactor_mem _ _ _).1 (hs k h).2.1)
    · exact le_refl _
  have hstep : ∀ k, batchLoss x loss (states (k + 1)) ≤ batchLoss x loss (states k) - a k := by
    intro k
    simp only [a]
    split_ifs with h
    · exact (hs k h).2.2
    · rw [(h0 k).2.2 h, sub_zero]
  have h1 := (decrease_small ha hstep hb).2
  obtain ⟨δ, hδ, h2⟩ := clip_lower cfg.normConstraint hc hlr hε
  obtain ⟨K, hK⟩ := eventually_atTop.mp (h1.eventually (gt_mem_nhds (show 0 < cfg.learningRate / 2 * δ by positivity)))
  refine ⟨K, fun k hk h => ⟨s k h, (hs k h).1, (hs k h).2.1, ?_⟩⟩
  by_contra hn
  have h3 := h2 _ (not_lt.mp hn)
  have h4 := hK k hk
  simp only [a, dif_pos h] at h4
  have := mul_le_mul_of_nonneg_left h3 (div_nonneg hlr.le zero_le_two)
  linarith

/-- C107: if moreover the inputs and derivatives that the covariances see and the dampings stay bounded, then the derivative of the loss at the training steps
tends to zero in all directions. -/
theorem C107_stationary {B Λ : ℝ} (ht : Trajectory cfg start ops states) (hf : start.Fresh) (hr : start.Regular) (hw : start.Wide)
    (hlam : 0 < lam) (ho : ∀ k, (ops k).Fits lam x loss) (hl : ∀ i, Differentiable ℝ (loss i)) (hL : 0 ≤ L)
    (hsm : SmoothBelow (batchLoss x loss start) L start x loss) (hm : cfg.momentum = 0) (hc : ∀ v ∈ cfg.normConstraint, 0 < v)
    (hlr : 0 < cfg.learningRate) (hlr' : L * cfg.learningRate ≤ lam) (hb : ∀ k, m ≤ batchLoss x loss (states k))
    (hB : 0 ≤ B) (hmod : ∀ k, (ops k).Moderate B Λ (states k)) (hi : ∃ k damping, ops k = .inv damping) {ε : ℝ} (hε : 0 < ε) :
    ∃ K, ∀ k, K ≤ k → ops k = .train x loss → ∀ d : (states k).Tangent, (states k).size d ≤ 1 →
      |deriv (fun t => batchLoss x loss ((states k).move d t)) 0| < ε := by
  obtain ⟨k0, damping, hk0⟩ := hi
  have hΛ0 : 0 ≤ Λ := by
    have h1 := hmod k0
    have h2 := ho k0
    rw [hk0] at h1 h2
    exact hlam.le.trans (le_trans (b := damping) h2 h1)
  set W := start.worst B Λ with hWdef
  have hW : 0 ≤ W := worst_nonneg hB hΛ0 start
  have hcov : ∀ k, (states k).Below B := by
    intro k
    induction k with
    | zero => rw [ht.1]; exact below_fresh B hf
    | succ k ih =>
      have hs := ht.2 k
      cases hop : ops k with
      | cov x' sampled decay =>
        rename_i M
        have h1 := ho k
        have h2 := hmod k
        rw [hop] at h1 h2 hs
        obtain ⟨M, rfl⟩ := Nat.exists_eq_succ_of_ne_zero h1.1
        rw [← Except.ok.inj hs]
        exact below_cov h1.2 ih h2
      | inv dp =>
        rw [hop] at hs
        exact below_keep cfg ih (by intros; simp) hs
      | train x' loss' =>
        rw [hop] at hs
        exact below_keep cfg ih (by intros; simp) hs
  have tame : ∀ k, k0 < k → (states k).Tame lam (some W) := by
    intro k hk
    induction k with
    | zero => exact absurd hk (Nat.not_lt_zero _)
    | succ k ih =>
      obtain ⟨⟨w, h1⟩, h2, -⟩ := state_ok ht hf hr hw hlam ho k
      have hs := ht.2 k
      cases hop : ops k with
      | inv dp =>
        have h3 := ho k
        have h4 := hmod k
        rw [hop] at h3 h4 hs
        have := tame_inv (B := B) (Λ := Λ) (K := W) hlam hB hΛ0 h1 h3 true (fun _ => ⟨h4, hcov k, (worst_alike h2).le⟩) hs
        simpa using this
      | cov x' sampled decay =>
        rw [hop] at hs
        refine tame_keep cfg (ih ?_) rfl hs
        rcases Nat.lt_succ_iff_lt_or_eq.mp hk with h | h
        · exact h
        · rw [h, hop] at hk0; cases hk0
      | train x' loss' =>
        rw [hop] at hs
        refine tame_keep cfg (ih ?_) rfl hs
        rcases Nat.lt_succ_iff_lt_or_eq.mp hk with h | h
        · exact h
        · rw [h, hop] at hk0; cases hk0
  obtain ⟨K, hK⟩ := C107_vanishes ht hf hr hw hlam ho hl hL hsm hm hc hlr hlr' hb (ε := ε ^ 2 / (W + 1)) (by positivity)
  refine ⟨max K (k0 + 1), fun k hk hop d hd => ?_⟩
  obtain ⟨s, h1, h2, h3⟩ := hK k ((le_max_left _ _).trans hk) hop
  obtain ⟨⟨w, h4⟩, -⟩ := state_ok ht hf hr hw hlam ho k
  have h5 := pairing_sq hlam.le hW (tame k ((le_max_right _ _).trans hk)) x loss d
  rw [(hasDeriv_batchLoss h4.regular hl d x).deriv]
  obtain rfl := Except.ok.inj (h1.symm.trans (sqNorm_eq h4 x loss))
  refine abs_lt_of_sq_lt_sq ?_ hε.le
  rw [lt_div_iff₀ (by positivity)] at h3
  refine h5.trans_lt (lt_of_le_of_lt (mul_le_of_le_one_right (mul_nonneg hW h2) hd) ?_)
  nlinarith

/-- A layer with one weight, which is 1, and no bias, with the loss `z ^ 4` on the input 1: the loss is not globally smooth, but it
is below its first value. The covariances are updated before every training step, the inverses before every third. The hypotheses
of the theorems hold. -/
example : ∃ (cfg : Config) (start : Net 1 1) (ops : ℕ → Op 1 1) (states : ℕ → Net 1 1) (lam L : ℝ) (x : Fin 1 → Fin 1 → ℝ)
    (loss : Fin 1 → (Fin 1 → ℝ) → ℝ), Trajectory cfg start ops states ∧ start.Fresh ∧ start.Regular ∧ start.Wide ∧ 0 < lam ∧
    (∀ k, (ops k).Fits lam x loss) ∧ (∀ i, Differentiable ℝ (loss i)) ∧ 0 ≤ L ∧ SmoothBelow (batchLoss x loss start) L start x loss ∧
    cfg.momentum = 0 ∧ cfg.normConstraint = none ∧ 0 < cfg.learningRate ∧ L * cfg.learningRate ≤ lam ∧
    (∀ k, 0 ≤ batchLoss x loss (states k)) ∧ (∀ k, (ops k).Moderate 16 2 (states k)) ∧ (∃ k damping, ops k = .inv damping) ∧
    ∃ k, ops k = .train x loss := by
  let start : Net 1 1 := .cons (q := 1) false (fresh fun _ _ => 1) id .nil
  let loss : Fin 1 → (Fin 1 → ℝ) → ℝ := fun _ z => z 0 ^ 4
  let x : Fin 1 → Fin 1 → ℝ := fun _ _ => 1
  let cfg : Config := ⟨1 / 10, 0, none, .tracenorm, 1⟩
  let ops : ℕ → Op 1 1 := fun k => if k % 3 = 0 then .cov x loss (95 / 100) else if k % 3 = 1 then .inv 2 else .train x loss
  have hf : start.Fresh := ⟨rfl, rfl, rfl, trivial⟩
  have hr : start.Regular := ⟨differentiable_id, trivial⟩
  have hw : start.Wide := ⟨by decide, trivial⟩
  have ho : ∀ k, (ops k).Fits (2 : ℝ) x loss := by
    intro k
    simp only [ops]
    split_ifs
    · exact ⟨by decide, by norm_num⟩
    · exact le_refl (2 : ℝ)
    · rfl
  obtain ⟨states, hs⟩ := C107_succeeds (cfg := cfg) (N := 0) hf hr hw two_pos ho (show ops 0 = .cov x loss (95 / 100) from rfl)
  have hval : ∀ net : Net 1 1, batchLoss x loss net = net.eval (fun _ => 1) 0 ^ 4 := by
    intro net
    simp [batchLoss, loss, x]
  have ah : ∀ r : Fin (1 + false.toNat), appendHomog false (fun _ : Fin 1 => (1 : ℝ)) r = 1 := fun r => by
    rw [show r = Fin.castAdd false.toNat 0 from Subsingleton.elim (α := Fin 1) _ _]
    exact Fin.append_left _ _ _
  have hone : ∀ w : Fin (1 + false.toNat) → Fin 1 → ℝ, affine false w (fun _ => 1) 0 = w 0 0 := fun w => by
    simp only [affine, ah, mul_one]
    exact Fin.sum_univ_one fun r : Fin 1 => w r 0
  have h1 : batchLoss x loss start = 1 := by
    rw [hval]
    show affine false _ _ 0 ^ 4 = 1
    rw [hone]
    exact one_pow 4
  have shape : ∀ {net : Net 1 1}, start.Alike net → ∃ l : Layer (1 + false.toNat) 1, net = .cons false l id .nil := by
    intro net ha
    have : (Net.cons (q := 1) false (fresh fun _ _ => 1) id .nil : Net 1 1).Alike net := ha
    clear ha
    cases this with
    | cons _ _ l _ h =>
      cases h
      exact ⟨l, rfl⟩
  have hdiff : ∀ i, Differentiable ℝ (loss i) := fun i => by simp only [loss]; fun_prop
  have hsm : SmoothBelow (batchLoss x loss start) 12 start x loss := by
    rw [h1]
    intro net ha d t hb
    obtain ⟨l, rfl⟩ := shape ha
    have hmove : ∀ s : ℝ, batchLoss x loss ((Net.cons false l id .nil : Net 1 1).move d s) = (l.weights 0 0 + s * d.1 0 0) ^ 4 := by
      intro s
      rw [hval]
      show affine false _ _ 0 ^ 4 = _
      rw [hone]
      rfl
    set a := l.weights 0 0
    set e := d.1 0 0
    have hder : HasDerivAt (fun s => batchLoss x loss ((Net.cons false l id .nil : Net 1 1).move d s)) (4 * a ^ 3 * e) 0 := by
      simp only [hmove]
      have := (((hasDerivAt_id (0 : ℝ)).mul_const e).const_add a).pow 4
      refine this.congr_deriv ?_
      simp
    have hsize : (Net.cons false l id .nil : Net 1 1).size d = e ^ 2 := by
      show (∑ r : Fin 1, ∑ j : Fin 1, d.1 r j ^ 2) + 0 = e ^ 2
      simp [e]
    have h0 : batchLoss x loss (Net.cons false l id .nil : Net 1 1) = a ^ 4 := by
      have := hmove 0
      rwa [move_zero, zero_mul, add_zero] at this
    rw [hder.deriv, hsize, hmove, h0]
    have b0 := hb 0 Set.left_mem_uIcc
    have b1 := hb t Set.right_mem_uIcc
    rw [hmove] at b0 b1
    rw [zero_mul, add_zero] at b0
    have c0 : a ^ 2 ≤ 1 := by nlinarith [sq_nonneg (a ^ 2 - 1)]
    have c1 : (a + t * e) ^ 2 ≤ 1 := by nlinarith [sq_nonneg ((a + t * e) ^ 2 - 1)]
    have key : 6 * a ^ 2 + 4 * a * (t * e) + (t * e) ^ 2 ≤ 6 := by nlinarith [sq_nonneg (t * e)]
    have := mul_le_mul_of_nonneg_left key (sq_nonneg (t * e))
    nlinarith
  refine ⟨cfg, start, ops, states, 2, 12, x, loss, hs, hf, hr, hw, two_pos, ho, hdiff, by norm_num, hsm, rfl, rfl,
    by norm_num [cfg], by norm_num [cfg], fun k => by rw [hval]; positivity, fun k => ?_, ⟨1, 2, rfl⟩, 2, rfl⟩
  have hle := (descent hs hf hr hw two_pos ho hdiff (by norm_num) hsm rfl (by norm_num [cfg]) (by norm_num [cfg]) k).1
  obtain ⟨-, ha, -⟩ := state_ok hs hf hr hw two_pos ho k
  obtain ⟨l, hk⟩ := shape ha
  rw [h1, hval, hk] at hle
  have hle : affine false l.weights (fun _ => 1) 0 ^ 4 ≤ 1 := hle
  rw [hone] at hle
  have key : (states k).SeenBelow 16 x loss := by
    rw [hk]
    refine ⟨fun i => ?_, fun i => ?_, trivial⟩
    · show ∑ r, appendHomog false (fun _ : Fin 1 => (1 : ℝ)) r ^ 2 ≤ 16
      simp only [ah]
      norm_num
    · have hg : ∀ s : Fin 1 → ℝ, gradient (fun s => loss i ((Net.nil : Net 1 1).eval (id s))) s 0 = 4 * s 0 ^ 3 := by
        intro s
        have : HasFDerivAt (fun s : Fin 1 → ℝ => s 0 ^ 4) ((4 * s 0 ^ 3) • ContinuousLinearMap.proj (R := ℝ) (φ := fun _ : Fin 1 => ℝ) 0) s := by
          have := (ContinuousLinearMap.proj (R := ℝ) (φ := fun _ : Fin 1 => ℝ) 0).hasFDerivAt (x := s) |>.pow 4
          simpa using this
        show fderiv ℝ (fun s : Fin 1 → ℝ => s 0 ^ 4) s (Pi.single 0 1) = _
        rw [this.fderiv]
        simp
      rw [Fin.sum_univ_one, hg]
      show (4 * affine false l.weights (fun _ => 1) 0 ^ 3) ^ 2 ≤ 16
      rw [hone]
      set a := l.weights 0 0
      have c0 : a ^ 2 ≤ 1 := by nlinarith [sq_nonneg (a ^ 2 - 1)]
      nlinarith [mul_le_mul hle c0 (sq_nonneg a) zero_le_one]
  show (ops k).Moderate 16 2 (states k)
  simp only [ops]
  split_ifs
  · exact key
  · exact le_refl (2 : ℝ)
  · trivial

end Kfac.Train
