import Verif.Train.Cluster
import Verif.Train.Lemmas
import Verif.Stats.Props
import Mathlib.Analysis.Calculus.FDeriv.Add
import Mathlib.Analysis.Calculus.FDeriv.Mul
import Mathlib.Analysis.Calculus.FDeriv.Comp
import Mathlib.Analysis.Calculus.FDeriv.Pi

/-! # C100: training on replicas and towers is training on one machine -/

namespace Kfac.Train

open Kfac.Stats Kfac.Block Kfac.Grad

variable {R : ℕ}

/-- Every replica has the same network. -/
def Net.mirror (R : ℕ) {n o : ℕ} : Net n o → Cluster R n o
  | .nil => .nil
  | .cons bias l φ rest => .cons bias (fun _ => l) φ (rest.mirror R)

/-- The examples of all replicas and towers (none of them empty) in any order, as one batch on one machine. -/
inductive Pooled {n o : ℕ} : ClusterOp R n o → Op n o → Prop
  | cov {T B N : ℕ} (e : Fin N ≃ Fin R × Fin T × Fin B) (hT : 0 < T) (hB : 0 < B) (x : Fin R → Fin T → Fin B → Fin n → ℝ)
      (sampled : Fin R → Fin T → Fin B → (Fin o → ℝ) → ℝ) (decay : ℝ) :
      Pooled (.cov x sampled decay) (.cov (fun k => x (e k).1 (e k).2.1 (e k).2.2)
        (fun k => sampled (e k).1 (e k).2.1 (e k).2.2) decay)
  | inv (damping : ℝ) : Pooled (.inv damping) (.inv damping)
  | train {T B N : ℕ} (e : Fin N ≃ Fin R × Fin T × Fin B) (hT : 0 < T) (hB : 0 < B) (x : Fin R → Fin T → Fin B → Fin n → ℝ)
      (loss : Fin R → Fin T → Fin B → (Fin o → ℝ) → ℝ) :
      Pooled (.train x loss) (.train (fun k => x (e k).1 (e k).2.1 (e k).2.2) (fun k => loss (e k).1 (e k).2.1 (e k).2.2))

/-- The losses of the examples are differentiable by the weights of every layer (at the current weights). -/
def Net.SmoothAt {N n o : ℕ} (net : Net n o) (x : Fin N → Fin n → ℝ) (loss : Fin N → (Fin o → ℝ) → ℝ) : Prop :=
  match net with
  | .nil => True
  | .cons bias l φ rest =>
    (∀ i, DifferentiableAt ℝ (fun w => loss i (rest.eval (φ (affine bias w (x i))))) l.weights) ∧
    rest.SmoothAt (fun i => φ (affine bias l.weights (x i))) loss

/-- All training steps of the run happen where the losses are differentiable. -/
def Net.SmoothRun {n o : ℕ} (cfg : Config) (net : Net n o) : List (Op n o) → Prop
  | [] => True
  | op :: ops =>
    (match op with
      | .train x loss => net.SmoothAt x loss
      | _ => True) ∧ ∀ net', net.step cfg op = .ok net' → net'.SmoothRun cfg ops

theorem replica_mirror (r : Fin R) {n o : ℕ} (net : Net n o) : (net.mirror R).replica r = net := by
  induction net with
  | nil => rfl
  | cons bias l φ rest ih => simp [Net.mirror, Cluster.replica, ih]

theorem gather_const {α : Type} (e : Except String α) : {R : ℕ} → (hR : 0 < R) →
    gather (fun _ : Fin R => e) = e.map fun a _ => a
  | R + 1, _ => by
    rw [gather]
    cases e with
    | error m => rfl
    | ok a =>
      have hc : ∀ {R : ℕ}, (Fin.cons a fun _ : Fin R => a : Fin (R + 1) → α) = fun _ => a := by
        intro R; funext i; refine Fin.cases rfl (fun _ => rfl) i
      cases R with
      | zero => simp only [Except.bind, gather, Except.map]; congr 1; funext i; refine Fin.cases rfl (fun i => i.elim0) i
      | succ R =>
        simp only [Except.bind]
        rw [gather_const (.ok a) (Nat.succ_pos R)]
        simp only [Except.map]
        rw [hc]

theorem card_pool {T B N : ℕ} (e : Fin N ≃ Fin R × Fin T × Fin B) : N = R * (T * B) := by
  have := Fintype.card_congr e
  simpa using this

theorem sum_pool {T B N : ℕ} (e : Fin N ≃ Fin R × Fin T × Fin B) (f : Fin R → Fin T → Fin B → ℝ) :
    ∑ k, f (e k).1 (e k).2.1 (e k).2.2 = ∑ r, ∑ t, ∑ i, f r t i := by
  rw [Equiv.sum_comp e fun p : Fin R × Fin T × Fin B => f p.1 p.2.1 p.2.2, Fintype.sum_prod_type]
  exact Finset.sum_congr rfl fun r _ => Fintype.sum_prod_type _

theorem ofFn_sum {α : Type} {N : ℕ} (v : Fin N → α) (f : α → ℝ) : ((List.ofFn v).map f).sum = ∑ i, f (v i) := by
  rw [List.map_ofFn, List.sum_ofFn]; rfl

theorem cov_pool {T B N n : ℕ} (strategy : TowerStrategy) (e : Fin N ≃ Fin R × Fin T × Fin B) (hR : 0 < R) (hT : 0 < T)
    (hB : 0 < B) (v : Fin R → Fin T → Fin B → Fin n → ℝ) :
    newCovOverReplicas computeCov
      (List.ofFn fun r => [processTowers strategy (List.ofFn fun t => List.ofFn fun i => v r t i)]) =
    newCovOverReplicas computeCov [[[List.ofFn fun k => v (e k).1 (e k).2.1 (e k).2.2]]] := by
  rw [cov_one]
  have hR' : (R : ℝ) ≠ 0 := by positivity
  have hT' : (T : ℝ) ≠ 0 := by positivity
  have hB' : (B : ℝ) ≠ 0 := by positivity
  have hone : ∀ r, totalNewCov computeCov [processTowers strategy (List.ofFn fun t => List.ofFn fun i => v r t i)] =
      Matrix.of fun a b => (∑ t, ∑ i, v r t i a * v r t i b) / (T * B) := by
    intro r
    have hsep : totalNewCov computeCov [List.ofFn fun t => List.ofFn fun i => v r t i] =
        Matrix.of fun a b => (∑ t, ∑ i, v r t i a * v r t i b) / (T * B) := by
      ext a b
      simp only [totalNewCov, List.headD_cons, List.length_ofFn, List.map_cons, List.map_nil, List.sum_cons, List.sum_nil,
        add_zero, Matrix.smul_apply, smul_eq_mul, Matrix.of_apply, Matrix.sum_apply, List.map_ofFn, List.sum_ofFn,
        Function.comp_apply, computeCov_apply, List.length_ofFn]
      rw [← Finset.sum_div]
      field_simp
    cases strategy with
    | separate => exact hsep
    | concat =>
      refine ((C12_equal_towers [List.ofFn fun t => List.ofFn fun i => v r t i] T B (by simp) hT hB ?_ ?_).1.symm).trans hsep
      · simp
      · intro towers h t ht
        simp only [List.mem_singleton] at h
        subst h
        obtain ⟨i, rfl⟩ := List.mem_ofFn.mp ht
        simp
  ext a b
  simp only [newCovOverReplicas, allAverage, List.map_ofFn, List.length_ofFn, Function.comp_def, hone, List.sum_ofFn,
    Matrix.smul_apply, Matrix.sum_apply, Matrix.of_apply, smul_eq_mul, computeCov_apply]
  rw [sum_pool e fun r t i => v r t i a * v r t i b, ← Finset.sum_div, card_pool e]
  push_cast
  field_simp

theorem mirror_cov {T B N n o : ℕ} (strategy : TowerStrategy) (e : Fin N ≃ Fin R × Fin T × Fin B) (hR : 0 < R) (hT : 0 < T)
    (hB : 0 < B) (decay : ℝ) (net : Net n o) (x : Fin R → Fin T → Fin B → Fin n → ℝ)
    (sampled : Fin R → Fin T → Fin B → (Fin o → ℝ) → ℝ) :
    (net.mirror R).covUpdate strategy decay x sampled = (net.covUpdate decay (fun k => x (e k).1 (e k).2.1 (e k).2.2)
      fun k => sampled (e k).1 (e k).2.1 (e k).2.2).mirror R := by
  induction net with
  | nil => rfl
  | cons bias l φ rest ih =>
    simp only [Net.mirror, Cluster.covUpdate, Net.covUpdate, replica_mirror, ih, DenseStat.step]
    rw [cov_pool strategy e hR hT hB, cov_pool strategy e hR hT hB]

theorem mirror_inv {n o : ℕ} (hR : 0 < R) (rule : PiRule) (power damping : ℝ) (net : Net n o) :
    (net.mirror R).invUpdate rule power damping = (net.invUpdate rule power damping).map (Net.mirror R) := by
  induction net with
  | nil => rfl
  | cons bias l φ rest ih =>
    simp only [Net.mirror, Cluster.invUpdate, Net.invUpdate, gather_const _ hR, ih]
    cases l.invUpdate rule power damping with
    | error m => rfl
    | ok l' =>
      cases rest.invUpdate rule power damping with
      | error m => rfl
      | ok rest' => rfl

theorem gradient_pool {T B N n q k o : ℕ} (e : Fin N ≃ Fin R × Fin T × Fin B) (hR : 0 < R) (hT : 0 < T) (hB : 0 < B)
    (bias : Bool) (l : Layer (n + bias.toNat) q) (φ : (Fin q → ℝ) → Fin k → ℝ) (rest : Net k o)
    (x : Fin R → Fin T → Fin B → Fin n → ℝ) (loss : Fin R → Fin T → Fin B → (Fin o → ℝ) → ℝ)
    (hs : ∀ i, DifferentiableAt ℝ (fun w => loss (e i).1 (e i).2.1 (e i).2.2
      (rest.eval (φ (affine bias w (x (e i).1 (e i).2.1 (e i).2.2))))) l.weights) :
    averagedGradient bias (fun _ => l) φ (rest.mirror R) x loss =
      matGradient (lossOf bias φ rest (fun k => x (e k).1 (e k).2.1 (e k).2.2) fun k => loss (e k).1 (e k).2.1 (e k).2.2)
        l.weights := by
  have hs' : ∀ r t i, DifferentiableAt ℝ (fun w => loss r t i (rest.eval (φ (affine bias w (x r t i))))) l.weights := by
    intro r t i
    simpa using hs (e.symm (r, t, i))
  have hR' : (R : ℝ) ≠ 0 := by positivity
  have hT' : (T : ℝ) ≠ 0 := by positivity
  have hB' : (B : ℝ) ≠ 0 := by positivity
  have h1 : ∀ r, HasFDerivAt (localLoss bias φ rest (x r) (loss r))
      ((T : ℝ)⁻¹ • ∑ t, (B : ℝ)⁻¹ • ∑ i, fderiv ℝ (fun w => loss r t i (rest.eval (φ (affine bias w (x r t i))))) l.weights)
      l.weights := by
    intro r
    have : localLoss bias φ rest (x r) (loss r) = fun w => (T : ℝ)⁻¹ * ∑ t, (B : ℝ)⁻¹ *
        ∑ i, loss r t i (rest.eval (φ (affine bias w (x r t i)))) := by
      funext w; simp only [localLoss, lossOf, div_eq_inv_mul]
    rw [this]
    exact (HasFDerivAt.fun_sum fun t _ => ((HasFDerivAt.fun_sum fun i _ => (hs' r t i).hasFDerivAt).const_mul _)).const_mul _
  have h2 : HasFDerivAt (lossOf bias φ rest (fun k => x (e k).1 (e k).2.1 (e k).2.2)
      fun k => loss (e k).1 (e k).2.1 (e k).2.2) ((N : ℝ)⁻¹ • ∑ k, fderiv ℝ (fun w => loss (e k).1 (e k).2.1 (e k).2.2
      (rest.eval (φ (affine bias w (x (e k).1 (e k).2.1 (e k).2.2))))) l.weights) l.weights := by
    have : lossOf bias φ rest (fun k => x (e k).1 (e k).2.1 (e k).2.2) (fun k => loss (e k).1 (e k).2.1 (e k).2.2) =
        fun w => (N : ℝ)⁻¹ * ∑ k, loss (e k).1 (e k).2.1 (e k).2.2
          (rest.eval (φ (affine bias w (x (e k).1 (e k).2.1 (e k).2.2)))) := by
      funext w; simp only [lossOf, div_eq_inv_mul]
    rw [this]
    exact (HasFDerivAt.fun_sum fun k _ => (hs k).hasFDerivAt).const_mul _
  funext a j
  simp only [averagedGradient, matGradient, replica_mirror, (h1 _).fderiv, h2.fderiv, _root_.smul_apply,
    ContinuousLinearMap.sum_apply, smul_eq_mul]
  rw [sum_pool e fun r t i => fderiv ℝ (fun w => loss r t i (rest.eval (φ (affine bias w (x r t i))))) l.weights
    (Pi.single a (Pi.single j 1)), card_pool e]
  simp only [← Finset.mul_sum]
  push_cast
  field_simp

theorem mirror_sqNorm {T B N n o : ℕ} (e : Fin N ≃ Fin R × Fin T × Fin B) (hR : 0 < R) (hT : 0 < T) (hB : 0 < B)
    (net : Net n o) (x : Fin R → Fin T → Fin B → Fin n → ℝ) (loss : Fin R → Fin T → Fin B → (Fin o → ℝ) → ℝ)
    (hs : net.SmoothAt (fun k => x (e k).1 (e k).2.1 (e k).2.2) fun k => loss (e k).1 (e k).2.1 (e k).2.2) :
    (net.mirror R).sqNorm x loss = (net.sqNorm (fun k => x (e k).1 (e k).2.1 (e k).2.2)
      fun k => loss (e k).1 (e k).2.1 (e k).2.2).map fun s _ => s := by
  induction net with
  | nil => rfl
  | cons bias l φ rest ih =>
    simp only [Net.mirror, Cluster.sqNorm, Net.sqNorm, gradient_pool e hR hT hB bias l φ rest x loss hs.1, gather_const _ hR]
    rw [ih (fun r t i => φ (affine bias l.weights (x r t i))) loss hs.2]
    cases l.precondition bias (matGradient (lossOf bias φ rest (fun k => x (e k).1 (e k).2.1 (e k).2.2)
      fun k => loss (e k).1 (e k).2.1 (e k).2.2) l.weights) with
    | error m => rfl
    | ok u =>
      cases rest.sqNorm (fun k => φ (affine bias l.weights (x (e k).1 (e k).2.1 (e k).2.2)))
        (fun k => loss (e k).1 (e k).2.1 (e k).2.2) with
      | error m => rfl
      | ok s => rfl

theorem mirror_update {T B N n o : ℕ} (e : Fin N ≃ Fin R × Fin T × Fin B) (hR : 0 < R) (hT : 0 < T) (hB : 0 < B)
    (lr momentum coeff : ℝ) (net : Net n o) (x : Fin R → Fin T → Fin B → Fin n → ℝ)
    (loss : Fin R → Fin T → Fin B → (Fin o → ℝ) → ℝ)
    (hs : net.SmoothAt (fun k => x (e k).1 (e k).2.1 (e k).2.2) fun k => loss (e k).1 (e k).2.1 (e k).2.2) :
    (net.mirror R).update lr momentum (fun _ => coeff) x loss = (net.update lr momentum coeff
      (fun k => x (e k).1 (e k).2.1 (e k).2.2) fun k => loss (e k).1 (e k).2.1 (e k).2.2).map (Net.mirror R) := by
  induction net with
  | nil => rfl
  | cons bias l φ rest ih =>
    simp only [Net.mirror, Cluster.update, Net.update, gradient_pool e hR hT hB bias l φ rest x loss hs.1, gather_const _ hR]
    rw [ih (fun r t i => φ (affine bias l.weights (x r t i))) loss hs.2]
    cases l.precondition bias (matGradient (lossOf bias φ rest (fun k => x (e k).1 (e k).2.1 (e k).2.2)
      fun k => loss (e k).1 (e k).2.1 (e k).2.2) l.weights) with
    | error m => rfl
    | ok u =>
      cases rest.update lr momentum coeff (fun k => φ (affine bias l.weights (x (e k).1 (e k).2.1 (e k).2.2)))
        (fun k => loss (e k).1 (e k).2.1 (e k).2.2) with
      | error m => rfl
      | ok s => rfl

/-- C100: on any number of replicas and towers, with the examples distributed in any way into parts of equal size, every
replica goes through exactly the networks that one machine with all the examples goes through (or fails when it fails), in
every sequence of covariance updates, inverse updates and training steps. -/
theorem C100_cluster (hR : 0 < R) (strategy : TowerStrategy) (cfg : Config) {n o : ℕ} (net : Net n o)
    (cops : List (ClusterOp R n o)) (ops : List (Op n o)) (h : List.Forall₂ Pooled cops ops) (hs : net.SmoothRun cfg ops) :
    (net.mirror R).run strategy cfg cops = (net.run cfg ops).map (Net.mirror R) := by
  induction h generalizing net with
  | nil => rfl
  | @cons cop op cops ops h _ ih =>
    have hstep : (net.mirror R).step strategy cfg cop = (net.step cfg op).map (Net.mirror R) := by
      cases h with
      | cov e hT hB x sampled decay =>
        simp only [Cluster.step, Net.step, mirror_cov strategy e hR hT hB]; rfl
      | inv damping => exact mirror_inv hR _ _ _ _
      | train e hT hB x loss =>
        have h1 := hs.1
        simp only [Cluster.step, Net.step, Cluster.trainStep, Net.trainStep]
        rw [mirror_sqNorm e hR hT hB net x loss h1]
        cases net.sqNorm (fun k => x (e k).1 (e k).2.1 (e k).2.2) (fun k => loss (e k).1 (e k).2.1 (e k).2.2) with
        | error m => rfl
        | ok sq => exact mirror_update e hR hT hB _ _ _ net x loss h1
    simp only [Cluster.run, Net.run, hstep]
    cases hn : net.step cfg op with
    | error m => rfl
    | ok net' => exact ih net' (hs.2 net' hn)

/-- All replicas have identical variables at all times, and they are those of the single machine. -/
theorem C100_in_step (hR : 0 < R) (strategy : TowerStrategy) (cfg : Config) {n o : ℕ} (net : Net n o)
    (cops : List (ClusterOp R n o)) (ops : List (Op n o)) (h : List.Forall₂ Pooled cops ops) (hs : net.SmoothRun cfg ops)
    (c : Cluster R n o) (hc : (net.mirror R).run strategy cfg cops = .ok c) (r : Fin R) :
    net.run cfg ops = .ok (c.replica r) := by
  rw [C100_cluster hR strategy cfg net cops ops h hs] at hc
  cases hn : net.run cfg ops with
  | error m => rw [hn] at hc; cases hc
  | ok net' =>
    rw [hn] at hc
    obtain rfl := Except.ok.inj hc
    rw [replica_mirror]

/-- The activations are differentiable. -/
def Net.Regular {n o : ℕ} : Net n o → Prop
  | .nil => True
  | .cons _ _ φ rest => Differentiable ℝ φ ∧ rest.Regular

theorem affine_differentiable {n q : ℕ} (bias : Bool) (w : Fin (n + bias.toNat) → Fin q → ℝ) :
    Differentiable ℝ (affine bias w) := by
  rw [differentiable_pi]
  intro j
  refine Differentiable.fun_sum fun r _ => ?_
  refine Differentiable.const_mul ?_ _
  refine Fin.addCases (fun i => ?_) (fun b => ?_) r
  · have : (fun x : Fin n → ℝ => appendHomog bias x (Fin.castAdd bias.toNat i)) = fun x => x i := by
      funext x; simp [appendHomog]
    rw [this]
    exact differentiable_apply i
  · have : (fun x : Fin n → ℝ => appendHomog bias x (Fin.natAdd n b)) = fun _ => 1 := by
      funext x; simp [appendHomog]
    rw [this]
    exact differentiable_const _

theorem affine_differentiable_weights {n q : ℕ} (bias : Bool) (x : Fin n → ℝ) :
    Differentiable ℝ fun w : Fin (n + bias.toNat) → Fin q → ℝ => affine bias w x := by
  rw [differentiable_pi]
  intro j
  refine Differentiable.fun_sum fun r _ => ?_
  refine Differentiable.mul_const ?_ _
  have h := (differentiable_apply (𝕜 := ℝ) (F' := fun _ : Fin q => ℝ) j).comp
    (differentiable_apply (𝕜 := ℝ) (F' := fun _ : Fin (n + bias.toNat) => Fin q → ℝ) r)
  exact h

theorem Net.Regular.eval {n o : ℕ} {net : Net n o} (h : net.Regular) : Differentiable ℝ net.eval := by
  induction net with
  | nil => exact differentiable_id
  | cons bias l φ rest ih =>
    exact (ih h.2).comp (h.1.comp (affine_differentiable bias l.weights))

theorem Net.Regular.smoothAt {N n o : ℕ} {net : Net n o} (h : net.Regular) (x : Fin N → Fin n → ℝ)
    (loss : Fin N → (Fin o → ℝ) → ℝ) (hl : ∀ i, Differentiable ℝ (loss i)) : net.SmoothAt x loss := by
  induction net with
  | nil => trivial
  | cons bias l φ rest ih =>
    refine ⟨fun i => ?_, ih h.2 _ _ hl⟩
    exact ((hl i).comp (h.2.eval.comp (h.1.comp (affine_differentiable_weights bias (x i))))).differentiableAt

theorem Net.Regular.step {n o : ℕ} {net net' : Net n o} (cfg : Config) (h : net.Regular) (op : Op n o)
    (hs : net.step cfg op = .ok net') : net'.Regular := by
  cases op with
  | cov x sampled decay =>
    obtain rfl := Except.ok.inj hs
    clear hs
    induction net with
    | nil => trivial
    | cons bias l φ rest ih => exact ⟨h.1, ih h.2 _ _⟩
  | inv damping =>
    simp only [Net.step] at hs
    induction net with
    | nil => obtain rfl := Except.ok.inj hs; trivial
    | cons bias l φ rest ih =>
      simp only [Net.invUpdate, bind, Except.bind] at hs
      cases h1 : l.invUpdate cfg.rule cfg.power damping with
      | error m => rw [h1] at hs; cases hs
      | ok l' =>
        rw [h1] at hs
        cases h2 : rest.invUpdate cfg.rule cfg.power damping with
        | error m => rw [h2] at hs; cases hs
        | ok rest' =>
          rw [h2] at hs
          obtain rfl := Except.ok.inj hs
          exact ⟨h.1, ih h.2 h2⟩
  | train x loss =>
    simp only [Net.step, Net.trainStep, bind, Except.bind] at hs
    cases h0 : net.sqNorm x loss with
    | error m => rw [h0] at hs; cases hs
    | ok sq =>
      rw [h0] at hs
      dsimp only at hs
      generalize clipFactor cfg.normConstraint cfg.learningRate sq = coeff at hs
      clear h0
      induction net with
      | nil => obtain rfl := Except.ok.inj hs; trivial
      | cons bias l φ rest ih =>
        simp only [Net.update, bind, Except.bind] at hs
        split at hs
        · cases hs
        · split at hs
          · cases hs
          · rename_i rest' h2
            obtain rfl := Except.ok.inj hs
            exact ⟨h.1, ih h.2 _ _ h2⟩

/-- The losses of the training steps are differentiable. -/
def Op.Regular {n o : ℕ} : Op n o → Prop
  | .train _ loss => ∀ i, Differentiable ℝ (loss i)
  | _ => True

/-- C100: with differentiable activations and losses nothing else is needed. -/
theorem C100_smooth (hR : 0 < R) (strategy : TowerStrategy) (cfg : Config) {n o : ℕ} (net : Net n o) (hnet : net.Regular)
    (cops : List (ClusterOp R n o)) (ops : List (Op n o)) (h : List.Forall₂ Pooled cops ops) (hops : ∀ op ∈ ops, op.Regular) :
    (net.mirror R).run strategy cfg cops = (net.run cfg ops).map (Net.mirror R) := by
  refine C100_cluster hR strategy cfg net cops ops h ?_
  clear h
  induction ops generalizing net with
  | nil => trivial
  | cons op ops ih =>
    refine ⟨?_, fun net' hn => ih net' (hnet.step cfg op hn) fun op h => hops op (by simp [h])⟩
    have := hops op (by simp)
    cases op with
    | train x loss => exact hnet.smoothAt x loss this
    | _ => trivial

/-- C100: in particular how the examples are distributed does not matter, nor the tower strategy. -/
theorem C100_distribution {R' : ℕ} (hR : 0 < R) (hR' : 0 < R') (strategy strategy' : TowerStrategy) (cfg : Config) {n o : ℕ}
    (net : Net n o) (cops : List (ClusterOp R n o)) (cops' : List (ClusterOp R' n o)) (ops : List (Op n o))
    (h : List.Forall₂ Pooled cops ops) (h' : List.Forall₂ Pooled cops' ops) (hs : net.SmoothRun cfg ops) (r : Fin R) (r' : Fin R') :
    ((net.mirror R).run strategy cfg cops).map (Cluster.replica r) =
      ((net.mirror R').run strategy' cfg cops').map (Cluster.replica r') := by
  rw [C100_cluster hR strategy cfg net cops ops h hs, C100_cluster hR' strategy' cfg net cops' ops h' hs]
  cases net.run cfg ops with
  | error m => rfl
  | ok net' => simp only [Except.map, replica_mirror]

/-- The hypotheses are met by two replicas with two towers of one example each: a network of two layers with squares as
activation, squared losses, and a covariance update, an inverse update and a training step. -/
example (cfg : Config) (l : Layer (2 + true.toNat) 2) (l' : Layer (2 + false.toNat) 1) (x : Fin 2 → Fin 2 → Fin 1 → Fin 2 → ℝ) :
    let net : Net 2 1 := .cons true l (fun s j => s j ^ 2) (.cons false l' (fun s => s) .nil)
    let e : Fin (2 * (2 * 1)) ≃ Fin 2 × Fin 2 × Fin 1 :=
      finProdFinEquiv.symm.trans (Equiv.prodCongr (Equiv.refl _) finProdFinEquiv.symm)
    let loss : (Fin 1 → ℝ) → ℝ := fun z => z 0 ^ 2
    (net.mirror 2).run .concat cfg [.cov x (fun _ _ _ => loss) (1 / 2), .inv 1, .train x fun _ _ _ => loss] =
      (net.run cfg [.cov (fun k => x (e k).1 (e k).2.1 (e k).2.2) (fun _ => loss) (1 / 2), .inv 1,
        .train (fun k => x (e k).1 (e k).2.1 (e k).2.2) fun _ => loss]).map (Net.mirror 2) := by
  intro net e loss
  have hloss : Differentiable ℝ loss := (differentiable_apply (𝕜 := ℝ) (F' := fun _ : Fin 1 => ℝ) 0).pow 2
  refine C100_smooth (by decide) .concat cfg net ⟨?_, differentiable_id, trivial⟩ _ _
    (.cons (.cov e (by decide) (by decide) x _ _) (.cons (.inv 1) (.cons (.train e (by decide) (by decide) x _) .nil))) ?_
  · rw [differentiable_pi]
    exact fun j => (differentiable_apply (𝕜 := ℝ) (F' := fun _ : Fin 2 => ℝ) j).pow 2
  · intro op h
    simp only [List.mem_cons, List.not_mem_nil, or_false] at h
    rcases h with rfl | rfl | rfl
    · trivial
    · trivial
    · exact fun _ => hloss

end Kfac.Train
