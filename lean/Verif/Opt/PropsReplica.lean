import Verif.Opt.Replica
import Verif.Opt.Lemmas
import Mathlib.Tactic.Ring
import Mathlib.Tactic.FieldSimp
import Mathlib.Tactic.FinCases
import Mathlib.LinearAlgebra.Matrix.Notation
import Mathlib.Algebra.BigOperators.Field
import Mathlib.Data.Fintype.BigOperators

/-! # C45: replicas -/

namespace Kfac.Opt

open Matrix

set_option linter.unusedSectionVars false

variable {ι κ : Type} [Fintype ι] [Fintype κ] {n : ℕ}

/-- Specification: the input of a single machine that sees the examples of all replicas at once: losses and
gradients are means, the columns of the curvature factor are those of all replicas and the batch is `n` times as
large. -/
noncomputable def pooled (inps : Fin n → StepIn ι κ) (precon curv : Matrix ι ι ℝ) (batchSize : ℝ) :
    StepIn ι (Fin n × κ) where
  passedLoss := fun x => (∑ j, (inps j).passedLoss x) / n
  fnLoss := fun x => (∑ j, (inps j).fnLoss x) / n
  prevFnLoss := fun x => (∑ j, (inps j).prevFnLoss x) / n
  grad := fun x => fun p => (∑ j, (inps j).grad x p) / n
  precon := precon
  curv := curv
  factor := Matrix.of fun p jk => (inps jk.1).factor p jk.2
  batchSize := n * batchSize

theorem allAverage_const {V : Type} [AddCommMonoid V] [Module ℝ V] (hn : 0 < n) (x : V) :
    allAverage (fun _ : Fin n => x) = x := by
  have hn' : (n : ℝ) ≠ 0 := by positivity
  simp only [allAverage, Finset.sum_const, Finset.card_univ, Fintype.card_fin]
  rw [← Nat.cast_smul_eq_nsmul ℝ, smul_smul, inv_mul_cancel₀ hn', one_smul]

theorem meanOption_const (hn : 0 < n) (x : Option ℝ) : meanOption (fun _ : Fin n => x) = x := by
  have : Nonempty (Fin n) := ⟨⟨0, hn⟩⟩
  unfold meanOption
  cases x with
  | none => simp
  | some v => simp [allAverage_const hn]

theorem sync_const (hn : 0 < n) (ctx : Context) (s : State ι) :
    sync ctx (fun _ : Fin n => s) = fun _ => s := by
  funext i
  unfold sync
  cases ctx <;> simp [allAverage_const hn, meanOption_const hn]

theorem combine_const (hn : 0 < n) (ctx : Context) (v : Vec ι) (i : Fin n) :
    combineUpdates ctx (fun _ : Fin n => v) i = v := by
  have h := allAverage_const hn v
  unfold allAverage at h
  unfold combineUpdates
  cases ctx <;> simp only [← Finset.smul_sum] <;> exact h

theorem pooled_product (inps : Fin n → StepIn ι κ) (precon curv : Matrix ι ι ℝ) (b : ℝ) (u v : Vec ι) :
    ((pooled inps precon curv b).factorᵀ *ᵥ u) ⬝ᵥ ((pooled inps precon curv b).factorᵀ *ᵥ v) =
      ∑ j, ((inps j).factorᵀ *ᵥ u) ⬝ᵥ ((inps j).factorᵀ *ᵥ v) := by
  simp only [dotProduct, mulVec, transpose_apply, pooled, Matrix.of_apply]
  rw [Fintype.sum_prod_type]

theorem average_m (hn : 0 < n) (f : Fin n → ℝ) (b c : ℝ) :
    allAverage (fun j => f j / b + c) = (∑ j, f j) / (n * b) + c := by
  have hn' : (n : ℝ) ≠ 0 := by positivity
  simp only [allAverage, Finset.sum_add_distrib, Finset.sum_const, Finset.card_univ, Fintype.card_fin,
    ← Finset.sum_div, nsmul_eq_mul, smul_eq_mul, mul_add]
  rw [← mul_assoc, inv_mul_cancel₀ hn', one_mul, div_mul_eq_div_div, div_right_comm, inv_mul_eq_div,
    div_right_comm]

theorem averaged_grad (inps : Fin n → StepIn ι κ) (precon curv : Matrix ι ι ℝ) (b : ℝ) (s : State ι)
    (x : Vec ι) (i : Fin n) :
    (averaged inps (fun _ => s) i).grad x = (pooled inps precon curv b).grad s.params := by
  funext p
  simp [averaged, pooled, allAverage, div_eq_inv_mul]

theorem preUpdate_averaged (cfg : Config) (inps : Fin n → StepIn ι κ) (precon curv : Matrix ι ι ℝ) (b : ℝ)
    (s : State ι) (i : Fin n) :
    preUpdate cfg (averaged inps (fun _ => s) i) s = preUpdate cfg (pooled inps precon curv b) s := by
  simp [preUpdate, averaged, pooled, allAverage, div_eq_inv_mul]

theorem prevLoss_averaged (cfg : Config) (inps : Fin n → StepIn ι κ) (precon curv : Matrix ι ι ℝ) (b : ℝ)
    (s : State ι) (i : Fin n) :
    updatePrevLoss cfg (averaged inps (fun _ => s) i) s =
      updatePrevLoss cfg (pooled inps precon curv b) s := by
  simp [updatePrevLoss, averaged, pooled, allAverage, div_eq_inv_mul]

theorem postUpdate_averaged (cfg : Config) (inps : Fin n → StepIn ι κ) (precon curv : Matrix ι ι ℝ) (b : ℝ)
    (s : State ι) (i : Fin n) :
    postUpdate cfg (averaged inps (fun _ => s) i) s = postUpdate cfg (pooled inps precon curv b) s := by
  simp [postUpdate, averaged, pooled, allAverage, div_eq_inv_mul]

theorem raw_averaged (cfg : Config) (hn : 0 < n) (inps : Fin n → StepIn ι κ) (precon curv : Matrix ι ι ℝ)
    (b : ℝ) (hp : ∀ j, (inps j).precon = precon) (hc : ∀ j, (inps j).curv = curv)
    (hb : ∀ j, (inps j).batchSize = b) (s : State ι) (i : Fin n) :
    rawReplicas cfg inps (fun _ => s) i = rawUpdateSteps cfg (pooled inps precon curv b) s := by
  have hq : computeQmodelReplicas inps (fun _ => s) i
      (fun _ => precon *ᵥ (pooled inps precon curv b).grad s.params) (fun _ => -s.velocity)
      (fun _ => (pooled inps precon curv b).grad s.params) =
      computeQmodel s.damping (pooled inps precon curv b).factor (pooled inps precon curv b).batchSize
        (precon *ᵥ (pooled inps precon curv b).grad s.params) (-s.velocity)
        ((pooled inps precon curv b).grad s.params) := by
    simp only [computeQmodelReplicas, computeQmodel, hb, pooled_product, average_m hn]
    rfl
  have hg : ∀ j x, (averaged inps (fun _ => s) j).grad x = (pooled inps precon curv b).grad s.params :=
    fun j x => averaged_grad inps precon curv b s x j
  have h1 : (pooled inps precon curv b).precon = precon := rfl
  have h2 : (pooled inps precon curv b).curv = curv := rfl
  simp only [rawReplicas, rawUpdateSteps, hg, hp, hc, hq, h1, h2]
  unfold rawUpdateWith
  cases cfg.momentumType <;> rfl

/-- One run: replicas in the same state, with the same stored inverses and batch size, all end up in the state
that one machine reaches on the pooled input. -/
theorem C45_step (cfg : Config) (ctx : Context) (hn : 0 < n) (inps : Fin n → StepIn ι κ)
    (precon curv : Matrix ι ι ℝ) (b : ℝ) (hp : ∀ j, (inps j).precon = precon)
    (hc : ∀ j, (inps j).curv = curv) (hb : ∀ j, (inps j).batchSize = b) (s : State ι) (i : Fin n) :
    replicaStep cfg ctx inps (fun _ => s) i = optStep cfg (pooled inps precon curv b) s := by
  simp only [replicaStep]
  simp only [preUpdate_averaged cfg inps precon curv b, sync_const hn,
    prevLoss_averaged cfg inps precon curv b, raw_averaged cfg hn inps precon curv b hp hc hb,
    combine_const hn, postUpdate_averaged cfg inps precon curv b]
  rfl

/-- Whole executions: replicas that start equal (and share their stored inverses, which may change from run to
run) stay equal for ever and follow the trajectory of the single machine on the pooled inputs. -/
theorem C45_run (cfg : Config) (ctx : Context) (hn : 0 < n) (inputs : ℕ → Fin n → StepIn ι κ)
    (precon curv : ℕ → Matrix ι ι ℝ) (b : ℝ) (hp : ∀ t j, (inputs t j).precon = precon t)
    (hc : ∀ t j, (inputs t j).curv = curv t) (hb : ∀ t j, (inputs t j).batchSize = b) (s0 : State ι)
    (t : ℕ) (i : Fin n) :
    replicaTrace cfg ctx inputs (fun _ => s0) t i =
      trace cfg (fun t => pooled (inputs t) (precon t) (curv t) b) s0 t := by
  induction t generalizing i with
  | zero => rfl
  | succ t ih =>
    have h : replicaTrace cfg ctx inputs (fun _ => s0) t =
        fun _ => trace cfg (fun t => pooled (inputs t) (precon t) (curv t) b) s0 t := funext ih
    show replicaStep cfg ctx (inputs t) (replicaTrace cfg ctx inputs (fun _ => s0) t) i = _
    rw [h, C45_step cfg ctx hn (inputs t) (precon t) (curv t) b (hp t) (hc t) (hb t)]
    rfl

/-- In particular the parameters change by minus the learning rate times what regular momentum makes of the mean
of the replicas' gradients. -/
theorem C45_change (cfg : Config) (ctx : Context) (hn : 0 < n) (inps : Fin n → StepIn ι κ)
    (precon curv : Matrix ι ι ℝ) (b : ℝ) (hp : ∀ j, (inps j).precon = precon)
    (hc : ∀ j, (inps j).curv = curv) (hb : ∀ j, (inps j).batchSize = b) (s : State ι) (i : Fin n)
    (hm : cfg.momentumType = .regular) (hw : cfg.weightDecay = none) (hnc : cfg.normConstraint = none) :
    (replicaStep cfg ctx inps (fun _ => s) i).params = s.params - cfg.learningRate •
      (cfg.momentum • s.velocity + precon *ᵥ fun p => (∑ j, (inps j).grad s.params p) / n) := by
  have hs : (preUpdate cfg (pooled inps precon curv b) s).params = s.params ∧
      (preUpdate cfg (pooled inps precon curv b) s).velocity = s.velocity :=
    ⟨(preUpdate_keeps _ _ _).2.1, (preUpdate_keeps _ _ _).2.2.1⟩
  have hu := updatePrevLoss_keeps cfg (pooled inps precon curv b)
    (preUpdate cfg (pooled inps precon curv b) s)
  rw [C45_step cfg ctx hn inps precon curv b hp hc hb]
  simp only [optStep, applyGradients]
  rw [(postUpdate_keeps _ _ _).2.1]
  simp only [(raw_keeps _ _ _).2.1, hu.2.1, hs.1, addWeightDecay, hw]
  congr 2
  unfold rawUpdateSteps rawUpdateWith
  simp only [hm, clipUpdates, hnc]
  split_ifs <;> simp only [hu.2.1, hu.2.2.2.1, hs.1, hs.2] <;> rfl

/-- A concrete case: two replicas with gradients 1 and 3 and preconditioner 2; both move from 0 to
-(1/2) * 2 * 2 = -2. -/
noncomputable def twoConfig : Config :=
  { momentumType := .regular, learningRate := 1 / 2, momentum := 0, normConstraint := none,
    weightDecay := none, adaptDamping := false, immediate := false, isChief := true, adaptationDecay := 1,
    interval := 5, minDamping := 0, l2Reg := 0, decreaseThreshold := 3 / 4, increaseThreshold := 1 / 4,
    usePassedLoss := true, rescale := none, includeDamping := false }

noncomputable def twoInputs (j : Fin 2) : StepIn (Fin 1) (Fin 1) :=
  { passedLoss := fun _ => 0, fnLoss := fun _ => 0, prevFnLoss := fun _ => 0,
    grad := fun _ => ![if j = 0 then 1 else 3], precon := !![2], curv := 1, factor := 1, batchSize := 1 }

example (i : Fin 2) :
    (replicaStep twoConfig .mirrored twoInputs (fun _ => State.init 0 1) i).params = ![-2] := by
  rw [C45_change twoConfig .mirrored (by norm_num) twoInputs !![2] 1 1 (fun _ => rfl) (fun _ => rfl)
    (fun _ => rfl) _ i rfl rfl rfl]
  funext p
  fin_cases p
  simp [twoConfig, twoInputs, State.init, Fin.sum_univ_two, mulVec, dotProduct]
  norm_num

end Kfac.Opt
