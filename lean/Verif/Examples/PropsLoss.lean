import Verif.Examples.Loss
import Mathlib.Tactic.Linarith
import Mathlib.Tactic.Ring
import Mathlib.Tactic.NormNum

/-! # C121: the losses of the examples -/

namespace Kfac.Examples

open Kfac.Opt

/-- The regularised loss: half the coefficient (as `l2_reg` of the optimizer is documented) times the sum of all squares is added
once. -/
noncomputable def regularizedLoss (l2Reg : ℝ) (data : Weights → ℝ) (w : Weights) : ℝ :=
  data w + l2Reg / 2 * (w.flatten.map fun x => x ^ 2).sum

theorem sum_regs (l2Reg : ℝ) (w : Weights) :
    (w.map fun v => l2Reg * l2Loss v).sum = l2Reg / 2 * (w.flatten.map fun x => x ^ 2).sum := by
  induction w with
  | nil => simp
  | cons v w ih =>
    rw [List.map_cons, List.sum_cons, ih, List.flatten_cons, List.map_append, List.sum_append, l2Loss]
    ring

theorem map_getD (f : List ℝ → ℝ) (w : Weights) : (List.range w.length).map (fun i => f (w.getD i [])) = w.map f := by
  apply List.ext_getElem
  · simp
  · intro i h1 h2
    simp at h1
    simp [h1]

theorem computeLoss_build (l2Reg : ℝ) (m : Which) (w : Weights) (hw : w ≠ []) (read : Which → Weights)
    (data : ℝ) (hl : (read m).length = w.length) :
    computeLoss l2Reg (build true m w.length []) read data =
      .ok (data + l2Reg / 2 * ((read m).flatten.map fun x => x ^ 2).sum) := by
  have hne : w.length ≠ 0 := by simpa using hw
  rw [computeLoss, if_neg]
  · congr 2
    rw [build, if_pos rfl, List.nil_append, List.map_map, ← sum_regs, ← map_getD, hl]
    rfl
  · simp [build]
    exact hw

/-- C121, training (partial: the classifier with a coefficient that is not zero): the loss of a mini-batch is the documented
regularised loss. -/
theorem C121_training_partial (l2Reg : ℝ) (data : Weights → ℝ) (w w' : Weights) (hw : w ≠ []) :
    ∃ before after, trainLosses true l2Reg data w w' = .ok (before, after) ∧
      before = regularizedLoss l2Reg data w := by
  refine ⟨_, data w' + l2Reg / 2 * (w.flatten.map fun x => x ^ 2).sum, ?_, rfl⟩
  simp only [trainLosses]
  rw [computeLoss_build l2Reg .train w hw _ _ rfl, computeLoss_build l2Reg .train w hw _ _ rfl]
  rfl

/-- C121 without regularisation is false: `Model` makes no regularisers if the coefficient is zero, and then `compute_loss`
fails. -/
theorem C121_zero_counterexample (l2Reg : ℝ) (data : Weights → ℝ) (w w' : Weights) :
    ∃ e, trainLosses false l2Reg data w w' = .error e := by
  exact ⟨_, by simp [trainLosses, build, computeLoss, Bind.bind, Except.bind]; rfl⟩

/-- C121 for the loss after an update is false: what the damping adaptation takes for the loss at the new weights has the
regulariser of the old weights. -/
theorem C121_after_counterexample (l2Reg : ℝ) (data : Weights → ℝ) (w w' : Weights) (hw : w ≠ []) :
    ∃ before after, trainLosses true l2Reg data w w' = .ok (before, after) ∧
      after - before = data w' - data w ∧
      after = regularizedLoss l2Reg data w' +
        l2Reg / 2 * ((w.flatten.map fun x => x ^ 2).sum - (w'.flatten.map fun x => x ^ 2).sum) := by
  refine ⟨data w + l2Reg / 2 * (w.flatten.map fun x => x ^ 2).sum, data w' + l2Reg / 2 * (w.flatten.map fun x => x ^ 2).sum,
    ?_, by ring, by rw [regularizedLoss]; ring⟩
  simp only [trainLosses]
  rw [computeLoss_build l2Reg .train w hw _ _ rfl, computeLoss_build l2Reg .train w hw _ _ rfl]
  rfl

/-- C121, consequence for the damping: where the loss changes through the regulariser only and the quadratic model predicts its
decrease exactly, the true reduction ratio is 1 and the damping should shrink; the examples compute the ratio 0 and increase
the damping. -/
theorem C121_damping_counterexample (cfg : Opt.Config) (hi : 0 < cfg.increaseThreshold)
    (hid : cfg.increaseThreshold ≤ cfg.decreaseThreshold) (hd : cfg.decreaseThreshold < 1) (l2Reg damping : ℝ)
    (data : Weights → ℝ) (w w' : Weights) (hw : w ≠ []) (hdata : data w' = data w)
    (hdec : regularizedLoss l2Reg data w' < regularizedLoss l2Reg data w) :
    ∃ before after, trainLosses true l2Reg data w w' = .ok (before, after) ∧
      updateDamping cfg damping (some before) (some after)
          (some (regularizedLoss l2Reg data w' - regularizedLoss l2Reg data w)) =
        (max (damping / cfg.omega) (cfg.minDamping + cfg.l2Reg), some 0) ∧
      updateDamping cfg damping (some (regularizedLoss l2Reg data w)) (some (regularizedLoss l2Reg data w'))
          (some (regularizedLoss l2Reg data w' - regularizedLoss l2Reg data w)) =
        (max (damping * cfg.omega) (cfg.minDamping + cfg.l2Reg), some 1) := by
  obtain ⟨before, after, h1, h2, -⟩ := C121_after_counterexample l2Reg data w w' hw
  refine ⟨before, after, h1, ?_, ?_⟩
  · have h3 : after - before = 0 := by rw [h2, hdata, sub_self]
    have hq : regularizedLoss l2Reg data w' - regularizedLoss l2Reg data w ≠ 0 := by
      intro h; linarith [sub_eq_zero.mp h]
    have hi' : ((0 : ℝ) : EReal) < (cfg.increaseThreshold : EReal) := EReal.coe_lt_coe_iff.mpr hi
    have hd' : ¬ (cfg.decreaseThreshold : EReal) < ((0 : ℝ) : EReal) := by
      rw [EReal.coe_lt_coe_iff]; linarith
    simp only [EReal.coe_zero] at hi' hd'
    simp [updateDamping, h3, divide, hq, hi', hd']
  · have hq : regularizedLoss l2Reg data w' - regularizedLoss l2Reg data w ≠ 0 := by
      intro h; linarith [sub_eq_zero.mp h]
    have hd' : (cfg.decreaseThreshold : EReal) < ((1 : ℝ) : EReal) := EReal.coe_lt_coe_iff.mpr hd
    simp only [EReal.coe_one] at hd'
    simp [updateDamping, divide, hq, hd']

/-- C121, evaluation (partial: for runs in which the regularisers are read after the first assignment): the loss with the
trained weights is the documented regularised loss; the regularisers of the training model are not counted. -/
theorem C121_evaluation_partial (l2Reg : ℝ) (data : Weights → ℝ) (w avg stale : Weights) (hw : w ≠ []) :
    ∃ loss lossAvg, evalLosses true true l2Reg data w avg stale = .ok (loss, lossAvg) ∧
      loss = regularizedLoss l2Reg data w := by
  refine ⟨_, data avg + l2Reg / 2 * (w.flatten.map fun x => x ^ 2).sum, ?_, rfl⟩
  simp only [evalLosses]
  have hf : (build true .train w.length []).filter (fun _ => false) = [] := by simp
  rw [hf, computeLoss_build l2Reg .eval w hw _ _ rfl, computeLoss_build l2Reg .eval w hw _ _ rfl]
  rfl

/-- C121 for the evaluation of the averaged weights is false in every order of execution: the regulariser is the one of the
trained weights, or of the weights left behind by the previous evaluation, never the one of the averages. The loss of the trained
weights also is the documented one only if the regularisers are read late. -/
theorem C121_average_counterexample (late : Bool) (l2Reg : ℝ) (data : Weights → ℝ) (w avg stale : Weights) (hw : w ≠ [])
    (hs : stale.length = w.length) :
    ∃ loss lossAvg, evalLosses true late l2Reg data w avg stale = .ok (loss, lossAvg) ∧
      loss = regularizedLoss l2Reg data w + l2Reg / 2 * (((if late then w else stale).flatten.map fun x => x ^ 2).sum -
        (w.flatten.map fun x => x ^ 2).sum) ∧
      lossAvg = regularizedLoss l2Reg data avg + l2Reg / 2 * (((if late then w else stale).flatten.map fun x => x ^ 2).sum -
        (avg.flatten.map fun x => x ^ 2).sum) := by
  refine ⟨data w + l2Reg / 2 * ((if late then w else stale).flatten.map fun x => x ^ 2).sum,
    data avg + l2Reg / 2 * ((if late then w else stale).flatten.map fun x => x ^ 2).sum, ?_, by rw [regularizedLoss]; ring,
    by rw [regularizedLoss]; ring⟩
  simp only [evalLosses]
  have hf : (build true .train w.length []).filter (fun _ => false) = [] := by simp
  have hl : (if late then w else stale).length = w.length := by split <;> simp [hs]
  rw [hf, computeLoss_build l2Reg .eval w hw _ _ hl, computeLoss_build l2Reg .eval w hw _ _ hl]
  rfl

/-- C121 for Keras models is false: their regulariser is twice the one the optimizer is told of. -/
theorem C121_keras_counterexample (l2Reg : ℝ) (data : Weights → ℝ) (w : Weights) :
    kerasLoss l2Reg data w = regularizedLoss (2 * l2Reg) data w ∧
    (l2Reg ≠ 0 → 0 < (w.flatten.map fun x => x ^ 2).sum → kerasLoss l2Reg data w ≠ regularizedLoss l2Reg data w) := by
  have h : kerasLoss l2Reg data w = regularizedLoss (2 * l2Reg) data w := by
    rw [kerasLoss, regularizedLoss, ← sum_regs]
    congr 3
    funext v
    rw [l2Loss]
    ring
  refine ⟨h, fun h0 hw heq => ?_⟩
  rw [h, regularizedLoss, regularizedLoss] at heq
  have h1 : l2Reg * (w.flatten.map fun x => x ^ 2).sum = 0 := by linarith
  rcases mul_eq_zero.mp h1 with h2 | h2
  · exact h0 h2
  · linarith

/-- Weights of one variable, halved by an update, with thresholds as in the optimizer. -/
example : ([[(2 : ℝ)]] : Weights) ≠ [] ∧ regularizedLoss 1 (fun _ => 0) [[1]] < regularizedLoss 1 (fun _ => 0) [[2]] := by
  constructor
  · simp
  · simp [regularizedLoss]

end Kfac.Examples
