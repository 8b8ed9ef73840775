import Verif.Train.Model
import Verif.Est.Model

/-! # Covariance updates in the estimation modes

`Net.covUpdate` is the update of the mode "gradients" for any loss. Here is the update of the modes "gradients", "curvature_prop"
and "exact" (estimator.py 649-724) for a network with one registered loss, `register_normal_predictive_distribution`
(layer_collection.py 1572-1616) or `register_squared_error_loss` (1618-1655), on its outputs. -/

namespace Kfac.Train

open Kfac.Stats Kfac.Loss Kfac.Grad

/-- The mode with what it draws at random for the one loss: targets from the predictive distribution (estimator.py 649-657), signs
(669-696), nothing (698-724). -/
inductive Draw (N o : ℕ) where
  | gradients (targets : Fin 1 → Fin N × Fin o → ℝ)
  | curvatureProp (signs : Fin 1 → Batch N o)
  | exact

/-- The registered loss, and the derivatives of its inputs by the outputs `s` of a layer, followed by `φ` and `rest`. -/
noncomputable def lossSeen {N q k o : ℕ} (var coeff : ℝ) (φ : (Fin q → ℝ) → Fin k → ℝ) (rest : Net k o) (s : Fin N → Fin q → ℝ) :
    Est.Losses N (fun _ : Fin 1 => q) 1 := fun _ =>
  ⟨o, .normalMean ⟨fun i => rest.eval (φ (s i)), var⟩, coeff,
    fun _ => some (.single fun i j p => gradient (fun s => rest.eval (φ s) j) (s i) p)⟩

/-- The gradients by the outputs of a layer (estimator.py 361-413, 649-724), one batch per source. -/
noncomputable def Draw.grads {N q k o : ℕ} (draw : Draw N o) (var coeff : ℝ) (φ : (Fin q → ℝ) → Fin k → ℝ) (rest : Net k o)
    (s : Fin N → Fin q → ℝ) : Except String (List (Batch N q)) :=
  match draw with
  | .gradients y => Est.gradsGradients (lossSeen var coeff φ rest s) y 0 >>= Est.noMissing
  | .curvatureProp signs => Est.gradsCurvatureProp .fisher (lossSeen var coeff φ rest s) signs 0 >>= Est.noMissing
  | .exact => Est.gradsExact .fisher (lossSeen var coeff φ rest s) 0 >>= Est.noMissing

/-- The covariance updates of all factors on one batch (estimator.py 613-629, fisher_factors.py 536-583). -/
noncomputable def Net.covUpdateBy {N n o : ℕ} (var coeff decay : ℝ) (net : Net n o) (x : Fin N → Fin n → ℝ) (draw : Draw N o) :
    Except String (Net n o) :=
  match net with
  | .nil => .ok .nil
  | .cons bias l φ rest => do
    let s := fun i => affine bias l.weights (x i)
    let gs ← draw.grads var coeff φ rest s
    let rest' ← rest.covUpdateBy var coeff decay (fun i => φ (s i)) draw
    return .cons bias
      { l with
        input := l.input.step (.cov [[[List.ofFn fun i => appendHomog bias (x i)]]] decay)
        output := l.output.step (.cov [gs.map fun g => [List.ofFn g]] decay) }
      φ rest'

/-- A batch of examples (at least one), their targets, and the decay of the update on it. -/
structure Examples (n o : ℕ) where
  N : ℕ
  x : Fin (N + 1) → Fin n → ℝ
  y : Fin (N + 1) → Fin o → ℝ
  decay : ℝ

/-- Updates of the covariances on one batch after the other in the mode "exact", which looks at the inputs only. -/
noncomputable def Net.covRun {n o : ℕ} (var coeff : ℝ) (net : Net n o) : List (Examples n o) → Except String (Net n o)
  | [] => .ok net
  | e :: es => (net.covUpdateBy var coeff e.decay e.x .exact).bind fun net => net.covRun var coeff es

end Kfac.Train
