import Verif.Train.Model
import Verif.Loss.Hessian

/-! # Fitting one layer with any of the library's losses -/

namespace Kfac.Train

open Kfac.Loss

/-- The user's loss of one example: one of the losses of the library (loss_functions.py 370-427, 558-703) with a batch of
one. -/
noncomputable def exampleLoss {o : ℕ} (h : Head 1 o) (z : Fin o → ℝ) : ℝ := h.evaluate fun _ => z

/-- An update of the statistics: of the covariances on any batch (of `N + 1` examples) with any targets (sampled, in the
estimation mode "gradients", or the true ones in "empirical", estimator.py 649-669), or of the inverses. -/
inductive Upkeep (n o : ℕ) where
  | cov {N : ℕ} (x : Fin (N + 1) → Fin n → ℝ) (sampled : Fin (N + 1) → Head 1 o) (decay : ℝ)
  | inv (damping : ℝ)

/-- The operation. -/
noncomputable def Upkeep.op {n o : ℕ} : Upkeep n o → Op n o
  | .cov x sampled decay => .cov x (fun i => exampleLoss (sampled i)) decay
  | .inv damping => .inv damping

/-- Training on the whole training set, with any updates of the statistics before each step. -/
noncomputable def Net.fit {N n o : ℕ} (cfg : Config) (x : Fin N → Fin n → ℝ) (loss : Fin N → Head 1 o)
    (upkeep : ℕ → List (Upkeep n o)) (net : Net n o) : ℕ → Except String (Net n o)
  | 0 => .ok net
  | k + 1 => (net.fit cfg x loss upkeep k).bind fun net =>
      net.run cfg ((upkeep k).map Upkeep.op ++ [.train x fun i => exampleLoss (loss i)])

end Kfac.Train
