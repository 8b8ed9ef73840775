import Verif.Tensor.Basic
import Verif.Stats.Model
import Mathlib.Data.Fin.Tuple.Basic

/-! # Scale and shift layers (kfac/python/ops/fisher_factors.py 1370-1475)

Tensors of shape `N :: d` are functions of the example and of the multi-index into `d`. The dimensions to sum over come
from `Kfac.Reg.broadcastDims`. -/

namespace Kfac.Grad

open Kfac.Stats

/-- A shape or multi-index without the entries at the positions `axes`, the first entry having position `k`. -/
def keepDims {α : Type} (axes : List ℕ) (k : ℕ) : List α → List α
  | [] => []
  | a :: l => if k ∈ axes then keepDims axes (k + 1) l else a :: keepDims axes (k + 1) l

/-- `tf.reshape(tf.reduce_sum(t, axis=axes), [batch_size, -1])` for one example (fisher_factors.py 1454-1456,
1461-1463). The axes never include the batch dimension, which is position 0. -/
def reduceRow (d axes : List ℕ) (t : List ℕ → ℝ) (k : Fin (keepDims axes 1 d).prod) : ℝ :=
  ∑ o : Fin d.prod, if keepDims axes 1 (Tensor.unravel d o) = Tensor.unravel (keepDims axes 1 d) k
    then t (Tensor.unravel d o) else 0

/-- `scale_grads_flat` (fisher_factors.py 1454-1456) for inputs and outputs of the same shape. -/
def scaleGrads {N : ℕ} (d axes : List ℕ) (x ds : Fin N → List ℕ → ℝ) (n : Fin N) : Fin (keepDims axes 1 d).prod → ℝ :=
  reduceRow d axes fun i => x n i * ds n i

/-- `params_grads_flat` with a shift (fisher_factors.py 1458-1466). -/
def scaleShiftGrads {N : ℕ} (d scaleAxes shiftAxes : List ℕ) (x ds : Fin N → List ℕ → ℝ) (n : Fin N) :
    Fin ((keepDims scaleAxes 1 d).prod + (keepDims shiftAxes 1 d).prod) → ℝ :=
  Fin.append (scaleGrads d scaleAxes x ds n) (reduceRow d shiftAxes (ds n))

/-- The "full" approximation (fisher_factors.py 1470-1471). -/
noncomputable def fullCov {N M : ℕ} (rows : Fin N → Fin M → ℝ) : Matrix (Fin M) (Fin M) ℝ := computeCov (List.ofFn rows)

/-- The "diagonal" approximation (fisher_factors.py 1473-1474): `tf.reduce_mean` of the squares over the batch. -/
noncomputable def diagonalCov {N M : ℕ} (rows : Fin N → Fin M → ℝ) (i : Fin M) : ℝ :=
  ((List.ofFn rows).map fun r => r i ^ 2).sum / (N : ℝ)

/-- The number of statistics `_cov_shape` reserves for the scale (fisher_factors.py 1402-1408); `d` are the dimensions of
the inputs. The shift is treated alike with the dimensions of the outputs (1410-1417). -/
def covSize (d axes : List ℕ) : ℕ := (keepDims axes 1 d).prod

end Kfac.Grad
