import Verif.Params.Model
import Mathlib.Analysis.SpecialFunctions.Pow.Real
import Mathlib.LinearAlgebra.Matrix.NonsingularInverse

/-!
# Model of `KroneckerProductFB` and the damping functions of `fisher_blocks.py`

Tensors are `Kfac.Tensor`s (shape and row-major data) over the reals; vectors are layer parameters in the
layout the user sees. Only dense vectors are modelled (`tf.IndexedSlices` are not).
-/

namespace Kfac.Block
open Kfac Kfac.Params

/-- The matrix read off a rank-2 tensor. -/
def toMat (m n : Nat) (t : Tensor ℝ) : Matrix (Fin m) (Fin n) ℝ := fun i j => t.get [i, j]

/-- The rank-2 tensor holding a matrix. -/
def ofMat {m n : Nat} (a : Matrix (Fin m) (Fin n) ℝ) : Tensor ℝ :=
  Tensor.ofFn [m, n] fun idx =>
    if h : idx.getD 0 0 < m ∧ idx.getD 1 0 < n then a ⟨idx.getD 0 0, h.1⟩ ⟨idx.getD 1 0, h.2⟩ else 0

/-- `tf.transpose` of a rank-2 tensor. -/
noncomputable def transpose2 (t : Tensor ℝ) : Tensor ℝ :=
  match t.shape with
  | [m, n] => Tensor.ofFn [n, m] fun idx => t.get [idx.getD 1 0, idx.getD 0 0]
  | _ => t

/-- `tf.linalg.matmul` of two rank-2 tensors; raises if the inner dimensions differ. -/
noncomputable def matmul2 (a b : Tensor ℝ) : Except String (Tensor ℝ) :=
  match a.shape, b.shape with
  | [m, k], [k', n] =>
    if k = k' then
      .ok (Tensor.ofFn [m, n] fun idx =>
        ∑ l ∈ Finset.range k, a.get [idx.getD 0 0, l] * b.get [l, idx.getD 1 0])
    else .error "matmul: incompatible shapes"
  | _, _ => .error "matmul: not matrices"

/-- The two linear operators of linear_operator.py: a full matrix (66-78) and a diagonal (81-95). -/
inductive LinOp where
  | full (m : Tensor ℝ)
  | diag (d : Tensor ℝ)

/-- `LinearOperator.matmul(x, adjoint)` (linear_operator.py 31-45; `_matmul` is inherited from
`tf.linalg.LinearOperatorFullMatrix/Diag`: `M x`, `Mᵀ x`, or rows scaled by the diagonal). -/
noncomputable def LinOp.matmul (op : LinOp) (x : Tensor ℝ) (adjoint : Bool) : Except String (Tensor ℝ) :=
  match op with
  | .full m => matmul2 (if adjoint then transpose2 m else m) x
  | .diag d =>
    match x.shape with
    | [p, q] =>
      if d.shape = [p] then
        .ok (Tensor.ofFn [p, q] fun idx => d.get [idx.getD 0 0] * x.get idx)
      else .error "matmul: incompatible shapes"
    | _ => .error "matmul: not a matrix"

/-- `LinearOperator.matmul_right(x, adjoint)` (linear_operator.py 46-63, 69-71, 84-87): `x M`, `x Mᵀ`, or
columns scaled by the diagonal. -/
noncomputable def LinOp.matmulRight (op : LinOp) (x : Tensor ℝ) (adjoint : Bool) :
    Except String (Tensor ℝ) :=
  match op with
  | .full m => matmul2 x (if adjoint then transpose2 m else m)
  | .diag d =>
    match x.shape with
    | [p, q] =>
      if d.shape = [q] then
        .ok (Tensor.ofFn [p, q] fun idx => d.get [idx.getD 1 0] * x.get idx)
      else .error "matmul: incompatible shapes"
    | _ => .error "matmul: not a matrix"

/-- `tf.scalar_mul(s, t)`. -/
noncomputable def scalarMul (s : ℝ) (t : Tensor ℝ) : Tensor ℝ := ⟨t.shape, t.data.map (s * ·)⟩

/-- `KroneckerProductFB._multiply_factored_matrix` (fisher_blocks.py 862-874). -/
noncomputable def multiplyFactored (left right : LinOp) (v : LayerParams ℝ) (extraScale : ℝ)
    (transposeLeft transposeRight : Bool) : Except String (LayerParams ℝ) := do
  let m ← layerParamsToMat2d v
  let m ← right.matmulRight m transposeRight
  let m ← left.matmul m transposeLeft
  let m := if extraScale ≠ 1 then scalarMul extraScale m else m
  mat2dToLayerParams v m

/-! ### Factors -/

/-- A factor of a Kronecker block: the current covariance (a matrix, or a vector for the diagonal
approximation) and the stored variables which the inverse update ops write (fisher_factors.py 657-700 and
999-1050). -/
structure Factor where
  isDiag : Bool
  cov : Tensor ℝ
  inverse : Tensor ℝ
  cholesky : Tensor ℝ
  choleskyInverse : Tensor ℝ

/-- `cov + damping * identity` for a dense factor of dimension `n`. -/
noncomputable def dampedCov (n : Nat) (cov : Tensor ℝ) (damping : ℝ) : Matrix (Fin n) (Fin n) ℝ :=
  toMat n n cov + damping • (1 : Matrix (Fin n) (Fin n) ℝ)

/-- `utils.posdef_inv` (utils.py 294-322): whatever method is configured, it is documented to return
`inverse(tensor + damping * identity)`. -/
noncomputable def posdefInv (n : Nat) (cov : Tensor ℝ) (damping : ℝ) : Tensor ℝ :=
  ofMat (dampedCov n cov damping)⁻¹

/-- The dimension of a factor (`cov.shape.as_list()[0]`). -/
def Factor.dim (f : Factor) : Nat := f.cov.shape.headD 0

/-- `get_matpower(exp, damping)` for `exp = 1` (fresh: `cov + damping I`) and for `exp = -1` (the stored
inverse), dense factors (fisher_factors.py 886-905); for diagonal factors the power is always computed
fresh (fisher_factors.py 1034-1041). -/
noncomputable def Factor.matpowerOne (f : Factor) (damping : ℝ) : LinOp :=
  if f.isDiag then .diag ⟨f.cov.shape, f.cov.data.map fun x => x + damping⟩
  else .full (ofMat (dampedCov f.dim f.cov damping))

/-- See `matpowerOne`; exponent `-1`. -/
noncomputable def Factor.matpowerInv (f : Factor) (damping : ℝ) : LinOp :=
  if f.isDiag then .diag ⟨f.cov.shape, f.cov.data.map fun x => (x + damping)⁻¹⟩
  else .full f.inverse

/-- `get_cholesky` (fisher_factors.py 905-914 dense, 1043-1044 diagonal). -/
noncomputable def Factor.choleskyOp (f : Factor) (damping : ℝ) : LinOp :=
  if f.isDiag then .diag ⟨f.cov.shape, f.cov.data.map fun x => (x + damping) ^ (1 / 2 : ℝ)⟩
  else .full f.cholesky

/-- `get_cholesky_inverse` (fisher_factors.py 916-925 dense, 1046-1047 diagonal). -/
noncomputable def Factor.choleskyInvOp (f : Factor) (damping : ℝ) : LinOp :=
  if f.isDiag then .diag ⟨f.cov.shape, f.cov.data.map fun x => (x + damping) ^ (-(1 / 2) : ℝ)⟩
  else .full f.choleskyInverse

/-- The effect of the inverse update ops on the stored inverse of a dense factor
(`DenseSquareMatrixFactor.make_inverse_update_ops`, direct path, fisher_factors.py 843-849). The
eigendecomposition path is modelled in `Verif.Eig`. -/
noncomputable def Factor.updateInverse (f : Factor) (damping : ℝ) : Factor :=
  if f.isDiag then f else { f with inverse := posdefInv f.dim f.cov damping }

/-! ### Damping -/

/-- `normalize_damping` (fisher_blocks.py 75-79) with the global `NORMALIZE_DAMPING_POWER`;
a zero power is falsy in Python. -/
noncomputable def normalizeDamping (power damping : ℝ) (numReplications : ℝ) : ℝ :=
  if power ≠ 0 then damping / numReplications ^ power else damping

/-- `compute_pi_tracenorm` (fisher_blocks.py 82-112) on the traces and dimensions of the two factors.
The assertion that `right_norm` is positive is an error. -/
noncomputable def piTracenorm (leftTrace : ℝ) (leftDim : Nat) (rightTrace : ℝ) (rightDim : Nat) :
    Except String ℝ :=
  let leftNorm := leftTrace * rightDim
  let rightNorm := rightTrace * leftDim
  if leftNorm * rightNorm = 0 then .ok 1
  else if 0 < rightNorm then .ok (Real.sqrt (leftNorm / rightNorm))
  else .error "PI computation, trace of right cov matrix should be positive."

/-- The two values of `PI_TYPE` (fisher_blocks.py 56-60). -/
inductive PiRule where
  | tracenorm
  | off

/-- `compute_pi_adjusted_damping` (fisher_blocks.py 115-123). -/
noncomputable def piAdjustedDamping (piRule : PiRule) (leftTrace : ℝ) (leftDim : Nat) (rightTrace : ℝ)
    (rightDim : Nat) (damping : ℝ) : Except String (ℝ × ℝ) :=
  match piRule with
  | .tracenorm => do
    let pi ← piTracenorm leftTrace leftDim rightTrace rightDim
    return (damping * pi, damping / pi)
  | .off => .ok (damping, damping)

/-- `KroneckerProductFB._setup_damping` (fisher_blocks.py 782-797): the dampings given to the input and
the output factor. `normalization` is `None` for fully connected layers and the number of
locations/uses otherwise. -/
noncomputable def setupDamping (piRule : PiRule) (power : ℝ) (leftTrace : ℝ) (leftDim : Nat)
    (rightTrace : ℝ) (rightDim : Nat) (damping : ℝ) (normalization : Option ℝ) :
    Except String (ℝ × ℝ) :=
  let d := match normalization with
    | some n => normalizeDamping power damping n
    | none => damping
  piAdjustedDamping piRule leftTrace leftDim rightTrace rightDim (d ^ (1 / 2 : ℝ))

/-- The Kronecker blocks of the library that use the base-class multiplications, with the quantities
their normalisation depends on. -/
inductive KronKind where
  | fullyConnected
  | conv (numLocations : Nat)
  | fullyConnectedMulti (numUses : Nat)
  | convMulti (numLocations numUses : Nat)

/-- The `normalization` argument passed to `_setup_damping` (fisher_blocks.py 976, 1087, 1543,
1625-1626). -/
def KronKind.normalization : KronKind → Option ℝ
  | .fullyConnected => none
  | .conv l => some l
  | .fullyConnectedMulti u => some u
  | .convMulti l u => some (l * u)

/-- `_renorm_coeff` (fisher_blocks.py 851-860, 1089-1091, 1545-1547, 1628-1630). -/
def KronKind.renorm : KronKind → ℝ
  | .fullyConnected => 1
  | .conv l => l
  | .fullyConnectedMulti u => u
  | .convMulti l u => l * u

/-! ### The block operations -/

/-- A Kronecker block once its factors exist and the dampings of both factors are computed. `renorm` is
`_renorm_coeff` (1 for fully connected layers, the number of locations/uses otherwise). -/
structure KBlock where
  input : Factor
  output : Factor
  dIn : ℝ
  dOut : ℝ
  renorm : ℝ

/-- `multiply(v) = multiply_matpower(v, 1)` (fisher_blocks.py 876-883). -/
noncomputable def KBlock.multiply (b : KBlock) (v : LayerParams ℝ) : Except String (LayerParams ℝ) :=
  multiplyFactored (b.input.matpowerOne b.dIn) (b.output.matpowerOne b.dOut) v (b.renorm ^ (1 : ℝ))
    false false

/-- `multiply_inverse(v) = multiply_matpower(v, -1)` (fisher_blocks.py 876-883). -/
noncomputable def KBlock.multiplyInverse (b : KBlock) (v : LayerParams ℝ) :
    Except String (LayerParams ℝ) :=
  multiplyFactored (b.input.matpowerInv b.dIn) (b.output.matpowerInv b.dOut) v (b.renorm ^ (-1 : ℝ))
    false false

/-- `multiply_cholesky(v, transpose)` (fisher_blocks.py 884-891). -/
noncomputable def KBlock.multiplyCholesky (b : KBlock) (v : LayerParams ℝ) (transpose : Bool) :
    Except String (LayerParams ℝ) :=
  multiplyFactored (b.input.choleskyOp b.dIn) (b.output.choleskyOp b.dOut) v (b.renorm ^ (1 / 2 : ℝ))
    transpose (!transpose)

/-- `multiply_cholesky_inverse(v, transpose)` (fisher_blocks.py 893-902). -/
noncomputable def KBlock.multiplyCholeskyInverse (b : KBlock) (v : LayerParams ℝ) (transpose : Bool) :
    Except String (LayerParams ℝ) :=
  multiplyFactored (b.input.choleskyInvOp b.dIn) (b.output.choleskyInvOp b.dOut) v
    (b.renorm ^ (-(1 / 2) : ℝ)) transpose (!transpose)

/-- `get_cov_as_linear_operator().to_dense()` of a factor. -/
noncomputable def Factor.denseCov (f : Factor) : Tensor ℝ :=
  if f.isDiag then
    Tensor.ofFn [f.dim, f.dim] fun idx =>
      if idx.getD 0 0 = idx.getD 1 0 then f.cov.get [idx.getD 0 0] else 0
  else f.cov

/-- `full_fisher_block` (fisher_blocks.py 906-915): undamped. -/
noncomputable def KBlock.fullFisherBlock (b : KBlock) : Except String (Tensor ℝ) := do
  let k ← kroneckerProduct b.input.denseCov b.output.denseCov
  return scalarMul b.renorm k

end Kfac.Block
