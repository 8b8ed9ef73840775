import Verif.Block.Model

/-! # Sparse vectors (`tf.IndexedSlices`) in Kronecker blocks

`linear_operator.py`, `matmul_sparse_dense` and `matmul_diag_sparse` (utils.py 911-966). -/

namespace Kfac.Block
open Kfac Kfac.Params

/-- `tf.IndexedSlices` of a matrix: `values` of shape `[len(indices), cols]`; rows with the same index are added. -/
structure Slices where
  rows : ℕ
  cols : ℕ
  indices : List ℕ
  values : Tensor ℝ

/-- `utils.matmul_sparse_dense(A, B, transpose_a, transpose_b)` (utils.py 911-940). -/
noncomputable def matmulSparseDense (a : Slices) (b : Tensor ℝ) (transposeA transposeB : Bool) : Except String Slices := do
  if a.values.shape.length ≠ 2 then throw "ValueError: A must represent a matrix."
  if b.shape.length ≠ 2 then throw "ValueError: B must be a matrix."
  let new ← matmul2 (if transposeA then transpose2 a.values else a.values) (if transposeB then transpose2 b else b)
  return ⟨a.rows, new.shape.getD 1 0, a.indices, new⟩

/-- `utils.matmul_diag_sparse(A_diag, B)` (utils.py 943-966). `tf.gather` of an index out of range raises. -/
noncomputable def matmulDiagSparse (d : Tensor ℝ) (b : Slices) : Except String Slices := do
  if d.shape.length ≠ 1 then throw "ValueError: A_diag must be a rank-1 Tensor."
  if b.values.shape.length ≠ 2 then throw "ValueError: B must represent a matrix."
  if ¬ b.indices.all (· < d.shape.getD 0 0) then throw "InvalidArgumentError: index out of range"
  return ⟨b.rows, b.cols, b.indices,
    Tensor.ofFn b.values.shape fun idx => d.get [b.indices.getD (idx.getD 0 0) 0] * b.values.get idx⟩

/-- `matmul` of an `IndexedSlices` (linear_operator.py 34-35, 73-74, 89-92). -/
noncomputable def LinOp.matmulSparse (op : LinOp) (x : Slices) (_adjoint : Bool) : Except String Slices :=
  match op with
  | .full _ => .error "NotImplementedError"
  | .diag d => matmulDiagSparse d x

/-- `matmul_right` of an `IndexedSlices` (linear_operator.py 51-53, 76-78, 94-95). -/
noncomputable def LinOp.matmulRightSparse (op : LinOp) (x : Slices) (adjoint : Bool) : Except String Slices :=
  match op with
  | .full m => if adjoint then .error "AssertionError" else matmulSparseDense x m false false
  | .diag _ => .error "NotImplementedError"

/-- `_multiply_factored_matrix` of an `IndexedSlices` (fisher_blocks.py 862-874): the conversions to and from a matrix pass
it through (utils.py 264-265, 285-289), and `tf.scalar_mul` multiplies the values. -/
noncomputable def multiplyFactoredSparse (left right : LinOp) (v : Slices) (extraScale : ℝ)
    (transposeLeft transposeRight : Bool) : Except String Slices := do
  let m ← right.matmulRightSparse v transposeRight
  let m ← left.matmulSparse m transposeLeft
  return if extraScale ≠ 1 then { m with values := scalarMul extraScale m.values } else m

/-- `multiply` (fisher_blocks.py 876-883). -/
noncomputable def KBlock.multiplySparse (b : KBlock) (v : Slices) : Except String Slices :=
  multiplyFactoredSparse (b.input.matpowerOne b.dIn) (b.output.matpowerOne b.dOut) v (b.renorm ^ (1 : ℝ)) false false

/-- `multiply_inverse` (fisher_blocks.py 876-883). -/
noncomputable def KBlock.multiplyInverseSparse (b : KBlock) (v : Slices) : Except String Slices :=
  multiplyFactoredSparse (b.input.matpowerInv b.dIn) (b.output.matpowerInv b.dOut) v (b.renorm ^ (-1 : ℝ)) false false

/-- `multiply_cholesky` (fisher_blocks.py 884-891). -/
noncomputable def KBlock.multiplyCholeskySparse (b : KBlock) (v : Slices) (transpose : Bool) : Except String Slices :=
  multiplyFactoredSparse (b.input.choleskyOp b.dIn) (b.output.choleskyOp b.dOut) v (b.renorm ^ (1 / 2 : ℝ))
    transpose (!transpose)

/-- `multiply_cholesky_inverse` (fisher_blocks.py 893-902). -/
noncomputable def KBlock.multiplyCholeskyInverseSparse (b : KBlock) (v : Slices) (transpose : Bool) : Except String Slices :=
  multiplyFactoredSparse (b.input.choleskyInvOp b.dIn) (b.output.choleskyInvOp b.dOut) v (b.renorm ^ (-(1 / 2) : ℝ))
    transpose (!transpose)

end Kfac.Block
