import Verif.Block.Model
import Verif.Factor.Dense

/-! # Full and diagonal blocks (kfac/python/ops/fisher_blocks.py 283-326, 366-407) -/

namespace Kfac.Block
open Kfac Kfac.Params

/-- A vector given to a block: one tensor or a sequence of tensors. -/
inductive Vec where
  | single (t : Tensor ℝ)
  | list (ts : List (Tensor ℝ))

/-- `tensors_to_column` (utils.py 192-205). -/
def Vec.toColumn : Vec → Except String (List ℝ)
  | .single t => .ok (tensorToColumn t)
  | .list ts => tensorsToColumn ts

/-- `column_to_tensors` (utils.py 208-235). -/
def Vec.ofColumn (template : Vec) (col : List ℝ) : Except String Vec :=
  match template with
  | .single t => (columnToTensor t.shape col).map .single
  | .list ts => (columnToTensors (ts.map Tensor.shape) col).map .list

/-- `FullFB._multiply_matrix` (fisher_blocks.py 295-298); `DiagonalFB._multiply_matrix` (383-386) is the same without
`transpose`. -/
noncomputable def multiplyMatrix (op : LinOp) (v : Vec) (transpose : Bool) : Except String Vec := do
  let col ← v.toColumn
  let out ← op.matmul ⟨[col.length, 1], col⟩ transpose
  v.ofColumn out.data

section Full
variable {k : ℕ} {D Env : Type} [DecidableEq D]

/-- `FullFB.multiply_matpower` (fisher_blocks.py 300-302) in a run with the values `env` and the statistics `cov`. The
block's `register_*` methods (286-293) only forward to the factor. -/
noncomputable def fullMatpower (f : Factor.Dense k D Env) (env : Env) (cov : Factor.Mat k) (d : Factor.DampingFunc D Env)
    (v : Vec) (exp : ℝ) : Except String Vec :=
  match f.getMatpower env cov exp d with
  | .error e => .error e
  | .ok m => multiplyMatrix (.full (ofMat m)) v false

/-- `FullFB.multiply_cholesky` (fisher_blocks.py 304-306). -/
noncomputable def fullCholesky (f : Factor.Dense k D Env) (d : Factor.DampingFunc D Env) (v : Vec) (transpose : Bool) :
    Except String Vec :=
  match f.getCholesky d with
  | .error e => .error e
  | .ok m => multiplyMatrix (.full (ofMat m)) v transpose

/-- `FullFB.multiply_cholesky_inverse` (fisher_blocks.py 308-310). -/
noncomputable def fullCholeskyInverse (f : Factor.Dense k D Env) (d : Factor.DampingFunc D Env) (v : Vec)
    (transpose : Bool) : Except String Vec :=
  match f.getCholeskyInverse d with
  | .error e => .error e
  | .ok m => multiplyMatrix (.full (ofMat m)) v transpose

end Full

/-- `DiagonalFactor.get_matpower` (fisher_factors.py 1034-1041): the statistics may have any shape. -/
noncomputable def diagPower (cov : Tensor ℝ) (damping exp : ℝ) : LinOp :=
  .diag ⟨[cov.data.length], cov.data.map fun x => (x + damping) ^ exp⟩

/-- `DiagonalFB.multiply_matpower` (fisher_blocks.py 388-390). -/
noncomputable def diagMatpower (cov : Tensor ℝ) (damping : ℝ) (v : Vec) (exp : ℝ) : Except String Vec :=
  multiplyMatrix (diagPower cov damping exp) v false

/-- `DiagonalFB.multiply_cholesky` (fisher_blocks.py 392-394; fisher_factors.py 1043-1044): `transpose` is not used. -/
noncomputable def diagCholesky (cov : Tensor ℝ) (damping : ℝ) (v : Vec) (_transpose : Bool) : Except String Vec :=
  multiplyMatrix (diagPower cov damping (1 / 2)) v false

/-- `DiagonalFB.multiply_cholesky_inverse` (fisher_blocks.py 396-398; fisher_factors.py 1046-1047). -/
noncomputable def diagCholeskyInverse (cov : Tensor ℝ) (damping : ℝ) (v : Vec) (_transpose : Bool) : Except String Vec :=
  multiplyMatrix (diagPower cov damping (-(1 / 2))) v false

/-- The blocks that use the diagonal approximation. -/
inductive DiagKind where
  | naive
  | fullyConnected
  | conv (numLocations : ℕ)
  | scaleAndShift

/-- The value of the block's damping function (fisher_blocks.py 426, 581, 685-687, 772). -/
noncomputable def DiagKind.damping (power damping : ℝ) : DiagKind → ℝ
  | .conv l => l * normalizeDamping power damping l
  | _ => damping

end Kfac.Block
