import Verif.Block.Full

/-! # Blocks of depthwise convolutions (kfac/python/ops/fisher_blocks.py 1094-1234) -/

namespace Kfac.Block
open Kfac Kfac.Params

/-- `DepthwiseConvDiagonalFB._multiply_matrix` (fisher_blocks.py 1157-1161). -/
noncomputable def depthwiseMatrix (op : LinOp) (v : Tensor ℝ) : Except String (Tensor ℝ) := do
  let conv ← depthwiseToConv v
  let result ← multiplyMatrix op (.single conv) false
  match result with
  | .single r => convToDepthwise r
  | .list _ => .error "unreachable: a single tensor was passed"

/-- `DepthwiseConvDiagonalFB.multiply_matpower` (fisher_blocks.py 388-390). -/
noncomputable def depthwiseMatpower (cov : Tensor ℝ) (damping : ℝ) (v : Tensor ℝ) (exp : ℝ) : Except String (Tensor ℝ) :=
  depthwiseMatrix (diagPower cov damping exp) v

/-- `DepthwiseConvKFCBasicFB._multiply_factored_matrix` (fisher_blocks.py 1225-1234). -/
noncomputable def depthwiseFactored (left right : LinOp) (v : Tensor ℝ) (extraScale : ℝ)
    (transposeLeft transposeRight : Bool) : Except String (Tensor ℝ) := do
  let conv ← depthwiseToConv v
  let result ← multiplyFactored left right (.weight conv) extraScale transposeLeft transposeRight
  match result with
  | .weight r => convToDepthwise r
  | .weightBias _ _ => .error "unreachable: a single tensor was passed"

/-- `multiply` and `multiply_inverse` of `DepthwiseConvKFCBasicFB` (fisher_blocks.py 876-883 with the above). -/
noncomputable def KBlock.depthwiseMultiply (b : KBlock) (v : Tensor ℝ) : Except String (Tensor ℝ) :=
  depthwiseFactored (b.input.matpowerOne b.dIn) (b.output.matpowerOne b.dOut) v (b.renorm ^ (1 : ℝ)) false false

/-- See `depthwiseMultiply`. -/
noncomputable def KBlock.depthwiseMultiplyInverse (b : KBlock) (v : Tensor ℝ) : Except String (Tensor ℝ) :=
  depthwiseFactored (b.input.matpowerInv b.dIn) (b.output.matpowerInv b.dOut) v (b.renorm ^ (-1 : ℝ)) false false

end Kfac.Block
