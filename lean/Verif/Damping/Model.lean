import Verif.Stats.Model
import Verif.Block.Model

/-! # The preconditioned gradient as a function of the damping -/

namespace Kfac.Damping

open Kfac.Stats Kfac.Block Kfac.Params

/-- A dense factor; only the stored inverse is read by `multiply_inverse` (fisher_factors.py 886-904). -/
noncomputable def asFactor {n : ℕ} (s : DenseStat n) : Factor :=
  { isDiag := false, cov := ofMat s.avg.var, inverse := ofMat s.inverse, cholesky := ⟨[], []⟩, choleskyInverse := ⟨[], []⟩ }

/-- An inverse update of the two factors of a Kronecker block with `damping` (fisher_blocks.py 782-816;
fisher_factors.py 810-850) and then `multiply_inverse(vec)` (fisher_blocks.py 862-882). Without statistics (0/0) the result is an
error. -/
noncomputable def direction (k : KronKind) (rule : PiRule) (power : ℝ) {p q : ℕ} (left : DenseStat p) (right : DenseStat q)
    (damping : ℝ) (vec : LayerParams ℝ) : Except String (LayerParams ℝ) :=
  match left.avg.value true, right.avg.value true with
  | some a, some g => (setupDamping rule power a.trace p g.trace q damping k.normalization).bind fun d =>
      KBlock.multiplyInverse ⟨asFactor (left.step (.inv d.1)), asFactor (right.step (.inv d.2)), d.1, d.2, k.renorm⟩ vec
  | _, _ => .error "NaN"

end Kfac.Damping
