import Verif.Factor.Dense
import Verif.Stats.Warm
import Mathlib.Data.Matrix.Block
import Mathlib.LinearAlgebra.Matrix.Kronecker

/-! # The SUA input factor of a convolution (kfac/python/ops/fisher_factors.py 1979-2405) -/

namespace Kfac.Factor

open Matrix Kronecker Kfac.Stats

/-- `ASSUME_ZERO_MEAN_ACTIVATIONS` and `SUBTRACT_MEAN_CONTRIB_FROM_COV` (fisher_factors.py 78-87). -/
structure SuaConst where
  zeroMean : Bool
  subtractMean : Bool

/-- Index of the operator: `LinearOperatorKronecker([cov, I])` has flat index `channel * kw_kh + location`, kept
here as a pair, and `LinearOperatorBlockDiag` appends the bias coordinate (fisher_factors.py 2187-2210). -/
abbrev SIdx (c k : ℕ) (bias : Bool) := (Fin c × Fin k) ⊕ Fin bias.toNat

/-- The variables of the factor for one damping id: the moving averages (instantiate_cov_variables, 2069-2087) and
those of `instantiate_inv_variables` (2294-2343), all zero-initialised. The other damping ids have their own
copies of the last four and do not interact. -/
structure Sua (c : ℕ) where
  cov : MovAvg (Mat c)
  mu : MovAvg (Fin c → ℝ)
  covInv : Mat c
  damping : ℝ
  covInvMu : Fin c → ℝ
  scale : ℝ

/-- Freshly instantiated. -/
def Sua.init (c : ℕ) : Sua c := ⟨MovAvg.init, MovAvg.init, 0, 0, 0, 0⟩

/-- `append_homog` on one row (fisher_factors.py 247-269). -/
def homog {c : ℕ} (x : Fin c → ℝ) : Fin (c + 1) → ℝ := Fin.snoc x 1

/-- `_compute_total_new_cov` with this class's `_compute_new_cov` (fisher_factors.py 559-583, 2124-2133): one source;
`data[r][t]` is the input of tower `t` on replica `r` reshaped to `[-1, in_channels]`. -/
noncomputable def suaTotalCov {c : ℕ} (data : List (List (Rows c))) : Mat (c + 1) :=
  newCovOverReplicas computeCov (data.map fun towers => [towers.map fun rows => rows.map homog])

/-- `make_covariance_update_op` (fisher_factors.py 2087-2122). -/
noncomputable def Sua.covUpdate {c : ℕ} (const : SuaConst) (s : Sua c) (data : List (List (Rows c)))
    (decay weight : ℝ) : Sua c :=
  let total := suaTotalCov data
  let newMu : Fin c → ℝ := fun i => total i.castSucc (Fin.last c)
  let newCov : Mat c := fun i j => total i.castSucc j.castSucc
  let centred : Mat c := newCov - vecMulVec newMu newMu
  if const.zeroMean = false then
    { s with cov := s.cov.add centred decay weight, mu := s.mu.add newMu decay weight }
  else if const.subtractMean = true then
    { s with cov := s.cov.add centred decay weight }
  else { s with cov := s.cov.add newCov decay weight }

/-- `_compute_sm_rank_one_update_quants` (fisher_factors.py 2159-2171). -/
noncomputable def smQuants {c : ℕ} (k : ℕ) (bias : Bool) (covInv : Mat c) (mu : Fin c → ℝ) (damping : ℝ) :
    (Fin c → ℝ) × ℝ :=
  let covInvMu := covInv *ᵥ mu
  let hat : ℝ := (k : ℝ) * (mu ⬝ᵥ covInvMu)
  if bias then (covInvMu, 1 / (1 + (hat + 1 / damping))) else (covInvMu, 1 / (1 + hat))

/-- The ops of `make_inverse_update_ops` (fisher_factors.py 2256-2286). Undefined averages (before any covariance
update) leave the state unchanged here; the theorems exclude that case. -/
noncomputable def Sua.invUpdate {c : ℕ} (la : Linalg c) (m : InvMethod) (const : SuaConst) (k : ℕ) (bias : Bool)
    (s : Sua c) (damping : ℝ) : Sua c :=
  match s.cov.value true with
  | none => s
  | some cov =>
    let covInv := posdefInv la m cov damping
    let s1 := { s with covInv := covInv, damping := damping }
    if const.zeroMean = false then
      match s.mu.value true with
      | none => s
      | some mu =>
        { s1 with covInvMu := (smQuants k bias covInv mu damping).1,
                  scale := (smQuants k bias covInv mu damping).2 }
    else s1

/-- `append_homog(reshape(tile(v, [1, kw_kh]), (-1,)), homog_value)`, without the last entry when there is no bias
(fisher_factors.py 2219-2234, 2372-2380). -/
def tiled {c : ℕ} (k : ℕ) (bias : Bool) (v : Fin c → ℝ) (last : ℝ) : SIdx c k bias → ℝ :=
  Sum.elim (fun p => v p.1) (fun _ => last)

/-- `_make_cov_linear_operator(damping)` (fisher_factors.py 2340-2383); `damping = none` is the undamped operator
of `get_cov_as_linear_operator`. `none` is returned while the averages are undefined. -/
noncomputable def Sua.covOperator {c : ℕ} (const : SuaConst) (k : ℕ) (bias : Bool) (s : Sua c)
    (damping : Option ℝ) : Option (Matrix (SIdx c k bias) (SIdx c k bias) ℝ) := do
  let cov0 ← s.cov.value true
  let cov := match damping with
    | some d => cov0 + d • (1 : Mat c)
    | none => cov0
  let biasValue : ℝ := damping.getD 0
  let op : Matrix (SIdx c k bias) (SIdx c k bias) ℝ :=
    fromBlocks (cov ⊗ₖ (1 : Mat k)) 0 0 (biasValue • 1)
  if const.zeroMean = true then return op
  else
    let mu ← s.mu.value true
    return op + vecMulVec (tiled k bias mu 1) (tiled k bias mu 1)

/-- `get_matpower(-1, damping_func)` (fisher_factors.py 2181-2252). -/
noncomputable def Sua.inverseOperator {c : ℕ} (const : SuaConst) (k : ℕ) (bias : Bool) (s : Sua c) :
    Matrix (SIdx c k bias) (SIdx c k bias) ℝ :=
  let op : Matrix (SIdx c k bias) (SIdx c k bias) ℝ :=
    fromBlocks (s.covInv ⊗ₖ (1 : Mat k)) 0 0 ((1 / s.damping) • 1)
  if const.zeroMean = true then op
  else
    let meanUpdate := tiled k bias s.covInvMu (1 / s.damping)
    op + vecMulVec meanUpdate (-s.scale • meanUpdate)

/-- `get_matpower(exp, damping_func)` (fisher_factors.py 2173-2254), with `damping` the value of
`damping_func()`. -/
noncomputable def Sua.getMatpower {c : ℕ} (const : SuaConst) (k : ℕ) (bias : Bool) (s : Sua c) (exp damping : ℝ) :
    Except String (Option (Matrix (SIdx c k bias) (SIdx c k bias) ℝ)) :=
  if exp = 1 then .ok (s.covOperator const k bias (some damping))
  else if exp = -1 then .ok (some (s.inverseOperator const k bias))
  else .error "ConvInputSUAKroneckerFactor only supports computing inverse of cov matrix."

/-- What happens to the factor while training: covariance updates (weight 1, estimator.py 613-629) and inverse
updates with the damping of that moment. -/
inductive SuaOp (c : ℕ) where
  | cov (data : List (List (Rows c))) (decay : ℝ)
  | inv (damping : ℝ)

noncomputable def Sua.step {c : ℕ} (la : Linalg c) (m : InvMethod) (const : SuaConst) (k : ℕ) (bias : Bool)
    (s : Sua c) : SuaOp c → Sua c
  | .cov data decay => s.covUpdate const data decay 1
  | .inv damping => s.invUpdate la m const k bias damping

/-- The factor after a history. -/
noncomputable def Sua.after {c : ℕ} (la : Linalg c) (m : InvMethod) (const : SuaConst) (k : ℕ) (bias : Bool)
    (ops : List (SuaOp c)) : Sua c :=
  ops.foldl (Sua.step la m const k bias) (Sua.init c)

/-! ### The layout of the parameters -/

/-- Row of the matrix `layer_params_to_mat2d(filter)` (utils.py 247-291: `reshape(filter, [-1, out_channels])` of a
filter of shape `[..spatial.., in_channels, out_channels]`) that holds the weights of spatial position `l` and
input channel `a`. -/
def filterRow {c k : ℕ} (l : Fin k) (a : Fin c) : Fin (k * c) := finProdFinEquiv (l, a)

/-- The coordinate of the Kronecker operator that flat row `r` is multiplied with
(`LinearOperatorKronecker.matmul` on the 2-D parameter matrix: KroneckerProductFB multiplies the matrix form of the
parameters without any relayout, fisher_blocks.py 862-876). -/
def operatorCoord {c k : ℕ} (r : Fin (k * c)) : Fin c × Fin k :=
  finProdFinEquiv.symm (Fin.cast (Nat.mul_comm k c) r)

/-- The entry of the factor between the filter weights `(l, a)` and `(l', a')`, as used by the block. -/
noncomputable def filterEntry {c k : ℕ} {bias : Bool} (M : Matrix (SIdx c k bias) (SIdx c k bias) ℝ)
    (l : Fin k) (a : Fin c) (l' : Fin k) (a' : Fin c) : ℝ :=
  M (Sum.inl (operatorCoord (filterRow l a))) (Sum.inl (operatorCoord (filterRow l' a')))

end Kfac.Factor
