import Verif.Block.Model
import Mathlib.Data.Real.Basic
import Mathlib.Algebra.Module.Basic
import Mathlib.Data.Matrix.Mul
import Mathlib.LinearAlgebra.Matrix.NonsingularInverse
import Mathlib.Tactic.FieldSimp
import Mathlib.Tactic.Linarith
import Mathlib.Tactic.Positivity

/-!
# Model of the statistics: moving averages, accumulators, covariance estimates
(`kfac/python/ops/utils.py`, `kfac/python/ops/fisher_factors.py`)
-/

namespace Kfac.Stats

variable {V : Type} [AddCommGroup V] [Module ℝ V]

/-! ### MovingAverageVariable (utils.py 1248-1326) -/

/-- The two variables of a `MovingAverageVariable` (utils.py 1274-1290). -/
structure MovAvg (V : Type) where
  var : V
  totalWeight : ℝ

/-- Freshly initialised with `zeros_initializer` (utils.py 1257, 1274-1290). -/
def MovAvg.init : MovAvg V := ⟨0, 0⟩

/-- `add_to_average(value, decay, weight)` (utils.py 1303-1320). -/
noncomputable def MovAvg.add (s : MovAvg V) (value : V) (decay weight : ℝ) : MovAvg V :=
  ⟨decay • s.var + weight • value, decay * s.totalWeight + weight⟩

/-- `reset()` (utils.py 1322-1326). -/
def MovAvg.reset (_ : MovAvg V) : MovAvg V := ⟨0, 0⟩

/-- The `value` property (utils.py 1295-1299): `var / total_weight` when `normalize_value`, else `var`.
`none` stands for the undefined result of dividing by a zero total weight (NaN/inf in TF). -/
noncomputable def MovAvg.value (normalize : Bool) (s : MovAvg V) : Option V :=
  if normalize then
    if s.totalWeight = 0 then none else some (s.totalWeight⁻¹ • s.var)
  else some s.var

/-- Operations on a moving average. -/
inductive MovOp (V : Type) where
  | add (value : V) (decay weight : ℝ)
  | reset

/-- One operation. -/
noncomputable def MovAvg.step (s : MovAvg V) : MovOp V → MovAvg V
  | .add v d w => s.add v d w
  | .reset => s.reset

/-! ### AccumulatorVariable (utils.py 969-1032) -/

/-- The two variables of an `AccumulatorVariable` (utils.py 985-1007). -/
structure Accum (V : Type) where
  acc : V
  counter : ℝ

/-- Zero-initialised (utils.py 985-1007). -/
def Accum.init : Accum V := ⟨0, 0⟩

/-- `accumulate(value)` (utils.py 1007-1011). -/
def Accum.accumulate (s : Accum V) (value : V) : Accum V := ⟨s.acc + value, s.counter + 1⟩

/-- `value` (utils.py 1014-1016); `none` is 0/0. -/
noncomputable def Accum.value (s : Accum V) : Option V :=
  if s.counter = 0 then none else some (s.counter⁻¹ • s.acc)

/-- `reset()` (utils.py 1025-1032). -/
def Accum.reset (_ : Accum V) : Accum V := ⟨0, 0⟩

/-- `read_value_and_reset()` (utils.py 1018-1023): the value is read before the reset. -/
noncomputable def Accum.readValueAndReset (s : Accum V) : Option V × Accum V := (s.value, s.reset)

/-- Operations on an accumulator. -/
inductive AccOp (V : Type) where
  | accumulate (value : V)
  | reset
  | readAndReset

/-- One operation: the new state and, for `readAndReset`, the value returned. -/
noncomputable def Accum.step (s : Accum V) : AccOp V → Accum V × Option (Option V)
  | .accumulate v => (s.accumulate v, none)
  | .reset => (s.reset, none)
  | .readAndReset => (s.readValueAndReset.2, some s.readValueAndReset.1)

/-! ### Covariances -/

/-- A mini-batch tensor of shape `[batch, n]` as its list of rows. If the factor has a bias the rows are
those after `append_homog` (fisher_factors.py 247-270). -/
abbrev Rows (n : Nat) := List (Fin n → ℝ)

/-- `compute_cov(tensor)` with the default normalizer, the number of rows (fisher_factors.py 219-240):
`tensorᵀ tensor / rows`, then symmetrised. -/
noncomputable def computeCov {n : Nat} (rows : Rows n) : Matrix (Fin n) (Fin n) ℝ :=
  let cov : Matrix (Fin n) (Fin n) ℝ := fun i j =>
    (rows.map fun x => x i * x j).sum / (rows.length : ℝ)
  fun i j => (cov i j + cov.transpose i j) / 2

/-- The dense branch of `DiagonalKroneckerFactor._compute_new_cov_from_tensor`
(fisher_factors.py 1187-1224), rows including the homogeneous coordinate. -/
noncomputable def computeDiagCov {n : Nat} (rows : Rows n) : Fin n → ℝ :=
  fun i => (rows.map fun x => x i ^ 2).sum / (rows.length : ℝ)

/-- `_compute_total_new_cov` on one replica (fisher_factors.py 559-567): sum over sources and towers,
divided by the number of towers (`len(tensors[0])`). `data[s][t]` is the batch of source `s`, tower
`t`. -/
noncomputable def totalNewCov {B : Type} (newCov : B → V) (data : List (List B)) : V :=
  ((data.headD []).length : ℝ)⁻¹ • (data.map fun towers => (towers.map newCov).sum).sum

/-- `all_average` over the replicas' values (fisher_factors.py 581; the mean of the per-replica values). -/
noncomputable def allAverage (xs : List V) : V := (xs.length : ℝ)⁻¹ • xs.sum

/-- The covariance estimate of one update: per-replica totals averaged over replicas
(fisher_factors.py 559-583). -/
noncomputable def newCovOverReplicas {B : Type} (newCov : B → V) (replicas : List (List (List B))) : V :=
  allAverage (replicas.map (totalNewCov newCov))

/-- `check_partial_batch_sizes` for statically known sizes (fisher_factors.py 483-514). `sizes[s][t]` is
the partial batch size of source `s` and tower `t`. Note the `zip` of the two ranges. -/
def checkPartialBatchSizes (sizes : List (List Nat)) : Except String Unit :=
  let numSources := sizes.length
  let numTowers := (sizes.headD []).length
  let get := fun s t => ((sizes.getD s []).getD t 0)
  if numSources > 1 ∨ numTowers > 1 then
    if (List.zip (List.range numSources) (List.range numTowers)).all
        (fun st => get 0 0 = get st.1 st.2) then .ok ()
    else .error "Inconsistent (partial) batch sizes detected"
  else .ok ()

/-- `FisherFactor.batch_size(source)` (fisher_factors.py 478-481). -/
def batchSize (sizes : List (List Nat)) (source : Nat) : Nat := (sizes.getD source []).sum

/-- `FisherEstimator._check_batch_sizes` with static sizes (estimator.py 433-461). -/
def checkBatchSizes (reference : Nat) (sizes : List (List Nat)) : Except String Unit :=
  if batchSize sizes 0 ≠ reference then .error "Batch size did not match"
  else checkPartialBatchSizes sizes

/-- The two values of `TOWER_STRATEGY` (fisher_factors.py 113-118). -/
inductive TowerStrategy where
  | separate
  | concat

/-- `InputOutputMultiTower._process_data` on one source's towers (fisher_blocks.py 460-512): under
"concat" the towers become a single (partitioned) tensor, under "separate" they stay. -/
def processTowers {n : Nat} (strategy : TowerStrategy) (towers : List (Rows n)) : List (Rows n) :=
  match strategy with
  | .separate => towers
  | .concat => [towers.flatten]

/-! ### The statistics of a factor over time -/

/-- A dense factor: moving average of covariances and the stored (damped) inverse
(fisher_factors.py 657-700). The stored inverse starts at zero (`INIT_INVERSES_AT_ZERO`). -/
structure DenseStat (n : Nat) where
  avg : MovAvg (Matrix (Fin n) (Fin n) ℝ)
  inverse : Matrix (Fin n) (Fin n) ℝ

/-- A diagonal factor (fisher_factors.py 999-1050): nothing is stored besides the average. -/
structure DiagStat (n : Nat) where
  avg : MovAvg (Fin n → ℝ)

/-- What can happen to a factor's statistics during training: a covariance update on a batch
(replicas × sources × towers of rows) with some decay (`cov_ema_decay`, or 1.0 when `should_decay` is
false, estimator.py 613-629; the weight is always 1.0), or an inverse update with the damping current at
that time. -/
inductive StatOp (n : Nat) where
  | cov (data : List (List (List (Rows n)))) (decay : ℝ)
  | inv (damping : ℝ)

/-- Effect on a dense factor. An inverse update of undefined statistics (before any covariance update)
produces garbage in TF; it is modelled as leaving the stored inverse unchanged and excluded by the
hypotheses of the theorems. -/
noncomputable def DenseStat.step {n : Nat} (s : DenseStat n) : StatOp n → DenseStat n
  | .cov data decay => { s with avg := s.avg.add (newCovOverReplicas computeCov data) decay 1 }
  | .inv damping =>
    match s.avg.value true with
    | none => s
    | some c => { s with inverse := (c + damping • (1 : Matrix (Fin n) (Fin n) ℝ))⁻¹ }

/-- Effect on a diagonal factor. -/
noncomputable def DiagStat.step {n : Nat} (s : DiagStat n) : StatOp n → DiagStat n
  | .cov data decay => { s with avg := s.avg.add (newCovOverReplicas computeDiagCov data) decay 1 }
  | .inv _ => s

/-- A factor's statistics, dense or diagonal. -/
inductive FStat (n : Nat) where
  | dense (s : DenseStat n)
  | diag (s : DiagStat n)

/-- Freshly created variables: zero average (`INIT_COVARIANCES_AT_ZERO`) and zero stored inverse. -/
def FStat.init {n : Nat} (isDiag : Bool) : FStat n :=
  if isDiag then .diag ⟨MovAvg.init⟩ else .dense ⟨MovAvg.init, 0⟩

/-- One operation on a factor's statistics. -/
noncomputable def FStat.step {n : Nat} (s : FStat n) (op : StatOp n) : FStat n :=
  match s with
  | .dense s => .dense (s.step op)
  | .diag s => .diag (s.step op)

/-- The factor as the block sees it: the (debiased) covariance and the stored inverse; `none` while the
debiased average is undefined. -/
noncomputable def FStat.factor {n : Nat} : FStat n → Option Block.Factor
  | .dense s => (s.avg.value true).map fun c =>
      { isDiag := false, cov := Block.ofMat c, inverse := Block.ofMat s.inverse, cholesky := ⟨[], []⟩,
        choleskyInverse := ⟨[], []⟩ }
  | .diag s => (s.avg.value true).map fun c =>
      { isDiag := true,
        cov := Tensor.ofFn [n] fun idx => if h : idx.getD 0 0 < n then c ⟨idx.getD 0 0, h⟩ else 0,
        inverse := ⟨[], []⟩, cholesky := ⟨[], []⟩, choleskyInverse := ⟨[], []⟩ }

end Kfac.Stats
