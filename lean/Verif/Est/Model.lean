import Verif.Loss.PropsScore
import Verif.Loss.PropsGauss
import Verif.Stats.Model

/-!
# The gradients computed by the Fisher estimator (`kfac/python/ops/estimator.py` 361-413, 649-724)

The network treats the examples of a batch independently: the inputs of a loss for example `b` depend on row `b` of a
registered tensor only, with the given Jacobian. There is one tower.
-/

namespace Kfac.Est
open Kfac.Loss

/-- A registered loss, its coefficient, and the Jacobians of its inputs by the `T` tensors (widths `q`) which the blocks ask
gradients for; `none` if the inputs do not depend on the tensor. -/
structure Source (N : ℕ) {T : ℕ} (q : Fin T → ℕ) where
  n : ℕ
  loss : AnyLoss N n
  coeff : ℝ
  jac : (t : Fin T) → Option (Jac (q t) N n)

/-- The losses of a `LayerCollection`, in order. -/
abbrev Losses (N : ℕ) {T : ℕ} (q : Fin T → ℕ) (K : ℕ) := Fin K → Source N q

variable {N n T K : ℕ} {q : Fin T → ℕ}

/-! ### `tf.gradients` -/

/-- The gradient of one loss's inputs by one tensor for given `grad_ys`. -/
def pullback {P : ℕ} : Jac P N n → Val N n → Except String (Batch N P)
  | .single j, .single u => .ok fun b p => ∑ i, j b i p * u b i
  | .pair j1 j2, .pair u w => .ok fun b p => (∑ i, j1 b i p * u b i) + ∑ i, j2 b i p * w b i
  | _, _ => .error "structure mismatch"

/-- The contributions of all `ys` are added; `None` if no `y` depends on the tensor. -/
def tfSum {P : ℕ} (xs : List (Option (Batch N P))) : Option (Batch N P) :=
  match xs.filterMap id with
  | [] => none
  | ys => some fun b p => (ys.map fun y => y b p).sum

/-- One loss's contribution to the gradient by tensor `t`. -/
def contribution (l : Source N q) (t : Fin T) (y : Val N l.n) : Except String (Option (Batch N (q t))) :=
  match l.jac t with
  | none => .ok none
  | some j => (pullback j y).map some

/-- The gradient by tensor `t` for the `grad_ys` computed for each loss. -/
def gradientsAll (ls : Losses N q K) (gradYs : (k : Fin K) → Except String (Val N (ls k).n)) (t : Fin T) :
    Except String (Option (Batch N (q t))) := do
  let xs ← (List.finRange K).mapM fun k => do
    let y ← gradYs k
    contribution (ls k) t y
  return tfSum xs

/-! ### The losses -/

/-- What the targets of a loss are. -/
def Targets : AnyLoss N n → Type
  | .normalMean _ => Fin N × Fin n → ℝ
  | .normalMeanVar _ => Fin N × Fin n → ℝ
  | .categorical _ => Fin N → Fin n
  | .multiBernoulli _ => Fin N × Fin n → Bool

/-- The derivative of the value of a loss by its inputs. -/
noncomputable def lossGrad : (l : AnyLoss N n) → Targets l → Val N n
  | .normalMean l, y => .single (l.score y)
  | .normalMeanVar l, y => .pair (l.scoreMean y) (l.scoreVar y)
  | .categorical l, y => .single (l.score y)
  | .multiBernoulli l, y => .single (l.score y)

/-- The derivative of a multiple of the value. -/
def scaled (c : ℝ) : Val N n → Val N n
  | .single x => .single fun b i => c * x b i
  | .pair x y => .pair (fun b i => c * x b i) (fun b i => c * y b i)

/-- The width of the inner vectors of a loss (`fisher_factor_inner_shape`). -/
def width : AnyLoss N n → ℕ
  | .normalMeanVar _ => n + n
  | _ => n

/-- `multiply_fisher_factor` on an inner vector. -/
noncomputable def fisherFactor : (l : AnyLoss N n) → Batch N (width l) → Val N n
  | .normalMean l, v => .single (l.multiplyFactor v)
  | .normalMeanVar l, v => .pair (l.multiplyFactor v).1 (l.multiplyFactor v).2
  | .categorical l, v => .single (l.multiplyFactor v)
  | .multiBernoulli l, v => .single (l.multiplyFactor v)

/-- `multiply_fisher_factor_replicated_one_hot([index])`. -/
noncomputable def fisherOneHot (l : AnyLoss N n) (index : ℕ) : Except String (Val N n) :=
  match l with
  | .normalMean l => (l.oneHot [index]).map .single
  | .normalMeanVar l => (l.oneHot [index]).map fun x => .pair x.1 x.2
  | .categorical l => (l.oneHot [index]).map .single
  | .multiBernoulli l => (l.oneHot [index]).map .single

/-- The GGN variants: the Fisher's for natural parameters (loss_functions.py 334-342), not implemented for the mean-variance
Gaussian (537-547). -/
def ggnSupported : AnyLoss N n → Except String Unit
  | .normalMeanVar _ => .error "NotImplementedError"
  | _ => .ok ()

/-- The class of a loss. -/
def kind : AnyLoss N n → Kind
  | .normalMean _ => .normalMean
  | .normalMeanVar _ => .normalMeanVar
  | .categorical _ => .categorical
  | .multiBernoulli _ => .multiBernoulli

/-- `multiply_fisher_factor` or `multiply_ggn_factor`, depending on `mat_type` (estimator.py 670-675). -/
noncomputable def multFactor (mt : MatType) (l : AnyLoss N n) (v : Batch N (width l)) : Except String (Val N n) :=
  match mt with
  | .fisher => .ok (fisherFactor l v)
  | .ggn => do
    ggnSupported l
    return fisherFactor l v

/-- The replicated one-hot variants (estimator.py 699-708). -/
noncomputable def multOneHot (mt : MatType) (l : AnyLoss N n) (index : ℕ) : Except String (Val N n) :=
  match mt with
  | .fisher => fisherOneHot l index
  | .ggn => do
    ggnSupported l
    fisherOneHot l index

/-! ### The estimation modes -/

/-- `_get_grads_lists_gradients` (estimator.py 649-657) on sampled targets, with `coeff_mode="sqrt"`
(layer_collection.py 707-708). -/
noncomputable def gradsGradients (ls : Losses N q K) (samples : (k : Fin K) → Targets (ls k).loss) (t : Fin T) :
    Except String (List (Option (Batch N (q t)))) := do
  let g ← gradientsAll ls (fun k => .ok (scaled (Real.sqrt (ls k).coeff) (lossGrad (ls k).loss (samples k)))) t
  return [g]

/-- `_get_grads_lists_empirical` (estimator.py 659-667) on the targets of the data. -/
noncomputable def gradsEmpirical (ls : Losses N q K) (targets : (k : Fin K) → Targets (ls k).loss) (t : Fin T) :
    Except String (List (Option (Batch N (q t)))) := do
  let g ← gradientsAll ls (fun k => .ok (scaled (ls k).coeff (lossGrad (ls k).loss (targets k)))) t
  return [g]

/-- `_get_grads_lists_curvature_prop` with `_get_transformed_random_signs` (estimator.py 669-696) for the given random signs. -/
noncomputable def gradsCurvatureProp (mt : MatType) (ls : Losses N q K)
    (signs : (k : Fin K) → Batch N (width (ls k).loss)) (t : Fin T) : Except String (List (Option (Batch N (q t)))) := do
  let g ← gradientsAll ls (fun k => do
    let value ← multFactor mt (ls k).loss (signs k)
    scaleVal (Real.sqrt (ls k).coeff) value) t
  return [g]

/-- `_get_grads_lists_exact` (estimator.py 698-724): one list of gradients per loss and coordinate. -/
noncomputable def gradsExact (mt : MatType) (ls : Losses N q K) (t : Fin T) :
    Except String (List (Option (Batch N (q t)))) := do
  let perLoss ← (List.finRange K).mapM fun k => do
    let count ← exactCount mt (kind (ls k).loss) [N, (ls k).n]
    (List.range count).mapM fun index => do
      let value ← multOneHot mt (ls k).loss index
      let value ← scaleVal (Real.sqrt (ls k).coeff) value
      contribution (ls k) t value
  return perLoss.flatten

/-- The check of `_instantiate_factors` (estimator.py 379-391) for one tensor. -/
def noMissing {α : Type} (xs : List (Option α)) : Except String (List α) :=
  if xs.any Option.isNone then .error "It looks like you registered one of more tensors that the registered loss/losses don't \
depend on." else .ok (xs.filterMap id)

/-- `compute_cov` of every source, added up (`ConvOutputKroneckerFactor`/`FullyConnectedKroneckerFactor` without bias on one
tower; fisher_factors.py 559-567, 1727-1731). -/
noncomputable def outputCov {P : ℕ} (sources : List (Batch N P)) : Matrix (Fin P) (Fin P) ℝ :=
  Stats.totalNewCov Stats.computeCov (sources.map fun g => [List.ofFn g])

/-- `NaiveFullFactor` (fisher_factors.py 983-990) for a parameter of which every example uses its own copy (row `b`): the
gradient by the parameter is the sum over the rows. -/
noncomputable def naiveCov {P : ℕ} (sources : List (Batch N P)) : Matrix (Fin P) (Fin P) ℝ := fun p p' =>
  (sources.map fun (g : Batch N P) => (∑ b, g b p) * (∑ b, g b p') / (N : ℝ)).sum

end Kfac.Est
