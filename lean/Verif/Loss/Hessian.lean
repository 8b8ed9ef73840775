import Verif.Loss.PropsGauss
import Verif.Loss.Props

/-! # Hessian products (`curvature_matrix_vector_products.py` 187-202) of a model given as a function of its parameters -/

namespace Kfac.Loss

variable {B n P : ℕ}

/-- A loss with one input tensor and its targets (loss_functions.py 370-427, 558-703). -/
inductive Head (B n : ℕ) where
  | normalMean (var : ℝ) (targets : Fin B × Fin n → ℝ)
  | categorical (targets : Fin B → Fin n)
  | multiBernoulli (targets : Fin B × Fin n → Bool)

/-- The loss object for the inputs `z`. -/
def Head.at : Head B n → Batch B n → AnyLoss B n
  | .normalMean var _, z => .normalMean ⟨z, var⟩
  | .categorical _, z => .categorical ⟨z⟩
  | .multiBernoulli _, z => .multiBernoulli ⟨z⟩

/-- `evaluate` (loss_functions.py 55-62, 363-364): the targets are constants. -/
noncomputable def Head.evaluate : Head B n → Batch B n → ℝ
  | .normalMean var y, z => NormalMean.evaluate ⟨z, var⟩ y
  | .categorical y, z => Categorical.evaluate ⟨z⟩ y
  | .multiBernoulli y, z => MultiBernoulli.evaluate ⟨z⟩ y

/-- A registered loss whose inputs are a function of the `P` entries of the `wrt_tensors`. The tensors are taken to be
independent of each other, so that `stop_gradients` (105, 118) changes nothing. -/
structure FnLoss (P : ℕ) where
  B : ℕ
  n : ℕ
  head : Head B n
  inputs : (Fin P → ℝ) → Batch B n
  coeff : ℝ

/-- `tf.gradients` of a scalar. -/
noncomputable def tfGradients (f : (Fin P → ℝ) → ℝ) (θ : Fin P → ℝ) (p : Fin P) : ℝ := fderiv ℝ f θ (Pi.single p 1)

/-- The loss with the Jacobian of its inputs at `θ` (curvature_matrix_vector_products.py 100-120). -/
noncomputable def FnLoss.at (l : FnLoss P) (θ : Fin P → ℝ) : LossJ P :=
  ⟨⟨l.B, l.n, l.head.at (l.inputs θ), l.coeff⟩, .single fun b i => tfGradients (fun θ => l.inputs θ b i) θ⟩

/-- `total_loss()` (layer_collection.py 692-718); `tf.add_n` needs a summand. -/
noncomputable def fnTotalLoss (ls : List (FnLoss P)) : Except String ((Fin P → ℝ) → ℝ) :=
  if ls.isEmpty then .error "inputs must be an iterable of at least one Tensor"
  else .ok fun θ => (ls.map fun l => l.coeff * l.head.evaluate (l.inputs θ)).sum

/-- `multiply_hessian` (curvature_matrix_vector_products.py 187-196): the gradient of the inner product of the gradient with
the vector. -/
noncomputable def multiplyHessian (ls : List (FnLoss P)) (θ v : Fin P → ℝ) : Except String (Fin P → ℝ) :=
  (fnTotalLoss ls).map fun total => tfGradients (fun θ => ∑ p, v p * tfGradients total θ p) θ

/-- `multiply_ggn` (198-202) at the parameters `θ`. -/
noncomputable def fnMultiplyGGN (ls : List (FnLoss P)) (θ v : Fin P → ℝ) : Except String (Fin P → ℝ) :=
  multiplyGGN (ls.map fun l => l.at θ) v

end Kfac.Loss
