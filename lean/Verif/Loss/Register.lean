import Verif.Loss.Hessian
import Verif.Reg.Model

/-! # The functions that register losses (layer_collection.py 1489-1740) and the total loss (692-722) -/

namespace Kfac.Loss

open Kfac.Reg (ReuseArg LC)

variable {B n P : ℕ}

/-- The registration functions; `var` is the optional argument of the normal distribution. -/
inductive LossFn where
  | categoricalPredictiveDistribution
  | softmaxCrossEntropyLoss
  | normalPredictiveDistribution (var : Option ℝ)
  | squaredErrorLoss
  | multiBernoulliPredictiveDistribution
  | sigmoidCrossEntropyLoss

/-- The targets a loss can be evaluated at: classes, numbers, or labels. -/
def LossFn.Targets : LossFn → ℕ → ℕ → Type
  | .categoricalPredictiveDistribution, B, n => Fin B → Fin n
  | .softmaxCrossEntropyLoss, B, n => Fin B → Fin n
  | .normalPredictiveDistribution _, B, n => Fin B × Fin n → ℝ
  | .squaredErrorLoss, B, n => Fin B × Fin n → ℝ
  | .multiBernoulliPredictiveDistribution, B, n => Fin B × Fin n → Bool
  | .sigmoidCrossEntropyLoss, B, n => Fin B × Fin n → Bool

/-- The loss object that is constructed, for the inputs `z` (layer_collection.py 1526-1527, 1567-1568, 1612-1613, 1650-1652,
1695-1696, 1735-1736); the default variance is that of 1575. -/
noncomputable def LossFn.loss (f : LossFn) (z : Batch B n) : AnyLoss B n :=
  match f with
  | .categoricalPredictiveDistribution => .categorical ⟨z⟩
  | .softmaxCrossEntropyLoss => .categorical ⟨z⟩
  | .normalPredictiveDistribution var => .normalMean ⟨z, var.getD 0.5⟩
  | .squaredErrorLoss => .normalMean ⟨z, 0.5⟩
  | .multiBernoulliPredictiveDistribution => .multiBernoulli ⟨z⟩
  | .sigmoidCrossEntropyLoss => .multiBernoulli ⟨z⟩

/-- `_evaluate` of that object (loss_functions.py 363-364). -/
noncomputable def LossFn.evaluate (f : LossFn) : f.Targets B n → Batch B n → ℝ :=
  match f with
  | .categoricalPredictiveDistribution => fun y z => Categorical.evaluate ⟨z⟩ y
  | .softmaxCrossEntropyLoss => fun y z => Categorical.evaluate ⟨z⟩ y
  | .normalPredictiveDistribution var => fun y z => NormalMean.evaluate ⟨z, var.getD 0.5⟩ y
  | .squaredErrorLoss => fun y z => NormalMean.evaluate ⟨z, 0.5⟩ y
  | .multiBernoulliPredictiveDistribution => fun y z => MultiBernoulli.evaluate ⟨z⟩ y
  | .sigmoidCrossEntropyLoss => fun y z => MultiBernoulli.evaluate ⟨z⟩ y

/-- The base of the generated names (1529, 1570, 1615, 1654, 1698, 1738). -/
def LossFn.baseName : LossFn → String
  | .categoricalPredictiveDistribution => "categorical_predictive_distribution"
  | .softmaxCrossEntropyLoss => "sparse_softmax_cross_entropy_loss"
  | .normalPredictiveDistribution _ => "normal_predictive_distribution"
  | .squaredErrorLoss => "squared_error_loss"
  | .multiBernoulliPredictiveDistribution => "multi_bernoulli_predictive_distribution"
  | .sigmoidCrossEntropyLoss => "sigmoid_cross_entropy_loss"

/-- A call: the function, the optional targets, the logits, mean or prediction as a function of the parameters of the model, the
optional name and coefficient, and the reuse flag. A coefficient is a number, not a tensor; seeds and devices are left out. -/
structure LossCall (P : ℕ) where
  B : ℕ
  n : ℕ
  fn : LossFn
  targets : Option (fn.Targets B n)
  inputs : (Fin P → ℝ) → Batch B n
  name : Option String
  coeff : Option ℚ
  reuse : ReuseArg

/-- The coefficient: `coeff=1.0` by default (1494, 1537, 1579, 1623, 1662, 1706). -/
def LossCall.weight (c : LossCall P) : ℚ := c.coeff.getD 1

/-- The collection, the names in use in the graph, and the loss objects in the order of creation. -/
structure Losses (P : ℕ) where
  lc : LC
  used : List String
  objs : List (LossCall P)

/-- `graph.unique_name`: any function that returns a name that is not in use. -/
structure Namer where
  fresh : List String → String → String
  new : ∀ used base, fresh used base ∉ used

/-- Whether a name was given: `name or ...` takes the empty string for none (layer_collection.py 532). -/
def givenName : Option String → Bool
  | some s => decide (s ≠ "")
  | none => false

/-- A registration function: it makes the loss and calls `_register_loss_function` (496-565), which makes up a name only
if it gets that far. -/
def Losses.register (nm : Namer) (s : Losses P) (c : LossCall P) : Losses P × Except String Unit :=
  let graphName := nm.fresh s.used c.fn.baseName
  let used := if s.lc.finalized ∨ givenName c.name then s.used else graphName :: s.used
  let r := Reg.registerLoss s.lc c.name graphName c.weight c.reuse
  match r.2 with
  | .ok _ => (⟨r.1, used, s.objs ++ [c]⟩, .ok ())
  | .error e => (⟨r.1, used, s.objs⟩, .error e)

/-- A statement of a program: a registration of a loss, another operation whose name is taken in the graph, or another call
of the collection. -/
inductive Stmt (P : ℕ) where
  | loss (c : LossCall P)
  | graphOp (name : String)
  | other (op : { op : Reg.Op // ∀ n g c r, op ≠ .loss n g c r })

/-- One statement. -/
def Losses.step (nm : Namer) (g : Reg.Var → ℕ) (s : Losses P) : Stmt P → Losses P × Except String Unit
  | .loss c => s.register nm c
  | .graphOp name => ({ s with used := name :: s.used }, .ok ())
  | .other op => ({ s with lc := (Reg.step g s.lc op.1).1 }, (Reg.step g s.lc op.1).2)

/-- The state after a program in which every exception is caught. -/
def Losses.run (nm : Namer) (g : Reg.Var → ℕ) (s : Losses P) (p : List (Stmt P)) : Losses P :=
  p.foldl (fun s st => (s.step nm g st).1) s

/-- A new collection in a graph. -/
def Losses.start (used : List String) : Losses P := ⟨LC.init, used, []⟩

/-- `evaluate` (loss_functions.py 55-62). -/
noncomputable def LossCall.evaluate (c : LossCall P) (θ : Fin P → ℝ) : Except String ℝ :=
  match c.targets with
  | some y => .ok (c.fn.evaluate y (c.inputs θ))
  | none => .error "Cannot evaluate losses with unspecified targets."

/-- The object with a number, and its coefficient. -/
def Losses.get (s : Losses P) (i : ℕ) : Except String (LossCall P × ℚ) :=
  match s.objs[i]?, Reg.lookup s.lc.lossCoeffs i with
  | some c, some q => .ok (c, q)
  | _, _ => .error "KeyError"

/-- The losses in the order of the dictionary, with their coefficients (layer_collection.py 275-283). -/
def Losses.all (s : Losses P) : Except String (List (LossCall P × ℚ)) := s.lc.losses.mapM s.get

/-- `total_loss()` (692-718): `tf.add_n` needs a summand. -/
noncomputable def Losses.totalLoss (s : Losses P) (θ : Fin P → ℝ) : Except String ℝ := do
  let ls ← s.all
  let values ← ls.mapM fun l => (l.1.evaluate θ).map fun x => (l.2 : ℝ) * x
  if values.isEmpty then .error "inputs must be an iterable of at least one Tensor" else .ok values.sum

/-- The loss with the Jacobian of its inputs (curvature_matrix_vector_products.py 100-120). -/
noncomputable def LossCall.at (c : LossCall P) (q : ℚ) (θ : Fin P → ℝ) : LossJ P :=
  ⟨⟨c.B, c.n, c.fn.loss (c.inputs θ), q⟩, .single fun b i => tfGradients (fun θ => c.inputs θ b i) θ⟩

/-- `multiply_ggn` of the registered losses (curvature_matrix_vector_products.py 198-202). -/
noncomputable def Losses.multiplyGGN (s : Losses P) (θ v : Fin P → ℝ) : Except String (Fin P → ℝ) := do
  let ls ← s.all
  Loss.multiplyGGN (ls.map fun l => l.1.at l.2 θ) v

end Kfac.Loss
