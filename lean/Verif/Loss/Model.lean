import Mathlib.Analysis.SpecialFunctions.Pow.Real
import Mathlib.Analysis.SpecialFunctions.Log.Basic
import Mathlib.Algebra.BigOperators.Fin

/-!
# Model of the loss functions (`kfac/python/ops/loss_functions.py`)

A tensor of shape `[B, n]` is a function `Fin B → Fin n → ℝ`. The products are modelled for rank-2 inputs,
the shapes registered by `LayerCollection`.
-/

namespace Kfac.Loss

/-- A tensor of shape `[B, n]`. -/
abbrev Batch (B n : Nat) := Fin B → Fin n → ℝ

variable {B n : Nat}

/-- `insert_slice_in_zeros(slice, dim=1, dim_size, position)` (loss_functions.py 706-738) on a slice of
shape `[B, w]`. The check on the slice width and the non-negativity of `tf.pad`'s paddings are errors. -/
def insertSlice {w : Nat} (slice : Batch B w) (dimSize position : Nat) : Except String (Batch B dimSize) :=
  if h : w = 1 then
    if position < dimSize then
      .ok fun b j => if j.1 = position then slice b ⟨0, by omega⟩ else 0
    else .error "tf.pad: negative paddings"
  else .error "Expected slice_to_insert.shape to have dim of 1"

/-- Column `index` as a slice of shape `[B, 1]` (`tf.expand_dims(x[:, index], -1)`). -/
def column (x : Batch B n) (index : Nat) : Except String (Batch B 1) :=
  if h : index < n then .ok fun b _ => x b ⟨index, h⟩ else .error "slice index out of bounds"

/-! ### NormalMeanNegativeLogProbLoss (loss_functions.py 370-427) -/

/-- Parameters of a Gaussian loss with fixed variance. -/
structure NormalMean (B n : Nat) where
  mean : Batch B n
  var : ℝ

/-- loss_functions.py 404-405 -/
noncomputable def NormalMean.multiplyFisher (l : NormalMean B n) (v : Batch B n) : Batch B n :=
  fun b i => 1 / l.var * v b i

/-- loss_functions.py 407-408 -/
noncomputable def NormalMean.multiplyFactor (l : NormalMean B n) (v : Batch B n) : Batch B n :=
  fun b i => l.var ^ (-(1 / 2) : ℝ) * v b i

/-- loss_functions.py 410-411 -/
noncomputable def NormalMean.multiplyFactorT (l : NormalMean B n) (v : Batch B n) : Batch B n :=
  l.multiplyFactor v

/-- loss_functions.py 413-419 -/
noncomputable def NormalMean.oneHot (l : NormalMean B n) (index : List Nat) : Except String (Batch B n) :=
  match index with
  | [i] =>
    let onesSlice : Batch B 1 := fun _ _ => 1
    let outputSlice : Batch B 1 := fun b j => l.var ^ (-(1 / 2) : ℝ) * onesSlice b j
    insertSlice outputSlice n i
  | _ => .error "Length of index"

/-! ### NormalMeanVarianceNegativeLogProbLoss (loss_functions.py 430-555) -/

/-- Parameters of a Gaussian loss with mean and variance. -/
structure NormalMeanVar (B n : Nat) where
  mean : Batch B n
  variance : Batch B n

/-- `_concat` (loss_functions.py 469-470). -/
def concatB (a b : Batch B n) : Batch B (n + n) := fun r => Fin.append (a r) (b r)

/-- `_split` into two equal parts along the last axis (loss_functions.py 472-473). -/
def splitB (x : Batch B (n + n)) : Batch B n × Batch B n :=
  (fun r i => x r (Fin.castAdd n i), fun r i => x r (Fin.natAdd n i))

/-- loss_functions.py 475-489 -/
noncomputable def NormalMeanVar.fisherMean (l : NormalMeanVar B n) : Batch B n :=
  fun b i => 1 / l.variance b i
noncomputable def NormalMeanVar.fisherMeanFactor (l : NormalMeanVar B n) : Batch B n :=
  fun b i => 1 / Real.sqrt (l.variance b i)
noncomputable def NormalMeanVar.fisherVar (l : NormalMeanVar B n) : Batch B n :=
  fun b i => 1 / (2 * l.variance b i ^ 2)
noncomputable def NormalMeanVar.fisherVarFactor (l : NormalMeanVar B n) : Batch B n :=
  fun b i => 1 / (Real.sqrt 2 * l.variance b i)

/-- loss_functions.py 491-493 -/
noncomputable def NormalMeanVar.multiplyFisher (l : NormalMeanVar B n) (v : Batch B n × Batch B n) :
    Batch B n × Batch B n :=
  (fun b i => l.fisherMean b i * v.1 b i, fun b i => l.fisherVar b i * v.2 b i)

/-- loss_functions.py 495-498 -/
noncomputable def NormalMeanVar.multiplyFactor (l : NormalMeanVar B n) (x : Batch B (n + n)) :
    Batch B n × Batch B n :=
  let (m, v) := splitB x
  (fun b i => l.fisherMeanFactor b i * m b i, fun b i => l.fisherVarFactor b i * v b i)

/-- loss_functions.py 500-503 -/
noncomputable def NormalMeanVar.multiplyFactorT (l : NormalMeanVar B n) (v : Batch B n × Batch B n) :
    Batch B (n + n) :=
  concatB (fun b i => l.fisherMeanFactor b i * v.1 b i) (fun b i => l.fisherVarFactor b i * v.2 b i)

/-- loss_functions.py 505-525 -/
noncomputable def NormalMeanVar.oneHot (l : NormalMeanVar B n) (index : List Nat) :
    Except String (Batch B n × Batch B n) :=
  match index with
  | [i] =>
    if i < n then do
      let slice ← column l.fisherMeanFactor i
      let meanOutput ← insertSlice slice n i
      return (meanOutput, fun _ _ => 0)
    else do
      let slice ← column l.fisherVarFactor (i - n)
      let varOutput ← insertSlice slice n (i - n)
      return (fun _ _ => 0, varOutput)
  | _ => .error "Length of index"

/-! ### CategoricalLogitsNegativeLogProbLoss (loss_functions.py 558-642; OneHotCategorical 741-752
inherits all products) -/

/-- Softmax along the last axis (`probs_parameter` of TFP's categorical distributions). -/
noncomputable def softmax (x : Fin n → ℝ) : Fin n → ℝ := fun i => Real.exp (x i) / ∑ j, Real.exp (x j)

/-- Parameters of a categorical loss. -/
structure Categorical (B n : Nat) where
  logits : Batch B n

noncomputable def Categorical.probs (l : Categorical B n) : Batch B n := fun b => softmax (l.logits b)
noncomputable def Categorical.sqrtProbs (l : Categorical B n) : Batch B n :=
  fun b i => Real.sqrt (l.probs b i)

/-- loss_functions.py 610-613 -/
noncomputable def Categorical.multiplyFisher (l : Categorical B n) (v : Batch B n) : Batch B n :=
  fun b i => v b i * l.probs b i - l.probs b i * ∑ j, v b j * l.probs b j

/-- loss_functions.py 615-619 -/
noncomputable def Categorical.multiplyFactor (l : Categorical B n) (v : Batch B n) : Batch B n :=
  fun b i => l.sqrtProbs b i * v b i - l.probs b i * ∑ j, l.sqrtProbs b j * v b j

/-- loss_functions.py 621-625 -/
noncomputable def Categorical.multiplyFactorT (l : Categorical B n) (v : Batch B n) : Batch B n :=
  fun b i => l.sqrtProbs b i * v b i - l.sqrtProbs b i * ∑ j, l.probs b j * v b j

/-- loss_functions.py 627-634 -/
noncomputable def Categorical.oneHot (l : Categorical B n) (index : List Nat) :
    Except String (Batch B n) :=
  match index with
  | [i] => do
    let slice ← column l.sqrtProbs i
    let padded ← insertSlice slice n i
    return fun b j => padded b j - l.probs b j * slice b 0
  | _ => .error "Length of index"

/-! ### MultiBernoulliNegativeLogProbLoss (loss_functions.py 645-703) -/

/-- `tf.sigmoid`. -/
noncomputable def sigmoid (x : ℝ) : ℝ := 1 / (1 + Real.exp (-x))

/-- Parameters of a multi-Bernoulli loss. -/
structure MultiBernoulli (B n : Nat) where
  logits : Batch B n

noncomputable def MultiBernoulli.probs (l : MultiBernoulli B n) : Batch B n :=
  fun b i => sigmoid (l.logits b i)

/-- loss_functions.py 681-682 -/
noncomputable def MultiBernoulli.multiplyFisher (l : MultiBernoulli B n) (v : Batch B n) : Batch B n :=
  fun b i => l.probs b i * (1 - l.probs b i) * v b i

/-- loss_functions.py 684-685 -/
noncomputable def MultiBernoulli.multiplyFactor (l : MultiBernoulli B n) (v : Batch B n) : Batch B n :=
  fun b i => Real.sqrt (l.probs b i * (1 - l.probs b i)) * v b i

/-- loss_functions.py 687-688 -/
noncomputable def MultiBernoulli.multiplyFactorT (l : MultiBernoulli B n) (v : Batch B n) : Batch B n :=
  l.multiplyFactor v

/-- loss_functions.py 690-695 -/
noncomputable def MultiBernoulli.oneHot (l : MultiBernoulli B n) (index : List Nat) :
    Except String (Batch B n) :=
  match index with
  | [i] => do
    let slice ← column l.probs i
    let outputSlice : Batch B 1 := fun b j => Real.sqrt (slice b j * (1 - slice b j))
    insertSlice outputSlice n i
  | _ => .error "Length of index"

/-! ### Curvature-matrix products (curvature_matrix_vector_products.py) -/

/-- Any loss of the library. -/
inductive AnyLoss (B n : Nat) where
  | normalMean (l : NormalMean B n)
  | normalMeanVar (l : NormalMeanVar B n)
  | categorical (l : Categorical B n)
  | multiBernoulli (l : MultiBernoulli B n)

/-- A value of the same structure as a loss's `inputs`: one tensor or a tuple of two. -/
inductive Val (B n : Nat) where
  | single (x : Batch B n)
  | pair (x y : Batch B n)

/-- `loss.multiply_fisher(vec)`. -/
noncomputable def AnyLoss.fisher : AnyLoss B n → Val B n → Except String (Val B n)
  | .normalMean l, .single v => .ok (.single (l.multiplyFisher v))
  | .normalMeanVar l, .pair v w => .ok (.pair (l.multiplyFisher (v, w)).1 (l.multiplyFisher (v, w)).2)
  | .categorical l, .single v => .ok (.single (l.multiplyFisher v))
  | .multiBernoulli l, .single v => .ok (.single (l.multiplyFisher v))
  | _, _ => .error "structure mismatch"

/-- The GGN product: the Fisher for natural-parameter losses (loss_functions.py 331-349),
`NotImplementedError` for the mean-variance Gaussian (540-555). -/
noncomputable def AnyLoss.ggn : AnyLoss B n → Val B n → Except String (Val B n)
  | .normalMeanVar _, _ => .error "NotImplementedError"
  | l, v => l.fisher v

/-- `multiply_fisher_factor` for losses whose inner shape is the input shape, and the mean-variance loss's
tuple-valued product of a concatenated vector. -/
noncomputable def AnyLoss.factor : AnyLoss B n → (Batch B n ⊕ Batch B (n + n)) → Except String (Val B n)
  | .normalMean l, .inl v => .ok (.single (l.multiplyFactor v))
  | .normalMeanVar l, .inr x => .ok (.pair (l.multiplyFactor x).1 (l.multiplyFactor x).2)
  | .categorical l, .inl v => .ok (.single (l.multiplyFactor v))
  | .multiBernoulli l, .inl v => .ok (.single (l.multiplyFactor v))
  | _, _ => .error "structure mismatch"

/-- `multiply_fisher_factor_transpose`. -/
noncomputable def AnyLoss.factorT : AnyLoss B n → Val B n → Except String (Batch B n ⊕ Batch B (n + n))
  | .normalMean l, .single v => .ok (.inl (l.multiplyFactorT v))
  | .normalMeanVar l, .pair v w => .ok (.inr (l.multiplyFactorT (v, w)))
  | .categorical l, .single v => .ok (.inl (l.multiplyFactorT v))
  | .multiBernoulli l, .single v => .ok (.inl (l.multiplyFactorT v))
  | _, _ => .error "structure mismatch"

/-- A registered loss with its coefficient. -/
structure Reg where
  B : Nat
  n : Nat
  loss : AnyLoss B n
  coeff : ℝ

/-- The Jacobian of a loss's inputs with respect to the `P` entries of the `wrt_tensors`: one component,
or two for a loss with two inputs. -/
inductive Jac (P B n : Nat) where
  | single (j : Fin B → Fin n → Fin P → ℝ)
  | pair (j1 j2 : Fin B → Fin n → Fin P → ℝ)

/-- `_multiply_jacobian` restricted to one loss (curvature_matrix_vector_products.py 100-108). Forward
gradients are modelled as the product with the Jacobian. -/
def Jac.mul {P : Nat} : Jac P B n → (Fin P → ℝ) → Val B n
  | .single j, v => .single fun b i => ∑ p, j b i p * v p
  | .pair j1 j2, v => .pair (fun b i => ∑ p, j1 b i p * v p) (fun b i => ∑ p, j2 b i p * v p)

/-- The contribution of one loss to `_multiply_jacobian_transpose` (110-120). -/
def Jac.mulT {P : Nat} : Jac P B n → Val B n → Except String (Fin P → ℝ)
  | .single j, .single u => .ok fun p => ∑ b, ∑ i, j b i p * u b i
  | .pair j1 j2, .pair u w =>
    .ok fun p => (∑ b, ∑ i, j1 b i p * u b i) + ∑ b, ∑ i, j2 b i p * w b i
  | _, _ => .error "structure mismatch"

/-- `_multiply_across_losses` for one loss when the product has the structure of the inputs (122-133):
`val.dtype` raises when the product is a tuple. -/
def scaleVal (multiplier : ℝ) : Val B n → Except String (Val B n)
  | .single x => .ok (.single fun b i => multiplier * x b i)
  | .pair _ _ => .error "AttributeError: 'tuple' object has no attribute 'dtype'"

/-- The same when the product has the inner structure (always one tensor). -/
def scaleInner (multiplier : ℝ) : Batch B n ⊕ Batch B (n + n) → Batch B n ⊕ Batch B (n + n)
  | .inl x => .inl fun b i => multiplier * x b i
  | .inr x => .inr fun b i => multiplier * x b i

/-- `tf.gradients` sums the contributions of all losses. -/
def sumContribs {P : Nat} (xs : List (Fin P → ℝ)) : Fin P → ℝ := fun p => (xs.map (· p)).sum

/-- A registered loss together with its Jacobian. -/
structure LossJ (P : Nat) where
  reg : Reg
  jac : Jac P reg.B reg.n

/-- `multiply_fisher` (170-174). -/
noncomputable def multiplyFisher {P : Nat} (ls : List (LossJ P)) (v : Fin P → ℝ) :
    Except String (Fin P → ℝ) := do
  let cs ← ls.mapM fun l => do
    let u ← l.reg.loss.fisher (l.jac.mul v)
    let u ← scaleVal l.reg.coeff u
    l.jac.mulT u
  return sumContribs cs

/-- `multiply_ggn` (198-202). -/
noncomputable def multiplyGGN {P : Nat} (ls : List (LossJ P)) (v : Fin P → ℝ) :
    Except String (Fin P → ℝ) := do
  let cs ← ls.mapM fun l => do
    let u ← l.reg.loss.ggn (l.jac.mul v)
    let u ← scaleVal l.reg.coeff u
    l.jac.mulT u
  return sumContribs cs

/-- An inner vector for one loss. -/
abbrev Inner := (B : Nat) × (n : Nat) × (Batch B n ⊕ Batch B (n + n))

/-- `multiply_fisher_factor_transpose` (176-179): one inner vector per loss. -/
noncomputable def multiplyFisherFactorT {P : Nat} (ls : List (LossJ P)) (v : Fin P → ℝ) :
    Except String (List Inner) :=
  ls.mapM fun l => do
    let u ← l.reg.loss.factorT (l.jac.mul v)
    return ⟨l.reg.B, l.reg.n, scaleInner (Real.sqrt l.reg.coeff) u⟩

/-- `multiply_fisher_factor` (181-185); the list of inner vectors is zipped with the losses. -/
noncomputable def multiplyFisherFactor {P : Nat} (ls : List (LossJ P)) (xs : List Inner) :
    Except String (Fin P → ℝ) := do
  let cs ← (ls.zip xs).mapM fun (lx : LossJ P × Inner) =>
    if h : lx.2.1 = lx.1.reg.B ∧ lx.2.2.1 = lx.1.reg.n then do
      let u ← lx.1.reg.loss.factor (h.1 ▸ h.2 ▸ lx.2.2.2)
      let u ← scaleVal (Real.sqrt lx.1.reg.coeff) u
      lx.1.jac.mulT u
    else .error "shape mismatch"
  return sumContribs cs

/-! ### Inner shapes -/

/-- The kinds of losses, for the shape properties. -/
inductive Kind where
  | normalMean
  | normalMeanVar
  | categorical
  | multiBernoulli

/-- `fisher_factor_inner_shape` for inputs of the given shape (loss_functions.py 421-423, 527-530,
636-638, 697-699). -/
def Kind.innerShape (k : Kind) (shape : List Nat) : List Nat :=
  match k with
  | .normalMeanVar => shape.dropLast ++ (shape.drop (shape.length - 1)).map (2 * ·)
  | _ => shape

/-- `fisher_factor_inner_static_shape` (loss_functions.py 425-427, 532-535, 640-642, 701-703), for a fully
known shape; `shape[-1]` of a rank-0 tensor raises. -/
def Kind.innerStaticShape (k : Kind) (shape : List Nat) : Except String (List Nat) :=
  match k with
  | .normalMeanVar =>
    match shape.getLast? with
    | some last => .ok (shape.drop (shape.length - 1) ++ [2 * last])
    | none => .error "IndexError"
  | _ => .ok shape

/-- The curvature matrix an estimator is asked for (estimator.py 169-176). -/
inductive MatType where
  | fisher
  | ggn

/-- The shape attributes the loss classes define (loss_functions.py 122-137, 271-279 and the
subclasses). -/
def lossShapeAttributes : List String :=
  ["ggn_factor_inner_shape", "ggn_factor_inner_static_shape", "fisher_factor_inner_shape",
    "fisher_factor_inner_static_shape"]

/-- The attribute read by the "exact" estimation mode (estimator.py 702 and 708). -/
def exactShapeAttribute : MatType → String
  | .fisher => "fisher_factor_inner_static_shape"
  | .ggn => "fisher_ggn_inner_static_shape"

/-- Number of one-hot gradients computed for a loss by the "exact" estimation mode, which enumerates the
coordinates of the inner shape without the batch dimension, `np.ndindex(*static_shape[1:])`
(estimator.py 696-725). Only the Fisher's attribute is ever found, see above. -/
def exactCount (mt : MatType) (k : Kind) (shape : List Nat) : Except String Nat :=
  if exactShapeAttribute mt ∈ lossShapeAttributes then do
    let s ← k.innerStaticShape shape
    return (s.drop 1).prod
  else .error "AttributeError"

end Kfac.Loss
