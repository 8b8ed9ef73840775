import Verif.Stats.Model
import Verif.Conv.Model
import Mathlib.Algebra.Order.Floor.Ring
import Mathlib.Data.Fin.Tuple.Basic

/-! # The statistics collected by the factors (kfac/python/ops/fisher_factors.py 943-1273, 1276-1367, 1518-1975, 2408-2475)

Batches are functions of the example `n : Fin N`. `ds` are the derivatives of the loss by the outputs of the layer, as
`tf.gradients` returns them. All of it is for one source and one tower; `Kfac.Stats` has the sums over these. -/

namespace Kfac.Grad

open Kfac.Stats Kfac.Conv

/-- `append_homog` if the layer has a bias (fisher_factors.py 247-270). -/
def appendHomog {p : ℕ} (bias : Bool) (x : Fin p → ℝ) : Fin (p + bias.toNat) → ℝ := Fin.append x fun _ => 1

/-! ### Diagonal factors -/

/-- `FullyConnectedDiagonalFactor._compute_new_cov` (fisher_factors.py 1353-1365). -/
noncomputable def fcDiagonal {N p q : ℕ} (bias : Bool) (x : Fin N → Fin p → ℝ) (ds : Fin N → Fin q → ℝ) :
    Matrix (Fin (p + bias.toNat)) (Fin q) ℝ :=
  let squaredInputs : Matrix (Fin N) (Fin (p + bias.toNat)) ℝ := fun n i => appendHomog bias (x n) i ^ 2
  let squaredGrads : Matrix (Fin N) (Fin q) ℝ := fun n j => ds n j ^ 2
  fun i j => (squaredInputs.transpose * squaredGrads) i j / N

/-- `tf.extract_image_patches` on one example at output position `p`, external to the library: entries of the input in
the order row, column, channel. -/
def imagePatch {c : ℕ} (kh kw : ℕ) (stride rate pad : ℤ × ℤ) (x : ℤ × ℤ → Fin c → ℝ) (p : ℤ × ℤ)
    (k : Fin (kh * kw * c)) : ℝ :=
  let tap := finProdFinEquiv.symm (finProdFinEquiv.symm k).1
  x (p.1 * stride.1 + (tap.1 : ℤ) * rate.1 - pad.1, p.2 * stride.2 + (tap.2 : ℤ) * rate.2 - pad.2)
    (finProdFinEquiv.symm k).2

/-- The index into a dimension of size `m` that broadcasts to one of size `n`. -/
def bIndex {m n : ℕ} (h : m = n ∨ m = 1) (i : Fin n) : Fin m :=
  ⟨if m = 1 then 0 else i, by have := i.isLt; split <;> omega⟩

/-- `patches *= patch_mask` in `ConvDiagonalFactor` (fisher_factors.py 1639-1642): the mask of shape `[kh, kw, c]` is
broadcast against patches of shape `[batch, oh, ow, kh * kw * c]`. Masks that would enlarge the patches (where `oh`, `ow`
or the number of taps is 1 and the size of the mask is not) do not fit the gradients any more and count as errors. -/
def maskPositions {kh kw c oh ow K : ℕ} (mask : Fin kh → Fin kw → Fin c → ℝ) (patches : Fin oh → Fin ow → Fin K → ℝ) :
    Except String (Fin oh → Fin ow → Fin K → ℝ) :=
  if h : (kh = oh ∨ kh = 1) ∧ (kw = ow ∨ kw = 1) ∧ (c = K ∨ c = 1) then
    .ok fun i j k => patches i j k * mask (bIndex h.1 i) (bIndex h.2.1 j) (bIndex h.2.2 k)
  else .error "InvalidArgumentError: Incompatible shapes"

/-- The patches of one example over all output positions. -/
def patchGrid {c : ℕ} (kh kw oh ow : ℕ) (stride rate pad : ℤ × ℤ) (x : ℤ × ℤ → Fin c → ℝ) (i : Fin oh) (j : Fin ow)
    (k : Fin (kh * kw * c)) : ℝ :=
  imagePatch kh kw stride rate pad x ((i : ℤ), (j : ℤ)) k

/-- The patches `ConvDiagonalFactor` uses for one example (fisher_factors.py 1619-1648). -/
def diagonalPatches {kh kw c oh ow : ℕ} (bias : Bool) (stride rate pad : ℤ × ℤ)
    (mask : Option (Fin kh → Fin kw → Fin c → ℝ)) (x : ℤ × ℤ → Fin c → ℝ) :
    Except String (Fin oh → Fin ow → Fin (kh * kw * c + bias.toNat) → ℝ) :=
  let patches := patchGrid kh kw oh ow stride rate pad x
  match mask with
  | none => .ok fun i j => appendHomog bias (patches i j)
  | some m => match maskPositions m patches with
    | .error e => .error e
    | .ok patches => .ok fun i j => appendHomog bias (patches i j)

/-- The `einsum` "bijk,bijl->bkl" for one example (fisher_factors.py 1667). -/
noncomputable def caseWise {oh ow K o : ℕ} (patches : Fin oh → Fin ow → Fin K → ℝ) (ds : Fin oh → Fin ow → Fin o → ℝ) :
    Matrix (Fin K) (Fin o) ℝ := fun k l => ∑ i, ∑ j, patches i j k * ds i j l

/-- `ConvDiagonalFactor._compute_new_cov` (fisher_factors.py 1652-1661). -/
noncomputable def convDiagonal {N K oh ow o : ℕ} (patches : Fin N → Fin oh → Fin ow → Fin K → ℝ)
    (ds : Fin N → Fin oh → Fin ow → Fin o → ℝ) : Matrix (Fin K) (Fin o) ℝ :=
  fun k l => (∑ n, caseWise (patches n) (ds n) k l ^ 2) / N

/-! ### Kronecker factors of convolutions -/

/-- The number of patches `_subsample_patches` keeps (fisher_factors.py 371-372). -/
noncomputable def numPatches (maxNum : ℕ) (perDim : ℝ) (dimension : ℕ) : ℕ := min maxNum ⌈perDim * dimension⌉₊

/-- `_random_tensor_gather` (fisher_factors.py 390-409): `σ` is the random shuffle of the indices. -/
def randomGather {α : Type} (l : List α) (σ : Equiv.Perm (Fin l.length)) (num : ℕ) : List α :=
  ((List.ofFn σ).take num).map fun i => l[i]

/-- `_subsample_patches` (fisher_factors.py 345-387) keeping `num` patches. -/
def subsample {α : Type} (num : ℕ) (l : List α) (σ : Equiv.Perm (Fin l.length)) : List α :=
  if num < l.length then randomGather l σ num else l

/-- The mask multiplied in `ConvInputKroneckerFactor` (fisher_factors.py 1908-1911), reshaped to one dimension, for the
patch extractors with one dimension of taps. -/
def maskTaps {kh kw c : ℕ} (mask : Option (Fin kh → Fin kw → Fin c → ℝ)) (patch : Fin (kh * kw * c) → ℝ)
    (k : Fin (kh * kw * c)) : ℝ :=
  match mask with
  | none => patch k
  | some m => patch k * m (finProdFinEquiv.symm (finProdFinEquiv.symm k).1).1
      (finProdFinEquiv.symm (finProdFinEquiv.symm k).1).2 (finProdFinEquiv.symm k).2

/-- `patches_flat` for a list of inputs (fisher_factors.py 1882-1919). -/
def patchRows {kh kw c : ℕ} (oh ow : ℕ) (stride rate pad : ℤ × ℤ) (mask : Option (Fin kh → Fin kw → Fin c → ℝ))
    (inputs : List (ℤ × ℤ → Fin c → ℝ)) : Rows (kh * kw * c) :=
  inputs.flatMap fun x => (List.ofFn fun i : Fin oh => List.ofFn fun j : Fin ow =>
    maskTaps mask (patchGrid kh kw oh ow stride rate pad x i j)).flatten

/-- The end of `ConvInputKroneckerFactor._compute_new_cov` (fisher_factors.py 1924-1935): `append_homog` and
`compute_cov`. -/
noncomputable def homogCov {K : ℕ} (bias : Bool) (rows : Rows K) :
    Matrix (Fin (K + bias.toNat)) (Fin (K + bias.toNat)) ℝ :=
  computeCov (rows.map (appendHomog bias))

/-- `ConvOutputKroneckerFactor._compute_new_cov` (fisher_factors.py 2462-2474): all positions of all examples are rows. -/
noncomputable def convOutputCov {N oh ow o : ℕ} (ds : Fin N → Fin oh → Fin ow → Fin o → ℝ) : Matrix (Fin o) (Fin o) ℝ :=
  computeCov ((List.ofFn fun n => (List.ofFn fun i => List.ofFn fun j => ds n i j).flatten).flatten)

/-- `ConvInputKroneckerFactor._compute_new_cov` (fisher_factors.py 1844-1934) without subsampling. -/
noncomputable def convInputCov {kh kw c : ℕ} (bias : Bool) (oh ow : ℕ) (stride rate pad : ℤ × ℤ)
    (mask : Option (Fin kh → Fin kw → Fin c → ℝ)) (inputs : List (ℤ × ℤ → Fin c → ℝ)) :
    Matrix (Fin (kh * kw * c + bias.toNat)) (Fin (kh * kw * c + bias.toNat)) ℝ :=
  homogCov bias (patchRows oh ow stride rate pad mask inputs)

/-- The same with `sub_sample_patches`. -/
noncomputable def convInputCovPatches {kh kw c : ℕ} (bias : Bool) (oh ow : ℕ) (stride rate pad : ℤ × ℤ)
    (mask : Option (Fin kh → Fin kw → Fin c → ℝ)) (maxNum : ℕ) (perDim : ℝ) (inputs : List (ℤ × ℤ → Fin c → ℝ))
    (σ : Equiv.Perm (Fin (patchRows oh ow stride rate pad mask inputs).length)) :
    Matrix (Fin (kh * kw * c + bias.toNat)) (Fin (kh * kw * c + bias.toNat)) ℝ :=
  homogCov bias (subsample (numPatches maxNum perDim (kh * kw * c)) (patchRows oh ow stride rate pad mask inputs) σ)

/-- The inputs kept with `sub_sample_inputs` (fisher_factors.py 1843-1859): `_INPUTS_TO_EXTRACT_PATCHES_FACTOR` of the
batch, rounded up. -/
noncomputable def subsampleInputs {α : Type} (factor : ℝ) (inputs : List α) (σ : Equiv.Perm (Fin inputs.length)) : List α :=
  randomGather inputs σ ⌈(inputs.length : ℝ) * factor⌉₊

/-! ### Sparse inputs -/

/-- One row of `tf.one_hot(ids, depth)`: indices out of range give a row of zeros. -/
def oneHot {V : ℕ} (id : ℤ) : Fin V → ℝ := fun v => if id = (v : ℤ) then 1 else 0

/-- The sparse branch of `DiagonalKroneckerFactor._compute_new_cov_from_tensor` (fisher_factors.py 1187-1224). -/
noncomputable def sparseDiagonal {V : ℕ} (bias : Bool) (ids : List ℤ) : Fin (V + bias.toNat) → ℝ :=
  appendHomog bias fun v => (ids.map fun id => oneHot (V := V) id v).sum / (ids.length : ℝ)

/-- The dense branch (fisher_factors.py 1170-1175, 1209-1213). -/
noncomputable def denseDiagonal {V : ℕ} (bias : Bool) (rows : Rows V) : Fin (V + bias.toNat) → ℝ :=
  appendHomog bias (computeDiagCov rows)

/-! ### Naive factors -/

/-- `NaiveFullFB`/`NaiveDiagonalFB`: the batch size is the sum over the registered towers (fisher_blocks.py 334-362,
422-449). -/
def naiveBatchSize (towers : List ℕ) : ℕ := towers.sum

/-- `NaiveFullFactor._compute_new_cov` (fisher_factors.py 986-992): `g gᵀ / batch_size` for the gradient `g` of the total
loss, as one column. -/
noncomputable def naiveFull {P : Type} (batchSize : ℕ) (g : P → ℝ) : Matrix P P ℝ := fun i j => g i * g j / batchSize

/-- `NaiveDiagonalFactor._compute_new_cov` (fisher_factors.py 1097-1100). -/
noncomputable def naiveDiagonal {P : Type} (batchSize : ℕ) (g : P → ℝ) : P → ℝ := fun i => g i ^ 2 / batchSize

end Kfac.Grad
