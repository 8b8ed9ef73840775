import Verif.Grad.Model
import Verif.Params.Model

/-! # The patch extractors of the input factor of a convolution (kfac/python/ops/fisher_factors.py 1871-1935, utils.py 786-905)

Tensors with their shapes, because the mask is multiplied by broadcasting. -/

namespace Kfac.Grad

open Kfac.Stats Kfac.Conv

/-- The geometry of a convolution: sizes of the image and of the output, and what is read. -/
structure ConvGeo where
  h : ℕ
  w : ℕ
  oh : ℕ
  ow : ℕ
  stride : ℤ × ℤ
  rate : ℤ × ℤ
  pad : ℤ × ℤ

/-- The value at `[n, i, j, k]` of a tensor of shape `[N, oh, ow, K]` given by a function. -/
def at4 {N K : ℕ} (f : Fin N → ℤ × ℤ → Fin K → ℝ) : List ℕ → ℝ
  | [n, i, j, k] => if h : n < N ∧ k < K then f ⟨n, h.1⟩ ((i : ℤ), (j : ℤ)) ⟨k, h.2⟩ else 0
  | _ => 0

/-- `tf.extract_image_patches` on a batch, external to the library. -/
def imageTensor {N c : ℕ} (kh kw oh ow : ℕ) (stride rate pad : ℤ × ℤ) (x : Fin N → ℤ × ℤ → Fin c → ℝ) : Tensor ℝ :=
  Tensor.ofFn [N, oh, ow, kh * kw * c] (at4 fun n => imagePatch kh kw stride rate pad (x n))

/-- `extract_convolution_patches` (utils.py 786-855) on a batch: convolve with the identity filter and reshape. The
requested shape has -1 for an unknown batch size, which makes no difference. -/
def convolutionTensor {N c : ℕ} (kh kw : ℕ) (g : ConvGeo) (x : Fin N → ℤ × ℤ → Fin c → ℝ) : Except String (Tensor ℝ) :=
  let filters := identityFilter (R := ℝ) kh kw c
  let result := Tensor.ofFn [N, g.oh, g.ow, kh * kw * c] (at4 fun n => convolution g.stride g.rate g.pad (x n) filters)
  result.reshape [N, g.oh, g.ow, kh, kw, c]

/-- `extract_pointwise_conv2d_patches` (utils.py 858-901): patches of size 1×1 at all pixels. `static` says whether the
size of the batch is known when the graph is built; `tf.reshape` does not take `None`. -/
def pointwiseTensor {N c : ℕ} (static : Bool) (kh kw : ℕ) (g : ConvGeo) (x : Fin N → ℤ × ℤ → Fin c → ℝ) :
    Except String (Tensor ℝ) :=
  if kh ≠ 1 ∨ kw ≠ 1 then .error "ValueError: filter_shape must have shape 1 along spatial dimensions."
  else
    let result := imageTensor 1 1 g.h g.w (1, 1) (1, 1) (0, 0) x
    if !static then .error "TypeError: Failed to convert object of type list to Tensor"
    else result.reshape [N, g.h, g.w, kh, kw, c]

/-- The choice of the extractor (fisher_factors.py 1874-1907) for images with channels last. -/
def extract {N c : ℕ} (fn : Option String) (static : Bool) (kh kw : ℕ) (g : ConvGeo) (x : Fin N → ℤ × ℤ → Fin c → ℝ) :
    Except String (Tensor ℝ) :=
  if fn = none ∨ fn = some "extract_convolution_patches" then convolutionTensor kh kw g x
  else if fn = some "extract_image_patches" then .ok (imageTensor kh kw g.oh g.ow g.stride g.rate g.pad x)
  else if fn = some "extract_pointwise_conv2d_patches" then
    if g.stride ≠ (1, 1) then .error "AssertionError"
    else if ¬(kh = 1 ∧ kw = 1) then .error "AssertionError"
    else pointwiseTensor static kh kw g x
  else .error "NotImplementedError"

/-- Add dimensions of size 1 in front, as broadcasting does. -/
def padRank (rank : ℕ) (t : Tensor ℝ) : Tensor ℝ := ⟨List.replicate (rank - t.shape.length) 1 ++ t.shape, t.data⟩

/-- `a * b` with broadcasting. -/
def mulBroadcast (a b : Tensor ℝ) : Except String (Tensor ℝ) :=
  let rank := max a.shape.length b.shape.length
  Params.broadcastMul (padRank rank a) (padRank rank b)

/-- `patches *= tf.reshape(self._patch_mask, [-1])` (fisher_factors.py 1908-1911). -/
def maskPatches (kh kw c : ℕ) (mask : Option (Tensor ℝ)) (patches : Tensor ℝ) : Except String (Tensor ℝ) :=
  match mask with
  | none => .ok patches
  | some m =>
    if m.shape ≠ [kh, kw, c] then .error "AssertionError"
    else mulBroadcast patches ⟨[m.data.length], m.data⟩

/-- `tf.reshape(patches, [-1, flatten_size])` (fisher_factors.py 1913-1919) as the list of rows. TensorFlow does not infer
the number of rows if `flatten_size` is zero. -/
def patchesFlat (K : ℕ) (t : Tensor ℝ) : Except String (Rows K) :=
  if K = 0 ∨ t.data.length % K ≠ 0 then .error "InvalidArgumentError: reshape"
  else .ok (List.ofFn fun r : Fin (t.data.length / K) => fun k : Fin K => t.data.getD (r * K + k) 0)

/-- `ConvInputKroneckerFactor._compute_new_cov` (fisher_factors.py 1844-1934) without subsampling. -/
noncomputable def extractCov {N c : ℕ} (fn : Option String) (static bias : Bool) (kh kw : ℕ) (g : ConvGeo)
    (mask : Option (Tensor ℝ)) (x : Fin N → ℤ × ℤ → Fin c → ℝ) :
    Except String (Matrix (Fin (kh * kw * c + bias.toNat)) (Fin (kh * kw * c + bias.toNat)) ℝ) := do
  let patches ← extract fn static kh kw g x
  let patches ← maskPatches kh kw c mask patches
  let rows ← patchesFlat (kh * kw * c) patches
  return homogCov bias rows

end Kfac.Grad
