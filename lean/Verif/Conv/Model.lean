import Mathlib.Data.Int.Interval
import Mathlib.Data.Finset.Card
import Mathlib.Data.Fintype.Pi
import Mathlib.Logic.Equiv.Fin.Basic
import Mathlib.Algebra.BigOperators.Group.Finset.Basic
import Mathlib.Algebra.Ring.Defs
import Mathlib.Data.Matrix.Basic

/-! # Convolutions: number of locations and patches (kfac/python/ops/utils.py 786-855, 1329-1379) -/

namespace Kfac.Conv

/-! ### num_conv_locations -/

/-- `-(-a // b)` with Python's floor division; division by zero is excluded by the strides. -/
def ceilDiv (a b : ℤ) : ℤ := -((-a).fdiv b)

/-- Python list indexing with a literal index. -/
def get (l : List ℤ) (i : ℕ) : Except String ℤ :=
  match l[i]? with
  | some x => .ok x
  | none => .error "IndexError"

/-- One spatial dimension (utils.py 1366-1377). -/
def outSize (valid : Bool) (n k s : ℤ) : Except String ℤ :=
  if s = 0 then .error "ZeroDivisionError"
  else .ok (if valid then ceilDiv (n - k + 1) s else ceilDiv n s)

/-- `num_conv_locations` (utils.py 1329-1379). `valid` says whether `padding` is given and equals "valid" up to case. -/
def numConvLocations (inputShape filterShape : List ℤ) (strides : Option (List ℤ)) (valid : Bool) :
    Except String ℤ :=
  if inputShape.length ≠ 4 ∧ inputShape.length ≠ 3 then .error "ValueError: input_shape must be length 4 or 3"
  else if inputShape.length ≠ filterShape.length then .error "ValueError: Inconsistent number of dimensions"
  else do
    let strides := strides.getD (List.replicate inputShape.length 1)
    if inputShape.length = 3 then
      outSize valid (← get inputShape 1) (← get filterShape 0) (← get strides 1)
    else
      let height ← outSize valid (← get inputShape 1) (← get filterShape 0) (← get strides 1)
      let width ← outSize valid (← get inputShape 2) (← get filterShape 1) (← get strides 2)
      return height * width

/-! ### extract_convolution_patches -/

/-- `tf.nn.convolution` on a batch of two-dimensional images with channels last, which is external to the
library: output position `p`, channel `o`, reads the input at `p·stride + δ·rate - pad` for each filter position `δ`;
outside the image it reads zero. Any padding amounts are allowed, so both padding modes are covered. -/
def convolution {R : Type} [CommRing R] {kh kw c o : ℕ} (stride rate pad : ℤ × ℤ) (x : ℤ × ℤ → Fin c → R)
    (f : Fin kh → Fin kw → Fin c → Fin o → R) (p : ℤ × ℤ) (out : Fin o) : R :=
  ∑ dh : Fin kh, ∑ dw : Fin kw, ∑ ch : Fin c,
    x (p.1 * stride.1 + (dh : ℤ) * rate.1 - pad.1, p.2 * stride.2 + (dw : ℤ) * rate.2 - pad.2) ch * f dh dw ch out

/-- Row-major position of the entry `(dh, dw, ch)` of a tensor of shape `[kh, kw, c]`, as used by `tf.reshape`. -/
def flat {kh kw c : ℕ} (dh : Fin kh) (dw : Fin kw) (ch : Fin c) : Fin (kh * kw * c) :=
  finProdFinEquiv (finProdFinEquiv (dh, dw), ch)

/-- `tf.reshape(tf.eye(n), [kh, kw, c, n])` with `n = kh * kw * c` (utils.py 831-835). -/
def identityFilter {R : Type} [CommRing R] (kh kw c : ℕ) (dh : Fin kh) (dw : Fin kw) (ch : Fin c)
    (out : Fin (kh * kw * c)) : R := if flat dh dw ch = out then 1 else 0

/-- `extract_convolution_patches` (utils.py 786-855) for two spatial dimensions, on one example: convolve with the
identity filter and reshape the last dimension to `[kh, kw, c]`. -/
def extractPatches {R : Type} [CommRing R] {c : ℕ} (kh kw : ℕ) (stride rate pad : ℤ × ℤ) (x : ℤ × ℤ → Fin c → R)
    (p : ℤ × ℤ) (dh : Fin kh) (dw : Fin kw) (ch : Fin c) : R :=
  convolution stride rate pad x (identityFilter kh kw c) p (flat dh dw ch)

/-- The treatment of `strides` and `dilation_rate` (utils.py 837-841): full length arguments lose the batch and channel
entries. -/
def spatial (rank : ℕ) (l : Option (List ℤ)) : Option (List ℤ) :=
  l.map fun l => if l.length = rank then (l.drop 1).dropLast else l

end Kfac.Conv
