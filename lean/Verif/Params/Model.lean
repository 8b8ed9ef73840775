import Verif.Tensor.Basic

/-!
# Model of the parameter-layout helpers of `kfac/python/ops/utils.py` and `fisher_blocks.py`
-/

namespace Kfac.Params
open Kfac

variable {α : Type}

/-- `utils.tensors_to_column` for a list (utils.py 192-205): each tensor is reshaped to a column and
the columns are concatenated on axis 0. A column `[k,1]` is modelled by its `k` entries.
`tf.concat` of zero tensors raises. -/
def tensorsToColumn : List (Tensor α) → Except String (List α)
  | [] => .error "concat of zero tensors"
  | ts => .ok (ts.map Tensor.data).flatten

/-- `utils.tensors_to_column` for a single tensor (utils.py 204-205). -/
def tensorToColumn (t : Tensor α) : List α := t.data

/-- The loop of `utils.column_to_tensors` (utils.py 224-233) with its running `offset`. Python slicing
clamps, so `colvec[offset:offset+sz]` is `take sz (drop offset colvec)`; `tf.reshape` raises when the
slice does not have `sz` entries. -/
def columnLoop (col : List α) : List (List Nat) → Nat → Except String (List (Tensor α))
  | [], _ => .ok []
  | shape :: rest, offset => do
    let sz := shape.prod
    let t ← Tensor.reshape ⟨[((col.drop offset).take sz).length, 1], (col.drop offset).take sz⟩ shape
    let ts ← columnLoop col rest (offset + sz)
    return t :: ts

/-- `utils.column_to_tensors` for a list template (utils.py 208-235). Only the templates' shapes are
used. -/
def columnToTensors (templateShapes : List (List Nat)) (col : List α) :
    Except String (List (Tensor α)) :=
  columnLoop col templateShapes 0

/-- `utils.column_to_tensors` for a single-tensor template (utils.py 232-233). -/
def columnToTensor (shape : List Nat) (col : List α) : Except String (Tensor α) :=
  Tensor.reshape ⟨[col.length, 1], col⟩ shape

/-- Layer parameters: a weight alone, or a (weight, bias) pair. `tf.IndexedSlices` (passed through
unchanged by the code, utils.py 264-265 and 284-288) are not modelled. -/
inductive LayerParams (α : Type) where
  | weight (w : Tensor α)
  | weightBias (w b : Tensor α)
deriving DecidableEq, Repr

/-- `tf.reshape(t, [-1, t.shape[-1]])`: raises on a scalar (`as_list()[-1]`), and when the last
dimension is zero (the missing dimension cannot be inferred). -/
def reshapeTo2d (t : Tensor α) : Except String (Tensor α) :=
  match t.shape.getLast? with
  | none => .error "IndexError: list index out of range"
  | some c =>
    if c = 0 then .error "reshape cannot infer the missing size"
    else if t.data.length % c = 0 then .ok ⟨[t.data.length / c, c], t.data⟩
    else .error "reshape: size mismatch"

/-- `tf.concat((m, row), axis=0)` of two rank-2 tensors: the number of columns must agree. -/
def concatRows (a b : Tensor α) : Except String (Tensor α) :=
  match a.shape, b.shape with
  | [r1, c1], [r2, c2] =>
    if c1 = c2 then .ok ⟨[r1 + r2, c1], a.data ++ b.data⟩ else .error "concat: shape mismatch"
  | _, _ => .error "concat: rank mismatch"

/-- `utils.layer_params_to_mat2d` (utils.py 247-267). -/
def layerParamsToMat2d : LayerParams α → Except String (Tensor α)
  | .weight w => reshapeTo2d w
  | .weightBias w b => do
    let w2 ← reshapeTo2d w
    concatRows w2 ⟨[1, b.data.length], b.data⟩

/-- `mat2d[:-1]` and `mat2d[-1]` of a matrix with `r` rows and `c` columns (utils.py 282). Indexing
row `-1` of a matrix without rows raises. -/
def splitLastRow (m : Tensor α) : Except String (Tensor α × Tensor α) :=
  match m.shape with
  | [r, c] =>
    if r = 0 then .error "slice index -1 out of bounds"
    else .ok (⟨[r - 1, c], m.data.take ((r - 1) * c)⟩, ⟨[c], m.data.drop ((r - 1) * c)⟩)
  | _ => .error "not a matrix"

/-- `utils.mat2d_to_layer_params` (utils.py 270-291); the template enters only through the weight's
shape and whether there is a bias. -/
def mat2dToLayerParams (template : LayerParams α) (m : Tensor α) : Except String (LayerParams α) :=
  match template with
  | .weight w => do
    let t ← m.reshape w.shape
    return .weight t
  | .weightBias w _ => do
    let (wp, bp) ← splitLastRow m
    let t ← wp.reshape w.shape
    return .weightBias t bp

/-- `a * b` with NumPy broadcasting for two tensors of equal rank. -/
def broadcastMul [Zero α] [Mul α] (a b : Tensor α) : Except String (Tensor α) :=
  if a.shape.length = b.shape.length ∧
      (List.zip a.shape b.shape).all (fun p => p.1 = p.2 ∨ p.1 = 1 ∨ p.2 = 1) then
    let shape := List.zipWith (fun x y => if x = 1 then y else x) a.shape b.shape
    .ok (Tensor.ofFn shape fun idx =>
      a.get (List.zipWith (fun i s => if s = 1 then 0 else i) idx a.shape) *
      b.get (List.zipWith (fun i s => if s = 1 then 0 else i) idx b.shape))
  else .error "broadcast: incompatible shapes"

/-- `utils.kronecker_product` (utils.py 238-244). -/
def kroneckerProduct [Zero α] [Mul α] (a b : Tensor α) : Except String (Tensor α) :=
  match a.shape, b.shape with
  | [m1, n1], [m2, n2] => do
    let a' ← a.reshape [m1, 1, n1, 1]
    let b' ← b.reshape [1, m2, 1, n2]
    let p ← broadcastMul a' b'
    p.reshape [m1 * m2, n1 * n2]
  | _, _ => .error "not matrices"

/-! ### Depthwise filters -/

/-- `tf.concat(ts, axis)` for tensors that agree on all other axes: walk along the pieces. The entry
at `idx` is found in the piece containing position `idx[axis]`. -/
def concatGet [Zero α] (axis : Nat) : List (Tensor α) → List Nat → α
  | [], _ => 0
  | t :: ts, idx =>
    let i := idx.getD axis 0
    let n := t.shape.getD axis 0
    if i < n then t.get idx else concatGet axis ts (idx.set axis (i - n))

/-- `tf.concat` on `axis`; shapes must agree outside `axis`, and at least one tensor is needed. -/
def concat [Zero α] (axis : Nat) : List (Tensor α) → Except String (Tensor α)
  | [] => .error "concat of zero tensors"
  | t :: ts =>
    if ts.all (fun u => u.shape.length = t.shape.length ∧ u.shape.set axis 0 = t.shape.set axis 0) then
      let total := ((t :: ts).map fun u => u.shape.getD axis 0).sum
      .ok (Tensor.ofFn (t.shape.set axis total) (concatGet axis (t :: ts)))
    else .error "concat: shape mismatch"

/-- `filter[:, :, i:(i+1), :]`. -/
def sliceChannel [Zero α] (f : Tensor α) (h w i m : Nat) : Tensor α :=
  Tensor.ofFn [h, w, 1, m] fun idx => f.get (idx.set 2 (i + idx.getD 2 0))

/-- `tf.zeros(shape)`. -/
def zeros [Zero α] (shape : List Nat) : Tensor α := Tensor.ofFn shape fun _ => 0

/-- The pieces concatenated for one input channel
(`depthwise_conv2d_filter_to_conv2d_filter`, fisher_blocks.py 1258-1272). -/
def depthwiseElements [Zero α] (f : Tensor α) (h w c m i : Nat) : List (Tensor α) :=
  (if i > 0 then [zeros [h, w, i, m]] else []) ++
  [sliceChannel f h w i m] ++
  (if i + 1 < c then [zeros [h, w, c - (i + 1), m]] else [])

/-- `depthwise_conv2d_filter_to_conv2d_filter` (fisher_blocks.py 1237-1277). -/
def depthwiseToConv [Zero α] (f : Tensor α) : Except String (Tensor α) :=
  match f.shape with
  | [h, w, c, m] => do
    let results ← (List.range c).mapM fun i => concat 2 (depthwiseElements f h w c m i)
    concat 3 results
  | _ => .error "not a rank-4 filter"

/-- `conv2d_filter_to_depthwise_conv2d_filter` (fisher_blocks.py 1280-1321). -/
def convToDepthwise [Zero α] (f : Tensor α) : Except String (Tensor α) :=
  match f.shape with
  | [h, w, c, o] =>
    if c = 0 then .error "ZeroDivisionError"
    else if o % c ≠ 0 then .error "out_channels must be evenly divisible by in_channels."
    else do
      let m := o / c
      let f5 ← f.reshape [h, w, c, c, m]
      let results := (List.range c).map fun i =>
        Tensor.ofFn [h, w, 1, m] fun idx =>
          f5.get [idx.getD 0 0, idx.getD 1 0, i, i, idx.getD 3 0]
      concat 2 results
  | _ => .error "not a rank-4 filter"

end Kfac.Params
