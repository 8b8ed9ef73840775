import Verif.Grad.Scale
import Verif.Reg.Model

/-! # Shapes of statistics, inverses and gradients (fisher_blocks.py, fisher_factors.py, utils.py)

Every function of this file computes what the function of the library does to the static shapes of its tensors, and
fails where TensorFlow or the library raises. A block is followed through one life: the data of its towers is put
together, its factors declare their variables, one update of the statistics is made, and a gradient is multiplied.
Shapes are fully known. The number of locations of a convolution only scales the result and is left out (see C62). The
factor of the "kron_sua" approximation is left out (see C48, C49, C63). -/

namespace Kfac.Shape

abbrev Dims := List ℕ

/-- A tensor: its shape and its attribute `one_hot_depth` if it has one. -/
structure T where
  dims : Dims
  depth : Option ℕ := none
  deriving DecidableEq

/-! ### Operations of TensorFlow -/

/-- `tf.matmul(a, b, transpose_a=ta, transpose_b=tb)` on matrices. -/
def matmul (ta tb : Bool) (a b : Dims) : Except String Dims :=
  match a, b with
  | [m, n], [p, q] =>
    if (if ta then m else n) = (if tb then q else p) then .ok [if ta then n else m, if tb then p else q]
    else .error "ValueError: Dimensions must be equal"
  | _, _ => .error "ValueError: rank"

/-- `tf.transpose` of a matrix. -/
def transpose : Dims → Except String Dims
  | [m, n] => .ok [n, m]
  | _ => .error "rank"

/-- Broadcasting of two shapes written with the last dimension first. -/
def broadcastRev : Dims → Dims → Except String Dims
  | [], t => .ok t
  | s, [] => .ok s
  | a :: s, b :: t => do
    let r ← broadcastRev s t
    if a = b then .ok (a :: r)
    else if a = 1 then .ok (b :: r)
    else if b = 1 then .ok (a :: r)
    else .error "ValueError: Dimensions must be equal"

/-- An element-wise operation on two tensors. -/
def broadcast (s t : Dims) : Except String Dims := do return (← broadcastRev s.reverse t.reverse).reverse

/-- `tf.reshape(t, [-1, n])`. -/
def reshapeRows (n : ℕ) (s : Dims) : Except String Dims :=
  if n = 0 ∨ s.prod % n ≠ 0 then .error "ValueError: Cannot reshape" else .ok [s.prod / n, n]

/-- `tf.reshape(t, [n, -1])`. -/
def reshapeCols (n : ℕ) (s : Dims) : Except String Dims :=
  if n = 0 ∨ s.prod % n ≠ 0 then .error "ValueError: Cannot reshape" else .ok [n, s.prod / n]

/-- `tf.reshape(t, shape)` without `-1`. -/
def reshapeTo (shape s : Dims) : Except String Dims :=
  if s.prod = shape.prod then .ok shape else .error "ValueError: Cannot reshape"

/-- `t.shape[i]` of a `TensorShape`. -/
def dim (s : Dims) (i : ℕ) : Except String ℕ :=
  match s[i]? with
  | some n => .ok n
  | none => .error "IndexError: list index out of range"

/-- The last entry of a shape. -/
def lastDim (s : Dims) : Except String ℕ :=
  match s.getLast? with
  | some n => .ok n
  | none => .error "IndexError: list index out of range"

/-- `tf.concat` of two matrices along the rows. -/
def concatRows : Dims → Dims → Except String Dims
  | [m, n], [p, q] => if n = q then .ok [m + p, n] else .error "ValueError: concat"
  | _, _ => .error "rank"

/-- `tf.concat` of two matrices along the columns. -/
def concatCols : Dims → Dims → Except String Dims
  | [m, n], [p, q] => if m = p then .ok [m, n + q] else .error "ValueError: concat"
  | _, _ => .error "rank"

/-- `tf.einsum("bijk,bijl->bkl", a, b)`. -/
def einsumPatches : Dims → Dims → Except String Dims
  | [b, i, j, k], [b', i', j', l] =>
    if b = b' ∧ i = i' ∧ j = j' then .ok [b, k, l] else .error "ValueError: einsum"
  | _, _ => .error "ValueError: einsum"

/-- `tf.reduce_sum(t, axis=0)` and `tf.reduce_mean(t, axis=0)`. -/
def reduceFirst : Dims → Except String Dims
  | _ :: s => .ok s
  | [] => .error "rank"

/-- `LinearOperatorFullMatrix.matmul(x)` and `LinearOperatorDiag.matmul(x)`; a diagonal is a shape with one entry.
Square operators, so that adjoints have the same shape. -/
def opMatmul (op x : Dims) : Except String Dims :=
  match op, x with
  | [m], [p, q] => if m = p then .ok [p, q] else .error "ValueError: Incompatible"
  | op, x => matmul false false op x

/-- `matmul_right(x)` (linear_operator.py 36-80). -/
def opMatmulRight (op x : Dims) : Except String Dims :=
  match op, x with
  | [m], [p, q] => if m = q then .ok [p, q] else .error "ValueError: Incompatible"
  | op, x => matmul false false x op

/-! ### Helpers of the library -/

/-- `append_homog` (fisher_factors.py 247-269). -/
def appendHomog : Dims → Except String Dims
  | [] => .error "IndexError"
  | [n] => .ok [n + 1]
  | n :: s => do return n :: (← appendHomog s)

/-- `compute_cov(tensor)` (fisher_factors.py 219-244). -/
def computeCov (t : Dims) : Except String Dims := do
  let cov ← matmul true false t t
  broadcast cov (← transpose cov)

/-- `compute_cov(tensor, tensor_right)` (fisher_factors.py 219-244). -/
def computeCovRight (t right : Dims) : Except String Dims := matmul true false t right

/-- `PartitionedTensor` (utils.py 1035-1089): the tensors agree on everything but the first dimension. -/
def partitioned : List T → Except String T
  | [] => .error "ValueError: tensors must be a list of 1+ Tensors"
  | t :: ts =>
    if ¬ (∀ s ∈ ts, s.dims.tail = t.dims.tail) then .error "ValueError: All tensors must have shape"
    else if ¬ (∀ s ∈ ts, s.depth = t.depth) then .error "ValueError: All tensors must have one_hot_depth"
    else do
      let firsts ← (t :: ts).mapM fun s => dim s.dims 0
      return { dims := firsts.sum :: t.dims.tail, depth := t.depth }

/-- `InputOutputMultiTower._process_data` (fisher_blocks.py 460-512): `inputs` by tower, `grads` by source and tower. -/
def processData (concat : Bool) (inputs : List T) (grads : List (List T)) :
    Except String (List T × List (List T)) :=
  if concat then do
    let i ← partitioned inputs
    let g ← grads.mapM fun g => do return [← partitioned g]
    return ([i], g)
  else .ok (inputs, grads)

/-- One update of a covariance variable of the declared shape with the contributions of all sources and towers
(fisher_factors.py 520-556): they are added up with `tf.add_n` and assigned to the variable. -/
def updated (declared : Except String Dims) (contributions : List (Except String Dims)) : Except String Dims := do
  let var ← declared
  let new ← contributions.mapM id
  match new with
  | [] => .error "ValueError: inputs must be a list of at least one Tensor"
  | a :: rest =>
    if ¬ (∀ s ∈ rest, s = a) then .error "ValueError: Shapes must be equal"
    else if a = var then .ok var
    else .error "ValueError: Dimension must be equal for AssignAdd"

/-- `tensors[0][0]`. -/
def first (tensors : List (List T)) : Except String T :=
  match tensors with
  | (t :: _) :: _ => .ok t
  | _ => .error "IndexError"

/-- The truth value of `has_bias` as a number. -/
def one (bias : Bool) : ℕ := if bias then 1 else 0

/-- `append_homog` if there is a bias. -/
def homog (bias : Bool) (t : Dims) : Except String Dims := if bias then appendHomog t else .ok t

/-! ### Factors; the value of each function is the shape of the covariance after an update -/

/-- `FullyConnectedKroneckerFactor` (fisher_factors.py 1674-1735). -/
def fcKronecker (tensors : List (List T)) (bias : Bool) : Except String Dims := do
  let t ← first tensors
  if t.depth.isSome then .error "ValueError: Dense factors currently don't support 1-hot sparse data"
  else
    let size ← dim t.dims 1
    updated (.ok [size + one bias, size + one bias])
      (tensors.flatten.map fun x => do computeCov (← homog bias x.dims))

/-- `DiagonalKroneckerFactor._compute_new_cov_from_tensor` (fisher_factors.py 1186-1224). -/
def diagonalCov (depth : Option ℕ) (bias : Bool) (x : Dims) : Except String Dims := do
  let new ← match depth with
    | none => if x.length ≠ 2 then .error "ValueError: rank" else .ok x
    | some v => if x.length ≠ 1 then .error "ValueError: rank" else .ok [x.prod, v]
  homog bias (← reduceFirst new)

/-- `DiagonalKroneckerFactor` (fisher_factors.py 1107-1227). -/
def diagKronecker (tensors : List (List T)) (bias : Bool) : Except String Dims := do
  let t ← first tensors
  updated (match t.depth with
      | none => do return [(← dim t.dims 1) + one bias]
      | some v => .ok [v + one bias])
    (tensors.flatten.map fun x => diagonalCov t.depth bias x.dims)

/-- The size of a factor for several uses, from tensors with or without a dimension for the uses
(fisher_factors.py 2618-2624, 1257-1264). -/
def multiSize (bias : Bool) (x : Dims) : Except String ℕ :=
  match x with
  | [_, n] => .ok (n + one bias)
  | [_, _, n] => .ok (n + one bias)
  | _ => .error "UnboundLocalError: size"

/-- The dimension for the uses is merged with the batch (fisher_factors.py 2588-2589, 1269-1271). -/
def foldUses (x : Dims) : Except String Dims :=
  match x with
  | [a, b, n] => reshapeRows n [a, b, n]
  | x => .ok x

/-- `FullyConnectedMultiKF` (fisher_factors.py 2497-2624). -/
def fcMulti (tensors : List (List T)) (bias : Bool) : Except String Dims := do
  let t ← first tensors
  if t.depth.isSome then .error "ValueError: Dense factors currently don't support 1-hot sparse data"
  else
    let size ← multiSize bias t.dims
    updated (.ok [size, size]) (tensors.flatten.map fun x => do computeCov (← homog bias (← foldUses x.dims)))

/-- `DiagonalMultiKF` (fisher_factors.py 1230-1277). -/
def diagMulti (tensors : List (List T)) (bias : Bool) : Except String Dims := do
  let t ← first tensors
  updated (match t.depth with
      | none => do return [← multiSize bias t.dims]
      | some v => .ok [v + one bias])
    (tensors.flatten.map fun x => do
      let y ← match t.depth with
        | none => foldUses x.dims
        | some _ => if x.dims.length = 2 then .ok [x.dims.prod] else .ok x.dims
      diagonalCov t.depth bias y)

/-- `FullyConnectedMultiKF._compute_new_cov_dt1` (fisher_factors.py 2591-2611); `tensor[:-0, :]` is empty. -/
def covDt1 (uses : ℕ) (bias : Bool) (x : Dims) : Except String Dims := do
  let t ← homog bias (← foldUses x)
  match t with
  | [total, n] =>
    if uses = 0 then .error "ZeroDivisionError"
    else
      let batch := total / uses
      computeCovRight [total - batch, n] [if batch = 0 then 0 else total - batch, n]
  | _ => .error "rank"

/-- `smart_assign(var, value)` needs the shape of the variable (utils.py 38-88). -/
def assign (var value : Dims) : Except String Dims :=
  if var = value then .ok var else .error "ValueError: Shapes must be equal"

/-- `FullyConnectedMultiKF._vec_shape` (fisher_factors.py 2625-2628). -/
def vecShape (bias : Bool) (t : Dims) : Except String Dims := do return [(← dim t 1) + one bias]

/-- The quantities of option 1 after the updates of both covariances and of the inverses (fisher_factors.py 2686-2703,
2745-2788): `Lmat` and `psi`. -/
def option1 (tensors : List (List T)) (uses : ℕ) (bias : Bool) : Except String (Dims × Dims) := do
  let cov ← fcMulti tensors bias
  let t ← first tensors
  let dt1 ← updated (.ok cov) (tensors.flatten.map fun x => covDt1 uses bias x.dims)
  let vec ← vecShape bias t.dims
  let m ← dim cov 0
  let scaled ← broadcast cov [m]
  let inv ← matmul false true scaled cov
  let inv ← broadcast inv (← transpose inv)
  let c1 ← broadcast dt1 (← transpose dt1)
  let hPsi ← matmul false false (← matmul false false inv c1) inv
  let psi ← dim hPsi 0
  let lmat ← matmul false false inv hPsi
  return (← assign cov lmat, ← assign vec [psi])

/-- The quantities of option 2 (fisher_factors.py 2702-2732, 2789-2831): `Pmat`, `Kmat` and `mu`. -/
def option2 (tensors : List (List T)) (uses : ℕ) (bias : Bool) : Except String (Dims × Dims × Dims) := do
  let cov ← fcMulti tensors bias
  let t ← first tensors
  let dt1 ← updated (.ok cov) (tensors.flatten.map fun x => covDt1 uses bias x.dims)
  let vec ← vecShape bias t.dims
  let m ← dim cov 0
  let scaled ← broadcast cov [m]
  let inv ← matmul false true scaled cov
  let inv ← broadcast inv (← transpose inv)
  let invC1 ← matmul false false inv dt1
  let hPsi ← matmul false false invC1 inv
  let mu ← dim hPsi 0
  let pmat ← matmul true false invC1 inv
  let kmat ← matmul false false inv hPsi
  return (← assign cov pmat, ← assign cov kmat, ← assign vec [mu])

/-- `FullyConnectedDiagonalFactor` (fisher_factors.py 1280-1368). -/
def fcDiagonal (inputs : List T) (grads : List (List T)) (bias : Bool) : Except String Dims := do
  let t ← first [inputs]
  let g ← first grads
  updated (do return [(← dim t.dims 1) + one bias, ← dim g.dims 1])
    (grads.flatMap fun gs => (inputs.zip gs).map fun x => do matmul true false (← homog bias x.1.dims) x.2.dims)

/-- The geometry of a two-dimensional convolution. -/
structure Geometry where
  valid : Bool
  stride : ℕ × ℕ
  rate : ℕ × ℕ := (1, 1)

/-- The size of one spatial dimension of the output of `tf.nn.conv2d` and of `tf.extract_image_patches`. -/
def outDim (valid : Bool) (n k s r : ℕ) : ℕ :=
  if valid then (n - (k - 1) * r + s - 1) / s else (n + s - 1) / s

/-- `tf.extract_image_patches` with a kernel of the shape `filter` (fisher_factors.py 1631-1636, 1888-1902). -/
def imagePatches (geo : Geometry) (filter x : Dims) : Except String Dims :=
  match filter, x with
  | [kh, kw, _, _], [n, h, w, c] => .ok [n, outDim geo.valid h kh geo.stride.1 geo.rate.1,
      outDim geo.valid w kw geo.stride.2 geo.rate.2, kh * kw * c]
  | _, _ => .error "ValueError: rank"

/-- `ConvDiagonalFactor` (fisher_factors.py 1518-1671). The mask is not flattened. -/
def convDiagonal (geo : Geometry) (filter : Dims) (inputs : List T) (grads : List (List T)) (bias : Bool)
    (mask : Option Dims) : Except String Dims :=
  match filter with
  | [kh, kw, c, o] =>
    if ∃ x ∈ inputs, x.dims.length ≠ 4 then .error "ValueError: inputs must be a list of 4-D Tensors"
    else if ∃ x ∈ inputs, x.dims.getLast? ≠ some c then .error "ValueError: in_channels"
    else if ∃ g ∈ grads.flatten, g.dims.length ≠ 4 then .error "ValueError: outputs must be 4-D"
    else if ∃ g ∈ grads.flatten, g.dims.getLast? ≠ some o then .error "ValueError: out_channels"
    else do
      let patches ← inputs.mapM fun x => do
        let p ← imagePatches geo filter x.dims
        let p ← match mask with
          | none => .ok p
          | some m => if m = [kh, kw, c] then broadcast p m else .error "AssertionError"
        homog bias p
      updated (.ok [kh * kw * c + one bias, o])
        (grads.flatMap fun gs => (patches.zip gs).map fun x => do reduceFirst (← einsumPatches x.1 x.2.dims))
  | _ => .error "ValueError: rank"

/-- `ConvInputKroneckerFactor` with "extract_image_patches" and `ConvInputMultiKF` (fisher_factors.py 1738-1976). The
numbers of inputs and of patches that are kept are any functions of their numbers. -/
def convInput (geo : Geometry) (filter : Dims) (keepInputs keepPatches : ℕ → ℕ) (inputs : List T) (bias : Bool)
    (mask : Option Dims) : Except String Dims := do
  let size := filter.dropLast.prod
  updated (.ok [size + one bias, size + one bias])
    (inputs.map fun x => do
      let x ← match x.dims with
        | n :: s => Except.ok (keepInputs n :: s)
        | [] => .error "rank"
      let p ← imagePatches geo filter x
      let p ← match mask with
        | none => .ok p
        | some m => if m = filter.dropLast then broadcast p [m.prod] else .error "AssertionError"
      let p ← reshapeRows size p
      let p ← match p with
        | [rows, s] => Except.ok [keepPatches rows, s]
        | _ => .error "rank"
      computeCov (← homog bias p))

/-- `ConvOutputKroneckerFactor` and `ConvOutputMultiKF` (fisher_factors.py 2408-2494). -/
def convOutput (grads : List (List T)) : Except String Dims := do
  let o ← lastDim (← first grads).dims
  updated (.ok [o, o]) (grads.flatten.map fun g => do computeCov (← reshapeRows o g.dims))

/-- `ScaleAndShiftFactor` (fisher_factors.py 1372-1480) for a scale of shape `scale` and possibly a shift; the axes are
those of `register_scale_and_shift`. -/
def scaleShift (full : Bool) (scaleAxes : List ℕ) (shiftAxes : Option (List ℕ)) (inputs : List T)
    (grads : List (List T)) : Except String Dims := do
  let t ← first [inputs]
  let g ← first grads
  let size := (Grad.keepDims scaleAxes 1 t.dims.tail).prod +
    match shiftAxes with
    | none => 0
    | some axes => (Grad.keepDims axes 1 g.dims.tail).prod
  updated (.ok (if full then [size, size] else [size]))
    (grads.flatMap fun gs => (inputs.zip gs).map fun x => do
      let n ← dim x.1.dims 0
      let prod ← broadcast x.1.dims x.2.dims
      let flat ← reshapeCols n (Grad.keepDims scaleAxes 0 prod)
      let flat ← match shiftAxes with
        | none => .ok flat
        | some axes => concatCols flat (← reshapeCols n (Grad.keepDims axes 0 x.2.dims))
      if full then computeCov flat else reduceFirst flat)

/-- `NaiveFullFactor` (fisher_factors.py 944-996): gradients by source and parameter. -/
def naiveFull (grads : List (List Dims)) : Except String Dims :=
  match grads with
  | [] => .error "IndexError"
  | g :: _ =>
    let size := (g.map List.prod).sum
    updated (.ok [size, size]) (grads.map fun g => do
      let column := [(g.map List.prod).sum, 1]
      broadcast column (← transpose column))

/-- `NaiveDiagonalFactor` (fisher_factors.py 1051-1104). -/
def naiveDiagonal (grads : List Dims) : Except String Dims :=
  match grads with
  | [] => .error "IndexError"
  | g :: _ => updated (.ok g) (grads.map .ok)

/-! ### Blocks: from the data to the product with a gradient -/

/-- The shapes of the parameters of a layer: weights and possibly a bias. -/
structure Params where
  weights : Dims
  bias : Option Dims
  deriving DecidableEq

/-- `layer_params_to_mat2d` (utils.py 247-267). -/
def toMat2d (p : Params) : Except String Dims := do
  let w ← reshapeRows (← lastDim p.weights) p.weights
  match p.bias with
  | none => return w
  | some b => concatRows w [1, b.prod]

/-- `mat2d_to_layer_params` (utils.py 272-291). -/
def ofMat2d (p : Params) (m : Dims) : Except String Params :=
  match p.bias with
  | none => do return ⟨← reshapeTo p.weights m, none⟩
  | some _ =>
    match m with
    | rows :: cols => do return ⟨← reshapeTo p.weights ((rows - 1) :: cols), some cols⟩
    | [] => .error "rank"

/-- `KroneckerProductFB._multiply_factored_matrix` (fisher_blocks.py 862-874). -/
def kronMultiply (left right : Dims) (p : Params) : Except String Params := do
  let v ← toMat2d p
  let v ← opMatmulRight right v
  let v ← opMatmul left v
  ofMat2d p v

/-- `tensors_to_column`, a matrix product and `column_to_tensors` (`_multiply_matrix` of `FullFB` and `DiagonalFB`,
fisher_blocks.py 295-298, 378-381); a diagonal is flattened first (fisher_factors.py 1018-1019). -/
def columnMultiply (op : Dims) (ps : List Dims) : Except String (List Dims) := do
  let column := [(ps.map List.prod).sum, 1]
  let out ← opMatmul op column
  if out = column then .ok ps else .error "ValueError: Cannot split"

/-- The weights and the bias as a list. -/
def Params.toList (p : Params) : List Dims := p.weights :: p.bias.toList

/-- `FullyConnectedKFACBasicFB` (fisher_blocks.py 918-975). -/
def fcKfac (concat diagIn diagOut : Bool) (inputs : List T) (grads : List (List T)) (p : Params) :
    Except String Params := do
  let (inputs, grads) ← processData concat inputs grads
  let bias := p.bias.isSome
  let left ← if diagIn then diagKronecker [inputs] bias else fcKronecker [inputs] bias
  let right ← if diagOut then diagKronecker grads false else fcKronecker grads false
  kronMultiply left right p

/-- `FullyConnectedDiagonalFB` (fisher_blocks.py 536-577). -/
def fcDiagonalFB (concat : Bool) (inputs : List T) (grads : List (List T)) (p : Params) :
    Except String (List Dims) := do
  let (inputs, grads) ← processData concat inputs grads
  let cov ← fcDiagonal inputs grads p.bias.isSome
  columnMultiply [cov.prod] p.toList

/-- `ConvKFCBasicFB` made by `register_conv2d` (fisher_blocks.py 1048-1096). -/
def convKfc (concat : Bool) (geo : Geometry) (keepInputs keepPatches : ℕ → ℕ) (mask : Option Dims) (inputs : List T)
    (grads : List (List T)) (p : Params) : Except String Params := do
  let (inputs, grads) ← processData concat inputs grads
  let left ← convInput geo p.weights keepInputs keepPatches inputs p.bias.isSome mask
  let right ← convOutput grads
  kronMultiply left right p

/-- `ConvDiagonalFB` (fisher_blocks.py 583-692). -/
def convDiagonalFB (concat : Bool) (geo : Geometry) (mask : Option Dims) (inputs : List T) (grads : List (List T))
    (p : Params) : Except String (List Dims) := do
  let (inputs, grads) ← processData concat inputs grads
  let cov ← convDiagonal geo p.weights inputs grads p.bias.isSome mask
  columnMultiply [cov.prod] p.toList

/-- `depthwise_conv2d_filter_to_conv2d_filter` (fisher_blocks.py 1237-1277). -/
def depthwiseToConv : Dims → Except String Dims
  | [kh, kw, c, m] => if c = 0 then .error "ValueError: concat" else .ok [kh, kw, c, c * m]
  | _ => .error "ValueError: unpack"

/-- `conv2d_filter_to_depthwise_conv2d_filter` (fisher_blocks.py 1280-1321). -/
def convToDepthwise : Dims → Except String Dims
  | [kh, kw, c, o] =>
    if c = 0 then .error "ZeroDivisionError"
    else if o % c ≠ 0 then .error "ValueError: out_channels must be evenly divisible by in_channels"
    else do
      let _ ← reshapeTo [kh, kw, c, c, o / c] [kh, kw, c, o]
      return [kh, kw, c, o / c]
  | _ => .error "ValueError: unpack"

/-- `DepthwiseConvDiagonalFB` (fisher_blocks.py 1094-1160). -/
def depthwiseFB (concat : Bool) (geo : Geometry) (inputs : List T) (grads : List (List T)) (weights : Dims) :
    Except String (List Dims) :=
  match weights with
  | [kh, kw, c, m] => do
    let (inputs, grads) ← processData concat inputs grads
    let cov ← convDiagonal geo [kh, kw, c, c * m] inputs grads false none
    let v ← depthwiseToConv weights
    let out ← columnMultiply [cov.prod] [v]
    out.mapM convToDepthwise
  | _ => .error "ValueError: Filter must be 4-D"

/-- The scale and shift blocks (fisher_blocks.py 695-770), registered with the shapes of the first tower
(layer_collection.py 1428-1473). -/
def scaleShiftFB (concat full : Bool) (inputs : List T) (grads : List (List T)) (scale : Dims) (shift : Option Dims) :
    Except String (List Dims) := do
  let x ← first [inputs]
  let g ← first grads
  let shiftAxes ← match shift with
    | none => Except.ok none
    | some s => (Reg.broadcastDims true s g.dims).map some
  let scaleAxes ← Reg.broadcastDims false scale x.dims
  let (inputs, grads) ← processData concat inputs grads
  let cov ← scaleShift full scaleAxes shiftAxes inputs grads
  columnMultiply cov (scale :: shift.toList)

/-- `NaiveFullFB` (fisher_blocks.py 317-362): the gradients have the shapes of the parameters. -/
def naiveFullFB (sources : ℕ) (ps : List Dims) : Except String (List Dims) := do
  columnMultiply (← naiveFull (List.replicate sources ps)) ps

/-- `NaiveDiagonalFB` (fisher_blocks.py 405-449). -/
def naiveDiagonalFB (sources : ℕ) (p : Dims) : Except String (List Dims) := do
  let cov ← naiveDiagonal (List.replicate sources p)
  columnMultiply [cov.prod] [p]

/-- The data of one tower of a layer that is used several times: a list over the uses or a single tensor. -/
inductive Uses where
  | list (l : List T)
  | single (t : T)

/-- The tensor, if a single one is given. -/
def Uses.tensor? : Uses → Option T
  | .list _ => none
  | .single t => some t

/-- The list over the uses, if given. -/
def Uses.list? : Uses → Option (List T)
  | .list l => some l
  | .single _ => none

/-- `InputOutputMultiTowerMultiUse._process_data` for the inputs or for the gradients of one source
(fisher_blocks.py 1384-1470). The formats of the towers and sources agree; else an error. -/
def processUses (concat : Bool) (numUses : Option ℕ) (towers : List Uses) : Except String (List T × Option ℕ) :=
  match towers with
  | [] => .error "IndexError"
  | .list l :: _ =>
    if numUses.isSome ∧ numUses ≠ some l.length then .error "ValueError: num_uses"
    else
      match towers.mapM Uses.list? with
      | none => .error "TypeError"
      | some ls =>
        if ¬ (∀ k ∈ ls, k.length = l.length) then .error "ValueError: Length of inputs argument is inconsistent"
        else if concat then do
          let t ← partitioned ((List.range l.length).flatMap fun j => ls.filterMap (·[j]?))
          return ([t], some l.length)
        else do return (← ls.mapM partitioned, some l.length)
  | .single _ :: _ =>
    match towers.mapM Uses.tensor? with
    | none => .error "TypeError"
    | some ts => .ok (ts, numUses)

/-- Both sides; the number of uses must be known in the end (fisher_blocks.py 1478-1484). -/
def processMulti (concat : Bool) (numUses : Option ℕ) (inputs : List Uses) (grads : List (List Uses)) :
    Except String (List T × List (List T) × ℕ) := do
  let (i, n) ← processUses concat numUses inputs
  let gs ← grads.mapM (processUses concat n)
  match gs with
  | [] => .error "IndexError"
  | g :: _ =>
    match g.2 with
    | none => .error "ValueError: You must supply a value for the num_uses argument"
    | some k => return (i, gs.map (·.1), k)

/-- `FullyConnectedMultiIndepFB` (fisher_blocks.py 1487-1547). -/
def fcMultiFB (concat diagIn diagOut : Bool) (numUses : Option ℕ) (inputs : List Uses) (grads : List (List Uses))
    (p : Params) : Except String Params := do
  let (inputs, grads, _) ← processMulti concat numUses inputs grads
  let bias := p.bias.isSome
  let left ← if diagIn then diagMulti [inputs] bias else fcMulti [inputs] bias
  let right ← if diagOut then diagMulti grads false else fcMulti grads false
  kronMultiply left right p

/-- `ConvKFCBasicMultiIndepFB` (fisher_blocks.py 1550-1630). -/
def convMultiFB (concat : Bool) (geo : Geometry) (keepInputs keepPatches : ℕ → ℕ) (numUses : Option ℕ)
    (inputs : List Uses) (grads : List (List Uses)) (p : Params) : Except String Params := do
  let (inputs, grads, _) ← processMulti concat numUses inputs grads
  let left ← convInput geo p.weights keepInputs keepPatches inputs p.bias.isSome none
  let right ← convOutput grads
  kronMultiply left right p

/-- `FullyConnectedSeriesFB` with option 1 (fisher_blocks.py 1691-1763, 1821-1824). -/
def series1FB (concat : Bool) (numUses : Option ℕ) (inputs : List Uses) (grads : List (List Uses)) (p : Params) :
    Except String Params := do
  let (inputs, grads, k) ← processMulti concat numUses inputs grads
  let (lA, psiA) ← option1 [inputs] k p.bias.isSome
  let (lG, psiG) ← option1 grads k false
  let z ← transpose (← toMat2d p)
  let y ← broadcast (← reshapeCols (← dim psiG 0) psiG) psiA
  let z ← matmul true false lG (← matmul false false z lA)
  let z ← broadcast z y
  let z ← matmul false false lG (← matmul false true z lA)
  ofMat2d p (← transpose z)

/-- `FullyConnectedSeriesFB` with option 2 (fisher_blocks.py 1691-1716, 1765-1824). -/
def series2FB (concat : Bool) (numUses : Option ℕ) (inputs : List Uses) (grads : List (List Uses)) (p : Params) :
    Except String Params := do
  let (inputs, grads, k) ← processMulti concat numUses inputs grads
  let (pA, kA, muA) ← option2 [inputs] k p.bias.isSome
  let (pG, kG, muG) ← option2 grads k false
  let z ← transpose (← toMat2d p)
  let z ← broadcast z (← matmul false false pG (← matmul false true z pA))
  let z ← matmul true false kG (← matmul false false z kA)
  let tmp ← broadcast (← reshapeCols (← dim muG 0) muG) muA
  let z ← broadcast z tmp
  let z ← matmul false false kG (← matmul false true z kA)
  let z ← broadcast z (← matmul true false pG (← matmul false false z pA))
  ofMat2d p (← transpose z)

end Kfac.Shape
