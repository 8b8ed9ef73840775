import Verif.Conv.Model

/-! # From the registration of a convolution to the patches of its factors

kfac/python/ops/layer_collection.py 796-1157 and 1291-1377, fisher_blocks.py 583-692, 979-1234 and 1550-1630,
fisher_factors.py 1519-1648 and 1860-1907. Only the arguments that describe the geometry are kept; the choice of the
approximation (`_get_block_type`) is C30, so `approx` is the approximation chosen. -/

namespace Kfac.Conv

/-- `is_data_format_channel_last` (utils.py 904-908). -/
def channelLast : Option String → Bool
  | none => true
  | some s => s.toList.getLast? == some 'C'

/-- The attributes of `ConvKFCBasicFB` (fisher_blocks.py 1044-1060) and `ConvKFCBasicMultiIndepFB` (1586-1594). -/
structure KfcBlock where
  filterShape : List ℤ
  padding : String
  strides : Option (List ℤ) := none
  dilationRate : Option (List ℤ) := none
  dataFormat : Option String := none
  extract : Option String := none
  sua : Bool := false

/-- The attributes of `ConvDiagonalFB` (fisher_blocks.py 645-663). -/
structure DiagBlock where
  filterShape : List ℤ
  padding : String
  strides : List ℤ
  dilations : List ℤ
  dataFormat : Option String

/-- The blocks made for convolutions. -/
inductive ConvBlock where
  | kfc (b : KfcBlock)
  | kfcMulti (b : KfcBlock)
  | diagonal (b : DiagBlock)
  | depthwise (b : DiagBlock)

/-- `ConvDiagonalFB.__init__` (fisher_blocks.py 608-665). -/
def diagBlock (filterShape strides : List ℤ) (padding : String) (dataFormat : Option String)
    (dilations : Option (List ℤ)) : Except String DiagBlock :=
  if strides.length ≠ 4 then .error "ValueError: strides must contain 4 numbers."
  else if (dilations.getD [1, 1, 1, 1]).length ≠ 4 then .error "ValueError: dilations must contain 4 numbers."
  else if !channelLast dataFormat then .error "ValueError: data_format must be channels-last."
  else if filterShape.length ≠ 4 then .error "ValueError: Convolution filter must be of shape ..."
  else .ok ⟨filterShape, padding, strides, dilations.getD [1, 1, 1, 1], dataFormat⟩

/-- `register_conv1d` (layer_collection.py 796-855). -/
def registerConv1d (filterShape strides : List ℤ) (padding : String) (dilations : Option (List ℤ))
    (approx : Option String) : Except String ConvBlock :=
  if approx ≠ none ∧ approx ≠ some "kron" then .error "AssertionError"
  else .ok (.kfc ⟨filterShape, padding, some strides, dilations, some "NWC", some "extract_convolution_patches", false⟩)

/-- `register_conv2d` (layer_collection.py 857-964). -/
def registerConv2d (filterShape strides : List ℤ) (padding : String) (dataFormat : Option String)
    (dilations : Option (List ℤ)) (approx : String) : Except String ConvBlock :=
  if dataFormat ≠ none ∧ dataFormat ≠ some "NHWC" then .error "AssertionError"
  else if approx = "kron" then
    .ok (.kfc ⟨filterShape, padding, some strides, dilations, dataFormat, some "extract_image_patches", false⟩)
  else if approx = "diagonal" then
    if strides.head? ≠ some 1 ∨ strides.getLast? ≠ some 1 then .error "AssertionError"
    else (diagBlock filterShape strides padding dataFormat dilations).map .diagonal
  else if approx = "kron_sua" then .ok (.kfc { filterShape := filterShape, padding := padding, sua := true })
  else .error "NotImplementedError"

/-- `register_convolution` (layer_collection.py 966-1025). -/
def registerConvolution (filterShape : List ℤ) (padding : String) (strides dilationRate : Option (List ℤ))
    (dataFormat approx : Option String) : Except String ConvBlock :=
  if approx ≠ none ∧ approx ≠ some "kron" then .error "AssertionError"
  else .ok (.kfc ⟨filterShape, padding, strides, dilationRate, dataFormat, none, false⟩)

/-- The shape of the filter in `DepthwiseConvDiagonalFB` (fisher_blocks.py 1154-1158): that of the ordinary convolution. -/
def depthwiseShape : List ℤ → List ℤ
  | [kh, kw, c, m] => [kh, kw, c, c * m]
  | l => l

/-- `rate` with batch and channel entries (fisher_blocks.py 1135-1138). -/
def depthwiseRate : Option (List ℤ) → Except String (Option (List ℤ))
  | none => .ok none
  | some [r, s] => .ok (some [1, r, s, 1])
  | some _ => .error "ValueError: rate must only account for spatial dimensions."

/-- `register_depthwise_conv2d` (layer_collection.py 1027-1084) and `DepthwiseConvDiagonalFB.__init__` (fisher_blocks.py
1100-1154). -/
def registerDepthwise (filterShape strides : List ℤ) (padding : String) (rate : Option (List ℤ))
    (dataFormat approx : Option String) : Except String ConvBlock :=
  if approx ≠ none ∧ approx ≠ some "diagonal" then .error "AssertionError"
  else if dataFormat ≠ none ∧ dataFormat ≠ some "NHWC" then .error "AssertionError"
  else if filterShape.length ≠ 4 then .error "ValueError: Filter must be 4-D."
  else match depthwiseRate rate with
    | .error e => .error e
    | .ok rate => (diagBlock filterShape strides padding dataFormat rate).map fun b =>
        .depthwise { b with filterShape := depthwiseShape filterShape }

/-- `register_separable_conv2d` (layer_collection.py 1086-1157): a depthwise and a pointwise convolution. -/
def registerSeparable (depthwiseFilter pointwiseFilter strides : List ℤ) (padding : String) (rate : Option (List ℤ))
    (dataFormat : Option String) (approx : String) : Except String (ConvBlock × ConvBlock) :=
  match registerDepthwise depthwiseFilter strides padding rate dataFormat (some "diagonal") with
  | .error e => .error e
  | .ok d => (registerConv2d pointwiseFilter [1, 1, 1, 1] "VALID" dataFormat none approx).map fun p => (d, p)

/-- `register_conv2d_multi` (layer_collection.py 1291-1377). -/
def registerConv2dMulti (filterShape strides : List ℤ) (padding : String) (dataFormat : Option String)
    (dilations : Option (List ℤ)) (approx : String) : Except String ConvBlock :=
  if dataFormat ≠ none ∧ dataFormat ≠ some "NHWC" then .error "AssertionError"
  else if approx = "kron_indep" then
    .ok (.kfcMulti ⟨filterShape, padding, some strides, dilations, dataFormat, some "extract_image_patches", false⟩)
  else .error "ValueError: Bad value for approx"

/-- The type of a block. -/
def ConvBlock.type : ConvBlock → ℕ
  | .kfc _ => 0
  | .kfcMulti _ => 1
  | .diagonal _ => 2
  | .depthwise _ => 3

/-- `_register_block` with `reuse=True` for parameters that have been registered (layer_collection.py 453-471): the block
already there is used. -/
def reuseBlock (existing new : ConvBlock) : Except String ConvBlock :=
  if existing.type ≠ new.type then .error "ValueError: Attempted to register FisherBlock of type .."
  else .ok existing

/-- What the extraction of patches is told about the convolution, along the spatial dimensions. -/
structure PatchGeo where
  strides : List ℤ
  rates : List ℤ
  padding : String
deriving DecidableEq, Repr

/-- The call of `tf.nn.convolution` in `extract_convolution_patches` (utils.py 837-848). TensorFlow takes ones for missing
arguments, and rejects arguments of wrong length and strides together with dilations. -/
def convolutionGeo (rank : ℕ) (strides dilationRate : Option (List ℤ)) (padding : String) : Except String PatchGeo :=
  let s := (spatial rank strides).getD (List.replicate (rank - 2) 1)
  let d := (spatial rank dilationRate).getD (List.replicate (rank - 2) 1)
  if s.length ≠ rank - 2 ∨ d.length ≠ rank - 2 then .error "ValueError: wrong length"
  else if (∃ x ∈ s, 1 < x) ∧ ∃ x ∈ d, 1 < x then
    .error "ValueError: strides > 1 not supported in conjunction with dilation_rate > 1"
  else .ok ⟨s, d, padding⟩

/-- The call of `tf.extract_image_patches`, which takes lists of four numbers, the first and last being one. -/
def imageGeo (strides rates : List ℤ) (padding : String) : Except String PatchGeo :=
  match strides, rates with
  | [1, sh, sw, 1], [1, rh, rw, 1] => .ok ⟨[sh, sw], [rh, rw], padding⟩
  | _, _ => .error "InvalidArgumentError"

/-- The patches of `ConvInputKroneckerFactor._compute_new_cov` (fisher_factors.py 1871-1907) for inputs of `rank`
dimensions. -/
def KfcBlock.reads (rank : ℕ) (b : KfcBlock) : Except String PatchGeo :=
  if b.extract = none ∨ b.extract = some "extract_convolution_patches" then
    if !channelLast b.dataFormat then .error "ValueError: Channel must be last dimension."
    else convolutionGeo rank b.strides b.dilationRate b.padding
  else if b.extract = some "extract_image_patches" then
    if rank ≠ 4 ∨ b.filterShape.length ≠ 4 then .error "AssertionError"
    else match b.strides with
      | none => .error "TypeError"
      | some s => imageGeo s (b.dilationRate.getD [1, 1, 1, 1]) b.padding
  else .error "NotImplementedError"

/-- The patches read for the statistics of a block. The SUA factor reads no patches. -/
def ConvBlock.reads (rank : ℕ) : ConvBlock → Option (Except String PatchGeo)
  | .kfc b => if b.sua then none else some (b.reads rank)
  | .kfcMulti b => some (b.reads rank)
  | .diagonal b => some (imageGeo b.strides b.dilations b.padding)
  | .depthwise b => some (imageGeo b.strides b.dilations b.padding)

/-- `padding is not None and padding.lower() == "valid"` (utils.py 1365). -/
def isValid (padding : String) : Bool := String.ofList (padding.toList.map Char.toLower) == "valid"

/-- `self._num_locations` (fisher_blocks.py 675-678, 1067-1070, 1603-1606). -/
def ConvBlock.numLocations (inputShape : List ℤ) : ConvBlock → Except String ℤ
  | .kfc b => numConvLocations inputShape b.filterShape b.strides (isValid b.padding)
  | .kfcMulti b => numConvLocations inputShape b.filterShape b.strides (isValid b.padding)
  | .diagonal b => numConvLocations inputShape b.filterShape (some b.strides) (isValid b.padding)
  | .depthwise b => numConvLocations inputShape b.filterShape (some b.strides) (isValid b.padding)

end Kfac.Conv
