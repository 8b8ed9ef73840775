import Verif.Reg.Model

/-! # Factors: requests and the names of their variables -/

namespace Kfac.Reg

/-- A tensor is identified with its name, which is unique in a graph. -/
abbrev TName := List Char

/-- A request `make_or_get_factor(cls, args)`: the factor classes of fisher_factors.py with the arguments that
the blocks of fisher_blocks.py pass (342-343, 429-430, 576-578, 681-684, 727-730, 767-770, 959-974,
1073-1085, 1526-1541, 1616-1623, 1696-1702). `extract_patches_fn` and `patch_mask` are left out (`None`
unless the user passes them). First list index is source or tower as in the code. -/
inductive FactorReq where
  | naiveFull (grads : List (List TName)) (batch : Nat)
  | naiveDiagonal (grads : List TName) (batch : Nat)
  | diagonalKron (tensors : List (List TName)) (hasBias : Bool)
  | diagonalMulti (tensors : List (List TName)) (numUses : Nat) (hasBias : Bool)
  | fcDiagonal (inputs : List TName) (grads : List (List TName)) (hasBias : Bool)
  | scaleShiftFull (inputs : List TName) (grads : List (List TName)) (scaleDims : List Nat)
      (shiftDims : Option (List Nat)) (hasShift : Bool)
  | scaleShiftDiagonal (inputs : List TName) (grads : List (List TName)) (scaleDims : List Nat)
      (shiftDims : Option (List Nat)) (hasShift : Bool)
  | convDiagonal (inputs : List TName) (grads : List (List TName)) (filterShape strides : List Nat)
      (padding : String) (dataFormat : Option String) (dilations : Option (List Nat)) (hasBias : Bool)
  | fcKron (tensors : List (List TName)) (hasBias : Bool)
  | convInput (inputs : List TName) (filterShape : List Nat) (padding : String)
      (strides dilation : Option (List Nat)) (dataFormat : Option String) (hasBias : Bool)
      (subInputs subPatches : Option Bool)
  | convInputMulti (inputs : List TName) (filterShape : List Nat) (padding : String) (numUses : Nat)
      (strides dilation : Option (List Nat)) (dataFormat : Option String) (hasBias : Bool)
  | convInputSUA (inputs : List TName) (filterShape : List Nat) (hasBias : Bool)
  | convOutput (grads : List (List TName))
  | convOutputMulti (grads : List (List TName)) (numUses : Nat) (dataFormat : Option String)
  | fcMulti (tensors : List (List TName)) (numUses : Option Nat) (hasBias : Bool)
deriving DecidableEq

/-- One element of the argument of `scope_string_from_params` (fisher_factors.py 272-311). -/
inductive Part where
  | none
  | ints (l : List Nat)
  | int (n : Nat)
  | str (s : String)
  | bool (b : Bool)
  | tensor (t : TName)
  /-- a list of tensors; for nested lists the flattening, which has the same string if no inner list is
  empty -/
  | tensors (ts : List TName)

/-- `scope_string_from_name` on one tensor (fisher_factors.py 314-322) with the default sanitiser. -/
def sanitize (t : TName) : List Char := t.map fun c => if c = '/' ∨ c = ':' then '_' else c

/-- `sep.join(parts)` -/
def joinWith (sep : List Char) (parts : List (List Char)) : List Char := sep.intercalate parts

/-- The string of one part. -/
def Part.string : Part → List Char
  | .none => "None".toList
  | .ints l => joinWith ['-'] (l.map fun n => (toString n).toList)
  | .int n => (toString n).toList
  | .str s => s.toList
  | .bool b => (if b then "True" else "False").toList
  | .tensor t => sanitize t
  | .tensors ts => joinWith ['_', '_'] (ts.map sanitize)

/-- `scope_string_from_params` (fisher_factors.py 272-311). -/
def scopeString (parts : List Part) : List Char := joinWith ['_'] (parts.map Part.string)

def optInts : Option (List Nat) → Part
  | some l => .ints l
  | none => .none

def optStr : Option String → Part
  | some s => .str s
  | none => .none

/-- The prefix in `_var_scope` (fisher_factors.py 960, 1074, 1157, 1314, 1396, 1592, 1704, 1814, 2021, 2438,
2542; the classes `DiagonalMultiKF`, `ConvInputMultiKF` and `ConvOutputMultiKF` inherit it). -/
def FactorReq.scopePrefix : FactorReq → String
  | .naiveFull .. => "ff_naivefull_"
  | .naiveDiagonal .. => "ff_naivediag_"
  | .diagonalKron .. => "ff_diag_kron_"
  | .diagonalMulti .. => "ff_diag_kron_"
  | .fcDiagonal .. => "ff_diagfc_"
  | .scaleShiftFull .. => "ff_scaleshift_"
  | .scaleShiftDiagonal .. => "ff_scaleshift_"
  | .convDiagonal .. => "ff_convdiag_"
  | .fcKron .. => "ff_fckron_"
  | .convInput .. => "ff_convinkron_"
  | .convInputMulti .. => "ff_convinkron_"
  | .convInputSUA .. => "ff_convinsuakron_"
  | .convOutput .. => "ff_convoutkron_"
  | .convOutputMulti .. => "ff_convoutkron_"
  | .fcMulti .. => "ff_fc_multi_"

/-- The arguments that enter the scope string (same lines). -/
def FactorReq.parts : FactorReq → List Part
  | .naiveFull grads batch => [.tensors grads.flatten, .int batch]
  | .naiveDiagonal grads batch => [.tensors grads, .int batch]
  | .diagonalKron tensors _ => tensors.flatten.map .tensor
  | .diagonalMulti tensors _ _ => tensors.flatten.map .tensor
  | .fcDiagonal inputs grads _ => inputs.map .tensor ++ grads.flatten.map .tensor
  | .scaleShiftFull inputs grads sd hd hs =>
    [.tensors inputs, .tensors grads.flatten, .ints sd, optInts hd, .bool hs, .str "full"]
  | .scaleShiftDiagonal inputs grads sd hd hs =>
    [.tensors inputs, .tensors grads.flatten, .ints sd, optInts hd, .bool hs, .str "diagonal"]
  | .convDiagonal inputs grads _ _ _ _ _ _ => inputs.map .tensor ++ grads.flatten.map .tensor
  | .fcKron tensors hasBias => tensors.flatten.map .tensor ++ [.bool hasBias]
  | .convInput inputs fs pad st dil fmt hasBias _ _ =>
    inputs.map .tensor ++ [.ints fs, optInts st, .str pad, optInts dil, optStr fmt, .bool hasBias, .none]
  | .convInputMulti inputs fs pad _ st dil fmt hasBias =>
    inputs.map .tensor ++ [.ints fs, optInts st, .str pad, optInts dil, optStr fmt, .bool hasBias, .none]
  | .convInputSUA inputs fs hasBias => inputs.map .tensor ++ [.ints fs, .bool hasBias]
  | .convOutput grads => grads.flatten.map .tensor
  | .convOutputMulti grads _ _ => grads.flatten.map .tensor
  | .fcMulti tensors numUses hasBias =>
    tensors.flatten.map .tensor ++ [match numUses with | some n => .int n | none => .none, .bool hasBias]

/-- `_var_scope`: the variable scope of the factor's variables (e.g. `<scope>/cov`). -/
def FactorReq.scope (r : FactorReq) : List Char := r.scopePrefix.toList ++ scopeString r.parts

/-- A sequence of requests: the table afterwards and the factors returned. -/
def requestAll {K : Type} [DecidableEq K] (factors : List (K × Nat)) : List K → List (K × Nat) × List Nat
  | [] => (factors, [])
  | k :: ks =>
    let (f1, r) := makeOrGetFactor factors k
    let (f2, rs) := requestAll f1 ks
    (f2, r :: rs)

end Kfac.Reg
