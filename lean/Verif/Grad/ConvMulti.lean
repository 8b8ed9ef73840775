import Verif.Grad.Model
import Verif.Factor.MultiUse

/-! # Convolutions used several times (`ConvKFCBasicMultiIndepFB`, fisher_blocks.py 1550-1630)

A tensor of images is the list of its images. Subsampling of patches is left out here (see C74); no mask is passed by this
block. -/

namespace Kfac.Grad

open Kfac.Stats Kfac.Factor

/-- `_SUB_SAMPLE_INPUTS` and `_INPUTS_TO_EXTRACT_PATCHES_FACTOR` (fisher_factors.py 79-80). -/
structure InputSampling where
  on : Bool
  factor : ℝ

/-- The values in the source (fisher_factors.py 79-80). -/
noncomputable def defaultSampling : InputSampling := ⟨false, 0.2⟩

/-- `self._sub_sample_inputs` in the condition of fisher_factors.py 1848, set in 1799-1802: an argument other than `None`
overrides the global value, and a number counts as true unless it is 0. -/
def samplesInputs (cfg : InputSampling) (argument : Option ℕ) : Bool :=
  match argument with
  | none => cfg.on
  | some v => decide (v ≠ 0)

/-- `ConvInputMultiKF` with the argument `sub_sample_inputs` (fisher_factors.py 1940-1966, 1840-1935). -/
noncomputable def convInputMulti {kh kw c : ℕ} (cfg : InputSampling) (subSampleInputs : Option ℕ) (bias : Bool) (oh ow : ℕ)
    (stride rate pad : ℤ × ℤ) (inputs : List (ℤ × ℤ → Fin c → ℝ)) (σ : Equiv.Perm (Fin inputs.length)) :
    Matrix (Fin (kh * kw * c + bias.toNat)) (Fin (kh * kw * c + bias.toNat)) ℝ :=
  if samplesInputs cfg subSampleInputs then
    convInputCov bias oh ow stride rate pad none (subsampleInputs cfg.factor inputs σ)
  else convInputCov bias oh ow stride rate pad none inputs

/-- The input factor as `instantiate_factors` makes it (fisher_blocks.py 1609-1613): the tenth positional argument, which
`ConvInputMultiKF` calls `sub_sample_inputs`, is the number of uses. -/
noncomputable def blockInputFactor {kh kw c : ℕ} (cfg : InputSampling) (numUses : ℕ) (bias : Bool) (oh ow : ℕ)
    (stride rate pad : ℤ × ℤ) (inputs : List (ℤ × ℤ → Fin c → ℝ)) (σ : Equiv.Perm (Fin inputs.length)) :
    Matrix (Fin (kh * kw * c + bias.toNat)) (Fin (kh * kw * c + bias.toNat)) ℝ :=
  convInputMulti cfg (some numUses) bias oh ow stride rate pad inputs σ

/-- `ConvOutputMultiKF` (fisher_factors.py 2480-2494, 2450-2466): all positions of all images are rows. -/
noncomputable def convOutputMulti {oh ow o : ℕ} (grads : List (Fin oh → Fin ow → Fin o → ℝ)) : Matrix (Fin o) (Fin o) ℝ :=
  computeCov (grads.flatMap fun d => (List.ofFn fun i => List.ofFn fun j => d i j).flatten)

/-- `_renorm_coeff` (fisher_blocks.py 1628-1630). -/
def multiRenorm (numLocations numUses : ℕ) : ℕ := numLocations * numUses

end Kfac.Grad
