import Verif.Factor.Dense
import Verif.Stats.Model

/-! # Layers shared over time: `FullyConnectedMultiKF` (kfac/python/ops/fisher_factors.py 2497-2835) and
`FullyConnectedSeriesFB` (kfac/python/ops/fisher_blocks.py 1639-1842) -/

namespace Kfac.Factor

open Matrix Kfac.Stats

variable {n : ℕ}

/-- `compute_cov(tensor_left, tensor_right, normalizer)` (fisher_factors.py 219-244). -/
noncomputable def crossCov (left right : Rows n) (normalizer : ℕ) : Mat n :=
  fun i j => ((List.zip left right).map fun p => p.1 i * p.2 j).sum / (normalizer : ℝ)

/-- `_compute_new_cov_dt1` (fisher_factors.py 2591-2611) on a tensor `[num_timesteps * batch, n]`, time-major, rows
after `append_homog`. (Fewer rows than timesteps is a shape error in TensorFlow; here the covariance is then empty.) -/
noncomputable def newCovDt1 (timesteps : ℕ) (tensor : Rows n) : Mat n :=
  let totalLen := tensor.length
  let batchSize := totalLen / timesteps
  let present := tensor.take (totalLen - batchSize)
  let future := tensor.drop batchSize
  crossCov future present totalLen

/-- The averages `_cov` and `_cov_dt1` (instantiate_cov_variables, 2652-2663). -/
structure MultiKF (n : ℕ) where
  cov : MovAvg (Mat n)
  covDt1 : MovAvg (Mat n)

/-- Zero-initialised. -/
def MultiKF.init (n : ℕ) : MultiKF n := ⟨MovAvg.init, MovAvg.init⟩

/-- `make_covariance_update_op` (fisher_factors.py 2553-2580); `data[r][s][t]` is the tensor of source `s` and tower
`t` on replica `r`. -/
noncomputable def MultiKF.covUpdate (timesteps : ℕ) (f : MultiKF n) (data : List (List (List (Rows n))))
    (decay weight : ℝ) : MultiKF n :=
  ⟨f.cov.add (newCovOverReplicas computeCov data) decay weight,
   f.covDt1.add (newCovOverReplicas (newCovDt1 timesteps) data) decay weight⟩

/-- `tf.linalg.svd` as used here: singular values and right singular vectors (columns). -/
abbrev Svd (n : ℕ) := Mat n → (Fin n → ℝ) × Mat n

/-- `posdef_eig` with the default method "self_adjoint" (utils.py 33, 325-343). -/
noncomputable def posdefEig (la : Linalg n) (M : Mat n) : (Fin n → ℝ) × Mat n :=
  (fun i => |(la.eig M).1 i|, (la.eig M).2)

/-- `invsqrtC0` (fisher_factors.py 2756-2760, 2790-2794). -/
noncomputable def invSqrtC0 (e : (Fin n → ℝ) × Mat n) (damping : ℝ) : Mat n :=
  let S : Mat n := (Matrix.of fun i j => e.2 i j * (e.1 j + damping) ^ (-(0.5) : ℝ)) * e.2ᵀ
  (2 : ℝ)⁻¹ • (S + Sᵀ)

/-- `C1 = (C1 + tf.transpose(C1)) / 2.0` (fisher_factors.py 2765). -/
noncomputable def symmetrise (C1 : Mat n) : Mat n := (2 : ℝ)⁻¹ • (C1 + C1ᵀ)

/-- Body of the first loop of `make_inverse_update_ops` after the symmetrisation (fisher_factors.py 2767-2777):
`(Lmat, psi)`. -/
noncomputable def option1Quants (la : Linalg n) (invsqrt C1 : Mat n) : Mat n × (Fin n → ℝ) :=
  let hPsi := invsqrt * C1 * invsqrt
  let e := posdefEig la hPsi
  (invsqrt * e.2, e.1)

/-- Body of the second loop (fisher_factors.py 2796-2827): `(Pmat, Kmat, mu)`. -/
noncomputable def option2Quants (svd : Svd n) (invsqrt C1 : Mat n) : Mat n × Mat n × (Fin n → ℝ) :=
  let invsqrtC0C1 := invsqrt * C1
  let hPsi := invsqrtC0C1 * invsqrt
  let d := svd hPsi
  (invsqrtC0C1ᵀ * invsqrt, invsqrt * d.2, fun i => min (d.1 i ^ 2) 1)

/-- The first loop of `make_inverse_update_ops` (fisher_factors.py 2749-2780) over the dampings registered for
option 1: the local variable `C1` is overwritten in every pass. -/
noncomputable def option1Loop (la : Linalg n) (e : (Fin n → ℝ) × Mat n) :
    Mat n → List ℝ → Mat n × List (Mat n × (Fin n → ℝ))
  | C1, [] => (C1, [])
  | C1, d :: ds =>
    let C1' := symmetrise C1
    let rest := option1Loop la e C1' ds
    (rest.1, option1Quants la (invSqrtC0 e d) C1' :: rest.2)

/-- `make_inverse_update_ops` (fisher_factors.py 2734-2835): the values assigned for the dampings registered for
option 1 and for option 2. -/
noncomputable def rnnInverseOps (la : Linalg n) (svd : Svd n) (c : Constants) (C0 C1 : Mat n)
    (dampings1 dampings2 : List ℝ) : List (Mat n × (Fin n → ℝ)) × List (Mat n × Mat n × (Fin n → ℝ)) :=
  let e := eigTensors la c C0
  let loop1 := option1Loop la e C1 dampings1
  (loop1.2, dampings2.map fun d => option2Quants svd (invSqrtC0 e d) loop1.1)

/-- `gamma` (fisher_blocks.py 1744-1750). -/
noncomputable def gamma (T : ℕ) (x : ℝ) : ℝ := (1 - x) ^ 2 / (T * (1 - x ^ 2) - 2 * x * (1 - x ^ T))

variable {p q : ℕ}

/-- `multiply_matpower(vector, -1)` with option 1 (fisher_blocks.py 1723-1773) on the parameters as a
`[inputs, outputs]` matrix. -/
noncomputable def option1Multiply (T : ℕ) (qA : Mat p × (Fin p → ℝ)) (qG : Mat q × (Fin q → ℝ))
    (vector : Matrix (Fin p) (Fin q) ℝ) : Matrix (Fin p) (Fin q) ℝ :=
  let Z := vectorᵀ
  let Y : Matrix (Fin q) (Fin p) ℝ := fun i j => gamma T (qG.2 i * qA.2 j)
  let Z1 := qG.1ᵀ * (Z * qA.1)
  let Z2 : Matrix (Fin q) (Fin p) ℝ := fun i j => Z1 i j * Y i j
  let Z3 := qG.1 * (Z2 * qA.1ᵀ)
  Z3ᵀ

/-- `multiply_matpower(vector, -1)` with option 2 (fisher_blocks.py 1723-1732, 1775-1831). -/
noncomputable def option2Multiply (T : ℕ) (qA : Mat p × Mat p × (Fin p → ℝ)) (qG : Mat q × Mat q × (Fin q → ℝ))
    (vector : Matrix (Fin p) (Fin q) ℝ) : Matrix (Fin p) (Fin q) ℝ :=
  let Z := vectorᵀ
  let Z1 := Z - qG.1 * (Z * qA.1ᵀ)
  let Z2 := qG.2.1ᵀ * (Z1 * qA.2.1)
  let tmp : Matrix (Fin q) (Fin p) ℝ := fun i j => 1 - qG.2.2 i * qA.2.2 j
  let Z3 : Matrix (Fin q) (Fin p) ℝ := fun i j => Z2 i j / (tmp i j + (if tmp i j = 0 then 1 else 0))
  let Z4 := qG.2.1 * (Z3 * qA.2.1ᵀ)
  let Z5 := Z4 - qG.1ᵀ * (Z4 * qA.1)
  let Z6 := (T : ℝ)⁻¹ • Z5
  Z6ᵀ

end Kfac.Factor
