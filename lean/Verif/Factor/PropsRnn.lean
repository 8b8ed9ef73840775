import Verif.Factor.RnnLemmas

/-! # C50, C51: the approximations for layers shared over time -/

namespace Kfac.Factor

open Matrix Kfac.Stats

variable {p q : ℕ}

/-! ### Vocabulary -/

/-- Specification: `sum_{|d|<T} (T-|d|) G_d W A_dᵀ`, with `G_{-d} = G_dᵀ` and `A_{-d} = A_dᵀ`: what the curvature of a
layer used at `T` time steps does to a parameter matrix `W` (outputs × inputs) when the covariances depend on the lag
only and factor into inputs and gradients. -/
noncomputable def seriesCurvature (T : ℕ) (G : ℕ → Mat q) (A : ℕ → Mat p) (W : Matrix (Fin q) (Fin p) ℝ) :
    Matrix (Fin q) (Fin p) ℝ :=
  (T : ℝ) • (G 0 * W * (A 0)ᵀ) +
    ∑ d ∈ Finset.Ico 1 T, ((T : ℝ) - d) • (G d * W * (A d)ᵀ + (G d)ᵀ * W * A d)

/-- Specification: the same for very long sequences, per time step, cut off at lag `N`. -/
noncomputable def longCurvature (N : ℕ) (G : ℕ → Mat q) (A : ℕ → Mat p) (W : Matrix (Fin q) (Fin p) ℝ) :
    Matrix (Fin q) (Fin p) ℝ :=
  G 0 * W * (A 0)ᵀ + ∑ d ∈ Finset.Ico 1 (N + 1), (G d * W * (A d)ᵀ + (G d)ᵀ * W * A d)

/-- The statistics `C0, C1` a factor holds after some non-empty history of covariance updates. -/
def Reached {n : ℕ} (T : ℕ) (C0 C1 : Mat n) : Prop :=
  ∃ h : RnnHist n, h ≠ [] ∧ (∀ u ∈ h, 0 ≤ u.2) ∧
    (MultiKF.after T h).cov.value true = some C0 ∧ (MultiKF.after T h).covDt1.value true = some C1

theorem Reached.dom {n T : ℕ} {C0 C1 : Mat n} (h : Reached T C0 C1) : Dom C0 C1 := by
  obtain ⟨h, h1, h2, h3, h4⟩ := h
  obtain ⟨D0, D1, e1, e2, hd⟩ := rnn_dom T h h1 h2
  rw [h3] at e1; rw [h4] at e2
  cases e1; cases e2
  exact hd

/-- What `tf.linalg.svd` is documented to return, as far as it is used: the right singular vectors are orthonormal,
diagonalise `MᵀM`, and the squares of the singular values are its eigenvalues. -/
structure SvdGood {n : ℕ} (svd : Svd n) : Prop where
  orthonormal : ∀ M, (svd M).2ᵀ * (svd M).2 = 1
  squares : ∀ M, Mᵀ * M = (svd M).2 * diagonal (fun i => (svd M).1 i ^ 2) * (svd M).2ᵀ

/-- Such a decomposition exists. -/
theorem exists_svd (n : ℕ) : ∃ svd : Svd n, SvdGood svd := by
  obtain ⟨la, hla⟩ := exists_good n
  have hs : ∀ M : Mat n, (Mᵀ * M).IsSymm := fun M => by
    unfold Matrix.IsSymm; rw [transpose_mul, transpose_transpose]
  refine ⟨fun M => (fun i => Real.sqrt ((la.eig (Mᵀ * M)).1 i), (la.eig (Mᵀ * M)).2), ?_, ?_⟩
  · intro M; exact hla.orthonormal _ (hs M)
  · intro M
    have hU := hla.orthonormal _ (hs M)
    have hA := hla.eigen _ (hs M)
    have hnn : ∀ i, 0 ≤ (la.eig (Mᵀ * M)).1 i := by
      intro i
      have h1 : diagonal (la.eig (Mᵀ * M)).1 = (M * (la.eig (Mᵀ * M)).2)ᵀ * (M * (la.eig (Mᵀ * M)).2) := by
        rw [transpose_mul, Matrix.mul_assoc, ← Matrix.mul_assoc Mᵀ, ]
        generalize hV : (la.eig (Mᵀ * M)).2 = V at *
        rw [hA]
        rw [show Vᵀ * (V * diagonal (la.eig (Mᵀ * M)).1 * Vᵀ * V) = (Vᵀ * V) * diagonal (la.eig (Mᵀ * M)).1 * (Vᵀ * V) by
          simp only [Matrix.mul_assoc], hU, Matrix.one_mul, Matrix.mul_one, ← hA]
      have h2 := congrFun (congrFun h1 i) i
      rw [diagonal_apply_eq] at h2
      rw [h2, mul_apply]
      exact Finset.sum_nonneg fun j _ => by rw [transpose_apply]; exact mul_self_nonneg _
    simp only [Real.sq_sqrt (hnn _)]
    exact hA

/-! ### Option 1 -/

theorem option1Loop_get {n : ℕ} (la : Linalg n) (e : (Fin n → ℝ) × Mat n) (C1 : Mat n) (ds : List ℝ) (i : ℕ) (d : ℝ)
    (h : ds[i]? = some d) :
    (option1Loop la e C1 ds).2[i]? = some (option1Quants la (invSqrtC0 e d) (symmetrise C1)) := by
  have idem : ∀ C : Mat n, symmetrise (symmetrise C) = symmetrise C := by
    intro C
    unfold symmetrise
    ext i j
    simp only [Matrix.smul_apply, Matrix.add_apply, transpose_apply, smul_eq_mul]
    ring
  induction ds generalizing C1 i with
  | nil => simp at h
  | cons x ds ih =>
    cases i with
    | zero => simp only [List.getElem?_cons_zero, Option.some.injEq] at h; subst h; rfl
    | succ i =>
      simp only [List.getElem?_cons_succ] at h
      simp only [option1Loop, List.getElem?_cons_succ]
      rw [ih _ _ h, idem]

/-- Everything about one factor under option 1 that is needed. -/
theorem option1_factor {n : ℕ} {la : Linalg n} (hla : la.Good) (c : Constants) (hclip : c.clipThreshold ≤ 0)
    {C0 C1 : Mat n} (hdom : Dom C0 C1) {d : ℝ} (hd : 0 < d) :
    ∃ (S U : Mat n) (e : Fin n → ℝ), Sᵀ = S ∧ S * (C0 + d • 1) * S = 1 ∧ Uᵀ * U = 1 ∧
      S * symmetrise C1 * S = U * diagonal e * Uᵀ ∧ (∀ i, |e i| < 1) ∧
      option1Quants la (invSqrtC0 (eigTensors la c C0) d) (symmetrise C1) = (S * U, fun i => |e i|) := by
  obtain ⟨hS, hS1⟩ := invSqrt_spec hla c hclip hdom.1 hd
  generalize hSe : invSqrtC0 (eigTensors la c C0) d = S at *
  have hsym : (S * symmetrise C1 * S).IsSymm := by
    unfold Matrix.IsSymm
    rw [transpose_mul, transpose_mul, hS, Matrix.mul_assoc]
    congr 2
    unfold symmetrise
    rw [transpose_smul, transpose_add, transpose_transpose, add_comm]
  have hU := hla.orthonormal _ hsym
  have hA := hla.eigen _ hsym
  obtain ⟨θ, h0, h1, hθ⟩ := contraction hdom.symmetrise hd hS hS1
  refine ⟨S, (la.eig (S * symmetrise C1 * S)).2, (la.eig (S * symmetrise C1 * S)).1, hS, hS1, hU, hA, fun i => ?_, rfl⟩
  generalize hM : S * symmetrise C1 * S = M at *
  generalize hV : (la.eig M).2 = V at *
  generalize he : (la.eig M).1 = e at *
  have hv : (V *ᵥ Pi.single i 1) ⬝ᵥ (V *ᵥ Pi.single i 1) = 1 := by
    rw [dotProduct_mulVec, vecMul_mulVec, hU]; simp
  have hMv : (V *ᵥ Pi.single i 1) ⬝ᵥ M *ᵥ (V *ᵥ Pi.single i 1) = e i := by
    have e1 : M *ᵥ (V *ᵥ Pi.single i 1) = V *ᵥ (diagonal e *ᵥ Pi.single i 1) := by
      rw [hA, mulVec_mulVec, mulVec_mulVec, Matrix.mul_assoc, hU, Matrix.mul_one]
    rw [e1, dotProduct_mulVec, vecMul_mulVec, hU]
    simp
  have a1 := hθ (V *ᵥ Pi.single i 1) (V *ᵥ Pi.single i 1)
  have a2 := hθ (V *ᵥ Pi.single i 1) (-(V *ᵥ Pi.single i 1))
  rw [mulVec_neg, dotProduct_neg, neg_dotProduct, dotProduct_neg, neg_neg, hMv, hv] at a2
  rw [hMv, hv] at a1
  rw [abs_lt]
  constructor <;> linarith

theorem pow_conj {n : ℕ} {U : Mat n} (hU : Uᵀ * U = 1) (e : Fin n → ℝ) (d : ℕ) :
    (U * diagonal e * Uᵀ) ^ d = U * diagonal (fun i => e i ^ d) * Uᵀ := by
  induction d with
  | zero => simp [mul_eq_one_comm.1 hU]
  | succ d ih =>
    rw [pow_succ, ih]
    have : U * diagonal (fun i => e i ^ d) * Uᵀ * (U * diagonal e * Uᵀ) =
        U * (diagonal (fun i => e i ^ d) * (Uᵀ * U) * diagonal e) * Uᵀ := by simp only [Matrix.mul_assoc]
    rw [this, hU, Matrix.mul_one, diagonal_mul_diagonal]
    simp only [pow_succ]

/-- Undo the change of coordinates. -/
theorem uncongr {SA A0 : Mat p} {SG G0 : Mat q} (hA : SA * A0 * SA = 1) (hG : SG * G0 * SG = 1)
    {X Y : Matrix (Fin q) (Fin p) ℝ} (h : SG * X * SA = SG * Y * SA) : X = Y := by
  have h1 : ∀ Z : Matrix (Fin q) (Fin p) ℝ, (G0 * SG) * (SG * Z * SA) * (SA * A0) = Z := by
    intro Z
    have a : A0 * SA * SA = 1 := by
      exact mul_eq_one_comm.1 (by rw [← Matrix.mul_assoc]; exact hA)
    have a' : SA * (SA * A0) = 1 := by
      have := mul_eq_one_comm.1 (show (A0 * (SA * SA)) = 1 by rw [← Matrix.mul_assoc]; exact a)
      rw [← Matrix.mul_assoc]; exact this
    have g : G0 * SG * SG = 1 := by
      exact mul_eq_one_comm.1 (by rw [← Matrix.mul_assoc]; exact hG)
    calc (G0 * SG) * (SG * Z * SA) * (SA * A0) = (G0 * SG * SG) * Z * (SA * (SA * A0)) := by
          simp only [Matrix.mul_assoc]
      _ = Z := by rw [g, a', Matrix.one_mul, Matrix.mul_one]
  rw [← h1 X, h, h1 Y]

/-- In the coordinates of the inverse square roots one lag is a product of powers. -/
theorem lag_term {SA A0 A1 : Mat p} {SG G0 G1 : Mat q} (hSA : SAᵀ = SA) (hSG : SGᵀ = SG) (hA : SA * A0 * SA = 1)
    (hG : SG * G0 * SG = 1) (d : ℕ) (Y : Matrix (Fin q) (Fin p) ℝ) :
    SG * (lagCov G0 G1 d * (SG * Y * SA) * (lagCov A0 A1 d)ᵀ) * SA =
      (SG * G1 * SG) ^ d * Y * ((SA * A1 * SA) ^ d)ᵀ ∧
    SG * ((lagCov G0 G1 d)ᵀ * (SG * Y * SA) * lagCov A0 A1 d) * SA =
      ((SG * G1 * SG) ^ d)ᵀ * Y * (SA * A1 * SA) ^ d := by
  have ha := lag_conj (C1 := A1) hA d
  have hg := lag_conj (C1 := G1) hG d
  have hat : SA * (lagCov A0 A1 d)ᵀ * SA = ((SA * A1 * SA) ^ d)ᵀ := by
    rw [← ha, transpose_mul, transpose_mul, hSA, Matrix.mul_assoc]
  have hgt : SG * (lagCov G0 G1 d)ᵀ * SG = ((SG * G1 * SG) ^ d)ᵀ := by
    rw [← hg, transpose_mul, transpose_mul, hSG, Matrix.mul_assoc]
  constructor
  · rw [← hat, ← hg]; simp only [Matrix.mul_assoc]
  · rw [← ha, ← hgt]; simp only [Matrix.mul_assoc]

/-- What the curvature makes of the result of option 1, in the coordinates of the eigenvectors. -/
theorem option1_image (T : ℕ) {SA UA A0 A1 : Mat p} {SG UG G0 G1 : Mat q} {eA : Fin p → ℝ}
    {eG : Fin q → ℝ} (hSA : SAᵀ = SA) (hSG : SGᵀ = SG) (hA : SA * A0 * SA = 1) (hG : SG * G0 * SG = 1)
    (hUA : UAᵀ * UA = 1) (hUG : UGᵀ * UG = 1) (hA1 : SA * A1 * SA = UA * diagonal eA * UAᵀ)
    (hG1 : SG * G1 * SG = UG * diagonal eG * UGᵀ) (vector : Matrix (Fin p) (Fin q) ℝ) :
    SG * seriesCurvature T (lagCov G0 G1) (lagCov A0 A1)
      (option1Multiply T (SA * UA, fun i => |eA i|) (SG * UG, fun i => |eG i|) vector)ᵀ * SA =
    UG * (Matrix.of fun i j => ((SG * UG)ᵀ * (vectorᵀ * (SA * UA))) i j *
      (gamma T (|eG i| * |eA j|) * geoSum T (eG i * eA j))) * UAᵀ := by
  set Z1 : Matrix (Fin q) (Fin p) ℝ := (SG * UG)ᵀ * (vectorᵀ * (SA * UA)) with hZ1
  set Z2 : Matrix (Fin q) (Fin p) ℝ := fun i j => Z1 i j * gamma T (|eG i| * |eA j|) with hZ2
  have hW : (option1Multiply T (SA * UA, fun i => |eA i|) (SG * UG, fun i => |eG i|) vector)ᵀ =
      SG * (UG * Z2 * UAᵀ) * SA := by
    unfold option1Multiply
    simp only [transpose_transpose]
    rw [transpose_mul SA UA, hSA]
    simp only [← hZ1]
    rw [show (fun i j => Z1 i j * gamma T (|eG i| * |eA j|)) = Z2 from rfl]
    simp only [Matrix.mul_assoc]
  rw [hW]
  have term : ∀ d : ℕ, SG * (lagCov G0 G1 d * (SG * (UG * Z2 * UAᵀ) * SA) * (lagCov A0 A1 d)ᵀ) * SA =
      UG * (diagonal (fun i => eG i ^ d) * Z2 * diagonal (fun j => eA j ^ d)) * UAᵀ ∧
      SG * ((lagCov G0 G1 d)ᵀ * (SG * (UG * Z2 * UAᵀ) * SA) * lagCov A0 A1 d) * SA =
      UG * (diagonal (fun i => eG i ^ d) * Z2 * diagonal (fun j => eA j ^ d)) * UAᵀ := by
    intro d
    obtain ⟨t1, t2⟩ := lag_term (A1 := A1) (G1 := G1) hSA hSG hA hG d (UG * Z2 * UAᵀ)
    have c1 : (UA * diagonal (fun i => eA i ^ d) * UAᵀ)ᵀ = UA * diagonal (fun i => eA i ^ d) * UAᵀ := by
      rw [transpose_mul, transpose_mul, transpose_transpose, diagonal_transpose, Matrix.mul_assoc]
    have c2 : (UG * diagonal (fun i => eG i ^ d) * UGᵀ)ᵀ = UG * diagonal (fun i => eG i ^ d) * UGᵀ := by
      rw [transpose_mul, transpose_mul, transpose_transpose, diagonal_transpose, Matrix.mul_assoc]
    have c3 : UG * diagonal (fun i => eG i ^ d) * UGᵀ * (UG * Z2 * UAᵀ) * (UA * diagonal (fun i => eA i ^ d) * UAᵀ) =
        UG * (diagonal (fun i => eG i ^ d) * (UGᵀ * UG) * Z2 * (UAᵀ * UA) * diagonal (fun j => eA j ^ d)) * UAᵀ := by
      simp only [Matrix.mul_assoc]
    rw [t1, t2, hA1, hG1, pow_conj hUA, pow_conj hUG, c1, c2, c3, hUA, hUG, Matrix.mul_one, Matrix.mul_one]
    exact ⟨rfl, rfl⟩
  unfold seriesCurvature
  rw [Matrix.mul_add, Matrix.add_mul, Matrix.mul_smul, Matrix.smul_mul, (term 0).1, Matrix.mul_sum, Matrix.sum_mul]
  have step : ∀ d ∈ Finset.Ico 1 T, SG * (((T : ℝ) - d) • (lagCov G0 G1 d * (SG * (UG * Z2 * UAᵀ) * SA) *
        (lagCov A0 A1 d)ᵀ + (lagCov G0 G1 d)ᵀ * (SG * (UG * Z2 * UAᵀ) * SA) * lagCov A0 A1 d)) * SA =
      UG * ((2 * ((T : ℝ) - d)) • (diagonal (fun i => eG i ^ d) * Z2 * diagonal (fun j => eA j ^ d))) * UAᵀ := by
    intro d _
    rw [Matrix.mul_smul, Matrix.smul_mul, Matrix.mul_add, Matrix.add_mul, (term d).1, (term d).2, ← two_smul ℝ,
      smul_smul, Matrix.mul_smul, Matrix.smul_mul, mul_comm]
  rw [Finset.sum_congr rfl step, ← Matrix.sum_mul, ← Matrix.mul_sum, ← Matrix.smul_mul, ← Matrix.mul_smul,
    ← Matrix.add_mul, ← Matrix.mul_add]
  have hsum : (T : ℝ) • (diagonal (fun i => eG i ^ 0) * Z2 * diagonal (fun j => eA j ^ 0)) +
      ∑ d ∈ Finset.Ico 1 T, (2 * ((T : ℝ) - d)) • (diagonal (fun i => eG i ^ d) * Z2 * diagonal (fun j => eA j ^ d)) =
      Matrix.of fun i j => Z1 i j * (gamma T (|eG i| * |eA j|) * geoSum T (eG i * eA j)) := by
    ext i j
    rw [Matrix.add_apply, Matrix.sum_apply, Matrix.smul_apply]
    simp only [Matrix.smul_apply, mul_diagonal, diagonal_mul, smul_eq_mul, pow_zero, one_mul, mul_one]
    have h1 : (T : ℝ) * Z2 i j + ∑ d ∈ Finset.Ico 1 T, 2 * ((T : ℝ) - d) * (eG i ^ d * Z2 i j * eA j ^ d) =
        Z2 i j * geoSum T (eG i * eA j) := by
      unfold geoSum
      rw [mul_add, Finset.mul_sum, Finset.mul_sum]
      congr 1
      · ring
      · refine Finset.sum_congr rfl fun d _ => ?_
        rw [mul_pow]; ring
    rw [h1, hZ2]
    simp only [Matrix.of_apply, mul_assoc]
  rw [hsum]

theorem option1_solves {T : ℕ} (hT : 0 < T) {SA UA A0 A1 : Mat p} {SG UG G0 G1 : Mat q} {eA : Fin p → ℝ}
    {eG : Fin q → ℝ} (hSA : SAᵀ = SA) (hSG : SGᵀ = SG) (hA : SA * A0 * SA = 1) (hG : SG * G0 * SG = 1)
    (hUA : UAᵀ * UA = 1) (hUG : UGᵀ * UG = 1) (hA1 : SA * A1 * SA = UA * diagonal eA * UAᵀ)
    (hG1 : SG * G1 * SG = UG * diagonal eG * UGᵀ) (hltA : ∀ i, |eA i| < 1) (hltG : ∀ i, |eG i| < 1)
    (hsign : ∀ i j, |eG i| * |eA j| = eG i * eA j) (vector : Matrix (Fin p) (Fin q) ℝ) :
    seriesCurvature T (lagCov G0 G1) (lagCov A0 A1)
      (option1Multiply T (SA * UA, fun i => |eA i|) (SG * UG, fun i => |eG i|) vector)ᵀ = vectorᵀ := by
  apply uncongr hA hG
  rw [option1_image T hSA hSG hA hG hUA hUG hA1 hG1]
  have hone : ∀ i j, gamma T (|eG i| * |eA j|) * geoSum T (eG i * eA j) = 1 := by
    intro i j
    rw [← hsign]
    refine gamma_geoSum hT (mul_nonneg (abs_nonneg _) (abs_nonneg _)) ?_
    have := mul_lt_mul'' (hltG i) (hltA j) (abs_nonneg _) (abs_nonneg _)
    simpa using this
  simp only [hone, mul_one]
  have : UG * (Matrix.of fun i j => ((SG * UG)ᵀ * (vectorᵀ * (SA * UA))) i j) * UAᵀ =
      (UG * UGᵀ) * SGᵀ * vectorᵀ * SA * (UA * UAᵀ) := by
    rw [show (Matrix.of fun i j => ((SG * UG)ᵀ * (vectorᵀ * (SA * UA))) i j) = (SG * UG)ᵀ * (vectorᵀ * (SA * UA)) from
      rfl, transpose_mul]
    simp only [Matrix.mul_assoc]
  rw [this, mul_eq_one_comm.1 hUA, mul_eq_one_comm.1 hUG, Matrix.one_mul, Matrix.mul_one, hSG]

/-- C50: with option 1, `multiply_inverse` solves `sum_{|d|<T} (T-|d|) G_d W A_dᵀ = V` for the autoregressive
covariances given by the damped statistics, symmetrised as option 1 assumes, whatever the history of covariance
updates; here for lag-one statistics that are positive semidefinite. Missing: statistics with negative temporal
correlation, where it is false. -/
theorem C50_option1_partial {T : ℕ} (hT : 0 < T) {laA : Linalg p} (hlaA : laA.Good) {laG : Linalg q}
    (hlaG : laG.Good) (svdA : Svd p) (svdG : Svd q) (c : Constants) (hclip : c.clipThreshold ≤ 0) {A0 A1 : Mat p}
    (hA : Reached T A0 A1) {G0 G1 : Mat q} (hG : Reached T G0 G1) (hpA : Psd (symmetrise A1))
    (hpG : Psd (symmetrise G1)) (dsA dsA2 dsG dsG2 : List ℝ) (i j : ℕ) (dA dG : ℝ) (hdA : 0 < dA) (hdG : 0 < dG)
    (hi : dsA[i]? = some dA) (hj : dsG[j]? = some dG) (vector : Matrix (Fin p) (Fin q) ℝ) :
    ∃ qA qG, (rnnInverseOps laA svdA c A0 A1 dsA dsA2).1[i]? = some qA ∧
      (rnnInverseOps laG svdG c G0 G1 dsG dsG2).1[j]? = some qG ∧
      seriesCurvature T (lagCov (G0 + dG • 1) (symmetrise G1)) (lagCov (A0 + dA • 1) (symmetrise A1))
        (option1Multiply T qA qG vector)ᵀ = vectorᵀ := by
  obtain ⟨SA, UA, eA, a1, a2, a3, a4, a5, a6⟩ := option1_factor hlaA c hclip hA.dom hdA
  obtain ⟨SG, UG, eG, g1, g2, g3, g4, g5, g6⟩ := option1_factor hlaG c hclip hG.dom hdG
  refine ⟨_, _, option1Loop_get laA _ A1 dsA i dA hi, option1Loop_get laG _ G1 dsG j dG hj, ?_⟩
  rw [a6, g6]
  have pos : ∀ {n : ℕ} {S U C : Mat n} {e : Fin n → ℝ}, Sᵀ = S → Uᵀ * U = 1 → S * C * S = U * diagonal e * Uᵀ →
      Psd C → ∀ k, 0 ≤ e k := by
    intro n S U C e hS hU h hC k
    have h1 : Uᵀ * (S * C * S) * U = diagonal e := by
      rw [h, show Uᵀ * (U * diagonal e * Uᵀ) * U = (Uᵀ * U) * diagonal e * (Uᵀ * U) by simp only [Matrix.mul_assoc], hU,
        Matrix.one_mul, Matrix.mul_one]
    have h2 : e k = (S *ᵥ (U *ᵥ Pi.single k 1)) ⬝ᵥ C *ᵥ (S *ᵥ (U *ᵥ Pi.single k 1)) := by
      rw [← quad_conj hS, h]
      have e1 : (U * diagonal e * Uᵀ) *ᵥ (U *ᵥ Pi.single k 1) = U *ᵥ (diagonal e *ᵥ Pi.single k 1) := by
        rw [mulVec_mulVec, mulVec_mulVec, Matrix.mul_assoc, hU, Matrix.mul_one]
      rw [e1, dotProduct_mulVec, vecMul_mulVec, hU]
      simp
    rw [h2]
    exact hC.2 _
  refine option1_solves hT a1 g1 a2 g2 a3 g3 a4 g4 a5 g5 (fun i j => ?_) vector
  rw [abs_of_nonneg (pos g1 g3 g4 hpG i), abs_of_nonneg (pos a1 a3 a4 hpA j)]

theorem geoSum_neg {T : ℕ} (hT : 2 ≤ T) {x : ℝ} (hx : x < 0) : geoSum T x < geoSum T |x| := by
  unfold geoSum
  have : ∑ d ∈ Finset.Ico 1 T, ((T : ℝ) - d) * x ^ d < ∑ d ∈ Finset.Ico 1 T, ((T : ℝ) - d) * |x| ^ d := by
    refine Finset.sum_lt_sum (fun d hd => ?_) ⟨1, by simp; omega, ?_⟩
    · have hlt : (d : ℝ) < T := by exact_mod_cast (Finset.mem_Ico.1 hd).2
      refine mul_le_mul_of_nonneg_left ?_ (by linarith)
      rw [← abs_pow]
      exact le_abs_self _
    · have h1 : ((1 : ℕ) : ℝ) < T := by exact_mod_cast hT
      rw [pow_one, pow_one]
      refine mul_lt_mul_of_pos_left ?_ (by linarith)
      have := abs_pos.2 hx.ne
      linarith
  linarith

theorem eig_sign {n : ℕ} {S U C0 C : Mat n} {e : Fin n → ℝ} (hS : Sᵀ = S) (hS1 : S * C0 * S = 1)
    (h : S * C * S = U * diagonal e * Uᵀ) (u : Fin n → ℝ) :
    u ⬝ᵥ C *ᵥ u = ∑ i, e i * ((Uᵀ *ᵥ ((C0 * S) *ᵥ u)) i) ^ 2 := by
  have hSC : S * (C0 * S) = 1 := by rw [← Matrix.mul_assoc]; exact hS1
  have e1 : u = S *ᵥ ((C0 * S) *ᵥ u) := by rw [mulVec_mulVec, hSC, one_mulVec]
  generalize (C0 * S) *ᵥ u = w at e1 ⊢
  have h2 : u ⬝ᵥ C *ᵥ u = w ⬝ᵥ (S * C * S) *ᵥ w := by rw [quad_conj hS, ← e1]
  rw [h2, h, ← mulVec_mulVec, ← mulVec_mulVec, dotProduct_mulVec, ← mulVec_transpose]
  simp only [dotProduct, mulVec_diagonal]
  exact Finset.sum_congr rfl fun i _ => by ring

/-- C50 is false for all statistics where some direction of the inputs is negatively correlated in time and some
direction of the gradients positively, and `T ≥ 2`: `posdef_eig` replaces the negative eigenvalues by their absolute
values. -/
theorem C50_negative_counterexample {T : ℕ} (hT : 2 ≤ T) {laA : Linalg p} (hlaA : laA.Good) {laG : Linalg q}
    (hlaG : laG.Good) (svdA : Svd p) (svdG : Svd q) (c : Constants) (hclip : c.clipThreshold ≤ 0) {A0 A1 : Mat p}
    (hA : Reached T A0 A1) {G0 G1 : Mat q} (hG : Reached T G0 G1) (hnA : ∃ u, u ⬝ᵥ symmetrise A1 *ᵥ u < 0)
    (hpG : ∃ u, 0 < u ⬝ᵥ symmetrise G1 *ᵥ u) (dA dG : ℝ) (hdA : 0 < dA) (hdG : 0 < dG) :
    ∃ qA qG vector, (rnnInverseOps laA svdA c A0 A1 [dA] []).1[0]? = some qA ∧
      (rnnInverseOps laG svdG c G0 G1 [dG] []).1[0]? = some qG ∧
      seriesCurvature T (lagCov (G0 + dG • 1) (symmetrise G1)) (lagCov (A0 + dA • 1) (symmetrise A1))
        (option1Multiply T qA qG vector)ᵀ ≠ vectorᵀ := by
  obtain ⟨SA, UA, eA, a1, a2, a3, a4, a5, a6⟩ := option1_factor hlaA c hclip hA.dom hdA
  obtain ⟨SG, UG, eG, g1, g2, g3, g4, g5, g6⟩ := option1_factor hlaG c hclip hG.dom hdG
  obtain ⟨j, hj⟩ : ∃ j, eA j < 0 := by
    by_contra hcon
    obtain ⟨u, hu⟩ := hnA
    rw [eig_sign a1 a2 a4] at hu
    refine absurd hu (not_lt.2 (Finset.sum_nonneg fun i _ => mul_nonneg ?_ (sq_nonneg _)))
    exact not_lt.1 fun h => hcon ⟨i, h⟩
  obtain ⟨i, hi⟩ : ∃ i, 0 < eG i := by
    by_contra hcon
    obtain ⟨u, hu⟩ := hpG
    rw [eig_sign g1 g2 g4] at hu
    refine absurd hu (not_lt.2 (Finset.sum_nonpos fun i _ => mul_nonpos_of_nonpos_of_nonneg ?_ (sq_nonneg _)))
    exact not_lt.1 fun h => hcon ⟨i, h⟩
  -- a vector that is the `(i, j)` unit in the eigenbasis
  let E : Matrix (Fin q) (Fin p) ℝ := Matrix.single i j 1
  let vt : Matrix (Fin q) (Fin p) ℝ := ((G0 + dG • 1) * SG * UG) * E * ((A0 + dA • 1) * SA * UA)ᵀ
  have hAS : (A0 + dA • 1)ᵀ = A0 + dA • (1 : Mat p) := by
    have := hA.dom.1.1
    unfold Matrix.IsSymm at this
    rw [transpose_add, this, transpose_smul, transpose_one]
  have hZ1 : (SG * UG)ᵀ * (vt * (SA * UA)) = E := by
    have l : (SG * UG)ᵀ * ((G0 + dG • 1) * SG * UG) = 1 := by
      rw [transpose_mul, g1, show UGᵀ * SG * ((G0 + dG • 1) * SG * UG) = UGᵀ * (SG * (G0 + dG • 1) * SG) * UG by
        simp only [Matrix.mul_assoc], g2, Matrix.mul_one, g3]
    have r : ((A0 + dA • 1) * SA * UA)ᵀ * (SA * UA) = 1 := by
      rw [transpose_mul, transpose_mul, a1, hAS, show UAᵀ * (SA * (A0 + dA • 1)) * (SA * UA) =
        UAᵀ * (SA * (A0 + dA • 1) * SA) * UA by simp only [Matrix.mul_assoc], a2, Matrix.mul_one, a3]
    calc (SG * UG)ᵀ * (vt * (SA * UA)) =
        ((SG * UG)ᵀ * ((G0 + dG • 1) * SG * UG)) * E * (((A0 + dA • 1) * SA * UA)ᵀ * (SA * UA)) := by
          simp only [vt, Matrix.mul_assoc]
      _ = E := by rw [l, r, Matrix.one_mul, Matrix.mul_one]
  refine ⟨_, _, vtᵀ, option1Loop_get laA _ A1 [dA] 0 dA rfl, option1Loop_get laG _ G1 [dG] 0 dG rfl, ?_⟩
  rw [a6, g6]
  intro hsol
  have himg := option1_image T a1 g1 a2 g2 a3 g3 a4 g4 vtᵀ
  rw [hsol, transpose_transpose, hZ1] at himg
  -- conjugate back
  have hback : UGᵀ * (SG * vt * SA) * UA = E := by
    rw [← hZ1, transpose_mul, g1]
    simp only [Matrix.mul_assoc]
  rw [himg] at hback
  rw [show UGᵀ * (UG * (Matrix.of fun i j => E i j * (gamma T (|eG i| * |eA j|) * geoSum T (eG i * eA j))) * UAᵀ) * UA =
    (UGᵀ * UG) * (Matrix.of fun i j => E i j * (gamma T (|eG i| * |eA j|) * geoSum T (eG i * eA j))) * (UAᵀ * UA) by
      simp only [Matrix.mul_assoc], a3, g3, Matrix.one_mul, Matrix.mul_one] at hback
  have hij := congrFun (congrFun hback i) j
  simp only [Matrix.of_apply, E, Matrix.single_apply_same, one_mul] at hij
  have hx : eG i * eA j < 0 := mul_neg_of_pos_of_neg hi hj
  have habs : |eG i| * |eA j| = |eG i * eA j| := (abs_mul _ _).symm
  have hlt : |eG i| * |eA j| < 1 := by
    have := mul_lt_mul'' (g5 i) (a5 j) (abs_nonneg _) (abs_nonneg _)
    simpa using this
  have h1 := gamma_geoSum (T := T) (by omega) (mul_nonneg (abs_nonneg (eG i)) (abs_nonneg (eA j))) hlt
  have hne : gamma T (|eG i| * |eA j|) ≠ 0 := by
    intro h0; rw [h0, zero_mul] at h1; exact zero_ne_one h1
  have heq : geoSum T (eG i * eA j) = geoSum T (|eG i| * |eA j|) :=
    mul_left_cancel₀ hne (hij.trans h1.symm)
  rw [habs] at heq
  exact absurd heq (geoSum_neg hT hx).ne

/-- Statistics as in the counterexample: two time steps, one sequence `1, -1` of inputs and `1, 1` of gradients. -/
example : Reached (n := 1) 2 (fun _ _ => 1) (fun _ _ => -(1 / 2)) ∧
    Reached (n := 1) 2 (fun _ _ => 1) (fun _ _ => 1 / 2) := by
  constructor
  · refine ⟨[([[[[fun _ => 1, fun _ => -1]]]], 1)], by simp, by simp, ?_, ?_⟩
    · rw [MovAvg.value, if_pos rfl, if_neg (by simp [MultiKF.after, MultiKF.covUpdate, MovAvg.add, MultiKF.init, MovAvg.init])]
      congr 1
      ext i j
      simp [MultiKF.after, MultiKF.covUpdate, MovAvg.add, MultiKF.init, MovAvg.init, newCovOverReplicas, allAverage,
        totalNewCov, computeCov, transpose]
      show (1 : ℝ) + 0 = 1
      norm_num
    · rw [MovAvg.value, if_pos rfl, if_neg (by simp [MultiKF.after, MultiKF.covUpdate, MovAvg.add, MultiKF.init, MovAvg.init])]
      congr 1
      ext i j
      simp [MultiKF.after, MultiKF.covUpdate, MovAvg.add, MultiKF.init, MovAvg.init, newCovOverReplicas, allAverage,
        totalNewCov, newCovDt1, crossCov]
      norm_num
  · refine ⟨[([[[[fun _ => 1, fun _ => 1]]]], 1)], by simp, by simp, ?_, ?_⟩
    · rw [MovAvg.value, if_pos rfl, if_neg (by simp [MultiKF.after, MultiKF.covUpdate, MovAvg.add, MultiKF.init, MovAvg.init])]
      congr 1
      ext i j
      simp [MultiKF.after, MultiKF.covUpdate, MovAvg.add, MultiKF.init, MovAvg.init, newCovOverReplicas, allAverage,
        totalNewCov, computeCov, transpose]
      show (1 : ℝ) + 0 = 1
      norm_num
    · rw [MovAvg.value, if_pos rfl, if_neg (by simp [MultiKF.after, MultiKF.covUpdate, MovAvg.add, MultiKF.init, MovAvg.init])]
      congr 1
      ext i j
      simp [MultiKF.after, MultiKF.covUpdate, MovAvg.add, MultiKF.init, MovAvg.init, newCovOverReplicas, allAverage,
        totalNewCov, newCovDt1, crossCov]

/-! ### Option 2 -/

theorem invSqrtC0_symm {n : ℕ} (e : (Fin n → ℝ) × Mat n) (d : ℝ) : (invSqrtC0 e d)ᵀ = invSqrtC0 e d := by
  unfold invSqrtC0
  simp only [transpose_smul, transpose_add, transpose_transpose]
  rw [add_comm]

/-- Specification: the algorithm of the paper as given in the comments of `multiply_matpower` (fisher_blocks.py
1787-1829), with `A0^{-1/2} = SA`, `hPsi_A`, and the eigenvectors `EA` and eigenvalues `muA` of `hPsi_Aᵀ hPsi_A`; the
entrywise division treats a zero divisor as one. -/
noncomputable def option2Reference (T : ℕ) (SA hPsiA EA : Mat p) (muA : Fin p → ℝ) (SG hPsiG EG : Mat q)
    (muG : Fin q → ℝ) (Z : Matrix (Fin q) (Fin p) ℝ) : Matrix (Fin q) (Fin p) ℝ :=
  let Za := SG * Z * SA
  let Zb := Za - hPsiGᵀ * Za * hPsiA
  let Zc := EGᵀ * Zb * EA
  let Zd : Matrix (Fin q) (Fin p) ℝ := fun i j =>
    Zc i j / (if 1 - muG i * muA j = 0 then 1 else 1 - muG i * muA j)
  let Ze := EG * Zd * EAᵀ
  let Zf := Ze - hPsiG * Ze * hPsiAᵀ
  let Zg := SG * Zf * SA
  (T : ℝ)⁻¹ • Zg

theorem option2_reference (T : ℕ) {SA A1 : Mat p} {SG G1 : Mat q} (hSA : SAᵀ = SA) (hSG : SGᵀ = SG) (svdA : Svd p)
    (svdG : Svd q) (vector : Matrix (Fin p) (Fin q) ℝ) :
    (option2Multiply T (option2Quants svdA SA A1) (option2Quants svdG SG G1) vector)ᵀ =
      option2Reference T SA (SA * A1 * SA) (svdA (SA * A1 * SA)).2 (fun i => min ((svdA (SA * A1 * SA)).1 i ^ 2) 1)
        SG (SG * G1 * SG) (svdG (SG * G1 * SG)).2 (fun i => min ((svdG (SG * G1 * SG)).1 i ^ 2) 1) vectorᵀ := by
  unfold option2Multiply option2Quants option2Reference
  simp only [transpose_transpose]
  generalize (svdA (SA * A1 * SA)).2 = EA
  generalize (svdG (SG * G1 * SG)).2 = EG
  generalize (fun i => min ((svdA (SA * A1 * SA)).1 i ^ 2) 1) = muA
  generalize (fun i => min ((svdG (SG * G1 * SG)).1 i ^ 2) 1) = muG
  generalize vectorᵀ = Z
  have hdiv : ∀ x : ℝ, (x + if x = 0 then 1 else 0) = if x = 0 then 1 else x := by
    intro x; split_ifs with h
    · rw [h, zero_add]
    · rw [add_zero]
  have h2 : (SG * EG)ᵀ * ((Z - (SG * G1)ᵀ * SG * (Z * ((SA * A1)ᵀ * SA)ᵀ)) * (SA * EA)) =
      EGᵀ * (SG * Z * SA - (SG * G1 * SG)ᵀ * (SG * Z * SA) * (SA * A1 * SA)) * EA := by
    simp only [transpose_mul, transpose_transpose, hSA, hSG, Matrix.mul_sub, Matrix.sub_mul, Matrix.mul_assoc]
  have h3 : ∀ Zd : Matrix (Fin q) (Fin p) ℝ,
      SG * EG * (Zd * (SA * EA)ᵀ) - ((SG * G1)ᵀ * SG)ᵀ * (SG * EG * (Zd * (SA * EA)ᵀ) * ((SA * A1)ᵀ * SA)) =
      SG * (EG * Zd * EAᵀ - SG * G1 * SG * (EG * Zd * EAᵀ) * (SA * A1 * SA)ᵀ) * SA := by
    intro Zd
    simp only [transpose_mul, transpose_transpose, hSA, hSG, Matrix.mul_sub, Matrix.sub_mul, Matrix.mul_assoc]
  simp only [hdiv, h2]
  exact congrArg ((T : ℝ)⁻¹ • ·) (h3 _)

/-- C51: what `multiply_inverse` computes with option 2 from the stored quantities is the algorithm of the paper, for
all statistics, decompositions, dampings and inputs, as long as no option-1 quantities are registered with the same
factors. Missing: factors shared with an option-1 block, where it is false. -/
theorem C51_reference_partial (T : ℕ) (laA : Linalg p) (laG : Linalg q) (svdA : Svd p) (svdG : Svd q) (c : Constants)
    (A0 A1 : Mat p) (G0 G1 : Mat q) (dsA dsG : List ℝ) (i j : ℕ) (dA dG : ℝ) (hi : dsA[i]? = some dA)
    (hj : dsG[j]? = some dG) (vector : Matrix (Fin p) (Fin q) ℝ) :
    ∃ qA qG, (rnnInverseOps laA svdA c A0 A1 [] dsA).2[i]? = some qA ∧
      (rnnInverseOps laG svdG c G0 G1 [] dsG).2[j]? = some qG ∧
      let SA := invSqrtC0 (eigTensors laA c A0) dA;
      let SG := invSqrtC0 (eigTensors laG c G0) dG;
      (option2Multiply T qA qG vector)ᵀ =
        option2Reference T SA (SA * A1 * SA) (svdA (SA * A1 * SA)).2 (fun i => min ((svdA (SA * A1 * SA)).1 i ^ 2) 1)
          SG (SG * G1 * SG) (svdG (SG * G1 * SG)).2 (fun i => min ((svdG (SG * G1 * SG)).1 i ^ 2) 1) vectorᵀ := by
  refine ⟨_, _, ?_, ?_, option2_reference T (invSqrtC0_symm _ dA) (invSqrtC0_symm _ dG) svdA svdG vector⟩
  · simp only [rnnInverseOps, option1Loop, List.getElem?_map, hi, Option.map_some]
  · simp only [rnnInverseOps, option1Loop, List.getElem?_map, hj, Option.map_some]

/-- Squares of singular values of a contraction. -/
theorem svd_lt_one {n : ℕ} {svd : Svd n} (hsvd : SvdGood svd) {H : Mat n} {θ : ℝ} (h1 : θ < 1)
    (h : ∀ v : Fin n → ℝ, (H *ᵥ v) ⬝ᵥ (H *ᵥ v) ≤ θ * (v ⬝ᵥ v)) (i : Fin n) : (svd H).1 i ^ 2 < 1 := by
  have hU := hsvd.orthonormal H
  have hA := hsvd.squares H
  generalize (svd H).2 = V at *
  have hv : (V *ᵥ Pi.single i 1) ⬝ᵥ (V *ᵥ Pi.single i 1) = 1 := by
    rw [dotProduct_mulVec, vecMul_mulVec, hU]; simp
  have hH : (H *ᵥ (V *ᵥ Pi.single i 1)) ⬝ᵥ (H *ᵥ (V *ᵥ Pi.single i 1)) = (svd H).1 i ^ 2 := by
    rw [dotProduct_mulVec, vecMul_mulVec, hA, ← dotProduct_mulVec]
    have e1 : (V * diagonal (fun i => (svd H).1 i ^ 2) * Vᵀ) *ᵥ (V *ᵥ Pi.single i 1) =
        V *ᵥ (diagonal (fun i => (svd H).1 i ^ 2) *ᵥ Pi.single i 1) := by
      rw [mulVec_mulVec, mulVec_mulVec, Matrix.mul_assoc, hU, Matrix.mul_one]
    rw [e1, dotProduct_mulVec, vecMul_mulVec, hU]
    simp
  have := h (V *ᵥ Pi.single i 1)
  rw [hv, hH] at this
  linarith

/-- Partial sums of the two-sided series. -/
theorem telescoping {HA : Mat p} {HG : Mat q} {Zh Y : Matrix (Fin q) (Fin p) ℝ}
    (hY : Y - HGᵀ * HG * Y * (HAᵀ * HA) = Zh - HGᵀ * Zh * HA) (N : ℕ) :
    (HG ^ 0 * (Y - HG * Y * HAᵀ) * (HA ^ 0)ᵀ + ∑ d ∈ Finset.Ico 1 (N + 1),
      (HG ^ d * (Y - HG * Y * HAᵀ) * (HA ^ d)ᵀ + (HG ^ d)ᵀ * (Y - HG * Y * HAᵀ) * HA ^ d)) =
    Zh + (HG ^ (N + 1))ᵀ * (HG * Y * HAᵀ - Zh) * HA ^ (N + 1) - HG ^ (N + 1) * Y * (HA ^ (N + 1))ᵀ := by
  have hq : Y = Zh + HGᵀ * (HG * Y * HAᵀ - Zh) * HA := by
    have h1 : HGᵀ * (HG * Y * HAᵀ - Zh) * HA = HGᵀ * HG * Y * (HAᵀ * HA) - HGᵀ * Zh * HA := by
      simp only [Matrix.mul_sub, Matrix.sub_mul, Matrix.mul_assoc]
    rw [h1, ← sub_eq_zero] 
    have h2 := sub_eq_zero.2 hY
    rw [← h2]; abel
  have hW : Y - HG * Y * HAᵀ = HGᵀ * (HG * Y * HAᵀ - Zh) * HA - (HG * Y * HAᵀ - Zh) := by
    rw [sub_eq_iff_eq_add]
    calc Y = Zh + HGᵀ * (HG * Y * HAᵀ - Zh) * HA := hq
      _ = _ := by abel
  induction N with
  | zero =>
    simp only [pow_zero, Matrix.one_mul, transpose_one, Matrix.mul_one, zero_add, Finset.Ico_self, Finset.sum_empty,
      add_zero, pow_one]
    rw [← hq]
  | succ N ih =>
    rw [Finset.sum_Ico_succ_top (by omega), ← add_assoc, ih]
    have e1 : HG ^ (N + 1) * (Y - HG * Y * HAᵀ) * (HA ^ (N + 1))ᵀ =
        HG ^ (N + 1) * Y * (HA ^ (N + 1))ᵀ - HG ^ (N + 1 + 1) * Y * (HA ^ (N + 1 + 1))ᵀ := by
      rw [pow_succ HG (N + 1), pow_succ HA (N + 1), transpose_mul]
      simp only [Matrix.mul_sub, Matrix.sub_mul, Matrix.mul_assoc]
    have e2 : (HG ^ (N + 1))ᵀ * (Y - HG * Y * HAᵀ) * HA ^ (N + 1) =
        (HG ^ (N + 1 + 1))ᵀ * (HG * Y * HAᵀ - Zh) * HA ^ (N + 1 + 1) -
          (HG ^ (N + 1))ᵀ * (HG * Y * HAᵀ - Zh) * HA ^ (N + 1) := by
      rw [hW, pow_succ' HG (N + 1), pow_succ' HA (N + 1), transpose_mul]
      simp only [Matrix.mul_sub, Matrix.sub_mul, Matrix.mul_assoc]
    rw [e1, e2]
    abel

theorem tendsto_conj {HA : Mat p} {HG : Mat q} (hA : ∀ i j, Filter.Tendsto (fun N : ℕ => (HA ^ N) i j) Filter.atTop (nhds 0))
    (hG : ∀ i j, Filter.Tendsto (fun N : ℕ => (HG ^ N) i j) Filter.atTop (nhds 0)) (X : Matrix (Fin q) (Fin p) ℝ)
    (i : Fin q) (j : Fin p) :
    Filter.Tendsto (fun N : ℕ => (HG ^ N * X * (HA ^ N)ᵀ : Matrix (Fin q) (Fin p) ℝ) i j) Filter.atTop (nhds 0) ∧
    Filter.Tendsto (fun N : ℕ => ((HG ^ N)ᵀ * X * HA ^ N : Matrix (Fin q) (Fin p) ℝ) i j) Filter.atTop (nhds 0) := by
  have z : (0 : ℝ) = ∑ b : Fin p, (∑ a : Fin q, 0 * X a b) * 0 := by simp
  constructor
  · simp only [mul_apply, transpose_apply]
    rw [z]
    exact tendsto_finsetSum _ fun b _ => Filter.Tendsto.mul
      (tendsto_finsetSum _ fun a _ => Filter.Tendsto.mul (hG i a) tendsto_const_nhds) (hA j b)
  · simp only [mul_apply, transpose_apply]
    rw [z]
    exact tendsto_finsetSum _ fun b _ => Filter.Tendsto.mul
      (tendsto_finsetSum _ fun a _ => Filter.Tendsto.mul (hG a i) tendsto_const_nhds) (hA b j)

theorem tendsto_sandwich (L : Mat q) (R : Mat p) (X : ℕ → Matrix (Fin q) (Fin p) ℝ)
    (h : ∀ k l, Filter.Tendsto (fun N => X N k l) Filter.atTop (nhds 0)) (a : Fin q) (b : Fin p) :
    Filter.Tendsto (fun N => (L * X N * R) a b) Filter.atTop (nhds 0) := by
  have z : (0 : ℝ) = ∑ l : Fin p, (∑ k : Fin q, L a k * 0) * R l b := by simp
  simp only [mul_apply]
  rw [z]
  exact tendsto_finsetSum _ fun l _ => Filter.Tendsto.mul
    (tendsto_finsetSum _ fun k _ => Filter.Tendsto.mul tendsto_const_nhds (h k l)) tendsto_const_nhds

/-- C51: with option 2, `multiply_inverse` solves `T * sum_{d in Z} G_d W A_dᵀ = V` (the series converges) for the
autoregressive covariances given by the damped statistics, after every history of covariance updates; the caps
`min(mu, 1)` and the replacement of zero divisors never take effect. Missing: factors that also have option-1
quantities registered, where it is false. -/
theorem C51_inverts_partial {T : ℕ} (hT : 0 < T) {laA : Linalg p} (hlaA : laA.Good) {laG : Linalg q}
    (hlaG : laG.Good) {svdA : Svd p} (hsA : SvdGood svdA) {svdG : Svd q} (hsG : SvdGood svdG) (c : Constants)
    (hclip : c.clipThreshold ≤ 0) {A0 A1 : Mat p} (hA : Reached T A0 A1) {G0 G1 : Mat q} (hG : Reached T G0 G1)
    (dsA dsG : List ℝ) (i j : ℕ) (dA dG : ℝ) (hdA : 0 < dA) (hdG : 0 < dG)
    (hi : dsA[i]? = some dA) (hj : dsG[j]? = some dG) (vector : Matrix (Fin p) (Fin q) ℝ) :
    ∃ qA qG, (rnnInverseOps laA svdA c A0 A1 [] dsA).2[i]? = some qA ∧
      (rnnInverseOps laG svdG c G0 G1 [] dsG).2[j]? = some qG ∧
      ∀ a b, Filter.Tendsto (fun N => ((T : ℝ) • longCurvature N (lagCov (G0 + dG • 1) G1) (lagCov (A0 + dA • 1) A1)
        (option2Multiply T qA qG vector)ᵀ) a b) Filter.atTop (nhds (vectorᵀ a b)) := by
  obtain ⟨qA, qG, hqA, hqG, href⟩ :=
    C51_reference_partial T laA laG svdA svdG c A0 A1 G0 G1 dsA dsG i j dA dG hi hj vector
  refine ⟨qA, qG, hqA, hqG, ?_⟩
  simp only at href
  rw [href]
  obtain ⟨hSA, hSA1⟩ := invSqrt_spec hlaA c hclip hA.dom.1 hdA
  obtain ⟨hSG, hSG1⟩ := invSqrt_spec hlaG c hclip hG.dom.1 hdG
  generalize invSqrtC0 (eigTensors laA c A0) dA = SA at *
  generalize invSqrtC0 (eigTensors laG c G0) dG = SG at *
  obtain ⟨tA, _, tA1, htA⟩ := contraction hA.dom hdA hSA hSA1
  obtain ⟨tG, _, tG1, htG⟩ := contraction hG.dom hdG hSG hSG1
  have nA := norm_contraction tA1 htA
  have nG := norm_contraction tG1 htG
  have pA := pow_tendsto ‹0 ≤ tA› tA1 nA
  have pG := pow_tendsto ‹0 ≤ tG› tG1 nG
  have lA := svd_lt_one hsA tA1 nA
  have lG := svd_lt_one hsG tG1 nG
  have oA := hsA.orthonormal (SA * A1 * SA)
  have oG := hsG.orthonormal (SG * G1 * SG)
  have sA := hsA.squares (SA * A1 * SA)
  have sG := hsG.squares (SG * G1 * SG)
  have lag := fun d Y => lag_term (A1 := A1) (G1 := G1) hSA hSG hSA1 hSG1 d Y
  generalize SA * A1 * SA = HA at *
  generalize SG * G1 * SG = HG at *
  have mA : (fun k => min ((svdA HA).1 k ^ 2) 1) = fun k => (svdA HA).1 k ^ 2 :=
    funext fun k => min_eq_left (lA k).le
  have mG : (fun k => min ((svdG HG).1 k ^ 2) 1) = fun k => (svdG HG).1 k ^ 2 :=
    funext fun k => min_eq_left (lG k).le
  rw [mA, mG]
  have hdiv : ∀ k l, 1 - (svdG HG).1 k ^ 2 * (svdA HA).1 l ^ 2 ≠ 0 := by
    intro k l
    have := mul_lt_mul'' (lG k) (lA l) (sq_nonneg _) (sq_nonneg _)
    rw [one_mul] at this
    linarith
  generalize (svdA HA).2 = EA at *
  generalize (svdG HG).2 = EG at *
  -- the middle of the algorithm
  set Zh : Matrix (Fin q) (Fin p) ℝ := SG * vectorᵀ * SA with hZh
  set Zc : Matrix (Fin q) (Fin p) ℝ := EGᵀ * (Zh - HGᵀ * Zh * HA) * EA with hZc
  set Zd : Matrix (Fin q) (Fin p) ℝ := fun k l =>
    Zc k l / (if 1 - (svdG HG).1 k ^ 2 * (svdA HA).1 l ^ 2 = 0 then 1 else 1 - (svdG HG).1 k ^ 2 * (svdA HA).1 l ^ 2)
    with hZd
  set Y : Matrix (Fin q) (Fin p) ℝ := EG * Zd * EAᵀ with hYdef
  have hW : option2Reference T SA HA EA (fun k => (svdA HA).1 k ^ 2) SG HG EG (fun k => (svdG HG).1 k ^ 2) vectorᵀ =
      (T : ℝ)⁻¹ • (SG * (Y - HG * Y * HAᵀ) * SA) := rfl
  rw [hW]
  have hYeq : Y - HGᵀ * HG * Y * (HAᵀ * HA) = Zh - HGᵀ * Zh * HA := by
    have h1 : Zd - diagonal (fun k => (svdG HG).1 k ^ 2) * Zd * diagonal (fun k => (svdA HA).1 k ^ 2) = Zc := by
      ext k l
      rw [Matrix.sub_apply, mul_diagonal, diagonal_mul, hZd]
      simp only [if_neg (hdiv k l)]
      field_simp [hdiv k l]
    have h2 : HGᵀ * HG * Y * (HAᵀ * HA) =
        EG * (diagonal (fun k => (svdG HG).1 k ^ 2) * Zd * diagonal (fun k => (svdA HA).1 k ^ 2)) * EAᵀ := by
      rw [sA, sG, hYdef]
      rw [show EG * diagonal (fun k => (svdG HG).1 k ^ 2) * EGᵀ * (EG * Zd * EAᵀ) *
          (EA * diagonal (fun k => (svdA HA).1 k ^ 2) * EAᵀ) =
          EG * (diagonal (fun k => (svdG HG).1 k ^ 2) * (EGᵀ * EG) * Zd * (EAᵀ * EA) *
            diagonal (fun k => (svdA HA).1 k ^ 2)) * EAᵀ by simp only [Matrix.mul_assoc], oA, oG, Matrix.mul_one,
          Matrix.mul_one]
    rw [h2, hYdef, ← Matrix.sub_mul, ← Matrix.mul_sub, h1, hZc]
    rw [show EG * (EGᵀ * (Zh - HGᵀ * Zh * HA) * EA) * EAᵀ = (EG * EGᵀ) * (Zh - HGᵀ * Zh * HA) * (EA * EAᵀ) by
      simp only [Matrix.mul_assoc], mul_eq_one_comm.1 oA, mul_eq_one_comm.1 oG, Matrix.one_mul, Matrix.mul_one]
  have hTne : (T : ℝ) ≠ 0 := by exact_mod_cast hT.ne'
  -- the curvature of the result, in the coordinates of the inverse square roots
  have hcurv : ∀ N, SG * ((T : ℝ) • longCurvature N (lagCov (G0 + dG • 1) G1) (lagCov (A0 + dA • 1) A1)
      ((T : ℝ)⁻¹ • (SG * (Y - HG * Y * HAᵀ) * SA))) * SA =
      Zh + (HG ^ (N + 1))ᵀ * (HG * Y * HAᵀ - Zh) * HA ^ (N + 1) - HG ^ (N + 1) * Y * (HA ^ (N + 1))ᵀ := by
    intro N
    rw [← telescoping hYeq N]
    unfold longCurvature
    have hlin : ∀ (B : Mat q) (D : Mat p), B * ((T : ℝ)⁻¹ • (SG * (Y - HG * Y * HAᵀ) * SA)) * D =
        (T : ℝ)⁻¹ • (B * (SG * (Y - HG * Y * HAᵀ) * SA) * D) := by
      intro B D; rw [Matrix.mul_smul, Matrix.smul_mul]
    simp only [hlin, ← smul_add, ← Finset.smul_sum, smul_smul, mul_inv_cancel₀ hTne, one_smul]
    rw [Matrix.mul_add, Matrix.add_mul, (lag 0 _).1, Matrix.mul_sum, Matrix.sum_mul]
    congr 1
    refine Finset.sum_congr rfl fun d _ => ?_
    rw [Matrix.mul_add, Matrix.add_mul, (lag d _).1, (lag d _).2]
  intro a b
  -- back to the original coordinates
  have hA2 : (A0 + dA • 1) * SA * SA = 1 := mul_eq_one_comm.1 (by rw [← Matrix.mul_assoc]; exact hSA1)
  have hA3 : SA * (SA * (A0 + dA • 1)) = 1 := by
    have := mul_eq_one_comm.1 (show ((A0 + dA • 1) * (SA * SA)) = 1 by rw [← Matrix.mul_assoc]; exact hA2)
    rw [← Matrix.mul_assoc]; exact this
  have hG2 : (G0 + dG • 1) * SG * SG = 1 := mul_eq_one_comm.1 (by rw [← Matrix.mul_assoc]; exact hSG1)
  have back : ∀ X : Matrix (Fin q) (Fin p) ℝ,
      X = ((G0 + dG • 1) * SG) * (SG * X * SA) * (SA * (A0 + dA • 1)) := by
    intro X
    rw [show ((G0 + dG • 1) * SG) * (SG * X * SA) * (SA * (A0 + dA • 1)) =
      ((G0 + dG • 1) * SG * SG) * X * (SA * (SA * (A0 + dA • 1))) by simp only [Matrix.mul_assoc], hG2, hA3,
      Matrix.one_mul, Matrix.mul_one]
  have hN : ∀ N, (T : ℝ) • longCurvature N (lagCov (G0 + dG • 1) G1) (lagCov (A0 + dA • 1) A1)
      ((T : ℝ)⁻¹ • (SG * (Y - HG * Y * HAᵀ) * SA)) = vectorᵀ + ((G0 + dG • 1) * SG) *
        ((HG ^ (N + 1))ᵀ * (HG * Y * HAᵀ - Zh) * HA ^ (N + 1) - HG ^ (N + 1) * Y * (HA ^ (N + 1))ᵀ) *
        (SA * (A0 + dA • 1)) := by
    intro N
    rw [back ((T : ℝ) • longCurvature N (lagCov (G0 + dG • 1) G1) (lagCov (A0 + dA • 1) A1)
      ((T : ℝ)⁻¹ • (SG * (Y - HG * Y * HAᵀ) * SA))), hcurv N, add_sub_assoc, Matrix.mul_add, Matrix.add_mul, hZh,
      ← back vectorᵀ]
  simp only [hN]
  have hres : ∀ k l, Filter.Tendsto (fun N : ℕ => ((HG ^ (N + 1))ᵀ * (HG * Y * HAᵀ - Zh) * HA ^ (N + 1) -
      HG ^ (N + 1) * Y * (HA ^ (N + 1))ᵀ : Matrix (Fin q) (Fin p) ℝ) k l) Filter.atTop (nhds 0) := by
    intro k l
    have t1 := ((tendsto_conj pA pG (HG * Y * HAᵀ - Zh) k l).2).comp (Filter.tendsto_add_atTop_nat 1)
    have t2 := ((tendsto_conj pA pG Y k l).1).comp (Filter.tendsto_add_atTop_nat 1)
    simpa using t1.sub t2
  have hlim : Filter.Tendsto (fun N : ℕ => (((G0 + dG • 1) * SG) *
        ((HG ^ (N + 1))ᵀ * (HG * Y * HAᵀ - Zh) * HA ^ (N + 1) - HG ^ (N + 1) * Y * (HA ^ (N + 1))ᵀ) *
        (SA * (A0 + dA • 1)) : Matrix (Fin q) (Fin p) ℝ) a b) Filter.atTop (nhds 0) := by
    exact tendsto_sandwich _ _ _ hres a b
  have := hlim.const_add (vectorᵀ a b)
  rw [add_zero] at this
  exact this

/-- C51 is false when an option-1 quantity is registered with the same factor (a second layer reading the same
tensors): the first loop symmetrises the local `C1` and the second loop goes on with it, so the stored
`P = C1ᵀ C0⁻¹` is wrong for every lag-one covariance that is not symmetric. -/
theorem C51_leak_counterexample {n : ℕ} {la : Linalg n} (hla : la.Good) (svd : Svd n) (c : Constants)
    (hclip : c.clipThreshold ≤ 0) {C0 C1 : Mat n} (hC : Psd C0) (hns : C1ᵀ ≠ C1) (d1 : ℝ) (ds : List ℝ) (i : ℕ)
    (d : ℝ) (hd : 0 < d) (hi : ds[i]? = some d) :
    (∃ qn, (rnnInverseOps la svd c C0 C1 [] ds).2[i]? = some qn ∧ qn.1 = C1ᵀ * (C0 + d • 1)⁻¹) ∧
    (∃ ql, (rnnInverseOps la svd c C0 C1 [d1] ds).2[i]? = some ql ∧ ql.1 ≠ C1ᵀ * (C0 + d • 1)⁻¹) := by
  obtain ⟨hS, hS1⟩ := invSqrt_spec hla c hclip hC hd
  have hSS : ∀ X : Mat n, (invSqrtC0 (eigTensors la c C0) d * X)ᵀ * invSqrtC0 (eigTensors la c C0) d =
      Xᵀ * (C0 + d • 1)⁻¹ := by
    intro X
    rw [transpose_mul, hS, Matrix.mul_assoc]
    congr 1
    symm
    apply Matrix.inv_eq_left_inv
    exact mul_eq_one_comm.1 (by
      have := mul_eq_one_comm.1 (show invSqrtC0 (eigTensors la c C0) d * ((C0 + d • 1) *
        invSqrtC0 (eigTensors la c C0) d) = 1 by rw [← Matrix.mul_assoc]; exact hS1)
      rw [← Matrix.mul_assoc]; exact this)
  refine ⟨⟨option2Quants svd (invSqrtC0 (eigTensors la c C0) d) C1,
      by simp only [rnnInverseOps, option1Loop, List.getElem?_map, hi, Option.map_some], hSS C1⟩,
    ⟨option2Quants svd (invSqrtC0 (eigTensors la c C0) d) (symmetrise C1),
      by simp only [rnnInverseOps, option1Loop, List.getElem?_map, hi, Option.map_some], ?_⟩⟩
  intro h
  simp only [option2Quants] at h
  rw [hSS] at h
  have hdet : IsUnit (C0 + d • (1 : Mat n)).det := isUnit_iff_ne_zero.2 (hC.add_damping hd).det_ne_zero
  have h2 := congrArg (· * (C0 + d • (1 : Mat n))) h
  simp only [Matrix.mul_assoc, nonsing_inv_mul _ hdet, Matrix.mul_one] at h2
  apply hns
  have h3 : (symmetrise C1)ᵀ = symmetrise C1 := by
    unfold symmetrise; rw [transpose_smul, transpose_add, transpose_transpose, add_comm]
  rw [h3] at h2
  have h4 := congrArg Matrix.transpose h2
  rw [h3, transpose_transpose, h2] at h4
  exact h4

/-- A covariance and a lag-one covariance as in the counterexample. -/
example : Psd (1 : Mat 2) ∧ (Matrix.of ![![0, 1], ![0, 0]] : Mat 2)ᵀ ≠ Matrix.of ![![0, 1], ![0, 0]] := by
  refine ⟨⟨transpose_one, fun v => ?_⟩, fun h => ?_⟩
  · rw [one_mulVec]; exact Finset.sum_nonneg fun i _ => mul_self_nonneg (v i)
  · have := congrFun (congrFun h 0) 1
    simp at this

end Kfac.Factor
