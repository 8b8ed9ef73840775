import Verif.Train.PropsInvariance
import Verif.Train.Regression
import Mathlib.Analysis.Calculus.FDeriv.Prod
import Mathlib.Analysis.Calculus.Deriv.Comp
import Mathlib.Analysis.Calculus.Deriv.Pow
import Mathlib.Analysis.Calculus.LineDeriv.Basic

/-! # C92: K-FAC on linear regression -/

namespace Kfac.Train

open Kfac.Stats Kfac.Block Kfac.Grad Kfac.Loss Matrix

variable {N n q : ℕ}

/-! ### Specification -/

/-- The mean squared error of a network on the training set. -/
noncomputable def meanLoss {N n o : ℕ} (x : Fin N → Fin n → ℝ) (y : Fin N → Fin o → ℝ) (net : Net n o) : ℝ :=
  (∑ i, ∑ j, (net.eval (x i) j - y i j) ^ 2) / N

/-- The second moments of the inputs, with the homogeneous coordinate if there is a bias. -/
noncomputable def secondMoments (bias : Bool) (x : Fin N → Fin n → ℝ) :
    Matrix (Fin (n + bias.toNat)) (Fin (n + bias.toNat)) ℝ :=
  fun r r' => (∑ i, appendHomog bias (x i) r * appendHomog bias (x i) r') / N

/-- A linear model: one layer without activation. -/
abbrev linear (bias : Bool) (l : Layer (n + bias.toNat) q) : Net n q := .cons bias l id .nil

/-- Decays are not negative and dampings are positive. -/
def RegOp.Admissible : RegOp → Prop
  | .cov decay => 0 ≤ decay
  | .inv damping => 0 < damping
  | .train => True

/-- Whether an operation is a training step. -/
def RegOp.isTrain : RegOp → Bool
  | .train => true
  | _ => false

/-! ### Lemmas -/

/-- The mean squared error as a function of the weights. -/
noncomputable def mse (bias : Bool) (x : Fin N → Fin n → ℝ) (y : Fin N → Fin q → ℝ) (w : Fin (n + bias.toNat) → Fin q → ℝ) : ℝ :=
  (∑ i, ∑ j, (affine bias w (x i) j - y i j) ^ 2) / N

/-- Its gradient. -/
noncomputable def mseGrad (bias : Bool) (x : Fin N → Fin n → ℝ) (y : Fin N → Fin q → ℝ) (w : Fin (n + bias.toNat) → Fin q → ℝ) :
    Matrix (Fin (n + bias.toNat)) (Fin q) ℝ :=
  fun r j => 2 * (∑ i, appendHomog bias (x i) r * (affine bias w (x i) j - y i j)) / N

theorem meanLoss_linear (bias : Bool) (x : Fin N → Fin n → ℝ) (y : Fin N → Fin q → ℝ) (l : Layer (n + bias.toNat) q) :
    meanLoss x y (linear bias l) = mse bias x y l.weights := rfl

theorem affine_add (bias : Bool) (w h : Fin (n + bias.toNat) → Fin q → ℝ) (x : Fin n → ℝ) (j : Fin q) :
    affine bias (w + h) x j = affine bias w x j + affine bias h x j := by
  simp [affine, add_mul, Finset.sum_add_distrib]

theorem affine_smul (bias : Bool) (c : ℝ) (h : Fin (n + bias.toNat) → Fin q → ℝ) (x : Fin n → ℝ) (j : Fin q) :
    affine bias (c • h) x j = c * affine bias h x j := by
  simp [affine, mul_assoc, Finset.mul_sum]

theorem quad_eq (bias : Bool) (x : Fin N → Fin n → ℝ) (h : Matrix (Fin (n + bias.toNat)) (Fin q) ℝ) :
    (hᵀ * secondMoments bias x * h).trace = (∑ i, ∑ j, affine bias h (x i) j ^ 2) / N := by
  have e : ∀ j, (hᵀ * secondMoments bias x * h) j j = (∑ i, affine bias h (x i) j ^ 2) / N := by
    intro j
    simp only [Matrix.mul_apply, Matrix.transpose_apply, secondMoments, affine, pow_two, Finset.sum_mul_sum, Finset.sum_div,
      Finset.mul_sum, Finset.sum_mul]
    rw [Finset.sum_comm]
    conv_rhs => rw [Finset.sum_comm]
    refine Finset.sum_congr rfl fun r _ => ?_
    rw [Finset.sum_comm]
    refine Finset.sum_congr rfl fun i _ => Finset.sum_congr rfl fun r' _ => ?_
    ring
  simp only [Matrix.trace, Matrix.diag_apply, e]
  rw [← Finset.sum_div, Finset.sum_comm]

theorem mse_add (bias : Bool) (x : Fin N → Fin n → ℝ) (y : Fin N → Fin q → ℝ) (w h : Matrix (Fin (n + bias.toNat)) (Fin q) ℝ) :
    mse bias x y (w + h) = mse bias x y w + ∑ r, ∑ j, mseGrad bias x y w r j * h r j +
      (hᵀ * secondMoments bias x * h).trace := by
  have e : ∑ r, ∑ j, mseGrad bias x y w r j * h r j =
      (∑ i, ∑ j, 2 * (affine bias w (x i) j - y i j) * affine bias h (x i) j) / N := by
    have e1 : ∀ r j, mseGrad bias x y w r j * h r j =
        ∑ i, 2 * (affine bias w (x i) j - y i j) * (h r j * appendHomog bias (x i) r) / N := by
      intro r j
      simp only [mseGrad, Finset.mul_sum, Finset.sum_div, Finset.sum_mul]
      refine Finset.sum_congr rfl fun i _ => ?_
      ring
    have e2 : ∀ i j, 2 * (affine bias w (x i) j - y i j) * affine bias h (x i) j / N =
        ∑ r, 2 * (affine bias w (x i) j - y i j) * (h r j * appendHomog bias (x i) r) / N := by
      intro i j
      rw [← Finset.sum_div, ← Finset.mul_sum]
      rfl
    simp only [e1, Finset.sum_div, e2]
    rw [Finset.sum_comm]
    conv_rhs => rw [Finset.sum_comm]
    refine Finset.sum_congr rfl fun j _ => ?_
    rw [Finset.sum_comm]
  rw [quad_eq, e]
  unfold mse
  rw [← add_div, ← add_div, ← Finset.sum_add_distrib, ← Finset.sum_add_distrib]
  congr 1
  refine Finset.sum_congr rfl fun i _ => ?_
  rw [← Finset.sum_add_distrib, ← Finset.sum_add_distrib]
  refine Finset.sum_congr rfl fun j _ => ?_
  have ha : affine bias (w + h) (x i) j = affine bias w (x i) j + affine bias h (x i) j := affine_add bias w h (x i) j
  rw [ha]
  ring

theorem matGradient_mse (bias : Bool) (x : Fin N → Fin n → ℝ) (y : Fin N → Fin q → ℝ) (w : Fin (n + bias.toNat) → Fin q → ℝ) :
    matGradient (mse bias x y) w = mseGrad bias x y w := by
  have hd : DifferentiableAt ℝ (mse bias x y) w := by
    unfold mse affine
    fun_prop
  funext r j
  let E : Matrix (Fin (n + bias.toNat)) (Fin q) ℝ :=
    (Pi.single r (Pi.single j 1) : Fin (n + bias.toNat) → Fin q → ℝ)
  have hE : ∀ r' j', E r' j' = if r' = r then if j' = j then 1 else 0 else 0 := by
    intro r' j'
    by_cases hr : r' = r
    · subst hr
      by_cases hj : j' = j
      · subst hj; simp [E]
      · simp [E, hj]
    · simp [E, hr]
  have h2 : matGradient (mse bias x y) w r j = deriv (fun t : ℝ => mse bias x y (Matrix.of w + t • E)) 0 :=
    (hd.lineDeriv_eq_fderiv (v := (Pi.single r (Pi.single j 1) : Fin (n + bias.toNat) → Fin q → ℝ))).symm
  have h3 : (fun t : ℝ => mse bias x y (Matrix.of w + t • E)) = fun t => mse bias x y w +
      t * mseGrad bias x y w r j + t ^ 2 * (Eᵀ * secondMoments bias x * E).trace := by
    funext t
    have := mse_add bias x y w (t • E)
    refine this.trans ?_
    congr 1
    · congr 1
      have h4 : ∀ r' j', mseGrad bias x y w r' j' * (t • E) r' j' =
          if r' = r then if j' = j then t * mseGrad bias x y w r j else 0 else 0 := by
        intro r' j'
        show mseGrad bias x y w r' j' * (t * E r' j') = _
        rw [hE]
        split_ifs with hr hj
        · subst hr; subst hj; ring
        · ring
        · ring
      simp only [h4]
      simp
    · rw [Matrix.transpose_smul, Matrix.smul_mul, Matrix.smul_mul, Matrix.mul_smul, smul_smul, Matrix.trace_smul, smul_eq_mul,
        pow_two]
  rw [h2, h3]
  have h5 : HasDerivAt (fun t : ℝ => mse bias x y w + t * mseGrad bias x y w r j +
      t ^ 2 * (Eᵀ * secondMoments bias x * E).trace)
      (1 * mseGrad bias x y w r j + (2 : ℕ) * (0 : ℝ) ^ (2 - 1) * 1 * (Eᵀ * secondMoments bias x * E).trace) 0 :=
    (((hasDerivAt_id (0 : ℝ)).mul_const _).const_add _).add (((hasDerivAt_id (0 : ℝ)).pow 2).mul_const _)
  rw [h5.deriv]
  simp

/-! ### Matrices -/

theorem secondMoments_eq (bias : Bool) (x : Fin N → Fin n → ℝ) :
    computeCov (List.ofFn fun i => appendHomog bias (x i)) = secondMoments bias x := by
  ext r r'
  simp [computeCov_apply, secondMoments, List.sum_ofFn]

theorem secondMoments_psd (bias : Bool) (x : Fin N → Fin n → ℝ) : (secondMoments bias x).PosSemidef := by
  rw [← secondMoments_eq]; exact computeCov_psd _

theorem ip_trace {P : ℕ} (a b : Matrix (Fin P) (Fin q) ℝ) : ∑ r, ∑ j, a r j * b r j = (aᵀ * b).trace := by
  simp only [Matrix.trace, Matrix.diag_apply, Matrix.mul_apply, Matrix.transpose_apply]
  rw [Finset.sum_comm]

theorem trace_self_nonneg {P : ℕ} (a : Matrix (Fin P) (Fin q) ℝ) : 0 ≤ (aᵀ * a).trace := by
  rw [← ip_trace]
  exact Finset.sum_nonneg fun _ _ => Finset.sum_nonneg fun _ _ => mul_self_nonneg _

/-- The change of a quadratic function by a damped step. -/
theorem step_change {P : ℕ} {A K : Matrix (Fin P) (Fin P) ℝ} {d : ℝ} (hK : (A + d • 1) * K = 1) (hs : Kᵀ = K)
    (γ : Matrix (Fin P) (Fin q) ℝ) (c : ℝ) :
    (γᵀ * (-c • (K * γ))).trace + ((-c • (K * γ))ᵀ * A * (-c • (K * γ))).trace =
      -(c * (1 - c)) * (γᵀ * K * γ).trace - c ^ 2 * d * ((K * γ)ᵀ * (K * γ)).trace := by
  have h1 : A * K = 1 - d • K := by
    rw [Matrix.add_mul, Matrix.smul_mul, Matrix.one_mul] at hK
    exact eq_sub_of_add_eq hK
  have h2 : (K * γ)ᵀ * A * (K * γ) = γᵀ * K * γ - d • ((K * γ)ᵀ * (K * γ)) := by
    rw [Matrix.mul_assoc, ← Matrix.mul_assoc A, h1, Matrix.sub_mul, Matrix.one_mul, Matrix.smul_mul, Matrix.mul_sub,
      Matrix.mul_smul, Matrix.transpose_mul, hs]
  rw [Matrix.transpose_smul, Matrix.smul_mul, Matrix.smul_mul, Matrix.mul_smul, Matrix.mul_smul, smul_smul, h2,
    Matrix.trace_smul, Matrix.trace_smul, Matrix.trace_sub, Matrix.trace_smul, ← Matrix.mul_assoc]
  simp only [smul_eq_mul]
  ring

/-- The damped inverse is at least a fraction of the inverse. -/
theorem damped_lower {P : ℕ} {A K : Matrix (Fin P) (Fin P) ℝ} {a d : ℝ} (ha : 0 < a) (hd : 0 ≤ d) (hA : A.PosSemidef)
    (hlow : ∀ v : Fin P → ℝ, a * (v ⬝ᵥ v) ≤ v ⬝ᵥ A *ᵥ v) (hK : (A + d • 1) * K = 1) (v : Fin P → ℝ) :
    a / (a + d) * (v ⬝ᵥ A *ᵥ v) ≤ (A *ᵥ v) ⬝ᵥ K *ᵥ (A *ᵥ v) := by
  set M := A + d • (1 : Matrix (Fin P) (Fin P) ℝ)
  have hAs : Aᵀ = A := by simpa using hA.1.eq
  have hMs : Mᵀ = M := by simp [M, hAs]
  set y := K *ᵥ (A *ᵥ v) with hy
  have hMy : M *ᵥ y = A *ᵥ v := by
    rw [hy, Matrix.mulVec_mulVec, hK, Matrix.one_mulVec]
  have hpos : ∀ u : Fin P → ℝ, 0 ≤ u ⬝ᵥ M *ᵥ u := by
    intro u
    have h1 : 0 ≤ u ⬝ᵥ A *ᵥ u := by simpa using hA.dotProduct_mulVec_nonneg u
    have h2 : 0 ≤ u ⬝ᵥ u := by
      simp only [dotProduct]; exact Finset.sum_nonneg fun _ _ => mul_self_nonneg _
    simp only [M, Matrix.add_mulVec, Matrix.smul_mulVec, Matrix.one_mulVec, dotProduct_add, dotProduct_smul, smul_eq_mul]
    positivity
  have hvM : v ⬝ᵥ M *ᵥ v ≤ (a + d) / a * (v ⬝ᵥ A *ᵥ v) := by
    have h := hlow v
    simp only [M, Matrix.add_mulVec, Matrix.smul_mulVec, Matrix.one_mulVec, dotProduct_add, dotProduct_smul, smul_eq_mul]
    rw [add_div, div_self ha.ne', add_mul, one_mul]
    have : d * (v ⬝ᵥ v) ≤ d / a * (v ⬝ᵥ A *ᵥ v) := by
      rw [div_mul_eq_mul_div, le_div_iff₀ ha]
      nlinarith
    linarith
  have hsymm : ∀ u w : Fin P → ℝ, u ⬝ᵥ M *ᵥ w = w ⬝ᵥ M *ᵥ u := by
    intro u w
    rw [Matrix.dotProduct_mulVec, ← Matrix.mulVec_transpose, hMs, dotProduct_comm]
  have hs : 0 < (a + d) / a := by positivity
  set s := (a + d) / a
  have h3 := hpos (v - s • y)
  have h4 : (v - s • y) ⬝ᵥ M *ᵥ (v - s • y) = v ⬝ᵥ M *ᵥ v - 2 * s * (v ⬝ᵥ A *ᵥ v) + s ^ 2 * ((A *ᵥ v) ⬝ᵥ y) := by
    rw [Matrix.mulVec_sub, Matrix.mulVec_smul, dotProduct_sub, sub_dotProduct, sub_dotProduct, dotProduct_smul, smul_dotProduct,
      dotProduct_smul, smul_dotProduct, hsymm y v, hMy, dotProduct_comm y]
    simp only [smul_eq_mul]
    ring
  rw [h4] at h3
  have h5 : v ⬝ᵥ A *ᵥ v ≤ s * ((A *ᵥ v) ⬝ᵥ y) := by
    have : s * (v ⬝ᵥ A *ᵥ v) ≤ s * (s * ((A *ᵥ v) ⬝ᵥ y)) := by nlinarith
    exact le_of_mul_le_mul_left this hs
  have h6 : a / (a + d) = s⁻¹ := by simp [s]
  rw [h6, inv_mul_le_iff₀ hs]
  exact h5

/-! ### The statistics -/

/-- Freshly created variables. -/
def fresh {P : ℕ} (w : Fin P → Fin q → ℝ) : Layer P q := ⟨w, 0, ⟨MovAvg.init, 0⟩, ⟨MovAvg.init, 0⟩⟩

theorem gradient_linear (v s : Fin q → ℝ) : gradient (fun z : Fin q → ℝ => ∑ j, v j * z j) s = v := by
  have h : HasFDerivAt (fun z : Fin q → ℝ => ∑ j, v j * z j)
      (∑ j, v j • ContinuousLinearMap.proj (R := ℝ) (φ := fun _ : Fin q => ℝ) j) s :=
    HasFDerivAt.congr_fderiv (HasFDerivAt.fun_sum fun o _ =>
      ((ContinuousLinearMap.proj (R := ℝ) (φ := fun _ : Fin q => ℝ) o).hasFDerivAt.const_mul (v o))) rfl
  funext j
  rw [gradient, h.fderiv]
  simp [Pi.single_apply]

/-- The value of the one-hot vectors. -/
theorem exactSources_eq (p : Fin N → Fin q → ℝ) : exactSources p =
    .ok ((List.range q).map fun k _ j => if j.1 = k then (1 / 2 : ℝ) ^ (-(1 / 2) : ℝ) else 0) := by
  have key : ∀ l : List ℕ, (∀ k ∈ l, k < q) → (l.mapM fun k => (NormalMean.mk p (1 / 2)).oneHot [k]) =
      .ok (l.map fun k _ j => if j.1 = k then (1 / 2 : ℝ) ^ (-(1 / 2) : ℝ) else 0) := by
    intro l
    induction l with
    | nil => intro _; rfl
    | cons k l ih =>
      intro h
      rw [List.mapM_cons, ih fun k hk => h k (by simp [hk])]
      have hk := h k (by simp)
      simp [NormalMean.oneHot, insertSlice, hk, bind, Except.bind, pure, Except.pure]
  exact key _ fun k hk => List.mem_range.1 hk

theorem half_sq : ((1 / 2 : ℝ) ^ (-(1 / 2) : ℝ)) * ((1 / 2 : ℝ) ^ (-(1 / 2) : ℝ)) = 2 := by
  rw [← Real.rpow_add (by norm_num)]
  norm_num

/-- The output factor is the Fisher matrix of the squared error. -/
theorem sources_cov [NeZero N] (hq : q ≠ 0) : newCovOverReplicas computeCov
    [((List.range q).map fun k (_ : Fin N) (j : Fin q) => if j.1 = k then (1 / 2 : ℝ) ^ (-(1 / 2) : ℝ) else 0).map
      fun v => [List.ofFn v]] = (2 : ℝ) • (1 : Matrix (Fin q) (Fin q) ℝ) := by
  have hN : (N : ℝ) ≠ 0 := by exact_mod_cast NeZero.ne N
  have hq' : ((((List.range q).map fun k (_ : Fin N) (j : Fin q) => if j.1 = k then (1 / 2 : ℝ) ^ (-(1 / 2) : ℝ) else 0).map
      fun v => [List.ofFn v]).headD []).length = 1 := by
    obtain ⟨m, rfl⟩ := Nat.exists_eq_succ_of_ne_zero hq
    rw [List.range_succ_eq_map]
    simp
  simp only [newCovOverReplicas, allAverage, List.map_cons, List.map_nil, List.length_cons, List.length_nil, totalNewCov, hq']
  simp only [List.map_map, Nat.cast_one, inv_one, one_smul, List.sum_cons, List.sum_nil, add_zero, zero_add]
  ext a b
  rw [list_sum_apply]
  have e : ∀ k ∈ List.range q, ((fun (towers : List (Rows q)) => (towers.map computeCov).sum) ∘
      (fun v : Fin N → Fin q → ℝ => [List.ofFn v]) ∘
      fun k (_ : Fin N) (j : Fin q) => if j.1 = k then (1 / 2 : ℝ) ^ (-(1 / 2) : ℝ) else 0) k a b =
      if a.1 = k then if b.1 = k then 2 else 0 else 0 := by
    intro k _
    simp only [Function.comp_apply, List.map_cons, List.map_nil, List.sum_cons, List.sum_nil, add_zero, computeCov_apply,
      List.map_ofFn, List.sum_ofFn, List.length_ofFn]
    rw [Finset.sum_const, Finset.card_univ, Fintype.card_fin, nsmul_eq_mul, mul_div_cancel_left₀ _ hN]
    split_ifs
    · exact half_sq
    all_goals simp
  rw [List.map_congr_left e]
  have h2 : ∀ m, ((List.range m).map fun k => if a.1 = k then if b.1 = k then (2 : ℝ) else 0 else 0).sum =
      if a.1 < m then if a = b then 2 else 0 else 0 := by
    intro m
    induction m with
    | zero => simp
    | succ m ih =>
      rw [List.range_succ, List.map_append, List.sum_append, ih]
      simp only [List.map_cons, List.map_nil, List.sum_cons, List.sum_nil, add_zero, Fin.ext_iff]
      split_ifs <;> first | (exfalso; omega) | norm_num
  rw [h2, if_pos a.2, Matrix.smul_apply, Matrix.one_apply, smul_eq_mul]
  split_ifs <;> simp

/-- What the variables of the layer hold during a run on one training set. -/
structure Holds (bias : Bool) (x : Fin N → Fin n → ℝ) (l : Layer (n + bias.toNat) q) : Prop where
  avg : ∃ w : ℝ, 0 ≤ w ∧ l.input.avg = ⟨w • secondMoments bias x, w⟩ ∧
    l.output.avg = ⟨w • (2 : ℝ) • (1 : Matrix (Fin q) (Fin q) ℝ), w⟩
  inverse : (l.input.inverse = 0 ∧ l.output.inverse = 0) ∨ ∃ d e : ℝ, 0 ≤ d ∧ 0 ≤ e ∧
    (secondMoments bias x + d • 1).PosDef ∧ l.input.inverse = (secondMoments bias x + d • 1)⁻¹ ∧
    l.output.inverse = (2 + e)⁻¹ • 1

theorem holds_fresh (bias : Bool) (x : Fin N → Fin n → ℝ) (w : Fin (n + bias.toNat) → Fin q → ℝ) :
    Holds bias x (fresh w) :=
  ⟨⟨0, le_refl _, by simp [fresh, MovAvg.init], by simp [fresh, MovAvg.init]⟩, .inl ⟨rfl, rfl⟩⟩

theorem cov_step [NeZero N] (hq : q ≠ 0) (cfg : Config) (bias : Bool) (x : Fin N → Fin n → ℝ) (y : Fin N → Fin q → ℝ)
    (l : Layer (n + bias.toNat) q) (decay : ℝ) :
    (linear bias l).regStep cfg x y (.cov decay) = .ok (linear bias { l with
      input := ⟨l.input.avg.add (secondMoments bias x) decay 1, l.input.inverse⟩
      output := ⟨l.output.avg.add ((2 : ℝ) • (1 : Matrix (Fin q) (Fin q) ℝ)) decay 1, l.output.inverse⟩ }) := by
  simp only [Net.regStep, exactSources_eq, Except.map, Net.covExact, Net.eval, id, gradient_linear, DenseStat.step, cov_one,
    secondMoments_eq]
  have := sources_cov (N := N) hq
  rw [this]

theorem setupDamping_ok (rule : PiRule) (power lt rt damping : ℝ) (ld rd : ℕ) (h1 : 0 ≤ lt) (h2 : 0 ≤ rt) (hd : 0 ≤ damping) :
    ∃ d e, setupDamping rule power lt ld rt rd damping none = .ok (d, e) ∧ 0 ≤ d ∧ 0 ≤ e ∧ (0 < damping → 0 < d ∧ 0 < e) ∧
      d * e = damping := by
  have hr : 0 ≤ damping ^ (1 / 2 : ℝ) := Real.rpow_nonneg hd _
  have hp : 0 < damping → 0 < damping ^ (1 / 2 : ℝ) := fun h => Real.rpow_pos_of_pos h _
  have hsq : damping ^ (1 / 2 : ℝ) * damping ^ (1 / 2 : ℝ) = damping := by
    rw [← Real.sqrt_eq_rpow, Real.mul_self_sqrt hd]
  cases rule with
  | off => exact ⟨_, _, rfl, hr, hr, fun h => ⟨hp h, hp h⟩, hsq⟩
  | tracenorm =>
    obtain ⟨π, hπ, h3⟩ : ∃ π, piTracenorm lt ld rt rd = .ok π ∧ 0 < π := by
      simp only [piTracenorm]
      split_ifs with h3 h4
      · exact ⟨1, rfl, one_pos⟩
      · have h5 : lt * (rd : ℝ) ≠ 0 := fun h => h3 (by rw [h, zero_mul])
        have h6 : 0 < lt * (rd : ℝ) := lt_of_le_of_ne (by positivity) h5.symm
        exact ⟨_, rfl, Real.sqrt_pos.2 (div_pos h6 h4)⟩
      · exfalso
        have h5 : rt * (ld : ℝ) ≠ 0 := fun h => h3 (by rw [h, mul_zero])
        exact h4 (lt_of_le_of_ne (by positivity) h5.symm)
    refine ⟨damping ^ (1 / 2 : ℝ) * π, damping ^ (1 / 2 : ℝ) / π, ?_, by positivity, by positivity, fun h => ?_, ?_⟩
    · simp only [setupDamping, piAdjustedDamping, hπ, bind, Except.bind, pure, Except.pure]
    · have := hp h
      exact ⟨by positivity, by positivity⟩
    · rw [mul_div_assoc', mul_right_comm, mul_div_assoc, div_self h3.ne', mul_one, hsq]

theorem inv_step (cfg : Config) (bias : Bool) (x : Fin N → Fin n → ℝ) (y : Fin N → Fin q → ℝ)
    (l : Layer (n + bias.toNat) q) {w : ℝ} (hw : w ≠ 0) (h1 : l.input.avg = ⟨w • secondMoments bias x, w⟩)
    (h2 : l.output.avg = ⟨w • (2 : ℝ) • (1 : Matrix (Fin q) (Fin q) ℝ), w⟩) {damping d e : ℝ}
    (hs : setupDamping cfg.rule cfg.power (secondMoments bias x).trace (n + bias.toNat)
      ((2 : ℝ) • (1 : Matrix (Fin q) (Fin q) ℝ)).trace q damping none = .ok (d, e)) :
    (linear bias l).regStep cfg x y (.inv damping) = .ok (linear bias { l with
      input := ⟨l.input.avg, (secondMoments bias x + d • 1)⁻¹⟩
      output := ⟨l.output.avg, ((2 : ℝ) • (1 : Matrix (Fin q) (Fin q) ℝ) + e • 1)⁻¹⟩ }) := by
  have v1 : l.input.avg.value true = some (secondMoments bias x) := by
    rw [h1, value_eq hw, smul_smul, inv_mul_cancel₀ hw, one_smul]
  have v2 : l.output.avg.value true = some ((2 : ℝ) • (1 : Matrix (Fin q) (Fin q) ℝ)) := by
    rw [h2, value_eq hw, smul_smul, inv_mul_cancel₀ hw, one_smul]
  simp only [Net.regStep, Net.invUpdate, Layer.invUpdate, v1, v2, hs, Except.map, DenseStat.step, bind, Except.bind, pure,
    Except.pure]

theorem scalar_inv (e : ℝ) (he : 0 ≤ e) : ((2 : ℝ) • (1 : Matrix (Fin q) (Fin q) ℝ) + e • 1)⁻¹ = (2 + e)⁻¹ • 1 := by
  rw [← add_smul]
  apply Matrix.inv_eq_left_inv
  rw [Matrix.smul_mul, Matrix.one_mul, smul_smul, inv_mul_cancel₀ (by positivity), one_smul]

/-- The preconditioned gradient. -/
noncomputable def direction (bias : Bool) (x : Fin N → Fin n → ℝ) (y : Fin N → Fin q → ℝ) (l : Layer (n + bias.toNat) q) :
    Fin (n + bias.toNat) → Fin q → ℝ :=
  l.input.inverse * mseGrad bias x y l.weights * l.output.inverse

theorem train_step (hq : q ≠ 0) (cfg : Config) (bias : Bool) (x : Fin N → Fin n → ℝ) (y : Fin N → Fin q → ℝ)
    (l : Layer (n + bias.toNat) q) :
    ∃ r : ℝ, (linear bias l).regStep cfg x y .train = .ok (linear bias { l with
      weights := l.weights - cfg.learningRate • (cfg.momentum • l.velocity +
        clipFactor cfg.normConstraint cfg.learningRate r • direction bias x y l)
      velocity := cfg.momentum • l.velocity +
        clipFactor cfg.normConstraint cfg.learningRate r • direction bias x y l }) := by
  have hl : matGradient (lossOf bias id (.nil : Net q q) x (squaredLoss y)) l.weights = mseGrad bias x y l.weights :=
    matGradient_mse bias x y l.weights
  have hp : l.precondition bias (mseGrad bias x y l.weights) = .ok (direction bias x y l) :=
    precondition_eq hq bias l (mseGrad bias x y l.weights)
  refine ⟨(∑ r, ∑ j, mseGrad bias x y l.weights r j * direction bias x y l r j) + 0, ?_⟩
  simp only [Net.regStep, Net.trainStep, Net.sqNorm, Net.update, hl, hp, bind, Except.bind, pure, Except.pure]

theorem clipFactor_mem (c : Option ℝ) (lr r : ℝ) : 0 ≤ clipFactor c lr r ∧ clipFactor c lr r ≤ 1 := by
  cases c with
  | none => exact ⟨zero_le_one, le_refl _⟩
  | some c =>
    simp only [clipFactor]
    split_ifs
    · exact ⟨zero_le_one, le_refl _⟩
    · exact ⟨le_min zero_le_one (Real.sqrt_nonneg _), min_le_left _ _⟩

/-- The loss after a damped step. -/
theorem mse_step (bias : Bool) (x : Fin N → Fin n → ℝ) (y : Fin N → Fin q → ℝ) (w : Matrix (Fin (n + bias.toNat)) (Fin q) ℝ)
    {d : ℝ} (hd : (secondMoments bias x + d • 1).PosDef) (c : ℝ) :
    mse bias x y (w + -c • ((secondMoments bias x + d • 1)⁻¹ * mseGrad bias x y w)) = mse bias x y w -
      c * (1 - c) * ((mseGrad bias x y w)ᵀ * (secondMoments bias x + d • 1)⁻¹ * mseGrad bias x y w).trace -
      c ^ 2 * d * (((secondMoments bias x + d • 1)⁻¹ * mseGrad bias x y w)ᵀ *
        ((secondMoments bias x + d • 1)⁻¹ * mseGrad bias x y w)).trace := by
  have hu : IsUnit (secondMoments bias x + d • 1).det := (Matrix.isUnit_iff_isUnit_det _).1 hd.isUnit
  have hs : ((secondMoments bias x + d • 1)⁻¹)ᵀ = (secondMoments bias x + d • 1)⁻¹ := by
    simpa using hd.inv.1.eq
  have h := step_change (Matrix.mul_nonsing_inv _ hu) hs (mseGrad bias x y w) c
  rw [mse_add, ip_trace, add_assoc, h]
  ring

theorem weights_step (cfg : Config) (hm : cfg.momentum = 0) (bias : Bool) (x : Fin N → Fin n → ℝ) (y : Fin N → Fin q → ℝ)
    (l : Layer (n + bias.toNat) q) {d e κ : ℝ} (h1 : l.input.inverse = (secondMoments bias x + d • 1)⁻¹)
    (h2 : l.output.inverse = (2 + e)⁻¹ • 1) :
    l.weights - cfg.learningRate • (cfg.momentum • l.velocity + κ • direction bias x y l) =
      Matrix.of l.weights + -(cfg.learningRate * κ / (2 + e)) •
        ((secondMoments bias x + d • 1)⁻¹ * mseGrad bias x y l.weights) := by
  have h3 : direction bias x y l = (2 + e)⁻¹ • ((secondMoments bias x + d • 1)⁻¹ * mseGrad bias x y l.weights) := by
    unfold direction
    rw [h1, h2, Matrix.mul_smul, Matrix.mul_one]
  rw [h3, hm]
  funext r j
  show l.weights r j - cfg.learningRate * (0 * l.velocity r j + κ * ((2 + e)⁻¹ * _)) =
    l.weights r j + -(cfg.learningRate * κ / (2 + e)) * _
  ring

theorem holds_step [NeZero N] (hq : q ≠ 0) (cfg : Config) (bias : Bool) (x : Fin N → Fin n → ℝ) (y : Fin N → Fin q → ℝ)
    {l : Layer (n + bias.toNat) q} (h : Holds bias x l) (op : RegOp)
    (hop : op.Admissible) {net : Net n q}
    (hs : (linear bias l).regStep cfg x y op = .ok net) : ∃ l', net = linear bias l' ∧ Holds bias x l' := by
  obtain ⟨w, hw, h1, h2⟩ := h.avg
  cases op with
  | cov decay =>
    rw [cov_step hq] at hs
    have hdec : 0 ≤ decay := hop
    refine ⟨_, (Except.ok.inj hs).symm, ⟨decay * w + 1, by positivity, ?_, ?_⟩, h.inverse⟩
    · simp only [h1, MovAvg.add]
      simp [add_smul, smul_smul]
    · simp only [h2, MovAvg.add]
      simp only [smul_smul, ← add_smul]
      congr 2
      ring
  | inv damping =>
    have hop : 0 < damping := hop
    by_cases h0 : w = 0
    · subst h0
      simp [Net.regStep, Net.invUpdate, Layer.invUpdate, h1, MovAvg.value, bind, Except.bind] at hs
    · obtain ⟨d, e, h3, h4, h5, h6, -⟩ := setupDamping_ok cfg.rule cfg.power (secondMoments bias x).trace
        ((2 : ℝ) • (1 : Matrix (Fin q) (Fin q) ℝ)).trace damping (n + bias.toNat) q (secondMoments_psd bias x).trace_nonneg
        (by rw [Matrix.trace_smul, Matrix.trace_one]; simp) hop.le
      rw [inv_step cfg bias x y l h0 h1 h2 h3] at hs
      refine ⟨_, (Except.ok.inj hs).symm, ⟨w, hw, h1, h2⟩, .inr ⟨d, e, h4, h5, ?_, rfl, scalar_inv e h5⟩⟩
      exact Matrix.PosDef.posSemidef_add (secondMoments_psd bias x) (Matrix.PosDef.one.smul (h6 hop).1)
  | train =>
    obtain ⟨r, hr⟩ := train_step hq cfg bias x y l
    rw [hr] at hs
    exact ⟨_, (Except.ok.inj hs).symm, h.avg, h.inverse⟩

theorem holds_run [NeZero N] (hq : q ≠ 0) (cfg : Config) (bias : Bool) (x : Fin N → Fin n → ℝ) (y : Fin N → Fin q → ℝ)
    (ops : List RegOp)
    (hop : ∀ op ∈ ops, op.Admissible) {net : Net n q} :
    ∀ {l : Layer (n + bias.toNat) q}, Holds bias x l → (linear bias l).regRun cfg x y ops = .ok net →
      ∃ l', net = linear bias l' ∧ Holds bias x l' := by
  induction ops with
  | nil =>
    intro l h hs
    exact ⟨l, (Except.ok.inj hs).symm, h⟩
  | cons op ops ih =>
    intro l h hs
    simp only [Net.regRun] at hs
    cases h1 : (linear bias l).regStep cfg x y op with
    | error e => rw [h1] at hs; cases hs
    | ok net' =>
      rw [h1] at hs
      obtain ⟨l', rfl, h'⟩ := holds_step hq cfg bias x y h op (hop op (by simp)) h1
      exact ih (fun o ho => hop o (by simp [ho])) h' hs

/-! ### The minimum -/

/-- The inputs span the space: no direction is invisible to all examples. -/
def Spans (bias : Bool) (x : Fin N → Fin n → ℝ) (a : ℝ) : Prop :=
  ∀ v : Fin (n + bias.toNat) → ℝ, a * ∑ r, v r ^ 2 ≤ (∑ i, (∑ r, v r * appendHomog bias (x i) r) ^ 2) / N

theorem spans_lower {bias : Bool} {x : Fin N → Fin n → ℝ} {a : ℝ} (h : Spans bias x a) (v : Fin (n + bias.toNat) → ℝ) :
    a * (v ⬝ᵥ v) ≤ v ⬝ᵥ secondMoments bias x *ᵥ v := by
  have e1 : v ⬝ᵥ v = ∑ r, v r ^ 2 := by simp [dotProduct, pow_two]
  have e2 : v ⬝ᵥ secondMoments bias x *ᵥ v = (∑ i, (∑ r, v r * appendHomog bias (x i) r) ^ 2) / N := by
    simp only [dotProduct, Matrix.mulVec, secondMoments, pow_two, Finset.sum_div, Finset.mul_sum, Finset.sum_mul]
    conv_rhs => rw [Finset.sum_comm]
    refine Finset.sum_congr rfl fun r _ => ?_
    rw [Finset.sum_comm]
    refine Finset.sum_congr rfl fun i _ => Finset.sum_congr rfl fun r' _ => ?_
    ring
  rw [e1, e2]
  exact h v

theorem spans_posDef {bias : Bool} {x : Fin N → Fin n → ℝ} {a d : ℝ} (ha : 0 < a) (hd : 0 ≤ d) (h : Spans bias x a) :
    (secondMoments bias x + d • 1).PosDef := by
  refine Matrix.PosDef.of_dotProduct_mulVec_pos ?_ fun v hv => ?_
  · have h1 := (secondMoments_psd bias x).1
    have h2 : (d • (1 : Matrix (Fin (n + bias.toNat)) (Fin (n + bias.toNat)) ℝ)).IsHermitian := by
      simp [Matrix.IsHermitian]
    exact h1.add h2
  · have h1 := spans_lower h v
    have h2 : 0 < v ⬝ᵥ v := by
      have := Matrix.dotProduct_star_self_pos_iff.2 hv
      simpa using this
    simp only [star_trivial, Matrix.add_mulVec, Matrix.smul_mulVec, Matrix.one_mulVec, dotProduct_add, dotProduct_smul, smul_eq_mul]
    have h3 : 0 < a * (v ⬝ᵥ v) := by positivity
    have h4 : 0 ≤ d * (v ⬝ᵥ v) := by positivity
    linarith

theorem mseGrad_add (bias : Bool) (x : Fin N → Fin n → ℝ) (y : Fin N → Fin q → ℝ) (w h : Matrix (Fin (n + bias.toNat)) (Fin q) ℝ) :
    mseGrad bias x y (w + h) = mseGrad bias x y w + (2 : ℝ) • (secondMoments bias x * h) := by
  ext r j
  have ha : ∀ i, affine bias (w + h) (x i) j = affine bias w (x i) j + affine bias h (x i) j :=
    fun i => affine_add bias w h (x i) j
  have e : (secondMoments bias x * h) r j = (∑ i, appendHomog bias (x i) r * affine bias h (x i) j) / N := by
    simp only [Matrix.mul_apply, secondMoments, affine, Finset.sum_div, Finset.mul_sum, Finset.sum_mul]
    rw [Finset.sum_comm]
    refine Finset.sum_congr rfl fun i _ => Finset.sum_congr rfl fun r' _ => ?_
    ring
  rw [Matrix.add_apply, Matrix.smul_apply, e, smul_eq_mul]
  unfold mseGrad
  simp only [ha]
  rw [mul_div_assoc, mul_div_assoc, ← mul_add, ← add_div, ← Finset.sum_add_distrib]
  congr 2
  refine Finset.sum_congr rfl fun i _ => ?_
  ring

/-- The loss around the minimum. -/
theorem minimum {bias : Bool} {x : Fin N → Fin n → ℝ} {a : ℝ} (ha : 0 < a) (h : Spans bias x a) (y : Fin N → Fin q → ℝ) :
    ∃ m : Matrix (Fin (n + bias.toNat)) (Fin q) ℝ, ∀ w : Matrix (Fin (n + bias.toNat)) (Fin q) ℝ,
      mse bias x y w = mse bias x y m + ((w - m)ᵀ * secondMoments bias x * (w - m)).trace ∧
        mseGrad bias x y w = (2 : ℝ) • (secondMoments bias x * (w - m)) := by
  have hp : (secondMoments bias x).PosDef := by simpa using spans_posDef ha (le_refl 0) h
  have hu : IsUnit (secondMoments bias x).det := (Matrix.isUnit_iff_isUnit_det _).1 hp.isUnit
  let m : Matrix (Fin (n + bias.toNat)) (Fin q) ℝ := -(1 / 2 : ℝ) • ((secondMoments bias x)⁻¹ * mseGrad bias x y 0)
  have hm : mseGrad bias x y m = 0 := by
    have h1 := mseGrad_add bias x y 0 m
    rw [zero_add] at h1
    rw [h1]
    simp only [m]
    rw [Matrix.mul_smul, ← Matrix.mul_assoc, Matrix.mul_nonsing_inv _ hu, Matrix.one_mul, smul_smul]
    norm_num
    exact add_neg_cancel _
  refine ⟨m, fun w => ⟨?_, ?_⟩⟩
  · have h1 := mse_add bias x y m (w - m)
    rw [add_sub_cancel, hm] at h1
    rw [h1]
    simp
  · have h1 := mseGrad_add bias x y m (w - m)
    rw [add_sub_cancel, hm, zero_add] at h1
    exact h1

theorem quad_nonneg (bias : Bool) (x : Fin N → Fin n → ℝ) (h : Matrix (Fin (n + bias.toNat)) (Fin q) ℝ) :
    0 ≤ (hᵀ * secondMoments bias x * h).trace := by
  rw [quad_eq]
  positivity

theorem minimum_least {bias : Bool} {x : Fin N → Fin n → ℝ} {y : Fin N → Fin q → ℝ} {m : Matrix (Fin (n + bias.toNat)) (Fin q) ℝ}
    (hm : ∀ w : Matrix (Fin (n + bias.toNat)) (Fin q) ℝ,
      mse bias x y w = mse bias x y m + ((w - m)ᵀ * secondMoments bias x * (w - m)).trace) :
    IsLeast (Set.range fun l : Layer (n + bias.toNat) q => meanLoss x y (linear bias l)) (mse bias x y m) := by
  refine ⟨⟨fresh m, rfl⟩, ?_⟩
  rintro _ ⟨l, rfl⟩
  show mse bias x y m ≤ mse bias x y l.weights
  have := hm l.weights
  rw [this]
  exact le_add_of_nonneg_right (quad_nonneg _ _ _)

/-- A quadratic form summed over columns. -/
theorem trace_cols {P : ℕ} (M : Matrix (Fin P) (Fin P) ℝ) (h : Matrix (Fin P) (Fin q) ℝ) :
    (hᵀ * M * h).trace = ∑ j, h.col j ⬝ᵥ M *ᵥ h.col j := by
  simp only [Matrix.trace, Matrix.diag_apply]
  refine Finset.sum_congr rfl fun j _ => ?_
  rw [Matrix.mul_assoc]
  simp [Matrix.mul_apply, dotProduct, Matrix.mulVec, Matrix.col_apply]

/-- One step towards the minimum. -/
theorem contract {bias : Bool} {x : Fin N → Fin n → ℝ} {a d c : ℝ} (ha : 0 < a) (hd : 0 ≤ d) (hc0 : 0 ≤ c) (hc1 : c ≤ 1)
    (h : Spans bias x a) (y : Fin N → Fin q → ℝ) {m : Matrix (Fin (n + bias.toNat)) (Fin q) ℝ}
    (hm : ∀ w : Matrix (Fin (n + bias.toNat)) (Fin q) ℝ,
      mse bias x y w = mse bias x y m + ((w - m)ᵀ * secondMoments bias x * (w - m)).trace ∧
        mseGrad bias x y w = (2 : ℝ) • (secondMoments bias x * (w - m)))
    (w : Matrix (Fin (n + bias.toNat)) (Fin q) ℝ) :
    mse bias x y (w + -c • ((secondMoments bias x + d • 1)⁻¹ * mseGrad bias x y w)) - mse bias x y m ≤
      (1 - 4 * c * (1 - c) * (a / (a + d))) * (mse bias x y w - mse bias x y m) := by
  have hp := spans_posDef ha hd h
  have hu : IsUnit (secondMoments bias x + d • 1).det := (Matrix.isUnit_iff_isUnit_det _).1 hp.isUnit
  have hA := secondMoments_psd bias x
  have hAs : (secondMoments bias x)ᵀ = secondMoments bias x := by simpa using hA.1.eq
  have h1 := mse_step bias x y w hp c
  have t2 := mul_nonneg (mul_nonneg (sq_nonneg c) hd)
    (trace_self_nonneg ((secondMoments bias x + d • 1)⁻¹ * mseGrad bias x y w))
  have h3 : ((mseGrad bias x y w)ᵀ * (secondMoments bias x + d • 1)⁻¹ * mseGrad bias x y w).trace =
      4 * ∑ j, (secondMoments bias x *ᵥ (w - m).col j) ⬝ᵥ (secondMoments bias x + d • 1)⁻¹ *ᵥ
        (secondMoments bias x *ᵥ (w - m).col j) := by
    rw [trace_cols, Finset.mul_sum]
    refine Finset.sum_congr rfl fun j _ => ?_
    have h4 : (mseGrad bias x y w).col j = (2 : ℝ) • (secondMoments bias x *ᵥ (w - m).col j) := by
      rw [(hm w).2]
      funext r
      simp [Matrix.mul_apply, Matrix.mulVec, dotProduct, Matrix.col_apply]
    rw [h4, Matrix.mulVec_smul, smul_dotProduct, dotProduct_smul, smul_eq_mul, smul_eq_mul, ← mul_assoc]
    norm_num
  have h4 : a / (a + d) * ((w - m)ᵀ * secondMoments bias x * (w - m)).trace ≤
      ∑ j, (secondMoments bias x *ᵥ (w - m).col j) ⬝ᵥ (secondMoments bias x + d • 1)⁻¹ *ᵥ
        (secondMoments bias x *ᵥ (w - m).col j) := by
    rw [trace_cols, Finset.mul_sum]
    exact Finset.sum_le_sum fun j _ => damped_lower ha hd hA (spans_lower h) (Matrix.mul_nonsing_inv _ hu) _
  rw [h1, h3]
  have h5 := (hm w).1
  have h6 : 0 ≤ 4 * (c * (1 - c)) := by nlinarith
  have h7 := mul_le_mul_of_nonneg_left h4 h6
  rw [h5] at *
  nlinarith

/-- Without damping the step is exact. -/
theorem contract_exact {bias : Bool} {x : Fin N → Fin n → ℝ} {a c : ℝ} (ha : 0 < a)
    (h : Spans bias x a) (y : Fin N → Fin q → ℝ) {m : Matrix (Fin (n + bias.toNat)) (Fin q) ℝ}
    (hm : ∀ w : Matrix (Fin (n + bias.toNat)) (Fin q) ℝ,
      mse bias x y w = mse bias x y m + ((w - m)ᵀ * secondMoments bias x * (w - m)).trace ∧
        mseGrad bias x y w = (2 : ℝ) • (secondMoments bias x * (w - m)))
    (w : Matrix (Fin (n + bias.toNat)) (Fin q) ℝ) :
    mse bias x y (w + -c • ((secondMoments bias x + (0 : ℝ) • 1)⁻¹ * mseGrad bias x y w)) - mse bias x y m =
      (1 - 2 * c) ^ 2 * (mse bias x y w - mse bias x y m) := by
  have hp := spans_posDef ha (le_refl 0) h
  rw [zero_smul, add_zero] at *
  have hu : IsUnit (secondMoments bias x).det := (Matrix.isUnit_iff_isUnit_det _).1 hp.isUnit
  have h1 : w + -c • ((secondMoments bias x)⁻¹ * mseGrad bias x y w) - m = (1 - 2 * c) • (w - m) := by
    rw [(hm w).2, Matrix.mul_smul, ← Matrix.mul_assoc, Matrix.nonsing_inv_mul _ hu, Matrix.one_mul]
    ext r j
    simp only [Matrix.sub_apply, Matrix.add_apply, Matrix.smul_apply, smul_eq_mul]
    ring
  have h2 := (hm (w + -c • ((secondMoments bias x)⁻¹ * mseGrad bias x y w))).1
  rw [h1] at h2
  rw [h2, (hm w).1, Matrix.transpose_smul, Matrix.smul_mul, Matrix.smul_mul, Matrix.mul_smul, smul_smul, Matrix.trace_smul,
    smul_eq_mul]
  ring

/-- The state of the variables once the inverses have been computed with the dampings `d` and `e`. -/
structure Ready (bias : Bool) (x : Fin N → Fin n → ℝ) (d e : ℝ) (l : Layer (n + bias.toNat) q) : Prop where
  avg : ∃ w : ℝ, 0 < w ∧ l.input.avg = ⟨w • secondMoments bias x, w⟩ ∧
    l.output.avg = ⟨w • (2 : ℝ) • (1 : Matrix (Fin q) (Fin q) ℝ), w⟩
  input : l.input.inverse = (secondMoments bias x + d • 1)⁻¹
  output : l.output.inverse = (2 + e)⁻¹ • 1

/-- The operations of a run with one fixed damping. -/
def RegOp.Fixed (damping : ℝ) : RegOp → Prop
  | .cov decay => 0 ≤ decay
  | .inv d => d = damping
  | .train => True

/-- A run with one fixed damping: nothing but training steps changes the weights, and each of them makes the same step. -/
theorem ready_run [NeZero N] (hq : q ≠ 0) (cfg : Config) (hm : cfg.momentum = 0) (hn : cfg.normConstraint = none) (bias : Bool)
    (x : Fin N → Fin n → ℝ) (y : Fin N → Fin q → ℝ) {damping d e : ℝ} (he : 0 ≤ e)
    (hs : setupDamping cfg.rule cfg.power (secondMoments bias x).trace (n + bias.toNat)
      ((2 : ℝ) • (1 : Matrix (Fin q) (Fin q) ℝ)).trace q damping none = .ok (d, e))
    (R : ℕ → ℝ → ℝ → Prop) (hR0 : ∀ s, R 0 s s)
    (hR : ∀ k t (w : Matrix (Fin (n + bias.toNat)) (Fin q) ℝ),
      R k (mse bias x y (w + -(cfg.learningRate / (2 + e)) • ((secondMoments bias x + d • 1)⁻¹ * mseGrad bias x y w))) t →
        R (k + 1) (mse bias x y w) t)
    (ops : List RegOp) (hop : ∀ op ∈ ops, op.Fixed damping) :
    ∀ l : Layer (n + bias.toNat) q, Ready bias x d e l → ∃ net, (linear bias l).regRun cfg x y ops = .ok net ∧
      R (ops.countP RegOp.isTrain) (meanLoss x y (linear bias l)) (meanLoss x y net) := by
  induction ops with
  | nil => exact fun l _ => ⟨_, rfl, hR0 _⟩
  | cons op ops ih =>
    intro l hl
    have ih := ih fun o ho => hop o (by simp [ho])
    have hop := hop op (by simp)
    obtain ⟨w, hw, h1, h2⟩ := hl.avg
    cases op with
    | cov decay =>
      have hdec : 0 ≤ decay := hop
      simp only [Net.regRun, cov_step hq, Except.bind]
      obtain ⟨net, h3, h4⟩ := ih { l with
        input := ⟨l.input.avg.add (secondMoments bias x) decay 1, l.input.inverse⟩
        output := ⟨l.output.avg.add ((2 : ℝ) • (1 : Matrix (Fin q) (Fin q) ℝ)) decay 1, l.output.inverse⟩ }
        ⟨⟨decay * w + 1, by positivity, by simp only [h1, MovAvg.add]; simp [add_smul, smul_smul], by
          simp only [h2, MovAvg.add, smul_smul, ← add_smul]; congr 2; ring⟩, hl.input, hl.output⟩
      refine ⟨net, h3, ?_⟩
      rw [List.countP_cons_of_neg (by simp [RegOp.isTrain])]
      exact h4
    | inv damping' =>
      have hd' : damping' = damping := hop
      rw [← hd'] at hs
      simp only [Net.regRun, inv_step cfg bias x y l hw.ne' h1 h2 hs, Except.bind]
      obtain ⟨net, h3, h4⟩ := ih { l with
        input := ⟨l.input.avg, (secondMoments bias x + d • 1)⁻¹⟩
        output := ⟨l.output.avg, ((2 : ℝ) • (1 : Matrix (Fin q) (Fin q) ℝ) + e • 1)⁻¹⟩ }
        ⟨⟨w, hw, h1, h2⟩, rfl, scalar_inv e he⟩
      refine ⟨net, h3, ?_⟩
      rw [List.countP_cons_of_neg (by simp [RegOp.isTrain])]
      exact h4
    | train =>
      obtain ⟨r, hr⟩ := train_step hq cfg bias x y l
      simp only [Net.regRun, hr, Except.bind]
      obtain ⟨net, h3, h4⟩ := ih { l with
        weights := l.weights - cfg.learningRate • (cfg.momentum • l.velocity +
          clipFactor cfg.normConstraint cfg.learningRate r • direction bias x y l)
        velocity := cfg.momentum • l.velocity +
          clipFactor cfg.normConstraint cfg.learningRate r • direction bias x y l } ⟨⟨w, hw, h1, h2⟩, hl.input, hl.output⟩
      refine ⟨net, h3, ?_⟩
      rw [List.countP_cons_of_pos rfl]
      rw [meanLoss_linear] at h4 ⊢
      have h5 := weights_step cfg hm bias x y l (κ := clipFactor cfg.normConstraint cfg.learningRate r) hl.input hl.output
      have h6 : clipFactor cfg.normConstraint cfg.learningRate r = 1 := by rw [hn]; rfl
      rw [h6, mul_one] at h5
      simp only [h6] at h4
      rw [h5] at h4
      exact hR _ _ _ h4

/-- The first two operations of a run. -/
theorem ready_start [NeZero N] (hq : q ≠ 0) (cfg : Config) (bias : Bool) (x : Fin N → Fin n → ℝ) (y : Fin N → Fin q → ℝ)
    (w : Fin (n + bias.toNat) → Fin q → ℝ) {damping d e : ℝ} (he : 0 ≤ e)
    (hs : setupDamping cfg.rule cfg.power (secondMoments bias x).trace (n + bias.toNat)
      ((2 : ℝ) • (1 : Matrix (Fin q) (Fin q) ℝ)).trace q damping none = .ok (d, e)) (decay : ℝ) (ops : List RegOp) :
    ∃ l : Layer (n + bias.toNat) q, Ready bias x d e l ∧ l.weights = w ∧
      (linear bias (fresh w)).regRun cfg x y (.cov decay :: .inv damping :: ops) = (linear bias l).regRun cfg x y ops := by
  have h1 : (fresh w).input.avg.add (secondMoments bias x) decay 1 = ⟨(1 : ℝ) • secondMoments bias x, 1⟩ := by
    simp [fresh, MovAvg.init, MovAvg.add]
  have h2 : (fresh w).output.avg.add ((2 : ℝ) • (1 : Matrix (Fin q) (Fin q) ℝ)) decay 1 =
      ⟨(1 : ℝ) • (2 : ℝ) • (1 : Matrix (Fin q) (Fin q) ℝ), 1⟩ := by
    simp [fresh, MovAvg.init, MovAvg.add]
  simp only [Net.regRun, cov_step hq, Except.bind]
  rw [inv_step cfg bias x y _ one_ne_zero h1 h2 hs]
  exact ⟨_, ⟨⟨1, one_pos, h1, h2⟩, rfl, scalar_inv e he⟩, rfl, rfl⟩

/-! ### Theorems -/

/-- Whatever sequence of covariance updates, inverse updates and training steps has happened, with any damping, norm
constraint and rule for the damping, a training step with a learning rate of at most two does not increase the loss. -/
theorem C92_descent [NeZero N] (hq : q ≠ 0) (cfg : Config) (hm : cfg.momentum = 0) (h0 : 0 ≤ cfg.learningRate)
    (h2 : cfg.learningRate ≤ 2) (bias : Bool) (x : Fin N → Fin n → ℝ) (y : Fin N → Fin q → ℝ)
    (w : Fin (n + bias.toNat) → Fin q → ℝ) (ops : List RegOp)
    (hop : ∀ op ∈ ops, op.Admissible) (net : Net n q)
    (hrun : (linear bias (fresh w)).regRun cfg x y ops = .ok net) :
    ∃ net', net.regStep cfg x y .train = .ok net' ∧ meanLoss x y net' ≤ meanLoss x y net := by
  obtain ⟨l, rfl, -, hl⟩ := holds_run hq cfg bias x y ops hop (holds_fresh bias x w) hrun
  obtain ⟨r, hr⟩ := train_step hq cfg bias x y l
  refine ⟨_, hr, ?_⟩
  rw [meanLoss_linear, meanLoss_linear]
  rcases hl with ⟨hz, -⟩ | ⟨d, e, hd, he, hp, h3, h4⟩
  · have : direction bias x y l = 0 := by
      unfold direction
      rw [hz, Matrix.zero_mul, Matrix.zero_mul]
      rfl
    simp [this, hm]
  · obtain ⟨h5, h6⟩ := clipFactor_mem cfg.normConstraint cfg.learningRate r
    generalize clipFactor cfg.normConstraint cfg.learningRate r = κ at h5 h6
    simp only
    rw [weights_step cfg hm bias x y l h3 h4]
    have := mse_step bias x y (Matrix.of l.weights) hp (cfg.learningRate * κ / (2 + e))
    refine (this.trans_le ?_)
    have hc0 : 0 ≤ cfg.learningRate * κ / (2 + e) := by positivity
    have hc1 : cfg.learningRate * κ / (2 + e) ≤ 1 := by
      rw [div_le_one (by positivity)]
      nlinarith
    generalize cfg.learningRate * κ / (2 + e) = c at hc0 hc1
    have t1 : 0 ≤ ((mseGrad bias x y l.weights)ᵀ * (secondMoments bias x + d • 1)⁻¹ * mseGrad bias x y l.weights).trace := by
      have := (hp.inv.posSemidef.conjTranspose_mul_mul_same (mseGrad bias x y l.weights)).trace_nonneg
      simpa using this
    have t2 := trace_self_nonneg ((secondMoments bias x + d • 1)⁻¹ * mseGrad bias x y l.weights)
    have t3 : 0 ≤ c * (1 - c) * ((mseGrad bias x y l.weights)ᵀ * (secondMoments bias x + d • 1)⁻¹ *
      mseGrad bias x y l.weights).trace := mul_nonneg (mul_nonneg hc0 (by linarith)) t1
    have t4 := mul_nonneg (mul_nonneg (sq_nonneg c) hd) t2
    show mse bias x y l.weights - _ - _ ≤ mse bias x y l.weights
    have e1 : mseGrad bias x y (Matrix.of l.weights) = mseGrad bias x y l.weights := rfl
    rw [e1]
    linarith


/-- With one damping, each training step reduces the distance of the loss to the smallest loss of all linear models by a
constant factor, no matter when and how often covariances and inverses are updated in between. -/
theorem C92_rate [NeZero N] (hq : q ≠ 0) (cfg : Config) (hm : cfg.momentum = 0) (hn : cfg.normConstraint = none)
    (h0 : 0 ≤ cfg.learningRate) (h2 : cfg.learningRate ≤ 2) (bias : Bool) (x : Fin N → Fin n → ℝ) (y : Fin N → Fin q → ℝ)
    {a damping : ℝ} (ha : 0 < a) (hx : Spans bias x a) (hd : 0 ≤ damping) :
    ∃ best d e : ℝ, IsLeast (Set.range fun l : Layer (n + bias.toNat) q => meanLoss x y (linear bias l)) best ∧
      0 ≤ d ∧ 0 ≤ e ∧ d * e = damping ∧
      ∀ (w : Fin (n + bias.toNat) → Fin q → ℝ) (decay : ℝ) (ops : List RegOp), (∀ op ∈ ops, op.Fixed damping) →
        ∃ net, (linear bias (fresh w)).regRun cfg x y (.cov decay :: .inv damping :: ops) = .ok net ∧
          meanLoss x y net - best ≤
            (1 - 4 * (cfg.learningRate / (2 + e)) * (1 - cfg.learningRate / (2 + e)) * (a / (a + d))) ^
              ops.countP RegOp.isTrain * (meanLoss x y (linear bias (fresh w)) - best) := by
  obtain ⟨m, hmin⟩ := minimum ha hx y
  have ht1 := (secondMoments_psd bias x).trace_nonneg
  have ht2 : 0 ≤ ((2 : ℝ) • (1 : Matrix (Fin q) (Fin q) ℝ)).trace := by rw [Matrix.trace_smul, Matrix.trace_one]; simp
  obtain ⟨d, e, hs, hd0, he0, -, hde⟩ := setupDamping_ok cfg.rule cfg.power (secondMoments bias x).trace
    ((2 : ℝ) • (1 : Matrix (Fin q) (Fin q) ℝ)).trace damping (n + bias.toNat) q ht1 ht2 hd
  refine ⟨mse bias x y m, d, e, minimum_least fun w => (hmin w).1, hd0, he0, hde,
    fun w decay ops hop => ?_⟩
  obtain ⟨l, hl, hw, hrun⟩ := ready_start hq cfg bias x y w he0 hs decay ops
  have hc0 : 0 ≤ cfg.learningRate / (2 + e) := by positivity
  have hc1 : cfg.learningRate / (2 + e) ≤ 1 := by rw [div_le_one (by positivity)]; linarith
  have hρ : 0 ≤ 1 - 4 * (cfg.learningRate / (2 + e)) * (1 - cfg.learningRate / (2 + e)) * (a / (a + d)) := by
    have h3 : a / (a + d) ≤ 1 := by rw [div_le_one (by positivity)]; linarith
    have h4 : 0 ≤ a / (a + d) := by positivity
    generalize cfg.learningRate / (2 + e) = c at *
    have h5 : 4 * c * (1 - c) ≤ 1 := by nlinarith [sq_nonneg (1 - 2 * c)]
    have h6 : 0 ≤ 4 * c * (1 - c) := by nlinarith
    nlinarith
  obtain ⟨net, h3, h4⟩ := ready_run hq cfg hm hn bias x y he0 hs
    (fun k s t => t - mse bias x y m ≤
      (1 - 4 * (cfg.learningRate / (2 + e)) * (1 - cfg.learningRate / (2 + e)) * (a / (a + d))) ^ k * (s - mse bias x y m))
    (fun s => by simp) (fun k t w h => by
      refine h.trans ?_
      rw [pow_succ, mul_assoc (_ ^ k)]
      exact mul_le_mul_of_nonneg_left (contract ha hd0 hc0 hc1 hx y hmin w) (pow_nonneg hρ k)) ops hop l hl
  refine ⟨net, hrun.trans h3, ?_⟩
  rw [meanLoss_linear, hw] at h4
  exact h4

/-- For learning rates strictly between zero and two the loss converges to the smallest loss of all linear models. -/
theorem C92_converges [NeZero N] (hq : q ≠ 0) (cfg : Config) (hm : cfg.momentum = 0) (hn : cfg.normConstraint = none)
    (h0 : 0 < cfg.learningRate) (h2 : cfg.learningRate < 2) (bias : Bool) (x : Fin N → Fin n → ℝ) (y : Fin N → Fin q → ℝ)
    {a damping : ℝ} (ha : 0 < a) (hx : Spans bias x a) (hd : 0 ≤ damping) (w : Fin (n + bias.toNat) → Fin q → ℝ) (decay : ℝ) :
    ∃ (best : ℝ) (nets : ℕ → Net n q),
      IsLeast (Set.range fun l : Layer (n + bias.toNat) q => meanLoss x y (linear bias l)) best ∧
      (∀ k, (linear bias (fresh w)).regRun cfg x y (.cov decay :: .inv damping :: List.replicate k .train) = .ok (nets k)) ∧
      Filter.Tendsto (fun k => meanLoss x y (nets k)) Filter.atTop (nhds best) := by
  obtain ⟨best, d, e, hb, hd0, he0, -, h⟩ := C92_rate hq cfg hm hn h0.le h2.le bias x y ha hx hd
  have hf : ∀ k, ∀ op ∈ List.replicate k RegOp.train, op.Fixed damping := by
    intro k op hk
    rw [List.eq_of_mem_replicate hk]
    trivial
  choose nets hrun hrate using fun k => h w decay (List.replicate k .train) (hf k)
  have hmem : ∀ k, best ≤ meanLoss x y (nets k) := by
    intro k
    obtain ⟨m, hmin⟩ := minimum ha hx y
    obtain ⟨d, e, hs, hd0, he0, -⟩ := setupDamping_ok cfg.rule cfg.power (secondMoments bias x).trace
      ((2 : ℝ) • (1 : Matrix (Fin q) (Fin q) ℝ)).trace damping (n + bias.toNat) q (secondMoments_psd bias x).trace_nonneg
      (by rw [Matrix.trace_smul, Matrix.trace_one]; simp) hd
    obtain ⟨l, hl, hw, hr⟩ := ready_start hq cfg bias x y w he0 hs decay (List.replicate k .train)
    obtain ⟨net, h3, h4⟩ := ready_run hq cfg hm hn bias x y he0 hs (fun _ s t => best ≤ s → best ≤ t) (fun _ h => h)
      (fun _ _ w h _ => h (hb.2 ⟨fresh (w + -(cfg.learningRate / (2 + e)) •
        ((secondMoments bias x + d • 1)⁻¹ * mseGrad bias x y w) : Matrix _ _ ℝ), rfl⟩)) _ (hf k) l hl
    have : nets k = net := Except.ok.inj ((hrun k).symm.trans (hr.trans h3))
    rw [this]
    exact h4 (hb.2 ⟨l, rfl⟩)
  refine ⟨best, nets, hb, hrun, ?_⟩
  have hc0 : 0 < cfg.learningRate / (2 + e) := by positivity
  have hc1 : cfg.learningRate / (2 + e) < 1 := by rw [div_lt_one (by positivity)]; linarith
  have ha0 : 0 < a / (a + d) := by positivity
  have ha1 : a / (a + d) ≤ 1 := by rw [div_le_one (by positivity)]; linarith
  generalize cfg.learningRate / (2 + e) = c at *
  have h5 : 4 * c * (1 - c) ≤ 1 := by nlinarith [sq_nonneg (1 - 2 * c)]
  have h6 : 0 < 4 * c * (1 - c) := mul_pos (by linarith) (by linarith)
  have hρ0 : 0 ≤ 1 - 4 * c * (1 - c) * (a / (a + d)) := by nlinarith
  have hρ1 : 1 - 4 * c * (1 - c) * (a / (a + d)) < 1 := by nlinarith [mul_pos h6 ha0]
  have hlim := ((tendsto_pow_atTop_nhds_zero_of_lt_one hρ0 hρ1).mul_const
    (meanLoss x y (linear bias (fresh w)) - best)).const_add best
  rw [zero_mul, add_zero] at hlim
  refine tendsto_of_tendsto_of_tendsto_of_le_of_le tendsto_const_nhds hlim hmem fun k => ?_
  have := hrate k
  have hcount : (List.replicate k RegOp.train).countP RegOp.isTrain = k := by
    rw [List.countP_replicate, if_pos (by rfl)]
  rw [hcount] at this
  show meanLoss x y (nets k) ≤ best + _
  linarith

/-- Without damping the distance to the smallest loss is multiplied by exactly `(1 - learning_rate)²` in each step, for every
learning rate: rates above two make it grow. -/
theorem C92_undamped [NeZero N] (hq : q ≠ 0) (cfg : Config) (hm : cfg.momentum = 0) (hn : cfg.normConstraint = none)
    (bias : Bool) (x : Fin N → Fin n → ℝ) (y : Fin N → Fin q → ℝ) {a : ℝ} (ha : 0 < a) (hx : Spans bias x a) :
    ∃ best : ℝ, IsLeast (Set.range fun l : Layer (n + bias.toNat) q => meanLoss x y (linear bias l)) best ∧
      ∀ (w : Fin (n + bias.toNat) → Fin q → ℝ) (decay : ℝ) (ops : List RegOp), (∀ op ∈ ops, op.Fixed 0) →
        ∃ net, (linear bias (fresh w)).regRun cfg x y (.cov decay :: .inv 0 :: ops) = .ok net ∧
          meanLoss x y net - best = (1 - cfg.learningRate) ^ (2 * ops.countP RegOp.isTrain) *
            (meanLoss x y (linear bias (fresh w)) - best) := by
  obtain ⟨m, hmin⟩ := minimum ha hx y
  refine ⟨mse bias x y m, minimum_least fun w => (hmin w).1, fun w decay ops hop => ?_⟩
  have hs : setupDamping cfg.rule cfg.power (secondMoments bias x).trace (n + bias.toNat)
      ((2 : ℝ) • (1 : Matrix (Fin q) (Fin q) ℝ)).trace q 0 none = .ok (0, 0) := by
    exact setupDamping_zero _ _ _ _ _ _ (by rw [Matrix.trace_smul, Matrix.trace_one]; simp)
  obtain ⟨l, hl, hw, hrun⟩ := ready_start hq cfg bias x y w (le_refl 0) hs decay ops
  obtain ⟨net, h3, h4⟩ := ready_run hq cfg hm hn bias x y (le_refl 0) hs
    (fun k s t => t - mse bias x y m = (1 - cfg.learningRate) ^ (2 * k) * (s - mse bias x y m))
    (fun s => by simp) (fun k t w h => by
      rw [h, contract_exact ha hx y hmin w]
      have : 1 - 2 * (cfg.learningRate / (2 + 0)) = 1 - cfg.learningRate := by ring
      rw [this]
      ring) ops hop l hl
  refine ⟨net, hrun.trans h3, ?_⟩
  rw [meanLoss_linear, hw] at h4
  exact h4

/-- In particular one step with learning rate one and without damping reaches the minimum: K-FAC is Newton's method here. -/
theorem C92_newton [NeZero N] (hq : q ≠ 0) (cfg : Config) (hm : cfg.momentum = 0) (hn : cfg.normConstraint = none)
    (h1 : cfg.learningRate = 1) (bias : Bool) (x : Fin N → Fin n → ℝ) (y : Fin N → Fin q → ℝ) {a : ℝ} (ha : 0 < a)
    (hx : Spans bias x a) (w : Fin (n + bias.toNat) → Fin q → ℝ) (decay : ℝ) :
    ∃ net, (linear bias (fresh w)).regRun cfg x y [.cov decay, .inv 0, .train] = .ok net ∧
      IsLeast (Set.range fun l : Layer (n + bias.toNat) q => meanLoss x y (linear bias l)) (meanLoss x y net) := by
  obtain ⟨best, hb, h⟩ := C92_undamped hq cfg hm hn bias x y ha hx
  obtain ⟨net, h3, h4⟩ := h w decay [.train] (by simp [RegOp.Fixed])
  refine ⟨net, h3, ?_⟩
  have : meanLoss x y net = best := by
    simp [RegOp.isTrain, h1] at h4
    linarith
  rw [this]
  exact hb

theorem appendHomog_two (a : ℝ) : appendHomog true (fun _ : Fin 1 => a) 0 = a ∧
    appendHomog true (fun _ : Fin 1 => a) 1 = 1 :=
  ⟨rfl, rfl⟩

/-- Two inputs and a bias: the inputs span the space. -/
theorem spans_two : Spans true (fun (i : Fin 2) (_ : Fin 1) => if i = 0 then 1 else -1) 1 := by
  intro v
  have h : ∀ f : Fin (1 + true.toNat) → ℝ, ∑ r, f r = f 0 + f 1 := fun f => Fin.sum_univ_two f
  simp only [h, Fin.sum_univ_two]
  simp only [appendHomog_two]
  simp
  nlinarith

/-- One step fits the line `y = 2 x + 1` exactly. -/
example : ∃ net, (linear true (fresh 0 : Layer (1 + true.toNat) 1)).regRun ⟨1, 0, none, .tracenorm, 1⟩
    (fun (i : Fin 2) (_ : Fin 1) => if i = 0 then 1 else -1) (fun (i : Fin 2) (_ : Fin 1) => if i = 0 then 3 else -1)
      [.cov 0, .inv 0, .train] = .ok net ∧
    meanLoss (fun (i : Fin 2) (_ : Fin 1) => if i = 0 then 1 else -1) (fun (i : Fin 2) (_ : Fin 1) => if i = 0 then 3 else -1)
      net ≤ 0 := by
  obtain ⟨net, h1, h2⟩ := C92_newton one_ne_zero ⟨1, 0, none, .tracenorm, 1⟩ rfl rfl rfl true
    (fun (i : Fin 2) (_ : Fin 1) => if i = 0 then 1 else -1) (fun (i : Fin 2) (_ : Fin 1) => if i = 0 then 3 else -1) one_pos
    spans_two 0 0
  refine ⟨net, h1, h2.2 ⟨fresh fun r _ => if r.1 = 0 then 2 else 1, ?_⟩⟩
  have h : ∀ f : Fin (1 + true.toNat) → ℝ, ∑ r, f r = f 0 + f 1 := fun f => Fin.sum_univ_two f
  simp only [meanLoss_linear, mse, affine, h, Fin.sum_univ_two]
  simp only [appendHomog_two]
  simp [fresh]
  norm_num

/-- A run with damping, a norm constraint and further updates of the statistics in between. -/
example : ∃ net, (linear true (fresh 0 : Layer (1 + true.toNat) 1)).regRun ⟨1 / 2, 0, some 1, .tracenorm, 1⟩
    (fun (i : Fin 2) (_ : Fin 1) => if i = 0 then 1 else -1) (fun (i : Fin 2) (_ : Fin 1) => if i = 0 then 3 else -1)
      [.train, .cov 0, .inv 1, .cov (1 / 2)] = .ok net := by
  obtain ⟨d, e, hs, -, he, -⟩ := setupDamping_ok .tracenorm 1
    (secondMoments true (fun (i : Fin 2) (_ : Fin 1) => if i = 0 then 1 else -1)).trace
    ((2 : ℝ) • (1 : Matrix (Fin 1) (Fin 1) ℝ)).trace 1 (1 + true.toNat) 1 (secondMoments_psd _ _).trace_nonneg
    (by rw [Matrix.trace_smul, Matrix.trace_one]; simp) zero_le_one
  obtain ⟨r, hr⟩ := train_step (N := 2) one_ne_zero ⟨1 / 2, 0, some 1, .tracenorm, 1⟩ true
    (fun (i : Fin 2) (_ : Fin 1) => if i = 0 then 1 else -1) (fun (i : Fin 2) (_ : Fin 1) => if i = 0 then 3 else -1)
    (fresh 0 : Layer (1 + true.toNat) 1)
  rw [Net.regRun, hr]
  have hz : direction true (fun (i : Fin 2) (_ : Fin 1) => if i = 0 then 1 else -1)
      (fun (i : Fin 2) (_ : Fin 1) => if i = 0 then 3 else -1) (fresh 0 : Layer (1 + true.toNat) 1) = 0 := by
    unfold direction
    rw [show (fresh 0 : Layer (1 + true.toNat) 1).input.inverse = 0 from rfl, Matrix.zero_mul, Matrix.zero_mul]
    rfl
  rw [hz]
  simp only [Except.bind, smul_zero, zero_smul, add_zero, sub_zero]
  obtain ⟨l, hl, -, hrun⟩ := ready_start (N := 2) one_ne_zero ⟨1 / 2, 0, some 1, .tracenorm, 1⟩ true
    (fun (i : Fin 2) (_ : Fin 1) => if i = 0 then 1 else -1) (fun (i : Fin 2) (_ : Fin 1) => if i = 0 then 3 else -1)
    (0 : Fin (1 + true.toNat) → Fin 1 → ℝ) he hs 0 [.cov (1 / 2)]
  rw [show (linear true l).regRun _ _ _ [.cov (1 / 2)] = (((linear true l).regStep _ _ _ (.cov (1 / 2))).bind fun net =>
    net.regRun _ _ _ []) from rfl, cov_step one_ne_zero] at hrun
  exact ⟨_, hrun⟩

end Kfac.Train
