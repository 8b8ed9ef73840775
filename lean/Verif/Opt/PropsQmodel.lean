import Verif.Opt.PropsUpdate

/-! # C42: the quadratic-model momentum types -/

set_option linter.unusedSectionVars false

namespace Kfac.Opt

open Matrix

variable {ι κ : Type} [Fintype ι] [Fintype κ]

/-- Spec: the change of the quadratic model along `d`: exact curvature `B Bᵀ / n` plus `l` times the identity. -/
noncomputable def qvalue (l : ℝ) (B : Matrix ι κ ℝ) (n : ℝ) (g d : Vec ι) : ℝ :=
  1 / 2 * ((Bᵀ *ᵥ d) ⬝ᵥ (Bᵀ *ᵥ d) / n + l * (d ⬝ᵥ d)) + g ⬝ᵥ d

theorem qvalue_eq (l : ℝ) (B : Matrix ι κ ℝ) (n : ℝ) (g p v : Vec ι) (a m : ℝ) :
    let q := computeQmodel l B n p v g
    qvalue l B n g (a • p + m • v) = evalQuadratic q.m11 q.m21 q.m22 q.c1 q.c2 a m ∧
    l * ((a • p + m • v) ⬝ᵥ (a • p + m • v)) / 2 = evalQuadraticNoC q.b11 q.b21 q.b22 a m := by
  simp only [qvalue, computeQmodel, evalQuadratic, evalQuadraticNoC, mulVec_add, mulVec_smul, dotProduct_add,
    add_dotProduct, dotProduct_smul, smul_dotProduct, smul_eq_mul, dotProduct_comm v p,
    dotProduct_comm (Bᵀ *ᵥ v) (Bᵀ *ᵥ p)]
  constructor <;> ring

/-- The quadratic form of a positive damping is positive. -/
theorem qform_pos {l : ℝ} (hl : 0 < l) (B : Matrix ι κ ℝ) {n : ℝ} (hn : 0 < n) {d : Vec ι} (hd : d ≠ 0) :
    0 < (Bᵀ *ᵥ d) ⬝ᵥ (Bᵀ *ᵥ d) / n + l * (d ⬝ᵥ d) := by
  have h1 : 0 ≤ (Bᵀ *ᵥ d) ⬝ᵥ (Bᵀ *ᵥ d) := Finset.sum_nonneg fun i _ => mul_self_nonneg _
  have h2 : 0 < d ⬝ᵥ d := by
    refine lt_of_le_of_ne (Finset.sum_nonneg fun i _ => mul_self_nonneg _) (fun h => hd ?_)
    have := (Finset.sum_eq_zero_iff_of_nonneg (s := Finset.univ) (f := fun i => d i * d i)
      (fun i _ => mul_self_nonneg _)).1 h.symm
    funext i
    exact mul_self_eq_zero.1 (this i (Finset.mem_univ i))
  have h3 := mul_pos hl h2
  have h4 := div_nonneg h1 hn.le
  linarith

theorem qmodel_form (l : ℝ) (B : Matrix ι κ ℝ) (n : ℝ) (g p v : Vec ι) (a m : ℝ) :
    let q := computeQmodel l B n p v g
    (Bᵀ *ᵥ (a • p + m • v)) ⬝ᵥ (Bᵀ *ᵥ (a • p + m • v)) / n + l * ((a • p + m • v) ⬝ᵥ (a • p + m • v)) =
      q.m11 * a ^ 2 + 2 * q.m21 * a * m + q.m22 * m ^ 2 := by
  simp only [computeQmodel, mulVec_add, mulVec_smul, dotProduct_add,
    add_dotProduct, dotProduct_smul, smul_dotProduct, smul_eq_mul, dotProduct_comm v p,
    dotProduct_comm (Bᵀ *ᵥ v) (Bᵀ *ᵥ p)]
  ring

theorem m11_pos {l : ℝ} (hl : 0 < l) (B : Matrix ι κ ℝ) {n : ℝ} (hn : 0 < n) (g p v : Vec ι) (hp : p ≠ 0) :
    0 < (computeQmodel l B n p v g).m11 := by
  have h := qmodel_form l B n g p v 1 0
  simp only [one_smul, zero_smul, add_zero] at h
  have := qform_pos hl B hn hp
  rw [h] at this
  linarith

theorem det_pos {l : ℝ} (hl : 0 < l) (B : Matrix ι κ ℝ) {n : ℝ} (hn : 0 < n) (g p v : Vec ι)
    (hi : ∀ a m : ℝ, a • p + m • v = 0 → a = 0 ∧ m = 0) :
    let q := computeQmodel l B n p v g
    0 < q.m11 * q.m22 - q.m21 * q.m21 := by
  intro q
  have hp : p ≠ 0 := by
    intro h
    have := (hi 1 0 (by simp [h])).1
    norm_num at this
  have h11 : 0 < q.m11 := m11_pos hl B hn g p v hp
  have h := qmodel_form l B n g p v (-q.m21) q.m11
  have hne : (-q.m21) • p + q.m11 • v ≠ 0 := fun h0 => h11.ne' (hi _ _ h0).2
  have hpos := qform_pos hl B hn hne
  rw [h] at hpos
  have e : q.m11 * (-q.m21) ^ 2 + 2 * q.m21 * (-q.m21) * q.m11 + q.m22 * q.m11 ^ 2 =
      q.m11 * (q.m11 * q.m22 - q.m21 * q.m21) := by ring
  change 0 < q.m11 * (-q.m21) ^ 2 + 2 * q.m21 * (-q.m21) * q.m11 + q.m22 * q.m11 ^ 2 at hpos
  rw [e] at hpos
  exact (mul_pos_iff_of_pos_left h11).1 hpos

/-- A stationary point of a convex quadratic is its minimum. -/
theorem quad_min (m11 m21 m22 c1 c2 x y a m : ℝ) (h1 : m11 * x + m21 * y + c1 = 0)
    (h2 : m21 * x + m22 * y + c2 = 0)
    (hpos : ∀ a m : ℝ, 0 ≤ m11 * a ^ 2 + 2 * m21 * a * m + m22 * m ^ 2) :
    evalQuadratic m11 m21 m22 c1 c2 x y ≤ evalQuadratic m11 m21 m22 c1 c2 a m := by
  have h := hpos (a - x) (m - y)
  have hc1 : c1 = -(m11 * x + m21 * y) := by linarith
  have hc2 : c2 = -(m21 * x + m22 * y) := by linarith
  have e : evalQuadratic m11 m21 m22 c1 c2 a m - evalQuadratic m11 m21 m22 c1 c2 x y =
      1 / 2 * (m11 * (a - x) ^ 2 + 2 * m21 * (a - x) * (m - y) + m22 * (m - y) ^ 2) := by
    rw [hc1, hc2]
    simp only [evalQuadratic, evalQuadraticNoC]
    ring
  linarith

theorem form_nonneg {l : ℝ} (hl : 0 < l) (B : Matrix ι κ ℝ) {n : ℝ} (hn : 0 < n) (g p v : Vec ι) (a m : ℝ) :
    let q := computeQmodel l B n p v g
    0 ≤ q.m11 * a ^ 2 + 2 * q.m21 * a * m + q.m22 * m ^ 2 := by
  intro q
  rw [show q.m11 * a ^ 2 + 2 * q.m21 * a * m + q.m22 * m ^ 2 = _ from (qmodel_form l B n g p v a m).symm]
  by_cases h : a • p + m • v = 0
  · rw [h]; simp
  · exact (qform_pos hl B hn h).le

theorem twoByTwo_spec (a b c d e f : ℝ) (h : a * d - b * c ≠ 0) :
    a * (twoByTwoSolve a b c d e f).1 + b * (twoByTwoSolve a b c d e f).2 = e ∧
    c * (twoByTwoSolve a b c d e f).1 + d * (twoByTwoSolve a b c d e f).2 = f := by
  simp only [twoByTwoSolve]
  have hi : 1 / (a * d - b * c) * (a * d - b * c) = 1 := by field_simp
  constructor
  · linear_combination e * hi
  · linear_combination f * hi

/-- The state after a run with one of the quadratic-model momentum types. -/
theorem apply_qmodel (cfg : Config) (inp : StepIn ι κ) (s : State ι) (mu : Option ℝ)
    (hm : (cfg.momentumType = .qmodel ∧ mu = none) ∨
      (cfg.momentumType = .qmodelFixedMu ∧ mu = some cfg.momentum)) :
    let g := inp.grad s.params
    let p := inp.precon *ᵥ g
    let h := qmodelHyperparams cfg s.damping (computeQmodel s.damping inp.factor inp.batchSize p (-s.velocity) g) mu
    let s' := applyGradients cfg inp s;
    -s'.velocity = h.1 • p + h.2.1 • (-s.velocity) ∧ s'.qChange = some h.2.2 ∧
    s'.params = s.params - cfg.learningRate • addWeightDecay cfg s'.velocity s.params := by
  intro g p h s'
  obtain ⟨k1, k2, k3, k4, _⟩ := updatePrevLoss_keeps cfg inp s
  have hraw : (rawUpdateSteps cfg inp s).1 = h.2.1 • s.velocity + (-h.1) • p := by
    rcases hm with ⟨hm, rfl⟩ | ⟨hm, rfl⟩ <;> simp only [rawUpdateSteps, rawUpdateWith, hm] <;> rfl
  have hv : s'.velocity = h.2.1 • s.velocity + (-h.1) • p := by
    simp only [s']
    rw [apply_velocity]
    rcases hm with ⟨hm, rfl⟩ | ⟨hm, rfl⟩ <;> simp only [rawUpdateSteps, rawUpdateWith, hm] <;> rfl
  refine ⟨?_, ?_, ?_⟩
  · rw [hv]
    simp only [smul_neg, neg_smul, neg_add, neg_neg]
    rw [add_comm]
  · simp only [s']
    rw [apply_qChange]
    rcases hm with ⟨hm, rfl⟩ | ⟨hm, rfl⟩ <;>
      simp only [rawUpdateSteps, rawUpdateWith, hm, k2, k3, k4] <;> rfl
  · rw [hv]
    simp only [s']
    rw [apply_params, hraw]

/-- Spec: the damping left in the recorded change: all of it if it is to be included, else the l2 coefficient. -/
noncomputable def leftDamping (cfg : Config) (damping : ℝ) : ℝ :=
  if cfg.includeDamping then damping else cfg.l2Reg

/-- Removing the damping part. -/
theorem remove_damping (cfg : Config) {l : ℝ} (hl : l ≠ 0) (B : Matrix ι κ ℝ) (n : ℝ) (g p v : Vec ι) (a m : ℝ) :
    let q := computeQmodel l B n p v g
    (if cfg.includeDamping then evalQuadratic q.m11 q.m21 q.m22 q.c1 q.c2 a m
      else evalQuadratic q.m11 q.m21 q.m22 q.c1 q.c2 a m -
        subDampingCoeff cfg l * evalQuadraticNoC q.b11 q.b21 q.b22 a m) =
      qvalue (leftDamping cfg l) B n g (a • p + m • v) := by
  intro q
  obtain ⟨h1, h2⟩ := qvalue_eq l B n g p v a m
  rw [← h1, ← h2]
  simp only [leftDamping, subDampingCoeff, qvalue]
  split_ifs
  · rfl
  · field_simp
    ring

theorem qmodelHyperparams_none (cfg : Config) {l : ℝ} (hl : 0 < l) (B : Matrix ι κ ℝ) {n : ℝ} (hn : 0 < n)
    (g p v : Vec ι) (hc : (v = 0 ∧ p ≠ 0) ∨ (g ⬝ᵥ v ≠ 0 ∧ ∀ a m : ℝ, a • p + m • v = 0 → a = 0 ∧ m = 0)) :
    let h := qmodelHyperparams cfg l (computeQmodel l B n p v g) none
    (∀ a m : ℝ, qvalue l B n g (h.1 • p + h.2.1 • v) ≤ qvalue l B n g (a • p + m • v)) ∧
    h.2.2 = qvalue (leftDamping cfg l) B n g (cfg.rescale.getD 1 • (h.1 • p + h.2.1 • v)) := by
  intro h
  rcases hc with ⟨rfl, hp⟩ | ⟨hc2, hi⟩
  · have h11 := m11_pos hl B hn g p 0 hp
    have e21 : (computeQmodel l B n p 0 g).m21 = 0 := by simp [computeQmodel]
    have e22 : (computeQmodel l B n p 0 g).m22 = 0 := by simp [computeQmodel]
    have ec2 : (computeQmodel l B n p 0 g).c2 = 0 := by simp [computeQmodel]
    have hh : h = qmodelHyperparams cfg l (computeQmodel l B n p 0 g) none := rfl
    have halpha : h.1 = -(computeQmodel l B n p 0 g).c1 / (computeQmodel l B n p 0 g).m11 ∧ h.2.1 = 0 := by
      rw [hh]
      simp only [qmodelHyperparams, ec2, if_true]
      rcases cfg.rescale <;> exact ⟨rfl, rfl⟩
    have hst : (computeQmodel l B n p 0 g).m11 * h.1 + (computeQmodel l B n p 0 g).c1 = 0 := by
      rw [halpha.1]; field_simp; ring
    constructor
    · intro a m
      have e1 := (qvalue_eq l B n g p 0 h.1 h.2.1).1
      have e2 := (qvalue_eq l B n g p 0 a m).1
      rw [e1, e2]
      refine quad_min _ _ _ _ _ _ _ _ _ ?_ ?_ (form_nonneg hl B hn g p 0)
      · rw [e21]; linarith
      · rw [e21, e22, ec2]; ring
    · have hr : cfg.rescale.getD 1 • (h.1 • p + h.2.1 • (0 : Vec ι)) =
          (cfg.rescale.getD 1 * h.1) • p + (0 : ℝ) • (0 : Vec ι) := by
        simp [smul_smul]
      rw [hr, ← remove_damping cfg hl.ne']
      simp only [evalQuadratic, evalQuadraticNoC]
      have hb : h.2.2 = (if cfg.includeDamping then
          1 / 2 * (computeQmodel l B n p 0 g).m11 * (cfg.rescale.getD 1 * h.1) ^ 2 +
            (computeQmodel l B n p 0 g).c1 * (cfg.rescale.getD 1 * h.1)
        else 1 / 2 * (computeQmodel l B n p 0 g).m11 * (cfg.rescale.getD 1 * h.1) ^ 2 +
            (computeQmodel l B n p 0 g).c1 * (cfg.rescale.getD 1 * h.1) -
            subDampingCoeff cfg l * (1 / 2) * (cfg.rescale.getD 1 * h.1) ^ 2 * (computeQmodel l B n p 0 g).b11) := by
        have hst' := hst
        rw [halpha.1] at hst' ⊢
        rw [hh]
        simp only [qmodelHyperparams, ec2, if_true]
        rcases cfg.rescale with _ | r
        · simp only [Option.getD_none, one_mul]
          generalize -(computeQmodel l B n p 0 g).c1 / (computeQmodel l B n p 0 g).m11 = al at hst'
          have e : (computeQmodel l B n p 0 g).c1 = -((computeQmodel l B n p 0 g).m11 * al) := by linarith
          split_ifs <;> rw [e] <;> ring
        · rfl
      rw [hb, ec2, e21]
      split_ifs <;> ring
  · have hd := det_pos hl B hn g p v hi
    have hc2' : (computeQmodel l B n p v g).c2 ≠ 0 := hc2
    have hh : h = qmodelHyperparams cfg l (computeQmodel l B n p v g) none := rfl
    obtain ⟨t1, t2⟩ := twoByTwo_spec (computeQmodel l B n p v g).m11 (computeQmodel l B n p v g).m21
      (computeQmodel l B n p v g).m21 (computeQmodel l B n p v g).m22 (computeQmodel l B n p v g).c1
      (computeQmodel l B n p v g).c2 hd.ne'
    have hsol : h.1 = -(twoByTwoSolve (computeQmodel l B n p v g).m11 (computeQmodel l B n p v g).m21
      (computeQmodel l B n p v g).m21 (computeQmodel l B n p v g).m22 (computeQmodel l B n p v g).c1
      (computeQmodel l B n p v g).c2).1 ∧ h.2.1 = -(twoByTwoSolve (computeQmodel l B n p v g).m11
      (computeQmodel l B n p v g).m21 (computeQmodel l B n p v g).m21 (computeQmodel l B n p v g).m22
      (computeQmodel l B n p v g).c1 (computeQmodel l B n p v g).c2).2 := by
      rw [hh]
      simp only [qmodelHyperparams]
      rw [if_neg hc2']
      rcases cfg.rescale <;> exact ⟨rfl, rfl⟩
    have s1 : (computeQmodel l B n p v g).m11 * h.1 + (computeQmodel l B n p v g).m21 * h.2.1 +
        (computeQmodel l B n p v g).c1 = 0 := by rw [hsol.1, hsol.2]; linarith
    have s2 : (computeQmodel l B n p v g).m21 * h.1 + (computeQmodel l B n p v g).m22 * h.2.1 +
        (computeQmodel l B n p v g).c2 = 0 := by rw [hsol.1, hsol.2]; linarith
    constructor
    · intro a m
      rw [(qvalue_eq l B n g p v h.1 h.2.1).1, (qvalue_eq l B n g p v a m).1]
      exact quad_min _ _ _ _ _ _ _ _ _ s1 s2 (form_nonneg hl B hn g p v)
    · have hr : cfg.rescale.getD 1 • (h.1 • p + h.2.1 • v) =
          (cfg.rescale.getD 1 * h.1) • p + (cfg.rescale.getD 1 * h.2.1) • v := by
        simp [smul_smul]
      rw [hr, ← remove_damping cfg hl.ne']
      have hchange : h.2.2 = (match cfg.rescale with
        | none =>
          let change := 1 / 2 * (h.1 * (computeQmodel l B n p v g).c1 + h.2.1 * (computeQmodel l B n p v g).c2)
          if cfg.includeDamping then change
          else change - subDampingCoeff cfg l * evalQuadraticNoC (computeQmodel l B n p v g).b11
            (computeQmodel l B n p v g).b21 (computeQmodel l B n p v g).b22 h.1 h.2.1
        | some r =>
          let change := evalQuadratic (computeQmodel l B n p v g).m11 (computeQmodel l B n p v g).m21
            (computeQmodel l B n p v g).m22 (computeQmodel l B n p v g).c1 (computeQmodel l B n p v g).c2
            (r * h.1) (r * h.2.1)
          if cfg.includeDamping then change
          else change - subDampingCoeff cfg l * evalQuadraticNoC (computeQmodel l B n p v g).b11
            (computeQmodel l B n p v g).b21 (computeQmodel l B n p v g).b22 (r * h.1) (r * h.2.1)) := by
        rw [hsol.1, hsol.2, hh]
        simp only [qmodelHyperparams]
        rw [if_neg hc2']
        rcases cfg.rescale <;> rfl
      rw [hchange]
      rcases cfg.rescale with _ | r
      · simp only [Option.getD_none, one_mul]
        have e : 1 / 2 * (h.1 * (computeQmodel l B n p v g).c1 + h.2.1 * (computeQmodel l B n p v g).c2) =
            evalQuadratic (computeQmodel l B n p v g).m11 (computeQmodel l B n p v g).m21
            (computeQmodel l B n p v g).m22 (computeQmodel l B n p v g).c1 (computeQmodel l B n p v g).c2
            h.1 h.2.1 := by
          simp only [evalQuadratic, evalQuadraticNoC]
          linear_combination (-h.1 / 2) * s1 + (-h.2.1 / 2) * s2
        rw [e]
      · rfl

theorem qmodelHyperparams_fixed (cfg : Config) {l : ℝ} (hl : 0 < l) (B : Matrix ι κ ℝ) {n : ℝ} (hn : 0 < n)
    (g p v : Vec ι) (mu : ℝ) (hp : p ≠ 0) (hc : v = 0 ∨ g ⬝ᵥ v ≠ 0) :
    let h := qmodelHyperparams cfg l (computeQmodel l B n p v g) (some mu)
    h.2.1 = mu ∧
    (∀ a : ℝ, qvalue l B n g (h.1 • p + mu • v) ≤ qvalue l B n g (a • p + mu • v)) ∧
    h.2.2 = qvalue (leftDamping cfg l) B n g (cfg.rescale.getD 1 • (h.1 • p + mu • v)) := by
  intro h
  have h11 := m11_pos hl B hn g p v hp
  have hh : h = qmodelHyperparams cfg l (computeQmodel l B n p v g) (some mu) := rfl
  -- stationarity in the first coordinate is enough
  have hmin : ∀ x : ℝ, (computeQmodel l B n p v g).m11 * x + (computeQmodel l B n p v g).m21 * mu +
      (computeQmodel l B n p v g).c1 = 0 →
      ∀ a : ℝ, qvalue l B n g (x • p + mu • v) ≤ qvalue l B n g (a • p + mu • v) := by
    intro x hx a
    rw [(qvalue_eq l B n g p v x mu).1, (qvalue_eq l B n g p v a mu).1]
    have hn := mul_nonneg h11.le (sq_nonneg (a - x))
    have hc1 : (computeQmodel l B n p v g).c1 =
        -((computeQmodel l B n p v g).m11 * x + (computeQmodel l B n p v g).m21 * mu) := by linarith
    rw [hc1]
    simp only [evalQuadratic, evalQuadraticNoC]
    linarith
  have hr : ∀ x : ℝ, cfg.rescale.getD 1 • (x • p + mu • v) =
      (cfg.rescale.getD 1 * x) • p + (cfg.rescale.getD 1 * mu) • v := by
    intro x; simp [smul_smul]
  by_cases hc2 : (computeQmodel l B n p v g).c2 = 0
  · obtain rfl : v = 0 := hc.resolve_right (fun hne => hne hc2)
    have e21 : (computeQmodel l B n p 0 g).m21 = 0 := by simp [computeQmodel]
    have hal : h.1 = -(computeQmodel l B n p 0 g).c1 / (computeQmodel l B n p 0 g).m11 ∧ h.2.1 = mu := by
      rw [hh]
      simp only [qmodelHyperparams]
      rw [if_pos hc2]
      rcases cfg.rescale <;> exact ⟨rfl, rfl⟩
    have hst : (computeQmodel l B n p 0 g).m11 * h.1 + (computeQmodel l B n p 0 g).c1 = 0 := by
      rw [hal.1]; field_simp; ring
    refine ⟨hal.2, hmin _ (by rw [e21]; linarith), ?_⟩
    have hr0 : cfg.rescale.getD 1 • (h.1 • p + mu • (0 : Vec ι)) =
        (cfg.rescale.getD 1 * h.1) • p + (0 : ℝ) • (0 : Vec ι) := by
      simp [smul_smul]
    rw [hr0, ← remove_damping cfg hl.ne']
    simp only [evalQuadratic, evalQuadraticNoC]
    have hb : h.2.2 = (if cfg.includeDamping then
        1 / 2 * (computeQmodel l B n p 0 g).m11 * (cfg.rescale.getD 1 * h.1) ^ 2 +
          (computeQmodel l B n p 0 g).c1 * (cfg.rescale.getD 1 * h.1)
      else 1 / 2 * (computeQmodel l B n p 0 g).m11 * (cfg.rescale.getD 1 * h.1) ^ 2 +
          (computeQmodel l B n p 0 g).c1 * (cfg.rescale.getD 1 * h.1) -
          subDampingCoeff cfg l * (1 / 2) * (cfg.rescale.getD 1 * h.1) ^ 2 * (computeQmodel l B n p 0 g).b11) := by
      rw [hal.1] at hst ⊢
      rw [hh]
      simp only [qmodelHyperparams]
      rw [if_pos hc2]
      rcases cfg.rescale with _ | r
      · simp only [Option.getD_none, one_mul]
        generalize -(computeQmodel l B n p 0 g).c1 / (computeQmodel l B n p 0 g).m11 = al at hst
        have e : (computeQmodel l B n p 0 g).c1 = -((computeQmodel l B n p 0 g).m11 * al) := by linarith
        split_ifs <;> rw [e] <;> ring
      · rfl
    rw [hb]
    split_ifs <;> ring
  · have hal : h.1 = -(mu * (computeQmodel l B n p v g).m21 + (computeQmodel l B n p v g).c1) /
        (computeQmodel l B n p v g).m11 ∧ h.2.1 = mu := by
      rw [hh]
      simp only [qmodelHyperparams]
      rw [if_neg hc2]
      exact ⟨rfl, rfl⟩
    have hst : (computeQmodel l B n p v g).m11 * h.1 + (computeQmodel l B n p v g).m21 * mu +
        (computeQmodel l B n p v g).c1 = 0 := by
      rw [hal.1]; field_simp; ring
    refine ⟨hal.2, hmin _ hst, ?_⟩
    rw [hr, ← remove_damping cfg hl.ne', hal.1, hh]
    simp only [qmodelHyperparams]
    rw [if_neg hc2]

/-- Momentum type qmodel: if the velocity is zero and the preconditioned gradient is not, or if the gradient is
not orthogonal to the velocity and velocity and preconditioned gradient are independent, then the new velocity
is minus the minimiser of the damped quadratic model over all combinations of the preconditioned gradient and
the previous update, and the recorded change is the value of the model (with the damping removed except for the
l2 coefficient, unless it is to be included) at the change applied to the parameters. -/
theorem C42_qmodel_partial (cfg : Config) (inp : StepIn ι κ) (s : State ι) (hm : cfg.momentumType = .qmodel)
    (hw : cfg.weightDecay = none) (hlr : cfg.learningRate = cfg.rescale.getD 1)
    (hl : 0 < s.damping) (hn : 0 < inp.batchSize) :
    let g := inp.grad s.params
    let p := inp.precon *ᵥ g
    let s' := applyGradients cfg inp s
    (s.velocity = 0 ∧ p ≠ 0) ∨
      (g ⬝ᵥ s.velocity ≠ 0 ∧ ∀ a m : ℝ, a • p + m • s.velocity = 0 → a = 0 ∧ m = 0) →
    (∃ alpha mu : ℝ, -s'.velocity = alpha • p + mu • (-s.velocity)) ∧
    (∀ alpha mu : ℝ, qvalue s.damping inp.factor inp.batchSize g (-s'.velocity) ≤
      qvalue s.damping inp.factor inp.batchSize g (alpha • p + mu • (-s.velocity))) ∧
    s'.params - s.params = cfg.learningRate • (-s'.velocity) ∧
    s'.qChange = some (qvalue (leftDamping cfg s.damping) inp.factor inp.batchSize g (s'.params - s.params)) := by
  intro g p s' hc
  obtain ⟨h1, h2, h3⟩ := apply_qmodel cfg inp s none (.inl ⟨hm, rfl⟩)
  have hc' : (-s.velocity = 0 ∧ p ≠ 0) ∨
      (g ⬝ᵥ (-s.velocity) ≠ 0 ∧ ∀ a m : ℝ, a • p + m • (-s.velocity) = 0 → a = 0 ∧ m = 0) := by
    rcases hc with ⟨h, hp⟩ | ⟨h, hi⟩
    · exact .inl ⟨neg_eq_zero.2 h, hp⟩
    · refine .inr ⟨by rw [dotProduct_neg]; exact neg_ne_zero.2 h, fun a m he => ?_⟩
      have := hi a (-m) (by rw [neg_smul, ← smul_neg]; exact he)
      exact ⟨this.1, neg_eq_zero.1 this.2⟩
  obtain ⟨q1, q2⟩ := qmodelHyperparams_none cfg hl inp.factor hn g p (-s.velocity) hc'
  have hd : s'.params - s.params = cfg.learningRate • (-s'.velocity) := by
    rw [h3]; simp only [addWeightDecay, hw]; simp; rfl
  refine ⟨⟨_, _, h1⟩, fun a m => ?_, hd, ?_⟩
  · rw [h1]; exact q1 a m
  · rw [h2, hd, hlr, h1, q2]

/-- Momentum type qmodel_fixedmu: if the velocity is zero or the gradient is not orthogonal to it, the
coefficient of the preconditioned gradient minimises the damped quadratic model for the given momentum, and the
recorded change is the value of the model at the change applied to the parameters. -/
theorem C42_fixedmu_partial (cfg : Config) (inp : StepIn ι κ) (s : State ι)
    (hm : cfg.momentumType = .qmodelFixedMu) (hw : cfg.weightDecay = none)
    (hlr : cfg.learningRate = cfg.rescale.getD 1) (hl : 0 < s.damping) (hn : 0 < inp.batchSize) :
    let g := inp.grad s.params
    let p := inp.precon *ᵥ g
    let s' := applyGradients cfg inp s
    p ≠ 0 → (s.velocity = 0 ∨ g ⬝ᵥ s.velocity ≠ 0) →
    (∃ alpha : ℝ, -s'.velocity = alpha • p + cfg.momentum • (-s.velocity)) ∧
    (∀ alpha : ℝ, qvalue s.damping inp.factor inp.batchSize g (-s'.velocity) ≤
      qvalue s.damping inp.factor inp.batchSize g (alpha • p + cfg.momentum • (-s.velocity))) ∧
    s'.params - s.params = cfg.learningRate • (-s'.velocity) ∧
    s'.qChange = some (qvalue (leftDamping cfg s.damping) inp.factor inp.batchSize g (s'.params - s.params)) := by
  intro g p s' hp hc
  obtain ⟨h1, h2, h3⟩ := apply_qmodel cfg inp s (some cfg.momentum) (.inr ⟨hm, rfl⟩)
  have hc' : -s.velocity = 0 ∨ g ⬝ᵥ (-s.velocity) ≠ 0 := by
    rcases hc with h | h
    · exact .inl (neg_eq_zero.2 h)
    · exact .inr (by rw [dotProduct_neg]; exact neg_ne_zero.2 h)
  obtain ⟨q0, q1, q2⟩ := qmodelHyperparams_fixed cfg hl inp.factor hn g p (-s.velocity) cfg.momentum hp hc'
  have hd : s'.params - s.params = cfg.learningRate • (-s'.velocity) := by
    rw [h3]; simp only [addWeightDecay, hw]; simp; rfl
  rw [q0] at h1
  refine ⟨⟨_, h1⟩, fun a => ?_, hd, ?_⟩
  · rw [h1]; exact q1 a
  · rw [h2, hd, hlr, h1, q2]

/-! ### Counterexamples: a velocity orthogonal to the gradient -/

noncomputable def orthoConfig (m : MomentumType) : Config :=
  { momentumType := m, learningRate := 1, momentum := 1, normConstraint := none, weightDecay := none,
    adaptDamping := true, immediate := true, isChief := true, adaptationDecay := 1, interval := 1,
    minDamping := 0, l2Reg := 1, decreaseThreshold := 3 / 4, increaseThreshold := 1 / 4,
    usePassedLoss := true, rescale := none, includeDamping := false }

/-- Gradient (1, 0), preconditioner ((2, 1), (1, 1)), exact curvature the identity. -/
noncomputable def orthoInput : StepIn (Fin 2) (Fin 2) :=
  { passedLoss := fun _ => 0, fnLoss := fun _ => 0, prevFnLoss := fun _ => 0, grad := fun _ => ![1, 0],
    precon := !![2, 1; 1, 1], curv := 1, factor := 1, batchSize := 1 }

/-- Velocity (0, 1), damping 1. -/
noncomputable def orthoState : State (Fin 2) :=
  { State.init (fun _ => 0) 1 with velocity := ![0, 1] }

theorem ortho_precon : orthoInput.precon *ᵥ ![1, 0] = ![2, 1] := by
  funext i; fin_cases i <;> simp [orthoInput]

theorem ortho_q : computeQmodel 1 orthoInput.factor 1 ![2, 1] (-![0, 1]) ![1, 0] =
    { m11 := 10, m21 := -2, m22 := 2, b11 := 5, b21 := -1, b22 := 1, c1 := 2, c2 := 0 } := by
  simp [computeQmodel, orthoInput, dotProduct, Fin.sum_univ_two]
  norm_num

theorem ortho_qvalue (d : Vec (Fin 2)) (l : ℝ) :
    qvalue l orthoInput.factor 1 ![1, 0] d = (1 + l) / 2 * (d 0 ^ 2 + d 1 ^ 2) + d 0 := by
  simp [qvalue, orthoInput, dotProduct, Fin.sum_univ_two]
  ring

theorem ortho_hyper (m : MomentumType) (mu : Option ℝ) :
    qmodelHyperparams (orthoConfig m) 1 (computeQmodel 1 orthoInput.factor 1
      (orthoInput.precon *ᵥ ![1, 0]) (-![0, 1]) ![1, 0]) mu = (-1 / 5, mu.getD 0, -1 / 5) := by
  rw [ortho_precon, ortho_q]
  simp only [qmodelHyperparams, if_true, orthoConfig, subDampingCoeff]
  norm_num

/-- If the gradient happens to be orthogonal to a non-zero velocity, momentum type qmodel ignores the velocity
and misses the minimum: it reaches -1/5 where -1/4 is possible. -/
theorem C42_qmodel_counterexample :
    let s' := applyGradients (orthoConfig .qmodel) orthoInput orthoState
    orthoState.velocity ≠ 0 ∧
    qvalue 1 orthoInput.factor 1 ![1, 0] (-s'.velocity) = -1 / 5 ∧
    qvalue 1 orthoInput.factor 1 ![1, 0]
      ((-1 / 4 : ℝ) • (orthoInput.precon *ᵥ ![1, 0]) + (-1 / 4 : ℝ) • (-orthoState.velocity)) = -1 / 4 := by
  intro s'
  obtain ⟨h1, _, _⟩ := apply_qmodel (orthoConfig .qmodel) orthoInput orthoState none (.inl ⟨rfl, rfl⟩)
  have hd : -s'.velocity = (-1 / 5 : ℝ) • ![2, 1] + (0 : ℝ) • (-![0, 1]) := by
    have := ortho_hyper .qmodel none
    rw [← ortho_precon]
    refine h1.trans ?_
    change (qmodelHyperparams (orthoConfig .qmodel) 1 (computeQmodel 1 orthoInput.factor 1
      (orthoInput.precon *ᵥ ![1, 0]) (-![0, 1]) ![1, 0]) none).1 • (orthoInput.precon *ᵥ ![1, 0]) +
      (qmodelHyperparams (orthoConfig .qmodel) 1 (computeQmodel 1 orthoInput.factor 1
      (orthoInput.precon *ᵥ ![1, 0]) (-![0, 1]) ![1, 0]) none).2.1 • (-![0, 1]) = _
    rw [this]
    rfl
  refine ⟨fun h => ?_, ?_, ?_⟩
  · have := congrFun h 1
    simp [orthoState] at this
  · rw [ortho_qvalue, hd]
    simp
    norm_num
  · rw [ortho_qvalue, ortho_precon]
    simp [orthoState]
    norm_num

/-- In the same situation momentum type qmodel_fixedmu (momentum 1) keeps the velocity in the update but ignores
it in the learning rate and in the recorded change: the model rises by 6/5, rising by 1 was possible, and a fall
by 1/5 is recorded. -/
theorem C42_fixedmu_counterexample :
    let s' := applyGradients (orthoConfig .qmodelFixedMu) orthoInput orthoState
    qvalue 1 orthoInput.factor 1 ![1, 0] (s'.params - orthoState.params) = 6 / 5 ∧
    qvalue 1 orthoInput.factor 1 ![1, 0]
      ((0 : ℝ) • (orthoInput.precon *ᵥ ![1, 0]) + (1 : ℝ) • (-orthoState.velocity)) = 1 ∧
    s'.qChange = some (-1 / 5) := by
  intro s'
  obtain ⟨h1, h2, h3⟩ := apply_qmodel (orthoConfig .qmodelFixedMu) orthoInput orthoState (some 1)
    (.inr ⟨rfl, rfl⟩)
  have hh := ortho_hyper .qmodelFixedMu (some 1)
  have hd : -s'.velocity = (-1 / 5 : ℝ) • ![2, 1] + (1 : ℝ) • (-![0, 1]) := by
    rw [← ortho_precon]
    refine h1.trans ?_
    change (qmodelHyperparams (orthoConfig .qmodelFixedMu) 1 (computeQmodel 1 orthoInput.factor 1
      (orthoInput.precon *ᵥ ![1, 0]) (-![0, 1]) ![1, 0]) (some 1)).1 • (orthoInput.precon *ᵥ ![1, 0]) +
      (qmodelHyperparams (orthoConfig .qmodelFixedMu) 1 (computeQmodel 1 orthoInput.factor 1
      (orthoInput.precon *ᵥ ![1, 0]) (-![0, 1]) ![1, 0]) (some 1)).2.1 • (-![0, 1]) = _
    rw [hh]
    rfl
  refine ⟨?_, ?_, ?_⟩
  · have : s'.params - orthoState.params = -s'.velocity := by
      rw [h3]; simp [addWeightDecay, orthoConfig]
      rfl
    rw [this, ortho_qvalue, hd]
    simp
    norm_num
  · rw [ortho_qvalue, ortho_precon]
    simp [orthoState]
  · refine h2.trans ?_
    change some (qmodelHyperparams (orthoConfig .qmodelFixedMu) 1 (computeQmodel 1 orthoInput.factor 1
      (orthoInput.precon *ᵥ ![1, 0]) (-![0, 1]) ![1, 0]) (some 1)).2.2 = _
    rw [hh]

/-- The hypotheses of the two partial theorems hold for the same inputs at zero velocity, and at velocity (1, 0),
which is neither orthogonal to the gradient nor a multiple of the preconditioned gradient. -/
example : (0 : ℝ) < (State.init (fun _ : Fin 2 => 0) 1).damping ∧
    orthoInput.precon *ᵥ orthoInput.grad (fun _ => 0) ≠ 0 := by
  refine ⟨by simp [State.init], fun h => ?_⟩
  have := congrFun h 0
  rw [show orthoInput.grad (fun _ => 0) = ![1, 0] from rfl, ortho_precon] at this
  simp at this

example : (![1, 0] : Fin 2 → ℝ) ⬝ᵥ ![1, 0] ≠ 0 ∧ ∀ a m : ℝ,
    a • (orthoInput.precon *ᵥ ![1, 0]) + m • (![1, 0] : Fin 2 → ℝ) = 0 → a = 0 ∧ m = 0 := by
  refine ⟨by simp [dotProduct, Fin.sum_univ_two], fun a m h => ?_⟩
  rw [ortho_precon] at h
  have h0 := congrFun h 0
  have h1 := congrFun h 1
  simp at h0 h1
  subst h1
  simpa using h0

end Kfac.Opt
