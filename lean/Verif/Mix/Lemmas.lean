import Verif.Mix.Model
import Verif.Train.PropsSum
import Verif.Block.PropsFull

/-! # Lemmas about mixtures of blocks -/

namespace Kfac.Mix

open Kfac.Stats Kfac.Block Kfac.Train Kfac.Params Matrix

/-! ### Collecting -/

theorem collect_ok : ∀ {B : ℕ} {α : Fin B → Type} {x : (k : Fin B) → Except String (α k)} {a : (k : Fin B) → α k},
    (∀ k, x k = .ok (a k)) → collect x = .ok a
  | 0, _, _, a, _ => by
    simp only [collect]
    congr 1
    funext k
    exact k.elim0
  | B + 1, α, x, a, h => by
    have := collect_ok (x := fun k : Fin B => x k.succ) (a := fun k => a k.succ) fun k => h k.succ
    simp only [collect, h 0, this, bind, Except.bind, pure, Except.pure]
    congr 1
    funext k
    induction k using Fin.cases <;> rfl

theorem collect_inv : ∀ {B : ℕ} {α : Fin B → Type} {x : (k : Fin B) → Except String (α k)} {a : (k : Fin B) → α k},
    collect x = .ok a → ∀ k, x k = .ok (a k)
  | 0, _, _, a, _ => fun k => k.elim0
  | B + 1, α, x, a, h => by
    simp only [collect, bind, Except.bind, pure, Except.pure] at h
    cases h0 : x 0 with
    | error e => rw [h0] at h; cases h
    | ok a0 =>
      rw [h0] at h
      cases h1 : collect (fun k : Fin B => x k.succ) with
      | error e => rw [h1] at h; cases h
      | ok r =>
        rw [h1] at h
        obtain rfl := Except.ok.inj h
        intro k
        induction k using Fin.cases with
        | zero => exact h0
        | succ k => exact collect_inv h1 k

/-! ### Factors -/

theorem damped_diagonal {n : ℕ} {c : Fin n → ℝ} (hc : ∀ i, 0 ≤ c i) {d : ℝ} (hd : 0 < d) :
    (Matrix.diagonal c + d • (1 : Matrix (Fin n) (Fin n) ℝ))⁻¹ = Matrix.diagonal fun i => (c i + d)⁻¹ := by
  apply Matrix.inv_eq_right_inv
  rw [Matrix.smul_one_eq_diagonal, Matrix.diagonal_add, Matrix.diagonal_mul_diagonal, ← Matrix.diagonal_one]
  congr 1
  funext i
  exact mul_inv_cancel₀ (add_pos_of_nonneg_of_pos (hc i) hd).ne'

theorem factor_dense {n : ℕ} (s : DenseStat n) (d : ℝ) : ((factorOf s).matpowerInv d).Is n s.inverse := by
  simp [Factor.matpowerInv, factorOf, LinOp.Is]

theorem factor_diag {n : ℕ} {s : DiagStat n} {c : Fin n → ℝ} (hs : s.avg.value true = some c) (hc : ∀ i, 0 ≤ c i) {d : ℝ} (hd : 0 < d) :
    ∃ f, Fac.factor true s = some f ∧ (f.matpowerInv d).Is n (Matrix.diagonal c + d • 1)⁻¹ := by
  rw [damped_diagonal hc hd]
  simp only [Fac.factor, FStat.factor, hs, Option.map_some]
  refine ⟨_, rfl, ?_⟩
  rw [Factor.matpowerInv, if_pos rfl]
  have := diagIs (n := n) (d := Tensor.ofFn [n] fun idx => if h : idx.getD 0 0 < n then c ⟨idx.getD 0 0, h⟩ else 0)
    (Tensor.ofFn_wf _ _) rfl fun x => (x + d)⁻¹
  convert this using 3
  rename_i i
  rw [Tensor.get_ofFn _ (show Tensor.Valid [n] [i.1] from .cons i.2 .nil)]
  simp

theorem kron_spec {n q : ℕ} (hq : q ≠ 0) {bias : Bool} {a b : Factor} {d : ℝ × ℝ} {A : Matrix (Fin (n + bias.toNat)) (Fin (n + bias.toNat)) ℝ}
    {G : Matrix (Fin q) (Fin q) ℝ} (ha : (a.matpowerInv d.1).Is _ A) (hb : (b.matpowerInv d.2).Is _ G) (r : ℝ)
    (g : Fin (n + bias.toNat) → Fin q → ℝ) :
    (do let u ← KBlock.multiplyInverse ⟨a, b, d.1, d.2, r⟩ (toParams (n := n) (q := q) bias g)
        let m ← layerParamsToMat2d u
        return toMat (n + bias.toNat) q m : Except String _) = .ok (r⁻¹ • (A * Matrix.of g * G)) := by
  obtain ⟨out, h1, -, h3, h4⟩ := multiplyFactored_spec ha hb (toParams_fits hq bias g) (r ^ (-1 : ℝ)) false false
  have h5 : KBlock.multiplyInverse ⟨a, b, d.1, d.2, r⟩ (toParams bias g) = .ok out := h1
  simp only [h5, bind, Except.bind, toMat2d h3, pure, Except.pure]
  congr 1
  funext i j
  show (ofMat _).get _ = _
  rw [ofMat_get, h4, toParams_grid]
  simp [tr?, Real.rpow_neg_one]

/-- A Kronecker block whose factors act as `A` and `G`. -/
theorem kron_precondition {rule : PiRule} {power damping : ℝ} {kind : KronKind} {n q : ℕ} (hq : q ≠ 0) {bias i o : Bool}
    {s : Fac i (n + bias.toNat) × Fac o q} {a b : Factor} {d : ℝ × ℝ} {A : Matrix (Fin (n + bias.toNat)) (Fin (n + bias.toNat)) ℝ}
    {G : Matrix (Fin q) (Fin q) ℝ} (hd : (if i || o then kronDamping rule power damping kind i o s else .ok (0, 0)) = .ok d)
    (h1 : Fac.factor i s.1 = some a) (h2 : Fac.factor o s.2 = some b)
    (ha : (a.matpowerInv d.1).Is _ A) (hb : (b.matpowerInv d.2).Is _ G) (g : Fin (n + bias.toNat) → Fin q → ℝ) :
    kronPrecondition rule power damping kind bias i o s g = .ok (kind.renorm⁻¹ • (A * Matrix.of g * G)) := by
  unfold kronPrecondition
  rw [hd]
  simp only [h1, h2]
  exact kron_spec hq ha hb kind.renorm g

theorem vector_good {n : ℕ} (g : Fin n → ℝ) : Vec.Good n (.single (vector g)) :=
  ⟨by simp [Vec.flat, vector], by simp [vector, Tensor.WF]⟩

theorem vector_entries {n : ℕ} (g : Fin n → ℝ) : Vec.entries n (.single (vector g)) = g := by
  funext i
  simp [Vec.entries, Vec.flat, vector]

theorem full_precondition {n : ℕ} (s : DenseStat n) (g : Fin n → ℝ) :
    fullPrecondition s g = .ok (s.inverse *ᵥ g) := by
  obtain ⟨out, h1, -, h3, h4⟩ := multiplyMatrix_spec (op := .full (ofMat s.inverse)) (M := s.inverse) rfl (vector_good g) false
  simp only [fullPrecondition, bind, Except.bind, pure, Except.pure, h1, Vec.toColumn_eq h3]
  congr 1
  have : (fun i : Fin n => out.flat.getD i 0) = out.entries n := rfl
  rw [this, h4, vector_entries]
  rfl

theorem diag_precondition {power damping : ℝ} {kind : DiagKind} {n : ℕ} {s : DiagStat n} {c : Fin n → ℝ}
    (hs : s.avg.value true = some c) (g : Fin n → ℝ) :
    diagPrecondition power damping kind s g = .ok fun i => (c i + kind.damping power damping)⁻¹ * g i := by
  obtain ⟨out, h1, -, h3, h4⟩ := diag_entries (n := n) (vector c) (by simp [vector]) (kind.damping power damping) (-1) (vector_good g)
  simp only [diagPrecondition, bind, Except.bind, pure, Except.pure, hs, diagMatpower, h1, Vec.toColumn_eq h3]
  congr 1
  funext i
  have : out.flat.getD i 0 = out.entries n i := rfl
  rw [this, h4, vector_entries, Real.rpow_neg_one]
  simp [vector]

/-! ### Dampings -/

theorem kind_damping {kind : KronKind} {power damping : ℝ} (hp : power = 1) (hr : 0 < kind.renorm) (rule : PiRule) (lt rt : ℝ) (ld rd : ℕ) :
    setupDamping rule power lt ld rt rd damping kind.normalization = setupDamping rule power lt ld rt rd (damping / kind.renorm) none := by
  subst hp
  cases kind <;> simp [setupDamping, KronKind.normalization, KronKind.renorm, normalizeDamping]

/-! ### Estimates -/

/-- The sum behind the estimate of a factor, as a matrix. -/
def Fac.sum {n : ℕ} : (b : Bool) → Fac b n → Matrix (Fin n) (Fin n) ℝ
  | false, s => (DenseStat.avg s).var
  | true, s => Matrix.diagonal (DiagStat.avg s).var

/-- The total weight of the estimates of a factor. -/
def Fac.weight {n : ℕ} : (b : Bool) → Fac b n → ℝ
  | false, s => (DenseStat.avg s).totalWeight
  | true, s => (DiagStat.avg s).totalWeight

/-- The estimate of a factor, as a matrix. -/
noncomputable def Fac.estimate {n : ℕ} (b : Bool) (s : Fac b n) : Matrix (Fin n) (Fin n) ℝ := (s.weight b)⁻¹ • s.sum b

theorem fac_trace {n : ℕ} {b : Bool} {s : Fac b n} (h : 0 < Fac.weight b s) : Fac.trace b s = some (Fac.estimate b s).trace := by
  cases b with
  | false =>
    have : (DenseStat.avg s).totalWeight ≠ 0 := ne_of_gt h
    simp [Fac.trace, Fac.estimate, Fac.sum, Fac.weight, MovAvg.value, this]
  | true =>
    have : (DiagStat.avg s).totalWeight ≠ 0 := ne_of_gt h
    simp [Fac.trace, Fac.estimate, Fac.sum, Fac.weight, MovAvg.value, this, Matrix.trace]

theorem fac_trace_none {n : ℕ} {b : Bool} {s : Fac b n} (h : Fac.weight b s = 0) : Fac.trace b s = none := by
  cases b with
  | false =>
    have : (DenseStat.avg s).totalWeight = 0 := h
    simp [Fac.trace, MovAvg.value, this]
  | true =>
    have : (DiagStat.avg s).totalWeight = 0 := h
    simp [Fac.trace, MovAvg.value, this]

theorem keep_trace {n : ℕ} {b : Bool} (s : Fac b n) (d : ℝ) : Fac.trace b (Fac.updateInverse b s d) = Fac.trace b s ∧
    Fac.weight b (Fac.updateInverse b s d) = Fac.weight b s ∧ Fac.sum b (Fac.updateInverse b s d) = Fac.sum b s := by
  cases b with
  | false =>
    simp only [Fac.trace, Fac.weight, Fac.sum, Fac.updateInverse, DenseStat.step]
    split <;> exact ⟨rfl, rfl, rfl⟩
  | true => exact ⟨rfl, rfl, rfl⟩

theorem fac_add {n : ℕ} (b : Bool) (s : Fac b n) (c : Matrix (Fin n) (Fin n) ℝ) (decay : ℝ) :
    Fac.weight b (Fac.addCov b s c decay) = decay * Fac.weight b s + 1 ∧
    Fac.sum b (Fac.addCov b s c decay) = decay • Fac.sum b s + (if b then Matrix.diagonal c.diag else c) := by
  cases b with
  | false => simp [Fac.weight, Fac.sum, Fac.addCov, MovAvg.add]
  | true =>
    refine ⟨by simp [Fac.weight, Fac.addCov, MovAvg.add], ?_⟩
    simp only [Fac.sum, Fac.addCov, MovAvg.add, one_smul, if_true, ← Matrix.diagonal_smul, Matrix.diagonal_add]
    rfl

/-- After an update of the inverses with the damping at hand, dense and diagonal factors act alike. -/
theorem updated_factor {n : ℕ} {b : Bool} {s : Fac b n} (hw : 0 < Fac.weight b s) (hp : (Fac.sum b s).PosSemidef) {d : ℝ} (hd : 0 < d) :
    ∃ f, Fac.factor b (Fac.updateInverse b s d) = some f ∧ (f.matpowerInv d).Is n (Fac.estimate b s + d • 1)⁻¹ := by
  cases b with
  | false =>
    have : (DenseStat.avg s).totalWeight ≠ 0 := ne_of_gt hw
    refine ⟨_, rfl, ?_⟩
    have h := factor_dense (Fac.updateInverse false s d : DenseStat n) d
    simpa [Fac.updateInverse, DenseStat.step, MovAvg.value, this, Fac.estimate, Fac.sum, Fac.weight] using h
  | true =>
    have hne : (DiagStat.avg s).totalWeight ≠ 0 := ne_of_gt hw
    have hv : (DiagStat.avg s).value true = some ((DiagStat.avg s).totalWeight⁻¹ • (DiagStat.avg s).var) := by
      simp [MovAvg.value, hne]
    have hnn : ∀ i, 0 ≤ (DiagStat.avg s).var i := fun i => by
      have := hp.diag_nonneg (i := i)
      simpa [Fac.sum] using this
    obtain ⟨f, h1, h2⟩ := factor_diag hv (fun i => mul_nonneg (inv_nonneg.mpr (le_of_lt hw)) (hnn i)) hd
    refine ⟨f, h1, ?_⟩
    rw [Fac.estimate, Fac.sum, ← Matrix.diagonal_smul]
    exact h2

/-! ### Bounds -/

/-- The direction `u` for the gradient `g`: at most the gradient over `lam`, and not too small. -/
def Bounds {P q : ℕ} (lam : ℝ) (K : Option ℝ) (g u : Matrix (Fin P) (Fin q) ℝ) : Prop :=
  lam * sqn u ≤ ∑ r, ∑ j, g r j * u r j ∧ ∀ k ∈ K, sqn g ≤ k * ∑ r, ∑ j, g r j * u r j

theorem scaled_bounds {P q : ℕ} {A : Matrix (Fin P) (Fin P) ℝ} {G : Matrix (Fin q) (Fin q) ℝ} {d e r lam : ℝ} {K : Option ℝ}
    (hA : A.PosSemidef) (hG : G.PosSemidef) (hd : 0 < d) (he : 0 < e) (hr : 0 < r) (h : lam ≤ r * (d * e))
    (hK : ∀ k ∈ K, r * ((A.trace + P * d) * (G.trace + q * e)) ≤ k) (g : Matrix (Fin P) (Fin q) ℝ) :
    Bounds lam K g (r⁻¹ • ((A + d • 1)⁻¹ * g * (G + e • 1)⁻¹)) := by
  obtain ⟨h1, h2⟩ := direction_bounds hA hG hd he g
  set u := (A + d • 1)⁻¹ * g * (G + e • 1)⁻¹
  have e1 : sqn (r⁻¹ • u) = r⁻¹ ^ 2 * sqn u := by
    simp only [sqn, Matrix.smul_apply, smul_eq_mul, mul_pow, Finset.mul_sum]
  have e2 : ∑ i, ∑ j, g i j * (r⁻¹ • u) i j = r⁻¹ * ∑ i, ∑ j, g i j * u i j := by
    simp only [Matrix.smul_apply, smul_eq_mul, Finset.mul_sum]
    exact Finset.sum_congr rfl fun i _ => Finset.sum_congr rfl fun j _ => by ring
  have hsq := sqn_nonneg u
  have hip : 0 ≤ ∑ i, ∑ j, g i j * u i j := (mul_nonneg (mul_pos hd he).le hsq).trans h1
  have hi : 0 < r⁻¹ := inv_pos.mpr hr
  refine ⟨?_, fun k hk => ?_⟩
  · rw [e1, e2]
    have h3 : lam * (r⁻¹ ^ 2 * sqn u) ≤ r * (d * e) * (r⁻¹ ^ 2 * sqn u) := mul_le_mul_of_nonneg_right h (by positivity)
    have h4 : r * (d * e) * (r⁻¹ ^ 2 * sqn u) = r⁻¹ * (d * e * sqn u) := by field_simp
    rw [h4] at h3
    exact h3.trans (mul_le_mul_of_nonneg_left h1 hi.le)
  · rw [e2]
    refine h2.trans ?_
    have h3 := mul_le_mul_of_nonneg_right (hK k hk) (mul_nonneg hi.le hip)
    have h4 : r * ((A.trace + P * d) * (G.trace + q * e)) * (r⁻¹ * ∑ i, ∑ j, g i j * u i j) =
        (A.trace + P * d) * (G.trace + q * e) * ∑ i, ∑ j, g i j * u i j := by field_simp
    linarith

/-- A bound for the damped factors of a Kronecker block. -/
noncomputable def kronWorst (r : ℝ) (P q : ℕ) (B Λ : ℝ) : ℝ :=
  r * (B * B + √(Λ / r) * (2 * √(B * q * (B * P)) + B * q + B * P) + P * q * (Λ / r))

/-- The dampings of a block with estimates. -/
theorem kronDamping_ok {rule : PiRule} {power damping : ℝ} {kind : KronKind} {P q : ℕ} {i o : Bool} {s : Fac i P × Fac o q}
    (hp : power = 1) (hr : 0 < kind.renorm) (w1 : 0 < Fac.weight i s.1) (w2 : 0 < Fac.weight o s.2) (p1 : (Fac.sum i s.1).PosSemidef)
    (p2 : (Fac.sum o s.2).PosSemidef) (hd : 0 < damping) :
    ∃ d e, kronDamping rule power damping kind i o s = .ok (d, e) ∧ 0 < d ∧ 0 < e ∧ kind.renorm * (d * e) = damping ∧
      (Fac.estimate i s.1).PosSemidef ∧ (Fac.estimate o s.2).PosSemidef ∧
      ∀ B Λ, (Fac.estimate i s.1).trace ≤ B → (Fac.estimate o s.2).trace ≤ B → damping ≤ Λ →
        kind.renorm * (((Fac.estimate i s.1).trace + P * d) * ((Fac.estimate o s.2).trace + q * e)) ≤ kronWorst kind.renorm P q B Λ := by
  have q1 : (Fac.estimate i s.1).PosSemidef := p1.smul (inv_nonneg.mpr w1.le)
  have q2 : (Fac.estimate o s.2).PosSemidef := p2.smul (inv_nonneg.mpr w2.le)
  have hn : 0 < damping / kind.renorm := div_pos hd hr
  obtain ⟨d, e, h1, -, -, h2, h3⟩ := setupDamping_ok rule power _ _ (damping / kind.renorm) P q q1.trace_nonneg q2.trace_nonneg hn.le
  refine ⟨d, e, ?_, (h2 hn).1, (h2 hn).2, ?_, q1, q2, fun B Λ hA hG hΛ => ?_⟩
  · simp only [kronDamping, fac_trace w1, fac_trace w2, kind_damping hp hr, h1]
  · rw [h3]
    exact mul_div_cancel₀ _ hr.ne'
  · exact mul_le_mul_of_nonneg_left (setupDamping_bound rule power P q q1.trace_nonneg q2.trace_nonneg hA hG hn.le
      (div_le_div_of_nonneg_right hΛ hr.le) h1) hr.le

/-- Right after the inverses are updated with the damping that is in use, any Kronecker block. -/
theorem kron_synced {rule : PiRule} {power damping lam : ℝ} {kind : KronKind} {n q : ℕ} {bias i o : Bool}
    {s s' : Fac i (n + bias.toNat) × Fac o q} (hq : q ≠ 0) (hp : power = 1) (hr : 0 < kind.renorm)
    (w1 : 0 < Fac.weight i s.1) (w2 : 0 < Fac.weight o s.2) (p1 : (Fac.sum i s.1).PosSemidef)
    (p2 : (Fac.sum o s.2).PosSemidef) (hlam : 0 < lam) (hd : lam ≤ damping) {K : Option ℝ}
    (hK : ∀ k ∈ K, ∃ B Λ, (Fac.estimate i s.1).trace ≤ B ∧ (Fac.estimate o s.2).trace ≤ B ∧ damping ≤ Λ ∧
      kronWorst kind.renorm (n + bias.toNat) q B Λ ≤ k)
    (h : kronInvUpdate rule power damping kind i o s = .ok s') (g : Fin (n + bias.toNat) → Fin q → ℝ) :
    ∃ u, kronPrecondition rule power damping kind bias i o s' g = .ok u ∧ Bounds lam K g u := by
  obtain ⟨d, e, h1, hd0, he0, h2, q1, q2, h3⟩ := kronDamping_ok (rule := rule) hp hr w1 w2 p1 p2 (hlam.trans_le hd)
  have hs : s' = (Fac.updateInverse i s.1 d, Fac.updateInverse o s.2 e) := by
    simp only [kronInvUpdate] at h
    split_ifs at h with hb
    · obtain ⟨rfl, rfl⟩ : i = true ∧ o = true := by simpa using hb
      exact (Except.ok.inj h).symm
    · rw [h1] at h
      exact (Except.ok.inj h).symm
  obtain ⟨a, a1, a2⟩ := updated_factor w1 p1 hd0
  obtain ⟨b, b1, b2⟩ := updated_factor w2 p2 he0
  have hb : Bounds lam K g (kind.renorm⁻¹ • ((Fac.estimate i s.1 + d • 1)⁻¹ * Matrix.of g * (Fac.estimate o s.2 + e • 1)⁻¹)) := by
    refine scaled_bounds q1 q2 hd0 he0 hr (hd.trans h2.ge) (fun k hk => ?_) _
    obtain ⟨B, Λ, c1, c2, c3, c4⟩ := hK k hk
    exact (h3 B Λ c1 c2 c3).trans c4
  refine ⟨_, ?_, hb⟩
  have hkd : kronDamping rule power damping kind i o s' = .ok (d, e) := by
    rw [← h1, hs]
    simp only [kronDamping, (keep_trace s.1 d).1, (keep_trace s.2 e).1]
  subst hs
  by_cases hio : (i || o) = true
  · exact kron_precondition (d := (d, e)) hq (by rw [if_pos hio]; exact hkd) a1 b1 a2 b2 g
  · obtain ⟨rfl, rfl⟩ : i = false ∧ o = false := by simpa using hio
    refine kron_precondition (d := (0, 0)) hq rfl a1 b1 ?_ ?_ g
    · have e1 : some (factorOf (Fac.updateInverse false s.1 d)) = some a := a1
      obtain rfl := Option.some.inj e1
      exact a2
    · have e1 : some (factorOf (Fac.updateInverse false s.2 e)) = some b := b1
      obtain rfl := Option.some.inj e1
      exact b2

/-- Two dense factors act as stored. -/
theorem kron_dense {rule : PiRule} {power damping : ℝ} {kind : KronKind} {n q : ℕ} (hq : q ≠ 0) {bias : Bool}
    (s : Fac false (n + bias.toNat) × Fac false q) (g : Fin (n + bias.toNat) → Fin q → ℝ) :
    kronPrecondition rule power damping kind bias false false s g =
      .ok (kind.renorm⁻¹ • (DenseStat.inverse s.1 * Matrix.of g * DenseStat.inverse s.2)) :=
  kron_precondition (d := (0, 0)) hq rfl rfl rfl (factor_dense _ _) (factor_dense _ _) g

/-- A full block right after an update of its inverse. -/
theorem full_synced {n : ℕ} {s s' : DenseStat n} {damping lam : ℝ} (hw : 0 < s.avg.totalWeight) (hp : s.avg.var.PosSemidef) (hlam : 0 < lam)
    (hd : lam ≤ damping) {K : Option ℝ} (hK : ∀ k ∈ K, (s.avg.totalWeight⁻¹ • s.avg.var).trace + n * damping ≤ k)
    (h : fullInvUpdate damping s = .ok s') (g : Fin n → ℝ) :
    lam * ∑ i, (s'.inverse *ᵥ g) i ^ 2 ≤ ∑ i, g i * (s'.inverse *ᵥ g) i ∧
      ∀ k ∈ K, ∑ i, g i ^ 2 ≤ k * ∑ i, g i * (s'.inverse *ᵥ g) i := by
  have hv : s.avg.value true = some (s.avg.totalWeight⁻¹ • s.avg.var) := by simp [MovAvg.value, hw.ne']
  simp only [fullInvUpdate, hv] at h
  obtain rfl := Except.ok.inj h
  have hq : (s.avg.totalWeight⁻¹ • s.avg.var).PosSemidef := hp.smul (inv_nonneg.mpr hw.le)
  have := scaled_bounds (P := n) (q := 1) (lam := lam) (K := K) (r := 1) (e := 1) (d := damping) hq (Matrix.PosSemidef.zero)
    (hlam.trans_le hd) one_pos one_pos (by linarith) (fun k hk => by simpa using hK k hk) (colMat g)
  simp only [DenseStat.step, hv]
  have e1 : (1 : ℝ)⁻¹ • ((s.avg.totalWeight⁻¹ • s.avg.var + damping • (1 : Matrix (Fin n) (Fin n) ℝ))⁻¹ * colMat g *
      (0 + (1 : ℝ) • (1 : Matrix (Fin 1) (Fin 1) ℝ))⁻¹) =
      colMat ((s.avg.totalWeight⁻¹ • s.avg.var + damping • (1 : Matrix (Fin n) (Fin n) ℝ))⁻¹ *ᵥ g) := by
    simp only [inv_one, one_smul, zero_add, Matrix.mul_one]
    ext i j
    rfl
  rw [e1] at this
  simpa [Bounds, sqn, colMat] using this

/-- A diagonal block, always. -/
theorem diag_bounds {n : ℕ} {c : Fin n → ℝ} {d lam : ℝ} (hc : ∀ i, 0 ≤ c i) (hlam : 0 < lam) (hd : lam ≤ d) {K : Option ℝ}
    (hK : ∀ k ∈ K, ∀ i, c i + d ≤ k) (g : Fin n → ℝ) :
    lam * ∑ i, ((c i + d)⁻¹ * g i) ^ 2 ≤ ∑ i, g i * ((c i + d)⁻¹ * g i) ∧
      ∀ k ∈ K, ∑ i, g i ^ 2 ≤ k * ∑ i, g i * ((c i + d)⁻¹ * g i) := by
  have hp : ∀ i, 0 < c i + d := fun i => by linarith [hc i]
  refine ⟨?_, fun k hk => ?_⟩
  · rw [Finset.mul_sum]
    refine Finset.sum_le_sum fun i _ => ?_
    have e : g i * ((c i + d)⁻¹ * g i) = (c i + d) * ((c i + d)⁻¹ * g i) ^ 2 := by
      have := (hp i).ne'
      field_simp
    rw [e]
    exact mul_le_mul_of_nonneg_right (by linarith [hc i]) (sq_nonneg _)
  · rw [Finset.mul_sum]
    refine Finset.sum_le_sum fun i _ => ?_
    have e : g i ^ 2 = (c i + d) * (g i * ((c i + d)⁻¹ * g i)) := by
      have := (hp i).ne'
      field_simp
    rw [e]
    refine mul_le_mul_of_nonneg_right (hK k hk i) ?_
    have : g i * ((c i + d)⁻¹ * g i) = (c i + d)⁻¹ * g i ^ 2 := by ring
    rw [this]
    exact mul_nonneg (inv_nonneg.mpr (hp i).le) (sq_nonneg _)

end Kfac.Mix
