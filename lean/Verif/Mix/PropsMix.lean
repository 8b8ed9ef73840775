import Verif.Mix.Lemmas

/-! # C110: any mixture of blocks -/

namespace Kfac.Mix

open Kfac.Stats Kfac.Block Kfac.Train Kfac.Params Matrix Filter Topology

/-! ### Specification -/

/-- One factor dense, the other diagonal ("kron_in_diag", "kron_out_diag"). -/
def Shape.Mixed : Shape → Prop
  | .kron _ _ _ _ diagIn diagOut => diagIn ≠ diagOut
  | _ => False

/-- At least one output, location and use. -/
def Shape.Proper : Shape → Prop
  | .kron kind _ q _ _ _ => q ≠ 0 ∧ 0 < kind.renorm
  | .full _ => True
  | .diagonal kind _ => ∀ l, kind = .conv l → 0 < l

/-- A new factor. -/
def Fac.fresh {n : ℕ} : (isDiag : Bool) → Fac isDiag n
  | false => (⟨MovAvg.init, 0⟩ : DenseStat n)
  | true => (⟨MovAvg.init⟩ : DiagStat n)

/-- The factors of a new block. -/
def Shape.fresh : (sh : Shape) → sh.State
  | .kron _ _ _ _ diagIn diagOut => (Fac.fresh diagIn, Fac.fresh diagOut)
  | .full n => (⟨MovAvg.init, 0⟩ : DenseStat n)
  | .diagonal _ n => (⟨MovAvg.init⟩ : DiagStat n)

/-- Estimates of covariances. -/
def Shape.Psd : (sh : Shape) → sh.New → Prop
  | .kron _ _ _ _ _ _, c => (Prod.fst c).PosSemidef ∧ (Prod.snd c).PosSemidef
  | .full _, c => Matrix.PosSemidef c
  | .diagonal _ n, c => ∀ i : Fin n, 0 ≤ c i

/-- Estimates with traces (entries for diagonal blocks) of at most `b`. -/
def Shape.NewBelow (b : ℝ) : (sh : Shape) → sh.New → Prop
  | .kron _ _ _ _ _ _, c => (Prod.fst c).trace ≤ b ∧ (Prod.snd c).trace ≤ b
  | .full _, c => Matrix.trace c ≤ b
  | .diagonal _ n, c => ∀ i : Fin n, c i ≤ b

variable {B : ℕ} {shapes : Fin B → Shape}

/-- Training on the loss `f` with dampings of at least `lam`; the covariances are updated with any estimates. -/
def Op.Fits (lam : ℝ) (f : Params shapes → ℝ) : Op shapes → Prop
  | .cov new decay => (∀ k, (shapes k).Psd (new k)) ∧ 0 ≤ decay
  | .inv damping => lam ≤ damping
  | .train f' damping => f' = f ∧ lam ≤ damping

/-- Bounded estimates and dampings. -/
def Op.Moderate (b Λ : ℝ) : Op shapes → Prop
  | .cov new _ => ∀ k, (shapes k).NewBelow b (new k)
  | .inv damping => damping ≤ Λ
  | .train _ damping => damping ≤ Λ

/-- Training without end. -/
def Trajectory (cfg : Config) (start : Net shapes) (ops : ℕ → Op shapes) (states : ℕ → Net shapes) : Prop :=
  states 0 = start ∧ ∀ k, (states k).step cfg (ops k) = .ok (states (k + 1))

/-- The loss is below a parabola of curvature `L` along any line, as far as it stays below `c`. -/
def SmoothBelow (c L : ℝ) (f : Params shapes → ℝ) : Prop :=
  ∀ (θ d : Params shapes) (t : ℝ), (∀ s ∈ Set.uIcc 0 t, f (θ + s • d) ≤ c) →
    f (θ + t • d) ≤ f θ + t * fderiv ℝ f θ d + L / 2 * t ^ 2 * inner d d

/-! ### Invariants -/

/-- The estimate of a factor is a covariance, and defined if `w`. -/
def FacOk {n : ℕ} (w : Bool) (b : Bool) (s : Fac b n) : Prop :=
  0 ≤ Fac.weight b s ∧ (w = true → 0 < Fac.weight b s) ∧ (Fac.sum b s).PosSemidef

/-- The estimates of a block are. -/
def Shape.Ok (w : Bool) : (sh : Shape) → sh.State → Prop
  | .kron _ _ _ _ i o, s => FacOk w i (Prod.fst s) ∧ FacOk w o (Prod.snd s)
  | .full n, s => FacOk (n := n) w false s
  | .diagonal _ n, s => FacOk (n := n) w true s

/-- What is stored for the inverse of a block without diagonal factors. -/
def Shape.Stored (lam : ℝ) (K : Option ℝ) : (sh : Shape) → sh.State → Prop
  | .kron kind n q bias false false, s => ∀ g : Matrix (Fin (n + bias.toNat)) (Fin q) ℝ,
      Bounds lam K g (kind.renorm⁻¹ • (DenseStat.inverse (Prod.fst s) * g * DenseStat.inverse (Prod.snd s)))
  | .full n, s => ∀ g : Fin n → ℝ, lam * ∑ i, (DenseStat.inverse s *ᵥ g) i ^ 2 ≤ ∑ i, g i * (DenseStat.inverse s *ᵥ g) i ∧
      ∀ k ∈ K, ∑ i, g i ^ 2 ≤ k * ∑ i, g i * (DenseStat.inverse s *ᵥ g) i
  | _, _ => True

/-- The estimate of a factor has a trace of at most `b`. -/
def FacBelow {n : ℕ} (b : ℝ) (i : Bool) (s : Fac i n) : Prop := (Fac.sum i s).trace ≤ b * Fac.weight i s

/-- The estimates of a block have. -/
def Shape.Below (b : ℝ) : (sh : Shape) → sh.State → Prop
  | .kron _ _ _ _ i o, s => FacBelow b i (Prod.fst s) ∧ FacBelow b o (Prod.snd s)
  | .full n, s => FacBelow (n := n) b false s
  | .diagonal _ n, s => ∀ i : Fin n, (DiagStat.avg s).var i ≤ b * (DiagStat.avg s).totalWeight

/-- A bound for the damped curvature of a block. -/
noncomputable def Shape.worst (b Λ : ℝ) : Shape → ℝ
  | .kron kind n q bias _ _ => kronWorst kind.renorm (n + bias.toNat) q b Λ
  | .full n => b + n * Λ
  | .diagonal _ _ => b + Λ

theorem facOk_fresh {n : ℕ} (b : Bool) : FacOk (n := n) false b (Fac.fresh b) := by
  cases b with
  | false => exact ⟨le_refl _, by simp, Matrix.PosSemidef.zero⟩
  | true => exact ⟨le_refl _, by simp, by simpa [Fac.sum, Fac.fresh, MovAvg.init] using Matrix.PosSemidef.zero⟩

theorem ok_fresh : (sh : Shape) → sh.Ok false sh.fresh
  | .kron _ _ _ _ i o => ⟨facOk_fresh i, facOk_fresh o⟩
  | .full _ => facOk_fresh false
  | .diagonal _ _ => facOk_fresh true

theorem facOk_add {n : ℕ} {w b : Bool} {s : Fac b n} (h : FacOk w b s) {c : Matrix (Fin n) (Fin n) ℝ} (hc : c.PosSemidef) {decay : ℝ}
    (hd : 0 ≤ decay) : FacOk true b (Fac.addCov b s c decay) := by
  obtain ⟨h1, h2⟩ := fac_add b s c decay
  have h3 : 0 < Fac.weight b (Fac.addCov b s c decay) := by
    rw [h1]
    have := mul_nonneg hd h.1
    linarith
  refine ⟨h3.le, fun _ => h3, ?_⟩
  rw [h2]
  refine (h.2.2.smul hd).add ?_
  split_ifs
  · exact Matrix.PosSemidef.diagonal fun i => hc.diag_nonneg
  · exact hc

theorem ok_cov {w : Bool} {decay : ℝ} (hd : 0 ≤ decay) : (sh : Shape) → {s : sh.State} → {c : sh.New} → sh.Ok w s → sh.Psd c →
    sh.Ok true (sh.covUpdate s c decay)
  | .kron _ _ _ _ _ _, _, _, h, hc => ⟨facOk_add h.1 hc.1 hd, facOk_add h.2 hc.2 hd⟩
  | .full n, s, c, h, hc => facOk_add (n := n) (b := false) (s := s) (c := c) h hc hd
  | .diagonal _ n, s, c, h, hc => by
    have h3 : 0 < decay * (DiagStat.avg s).totalWeight + 1 := by
      have := mul_nonneg hd h.1
      simp only [Fac.weight] at this
      linarith
    have h4 : Fac.weight (n := n) true (Shape.covUpdate (.diagonal _ n) s c decay) = decay * (DiagStat.avg s).totalWeight + 1 := by
      simp [Fac.weight, Shape.covUpdate, MovAvg.add]
    refine ⟨by rw [h4]; exact h3.le, fun _ => by rw [h4]; exact h3, ?_⟩
    refine Matrix.PosSemidef.diagonal fun i => ?_
    have h5 : 0 ≤ (DiagStat.avg s).var i := by
      have := h.2.2.diag_nonneg (i := i)
      simpa [Fac.sum] using this
    have h6 : 0 ≤ c i := hc i
    show 0 ≤ decay * (DiagStat.avg s).var i + 1 * c i
    have := mul_nonneg hd h5
    linarith

theorem facOk_keep {n : ℕ} {w b : Bool} {s : Fac b n} (h : FacOk w b s) (d : ℝ) : FacOk w b (Fac.updateInverse b s d) := by
  obtain ⟨-, h1, h2⟩ := keep_trace s d
  simpa only [FacOk, h1, h2] using h

/-- What an update of the inverses does to a Kronecker block. -/
theorem kronInv_shape {rule : PiRule} {power damping : ℝ} {kind : KronKind} {P q : ℕ} {i o : Bool} {s s' : Fac i P × Fac o q}
    (h : kronInvUpdate rule power damping kind i o s = .ok s') :
    ∃ d e, s' = (Fac.updateInverse i s.1 d, Fac.updateInverse o s.2 e) := by
  simp only [kronInvUpdate] at h
  split_ifs at h with hb
  · obtain ⟨rfl, rfl⟩ : i = true ∧ o = true := by simpa using hb
    exact ⟨0, 0, (Except.ok.inj h).symm⟩
  · cases h1 : kronDamping rule power damping kind i o s with
    | error m => rw [h1] at h; cases h
    | ok d =>
      rw [h1] at h
      exact ⟨d.1, d.2, (Except.ok.inj h).symm⟩

theorem fullInv_shape {damping : ℝ} {n : ℕ} {s s' : DenseStat n} (h : fullInvUpdate damping s = .ok s') :
    s' = Fac.updateInverse (n := n) false s damping := by
  simp only [fullInvUpdate] at h
  split at h
  · exact (Except.ok.inj h).symm
  · cases h

theorem ok_inv {w : Bool} {rule : PiRule} {power damping : ℝ} : (sh : Shape) → {s s' : sh.State} → sh.Ok w s →
    sh.invUpdate rule power damping s = .ok s' → sh.Ok w s'
  | .kron _ _ _ _ _ _, s, s', h, hs => by
    obtain ⟨d, e, rfl⟩ := kronInv_shape hs
    exact ⟨facOk_keep h.1 d, facOk_keep h.2 e⟩
  | .full n, s, s', h, hs => by
    obtain rfl := fullInv_shape hs
    exact facOk_keep (n := n) h damping
  | .diagonal _ _, s, s', h, hs => by
    obtain rfl := Except.ok.inj hs
    exact h

theorem stored_fresh (lam : ℝ) : (sh : Shape) → sh.Stored lam none sh.fresh
  | .kron _ _ _ _ false false => fun g => by
    refine ⟨?_, by simp⟩
    simp [Shape.fresh, Fac.fresh, sqn]
  | .kron _ _ _ _ false true => trivial
  | .kron _ _ _ _ true false => trivial
  | .kron _ _ _ _ true true => trivial
  | .full _ => fun g => by simp [Shape.fresh]
  | .diagonal _ _ => trivial

theorem stored_cov {lam decay : ℝ} {K : Option ℝ} : (sh : Shape) → {s : sh.State} → (c : sh.New) → sh.Stored lam K s →
    sh.Stored lam K (sh.covUpdate s c decay)
  | .kron _ _ _ _ false false, _, _, h => h
  | .kron _ _ _ _ false true, _, _, _ => trivial
  | .kron _ _ _ _ true false, _, _, _ => trivial
  | .kron _ _ _ _ true true, _, _, _ => trivial
  | .full _, _, _, h => h
  | .diagonal _ _, _, _, _ => trivial

theorem trace_estimate {n : ℕ} {i : Bool} {s : Fac i n} {b : ℝ} (hw : 0 < Fac.weight i s) (h : FacBelow b i s) :
    (Fac.estimate i s).trace ≤ b := by
  rw [Fac.estimate, Matrix.trace_smul, smul_eq_mul, inv_mul_le_iff₀ hw, mul_comm]
  exact h

/-- Dampings are only defined with estimates. -/
theorem warm_of_damping {rule : PiRule} {power damping : ℝ} {kind : KronKind} {P q : ℕ} {i o : Bool} {s : Fac i P × Fac o q} {w : Bool}
    (h1 : FacOk w i s.1) (h2 : FacOk w o s.2) {d : ℝ × ℝ} (h : kronDamping rule power damping kind i o s = .ok d) :
    0 < Fac.weight i s.1 ∧ 0 < Fac.weight o s.2 := by
  unfold kronDamping at h
  split at h
  · rename_i a b ha hb
    constructor
    · refine lt_of_le_of_ne h1.1 fun h3 => ?_
      rw [fac_trace_none h3.symm] at ha
      cases ha
    · refine lt_of_le_of_ne h2.1 fun h3 => ?_
      rw [fac_trace_none h3.symm] at hb
      cases hb
  · cases h

/-- An update of the inverses that succeeds has seen estimates. -/
theorem warm_of_inv {rule : PiRule} {power damping : ℝ} {kind : KronKind} {P q : ℕ} {i o : Bool} {s s' : Fac i P × Fac o q} {w : Bool}
    (hm : (i && o) = false) (h1 : FacOk w i s.1) (h2 : FacOk w o s.2)
    (h : kronInvUpdate rule power damping kind i o s = .ok s') : 0 < Fac.weight i s.1 ∧ 0 < Fac.weight o s.2 := by
  simp only [kronInvUpdate, hm] at h
  cases h3 : kronDamping rule power damping kind i o s with
  | error m => rw [h3] at h; cases h
  | ok d => exact warm_of_damping h1 h2 h3

theorem stored_inv {rule : PiRule} {power damping lam b Λ k : ℝ} {w : Bool} (hp : power = 1) (hlam : 0 < lam) (hd : lam ≤ damping) (y : Bool) :
    (sh : Shape) → {s s' : sh.State} → sh.Proper → sh.Ok w s → (y = true → sh.Below b s ∧ damping ≤ Λ ∧ sh.worst b Λ ≤ k) →
    sh.invUpdate rule power damping s = .ok s' → sh.Stored lam (if y then some k else none) s'
  | .kron kind n q bias false false, s, s', hpr, h, hb, hs => by
    obtain ⟨w1, w2⟩ := warm_of_inv rfl h.1 h.2 hs
    intro g
    obtain ⟨u, h1, h2⟩ := kron_synced (K := if y then some k else none) (lam := lam) hpr.1 hp hpr.2 w1 w2 h.1.2.2 h.2.2.2 hlam hd
      (fun k' hk => by
        cases y with
        | false => simp at hk
        | true =>
          obtain rfl : k = k' := by simpa using hk
          obtain ⟨c1, c2, c3⟩ := hb rfl
          exact ⟨b, Λ, trace_estimate w1 c1.1, trace_estimate w2 c1.2, c2, c3⟩) hs g
    have h3 := kron_dense (rule := rule) (power := power) (damping := damping) (kind := kind) hpr.1 s' g
    have := Except.ok.inj (h1.symm.trans h3)
    rw [this] at h2
    exact h2
  | .kron _ _ _ _ false true, _, _, _, _, _, _ => trivial
  | .kron _ _ _ _ true false, _, _, _, _, _, _ => trivial
  | .kron _ _ _ _ true true, _, _, _, _, _, _ => trivial
  | .full n, s, s', hpr, h, hb, hs => by
    have hs : fullInvUpdate (n := n) damping s = .ok s' := hs
    have hw : 0 < (DenseStat.avg s).totalWeight := by
      refine lt_of_le_of_ne h.1 fun h3 => ?_
      have h3 : (DenseStat.avg s).totalWeight = 0 := h3.symm
      simp [fullInvUpdate, MovAvg.value, h3] at hs
    refine full_synced (n := n) hw h.2.2 hlam hd (fun k' hk => ?_) hs
    cases y with
    | false => simp at hk
    | true =>
      obtain rfl : k = k' := by simpa using hk
      obtain ⟨c1, c2, c3⟩ := hb rfl
      have h4 := trace_estimate (i := false) hw c1
      have h5 := mul_le_mul_of_nonneg_left c2 (Nat.cast_nonneg (α := ℝ) n)
      have c3 : b + n * Λ ≤ k := c3
      have h4 : ((DenseStat.avg s).totalWeight⁻¹ • (DenseStat.avg s).var).trace ≤ b := h4
      linarith
  | .diagonal _ _, _, _, _, _, _, _ => trivial

theorem flat_sum {P q : ℕ} (x : Fin P → Fin q → ℝ) :
    ∑ k : Fin (P * q), x (finProdFinEquiv.symm k).1 (finProdFinEquiv.symm k).2 = ∑ r, ∑ j, x r j := by
  rw [← Fintype.sum_prod_type' (f := x)]
  exact Fintype.sum_equiv finProdFinEquiv.symm _ _ fun k => rfl

/-- From stacked matrices to vectors. -/
theorem flat_bounds {P q : ℕ} {lam : ℝ} {K : Option ℝ} {g : Fin (P * q) → ℝ} {u : Fin P → Fin q → ℝ}
    (h : Bounds lam K (fun i j => g (finProdFinEquiv (i, j))) u) :
    lam * ∑ k : Fin (P * q), (u (finProdFinEquiv.symm k).1 (finProdFinEquiv.symm k).2) ^ 2 ≤
        ∑ k : Fin (P * q), g k * u (finProdFinEquiv.symm k).1 (finProdFinEquiv.symm k).2 ∧
      ∀ c ∈ K, ∑ k, g k ^ 2 ≤ c * ∑ k : Fin (P * q), g k * u (finProdFinEquiv.symm k).1 (finProdFinEquiv.symm k).2 := by
  have e1 := flat_sum (P := P) (q := q) fun r j => u r j ^ 2
  have e2 := flat_sum (P := P) (q := q) fun r j => g (finProdFinEquiv (r, j)) * u r j
  have e3 := flat_sum (P := P) (q := q) fun r j => g (finProdFinEquiv (r, j)) ^ 2
  simp only [Prod.mk.eta, Equiv.apply_symm_apply] at e1 e2 e3
  rw [e1, e2, e3]
  exact h

section tame

variable {rule : PiRule} {power damping lam : ℝ} {w : Bool} {K : Option ℝ}

/-- What is claimed of the preconditioned gradient. -/
def Small {n : ℕ} (lam : ℝ) (K : Option ℝ) (g u : Fin n → ℝ) : Prop :=
  lam * ∑ i, u i ^ 2 ≤ ∑ i, g i * u i ∧ ∀ k ∈ K, ∑ i, g i ^ 2 ≤ k * ∑ i, g i * u i

theorem kron_small {kind : KronKind} {n q : ℕ} {bias i o : Bool} {s : Fac i (n + bias.toNat) × Fac o q} {g u : Fin ((n + bias.toNat) * q) → ℝ}
    (h : ∀ v, kronPrecondition rule power damping kind bias i o s (fun i j => g (finProdFinEquiv (i, j))) = .ok v →
      Bounds lam K (fun i j => g (finProdFinEquiv (i, j))) v)
    (hu : (kronPrecondition rule power damping kind bias i o s fun i j => g (finProdFinEquiv (i, j))).map (fun u k =>
      u (finProdFinEquiv.symm k).1 (finProdFinEquiv.symm k).2) = .ok u) : Small lam K g u := by
  cases h1 : kronPrecondition rule power damping kind bias i o s fun i j => g (finProdFinEquiv (i, j)) with
  | error m => rw [h1] at hu; cases hu
  | ok v =>
    rw [h1] at hu
    obtain rfl := Except.ok.inj hu
    exact flat_bounds (h v h1)

theorem warm_of_precondition {kind : KronKind} {n q : ℕ} {bias i o : Bool} {s : Fac i (n + bias.toNat) × Fac o q} (hio : (i || o) = true)
    (h1 : FacOk w i s.1) (h2 : FacOk w o s.2) {g v : Fin (n + bias.toNat) → Fin q → ℝ}
    (h : kronPrecondition rule power damping kind bias i o s g = .ok v) : 0 < Fac.weight i s.1 ∧ 0 < Fac.weight o s.2 := by
  unfold kronPrecondition at h
  rw [if_pos hio] at h
  cases h3 : kronDamping rule power damping kind i o s with
  | error m => rw [h3] at h; cases h
  | ok d => exact warm_of_damping h1 h2 h3

theorem full_small {n : ℕ} {s : DenseStat n} (hst : ∀ g : Fin n → ℝ, Small lam K g (s.inverse *ᵥ g)) {g u : Fin n → ℝ}
    (hu : fullPrecondition s g = .ok u) : Small lam K g u := by
  rw [full_precondition] at hu
  obtain rfl := Except.ok.inj hu
  exact hst g

theorem diag_small {kind : DiagKind} {n : ℕ} {s : DiagStat n} (hp : power = 1) (hlam : 0 < lam) (hd : lam ≤ damping)
    (hpr : ∀ l, kind = .conv l → 0 < l) (hok : FacOk (n := n) w true s)
    (hK : ∀ k ∈ K, ∃ b Λ, (∀ i, s.avg.var i ≤ b * s.avg.totalWeight) ∧ damping ≤ Λ ∧ b + Λ ≤ k) {g u : Fin n → ℝ}
    (hu : diagPrecondition power damping kind s g = .ok u) : Small lam K g u := by
  have hw : 0 < s.avg.totalWeight := by
    refine lt_of_le_of_ne hok.1 fun h3 => ?_
    have h3 : s.avg.totalWeight = 0 := h3.symm
    simp [diagPrecondition, MovAvg.value, h3] at hu
  have hv : s.avg.value true = some (s.avg.totalWeight⁻¹ • s.avg.var) := by simp [MovAvg.value, hw.ne']
  rw [diag_precondition hv, hp, (C77_diagonal_damping kind hpr damping).1] at hu
  obtain rfl := Except.ok.inj hu
  refine diag_bounds (n := n) (fun i => ?_) hlam hd (fun k hk i => ?_) g
  · have h5 : 0 ≤ s.avg.var i := by
      have := hok.2.2.diag_nonneg (i := i)
      simpa [Fac.sum] using this
    exact mul_nonneg (inv_nonneg.mpr hw.le) h5
  · obtain ⟨b, Λ, c1, c2, c3⟩ := hK k hk
    have h6 : s.avg.totalWeight⁻¹ * s.avg.var i ≤ b := by
      rw [inv_mul_le_iff₀ hw, mul_comm]
      exact c1 i
    show s.avg.totalWeight⁻¹ * s.avg.var i + damping ≤ k
    linarith

/-- The preconditioned gradient of a block: no more than the gradient over the damping. -/
theorem tame (hp : power = 1) (hlam : 0 < lam) (hd : lam ≤ damping) :
    (sh : Shape) → {s : sh.State} → ¬sh.Mixed → sh.Proper → sh.Ok w s → sh.Stored lam K s →
    (∀ k ∈ K, ∃ b Λ, sh.Below b s ∧ damping ≤ Λ ∧ sh.worst b Λ ≤ k) → {g u : Fin sh.dim → ℝ} →
    sh.precondition rule power damping s g = .ok u → Small lam K g u
  | .kron kind n q bias false false, s, _, hpr, hok, hst, hK, g, u, hu => kron_small (fun v hv => by
      obtain rfl := Except.ok.inj (hv.symm.trans (kron_dense hpr.1 s _))
      exact hst _) hu
  | .kron kind n q bias false true, _, hm, _, _, _, _, _, _, _ => absurd (by simp [Shape.Mixed]) hm
  | .kron kind n q bias true false, _, hm, _, _, _, _, _, _, _ => absurd (by simp [Shape.Mixed]) hm
  | .kron kind n q bias true true, s, _, hpr, hok, hst, hK, g, u, hu => kron_small (fun v hv => by
      obtain ⟨w1, w2⟩ := warm_of_precondition rfl hok.1 hok.2 hv
      obtain ⟨v', h1, h2⟩ := kron_synced (rule := rule) (K := K) (lam := lam) (s' := s) hpr.1 hp hpr.2 w1 w2 hok.1.2.2 hok.2.2.2 hlam hd
        (fun k hk => by
          obtain ⟨b, Λ, c1, c2, c3⟩ := hK k hk
          exact ⟨b, Λ, trace_estimate w1 c1.1, trace_estimate w2 c1.2, c2, c3⟩) rfl fun i j => g (finProdFinEquiv (i, j))
      obtain rfl := Except.ok.inj (hv.symm.trans h1)
      exact h2) hu
  | .full _, _, _, _, _, hst, _, _, _, hu => full_small hst hu
  | .diagonal _ _, _, _, hpr, hok, _, hK, _, _, hu => diag_small hp hlam hd hpr hok hK hu

/-- And of any block right after its inverses are updated. -/
theorem tame_synced (hp : power = 1) (hlam : 0 < lam) (hd : lam ≤ damping) :
    (sh : Shape) → {s s' : sh.State} → sh.Proper → sh.Ok w s → sh.invUpdate rule power damping s = .ok s' → {g u : Fin sh.dim → ℝ} →
    sh.precondition rule power damping s' g = .ok u → Small lam none g u
  | .kron kind n q bias i o, s, s', hpr, hok, hs, g, u, hu => kron_small (fun v hv => by
      obtain ⟨w1, w2⟩ : 0 < Fac.weight i (Prod.fst s) ∧ 0 < Fac.weight o (Prod.snd s) := by
        by_cases hio : (i && o) = true
        · obtain ⟨d, e, rfl⟩ := kronInv_shape hs
          obtain ⟨h1, h2⟩ := warm_of_precondition (w := w) (by cases i <;> cases o <;> simp_all) (facOk_keep hok.1 d) (facOk_keep hok.2 e) hv
          rw [(keep_trace _ d).2.1] at h1
          rw [(keep_trace _ e).2.1] at h2
          exact ⟨h1, h2⟩
        · exact warm_of_inv (by simpa using hio) hok.1 hok.2 hs
      obtain ⟨v', h1, h2⟩ := kron_synced (rule := rule) (K := none) (lam := lam) (s' := s') hpr.1 hp hpr.2 w1 w2 hok.1.2.2 hok.2.2.2 hlam hd
        (by simp) hs fun i j => g (finProdFinEquiv (i, j))
      obtain rfl := Except.ok.inj (hv.symm.trans h1)
      exact h2) hu
  | .full n, s, s', hpr, hok, hs, _, _, hu => full_small (n := n)
      (stored_inv (b := 0) (Λ := 0) (k := 0) hp hlam hd false (.full n) hpr hok (by simp) hs) hu
  | .diagonal _ _, s, s', hpr, hok, hs, _, _, hu => by
    obtain rfl := Except.ok.inj hs
    exact diag_small hp hlam hd hpr hok (by simp) hu

/-- A factor with estimates can be used. -/
theorem usable_factor {n : ℕ} {b : Bool} {s : Fac b n} (h : FacOk true b s) {d : ℝ} (hd : b = true → 0 < d) :
    ∃ f M, Fac.factor b s = some f ∧ (f.matpowerInv d).Is n M := by
  cases b with
  | false => exact ⟨_, _, rfl, factor_dense _ _⟩
  | true =>
    obtain ⟨f, h1, h2⟩ := updated_factor (h.2.1 rfl) h.2.2 (hd rfl)
    exact ⟨f, _, h1, h2⟩

theorem kron_usable {kind : KronKind} {n q : ℕ} {bias i o : Bool} {s : Fac i (n + bias.toNat) × Fac o q} (hp : power = 1) (hd : 0 < damping)
    (hq : q ≠ 0) (hr : 0 < kind.renorm) (h1 : FacOk true i s.1) (h2 : FacOk true o s.2) (g : Fin (n + bias.toNat) → Fin q → ℝ) :
    ∃ u, kronPrecondition rule power damping kind bias i o s g = .ok u := by
  obtain ⟨d, e, h3, hd0, he0, -⟩ := kronDamping_ok (rule := rule) hp hr (h1.2.1 rfl) (h2.2.1 rfl) h1.2.2 h2.2.2 hd
  by_cases hio : (i || o) = true
  · obtain ⟨a, A, a1, a2⟩ := usable_factor h1 (d := d) fun _ => hd0
    obtain ⟨b, G, b1, b2⟩ := usable_factor h2 (d := e) fun _ => he0
    exact ⟨_, kron_precondition (d := (d, e)) hq (by rw [if_pos hio]; exact h3) a1 b1 a2 b2 g⟩
  · obtain ⟨rfl, rfl⟩ : i = false ∧ o = false := by simpa using hio
    exact ⟨_, kron_dense hq s g⟩

theorem usable (hp : power = 1) (hd : 0 < damping) : (sh : Shape) → {s : sh.State} → sh.Proper → sh.Ok true s → (g : Fin sh.dim → ℝ) →
    ∃ u, sh.precondition rule power damping s g = .ok u
  | .kron _ _ _ _ _ _, _, hpr, hok, g => by
    obtain ⟨u, hu⟩ := kron_usable (rule := rule) hp hd hpr.1 hpr.2 hok.1 hok.2 fun i j => g (finProdFinEquiv (i, j))
    simp only [Shape.precondition, hu]
    exact ⟨_, rfl⟩
  | .full _, s, _, _, g => ⟨_, full_precondition s g⟩
  | .diagonal _ _, s, _, hok, g => by
    have hw : 0 < (DiagStat.avg s).totalWeight := hok.2.1 rfl
    exact ⟨_, diag_precondition (c := (DiagStat.avg s).totalWeight⁻¹ • (DiagStat.avg s).var) (by simp [MovAvg.value, hw.ne']) g⟩

theorem invertible (hp : power = 1) (hd : 0 < damping) : (sh : Shape) → {s : sh.State} → sh.Proper → sh.Ok true s →
    ∃ s', sh.invUpdate rule power damping s = .ok s'
  | .kron kind _ _ _ i o, s, hpr, hok => by
    obtain ⟨d, e, h3, -⟩ := kronDamping_ok (rule := rule) hp hpr.2 (hok.1.2.1 rfl) (hok.2.2.1 rfl) hok.1.2.2 hok.2.2.2 hd
    simp only [Shape.invUpdate, kronInvUpdate]
    split_ifs
    · exact ⟨_, rfl⟩
    · exact ⟨_, congrArg (Except.map _) h3⟩
  | .full n, s, _, hok => by
    have hw : 0 < (DenseStat.avg s).totalWeight := hok.2.1 rfl
    have hv : (DenseStat.avg s).value true = some ((DenseStat.avg s).totalWeight⁻¹ • (DenseStat.avg s).var) := by simp [MovAvg.value, hw.ne']
    refine ⟨DenseStat.step (n := n) s (.inv damping), ?_⟩
    show fullInvUpdate (n := n) damping s = _
    unfold fullInvUpdate
    rw [hv]
    rfl
  | .diagonal _ _, s, _, _ => ⟨s, rfl⟩

end tame

/-! ### The net -/

theorem below_fresh (b : ℝ) : (sh : Shape) → sh.Below b sh.fresh
  | .kron _ _ _ _ i o => by
    constructor <;> [cases i; cases o] <;>
      simp [Shape.fresh, Fac.fresh, FacBelow, Fac.sum, Fac.weight, MovAvg.init, Matrix.trace]
  | .full _ => by simp [Shape.Below, Shape.fresh, FacBelow, Fac.sum, Fac.weight, MovAvg.init, Matrix.trace]
  | .diagonal _ _ => fun i => by simp [Shape.fresh, MovAvg.init]

theorem facBelow_add {n : ℕ} {i : Bool} {s : Fac i n} {b decay : ℝ} (hd : 0 ≤ decay) (h : FacBelow b i s) {c : Matrix (Fin n) (Fin n) ℝ}
    (hc : c.trace ≤ b) : FacBelow b i (Fac.addCov i s c decay) := by
  obtain ⟨h1, h2⟩ := fac_add i s c decay
  have h3 : (if i then Matrix.diagonal c.diag else c).trace = c.trace := by
    cases i <;> simp [Matrix.trace]
  unfold FacBelow
  rw [h1, h2, Matrix.trace_add, Matrix.trace_smul, h3, smul_eq_mul]
  have := mul_le_mul_of_nonneg_left (show (Fac.sum i s).trace ≤ b * Fac.weight i s from h) hd
  linarith

theorem below_cov {b decay : ℝ} (hd : 0 ≤ decay) : (sh : Shape) → {s : sh.State} → {c : sh.New} → sh.Below b s → sh.NewBelow b c →
    sh.Below b (sh.covUpdate s c decay)
  | .kron _ _ _ _ _ _, _, _, h, hc => ⟨facBelow_add hd h.1 hc.1, facBelow_add hd h.2 hc.2⟩
  | .full n, s, c, h, hc => facBelow_add (n := n) (i := false) (s := s) (c := c) hd h hc
  | .diagonal _ n, s, c, h, hc => fun i => by
    have h1 : (DiagStat.avg s).var i ≤ b * (DiagStat.avg s).totalWeight := h i
    have h2 : c i ≤ b := hc i
    show decay * (DiagStat.avg s).var i + 1 * c i ≤ b * (decay * (DiagStat.avg s).totalWeight + 1)
    have := mul_le_mul_of_nonneg_left h1 hd
    linarith

theorem facBelow_keep {n : ℕ} {i : Bool} {s : Fac i n} {b : ℝ} (h : FacBelow b i s) (d : ℝ) : FacBelow b i (Fac.updateInverse i s d) := by
  obtain ⟨-, h1, h2⟩ := keep_trace s d
  unfold FacBelow
  rw [h1, h2]
  exact h

theorem below_inv {b : ℝ} {rule : PiRule} {power damping : ℝ} : (sh : Shape) → {s s' : sh.State} → sh.Below b s →
    sh.invUpdate rule power damping s = .ok s' → sh.Below b s'
  | .kron _ _ _ _ _ _, s, s', h, hs => by
    obtain ⟨d, e, rfl⟩ := kronInv_shape hs
    exact ⟨facBelow_keep h.1 d, facBelow_keep h.2 e⟩
  | .full n, s, s', h, hs => by
    obtain rfl := fullInv_shape hs
    exact facBelow_keep (n := n) h damping
  | .diagonal _ _, s, s', h, hs => by
    obtain rfl := Except.ok.inj hs
    exact h

theorem inner_self_nonneg (d : Params shapes) : 0 ≤ inner d d :=
  Finset.sum_nonneg fun _ _ => Finset.sum_nonneg fun _ _ => mul_self_nonneg _

theorem inner_smul (g u : Params shapes) (c : ℝ) : inner g (c • u) = c * inner g u := by
  simp only [inner, Pi.smul_apply, smul_eq_mul, Finset.mul_sum]
  exact Finset.sum_congr rfl fun k _ => Finset.sum_congr rfl fun i _ => by ring

/-- The derivative along a direction. -/
theorem fderiv_inner (f : Params shapes → ℝ) (θ d : Params shapes) : fderiv ℝ f θ d = inner (grad f θ) d := by
  have h1 : d = ∑ k, ∑ i, d k i • (Pi.single k (Pi.single i 1) : Params shapes) := by
    funext k i
    rw [Finset.sum_apply, Finset.sum_apply, Finset.sum_eq_single k, Finset.sum_apply, Finset.sum_apply, Finset.sum_eq_single i]
    · simp
    · intro j _ hj
      simp [Pi.single_eq_of_ne hj.symm]
    · simp
    · intro j _ hj
      simp [Pi.single_eq_of_ne hj.symm]
    · simp
  conv_lhs => rw [h1]
  simp only [map_sum, map_smul, smul_eq_mul, inner, grad]
  exact Finset.sum_congr rfl fun k _ => Finset.sum_congr rfl fun i _ => mul_comm _ _

/-- All blocks together. -/
theorem net_small {lam : ℝ} {K : Option ℝ} {g u : Params shapes} (h : ∀ k, Small lam K (g k) (u k)) :
    lam * inner u u ≤ inner g u ∧ ∀ c ∈ K, inner g g ≤ c * inner g u := by
  constructor
  · simp only [inner, Finset.mul_sum]
    refine Finset.sum_le_sum fun k _ => ?_
    have := (h k).1
    simpa only [Finset.mul_sum, pow_two] using this
  · intro c hc
    simp only [inner]
    rw [Finset.mul_sum]
    refine Finset.sum_le_sum fun k _ => ?_
    have := (h k).2 c hc
    simpa only [pow_two] using this

/-- One training step. -/
theorem train_descent {cfg : Config} {f : Params shapes → ℝ} {damping lam L c : ℝ} {net net' : Net shapes} (hlam : 0 < lam) (hL : 0 ≤ L)
    (hf : Differentiable ℝ f) (hsm : SmoothBelow c L f) (hm : cfg.momentum = 0) (hlr : 0 ≤ cfg.learningRate)
    (hlr' : L * cfg.learningRate ≤ lam) (hc : f net.params ≤ c)
    (hsmall : ∀ u, net.precondition cfg damping (grad f net.params) = .ok u → ∀ k, Small lam none (grad f net.params k) (u k))
    (hs : net.trainStep cfg f damping = .ok net') :
    ∃ u, net.precondition cfg damping (grad f net.params) = .ok u ∧ 0 ≤ inner (grad f net.params) u ∧
      f net'.params ≤ f net.params - cfg.learningRate / 2 *
        (clipFactor cfg.normConstraint cfg.learningRate (inner (grad f net.params) u) * inner (grad f net.params) u) := by
  simp only [Net.trainStep, Bind.bind, Except.bind, Pure.pure, Except.pure] at hs
  cases hu : net.precondition cfg damping (grad f net.params) with
  | error m => rw [hu] at hs; cases hs
  | ok u =>
    rw [hu] at hs
    obtain rfl := Except.ok.inj hs
    have h1 := (net_small (hsmall u hu)).1
    set g := grad f net.params
    set s := inner g u with hsdef
    have hs0 : 0 ≤ s := (mul_nonneg hlam.le (inner_self_nonneg u)).trans h1
    refine ⟨u, rfl, hs0, ?_⟩
    set κ := clipFactor cfg.normConstraint cfg.learningRate s
    obtain ⟨k0, k1⟩ := clipFactor_mem cfg.normConstraint cfg.learningRate s
    have e1 : net.params - cfg.learningRate • (cfg.momentum • net.velocity + κ • u) = net.params + (cfg.learningRate * κ) • (-u) := by
      rw [hm, zero_smul, zero_add, smul_smul, smul_neg, sub_eq_add_neg]
    simp only [e1]
    have hneg : ∀ v : Params shapes, inner v (-u) = -inner v u := fun v => by
      have := inner_smul v u (-1)
      simpa using this
    have hnn : inner (-u) (-u) = inner u u := by
      simp [inner]
    rcases eq_or_lt_of_le hs0 with hz | hpos
    · have hu0 : inner u u = 0 := by
        have := inner_self_nonneg u
        rw [← hz] at h1
        nlinarith
      have : u = 0 := by
        funext k i
        have h2 := (Finset.sum_eq_zero_iff_of_nonneg fun k _ => Finset.sum_nonneg fun i _ => mul_self_nonneg (u k i)).mp hu0 k (Finset.mem_univ _)
        have h3 := (Finset.sum_eq_zero_iff_of_nonneg fun i _ => mul_self_nonneg (u k i)).mp h2 i (Finset.mem_univ _)
        exact mul_self_eq_zero.mp h3
      have hz' : inner g u = 0 := hsdef.symm.trans hz.symm
      rw [hz', this, neg_zero, smul_zero, add_zero, mul_zero, mul_zero, sub_zero]
    · have hline : HasDerivAt (fun t : ℝ => f (net.params + t • (-u))) (-s) 0 := by
        have h2 : HasDerivAt (fun t : ℝ => net.params + t • (-u)) (-u) 0 := by
          have := ((hasDerivAt_id (0 : ℝ)).smul_const (-u)).const_add net.params
          rwa [one_smul] at this
        have h3 : HasFDerivAt f (fderiv ℝ f net.params) (net.params + (0 : ℝ) • (-u)) := by
          rw [zero_smul, add_zero]
          exact (hf net.params).hasFDerivAt
        have h4 := h3.comp_hasDerivAt (0 : ℝ) h2
        rw [fderiv_inner, hneg] at h4
        exact h4
      have hcont : Continuous fun t : ℝ => f (net.params + t • (-u)) := hf.continuous.comp (by fun_prop)
      have := line_descent hcont (c := c) (T := cfg.learningRate * κ) hpos hlam hL ?_ hline (by simpa using hc) ?_ (mul_nonneg hlr k0)
      · simp only [zero_smul, add_zero] at this
        linarith
      · exact (mul_le_mul_of_nonneg_left (mul_le_of_le_one_right hlr k1) hL).trans hlr'
      · intro t ht0 hb
        have h2 := hsm net.params (-u) t fun r hr => by
          rw [Set.uIcc_of_le ht0] at hr
          exact hb r hr
        rw [fderiv_inner, hneg, hnn] at h2
        simp only [zero_smul, add_zero]
        have h3 : inner u u ≤ s / lam := by
          rw [le_div_iff₀ hlam, mul_comm]
          exact h1
        have h4 := mul_le_mul_of_nonneg_left h3 (by positivity : 0 ≤ L / 2 * t ^ 2)
        linarith

section trajectory

variable {cfg : Config} {start : Net shapes} {ops : ℕ → Op shapes} {states : ℕ → Net shapes} {lam L m : ℝ} {f : Params shapes → ℝ}

/-- Estimates and inverses on the way. -/
theorem state_ok (ht : Trajectory cfg start ops states) (hfr : ∀ j, start.stats j = (shapes j).fresh) (hpr : ∀ j, (shapes j).Proper)
    (hp : cfg.power = 1) (hlam : 0 < lam) (ho : ∀ k, (ops k).Fits lam f) (k : ℕ) :
    ∃ w, ∀ j, (shapes j).Ok w ((states k).stats j) ∧ (shapes j).Stored lam none ((states k).stats j) := by
  induction k with
  | zero =>
    refine ⟨false, fun j => ?_⟩
    rw [ht.1, hfr j]
    exact ⟨ok_fresh _, stored_fresh _ _⟩
  | succ k ih =>
    obtain ⟨w, h1⟩ := ih
    have hs := ht.2 k
    have hk := ho k
    cases hop : ops k with
    | cov new decay =>
      rw [hop] at hs hk
      rw [← Except.ok.inj hs]
      exact ⟨true, fun j => ⟨ok_cov hk.2 _ (h1 j).1 (hk.1 j), stored_cov _ _ (h1 j).2⟩⟩
    | inv damping =>
      rw [hop] at hs hk
      simp only [Net.step] at hs
      cases hc : collect (fun j => (shapes j).invUpdate cfg.rule cfg.power damping ((states k).stats j)) with
      | error e => rw [hc] at hs; cases hs
      | ok s =>
        rw [hc] at hs
        rw [← Except.ok.inj hs]
        refine ⟨w, fun j => ⟨ok_inv _ (h1 j).1 (collect_inv hc j), ?_⟩⟩
        exact stored_inv (b := 0) (Λ := 0) (k := 0) hp hlam hk false _ (hpr j) (h1 j).1 (by simp) (collect_inv hc j)
    | train f' damping =>
      rw [hop] at hs
      simp only [Net.step, Net.trainStep, Bind.bind, Except.bind, Pure.pure, Except.pure] at hs
      split at hs
      · cases hs
      · rw [← Except.ok.inj hs]
        exact ⟨w, h1⟩

theorem other_params (h : ∀ f' damping, ops 0 ≠ .train f' damping) {net net' : Net shapes} (hs : net.step cfg (ops 0) = .ok net') :
    net'.params = net.params := by
  cases hop : ops 0 with
  | cov new decay => rw [hop] at hs; rw [← Except.ok.inj hs]
  | inv damping =>
    rw [hop] at hs
    simp only [Net.step] at hs
    cases hc : collect (fun j => (shapes j).invUpdate cfg.rule cfg.power damping (net.stats j)) with
    | error e => rw [hc] at hs; cases hs
    | ok s => rw [hc] at hs; rw [← Except.ok.inj hs]
  | train f' damping => exact absurd hop (h f' damping)

/-- The squared Fisher norm that the optimizer computes at a training step. -/
def NormAt (cfg : Config) (f : Params shapes → ℝ) (damping : ℝ) (net : Net shapes) (s : ℝ) : Prop :=
  ∃ u, net.precondition cfg damping (grad f net.params) = .ok u ∧ s = inner (grad f net.params) u

theorem descent (ht : Trajectory cfg start ops states) (hfr : ∀ j, start.stats j = (shapes j).fresh) (hpr : ∀ j, (shapes j).Proper)
    (hmix : ∀ j, ¬(shapes j).Mixed) (hp : cfg.power = 1) (hlam : 0 < lam) (ho : ∀ k, (ops k).Fits lam f) (hf : Differentiable ℝ f)
    (hL : 0 ≤ L) (hsm : SmoothBelow (f start.params) L f) (hm : cfg.momentum = 0)
    (hlr : 0 ≤ cfg.learningRate) (hlr' : L * cfg.learningRate ≤ lam) (k : ℕ) :
    f (states k).params ≤ f start.params ∧
    (∀ damping, ops k = .train f damping → ∃ s, NormAt cfg f damping (states k) s ∧ 0 ≤ s ∧ f (states (k + 1)).params ≤
      f (states k).params - cfg.learningRate / 2 * (clipFactor cfg.normConstraint cfg.learningRate s * s)) ∧
    ((∀ damping, ops k ≠ .train f damping) → (states (k + 1)).params = (states k).params) := by
  have next : ∀ k, f (states k).params ≤ f start.params →
      (∀ damping, ops k = .train f damping → ∃ s, NormAt cfg f damping (states k) s ∧ 0 ≤ s ∧ f (states (k + 1)).params ≤
        f (states k).params - cfg.learningRate / 2 * (clipFactor cfg.normConstraint cfg.learningRate s * s)) ∧
      ((∀ damping, ops k ≠ .train f damping) → (states (k + 1)).params = (states k).params) := by
    intro k hk
    have hs := ht.2 k
    refine ⟨fun damping h => ?_, fun h => ?_⟩
    · obtain ⟨w, h1⟩ := state_ok ht hfr hpr hp hlam ho k
      have hd := ho k
      rw [h] at hs hd
      obtain ⟨u, h2, h3, h4⟩ := train_descent hlam hL hf hsm hm hlr hlr' hk (fun u hu j =>
        tame hp hlam hd.2 _ (hmix j) (hpr j) (h1 j).1 (h1 j).2 (by simp) (collect_inv hu j)) hs
      exact ⟨_, ⟨u, h2, rfl⟩, h3, h4⟩
    · refine other_params (ops := fun _ => ops k) (fun f' damping h' => ?_) hs
      have hd := ho k
      rw [h'] at hd
      exact h damping (by rw [h', hd.1])
  refine ⟨?_, next k ?_⟩ <;>
  · induction k with
    | zero => rw [ht.1]
    | succ k ih =>
      obtain ⟨h1, h2⟩ := next k ih
      by_cases h : ∃ damping, ops k = .train f damping
      · obtain ⟨damping, h⟩ := h
        obtain ⟨s, -, h3, h4⟩ := h1 damping h
        have := mul_nonneg (div_nonneg hlr zero_le_two) (mul_nonneg (clipFactor_mem cfg.normConstraint cfg.learningRate s).1 h3)
        linarith
      · rw [h2 fun damping h' => h ⟨damping, h'⟩]
        exact ih

/-! ### Theorems -/

/-- C110: training with any blocks that begins with an update of the covariances goes on for ever. -/
theorem C110_succeeds (hfr : ∀ j, start.stats j = (shapes j).fresh) (hpr : ∀ j, (shapes j).Proper) (hp : cfg.power = 1) (hlam : 0 < lam)
    (ho : ∀ k, (ops k).Fits lam f) {new : (k : Fin B) → (shapes k).New} {decay : ℝ} (h0 : ops 0 = .cov new decay) :
    ∃ states, Trajectory cfg start ops states := by
  let states : ℕ → Net shapes := fun k => Nat.rec start (fun k net => ((net.step cfg (ops k)).toOption).getD net) k
  have good : ∀ k {net : Net shapes}, (states k).step cfg (ops k) = .ok net → states (k + 1) = net := by
    intro k net h
    show ((((states k).step cfg (ops k)).toOption).getD (states k)) = net
    rw [h]
    rfl
  have key : ∀ k, (states k).step cfg (ops k) = .ok (states (k + 1)) ∧ ∀ j, (shapes j).Ok true ((states (k + 1)).stats j) := by
    intro k
    induction k with
    | zero =>
      have e : (states 0).step cfg (ops 0) = .ok { start with stats := fun k => (shapes k).covUpdate (start.stats k) (new k) decay } := by
        rw [h0]; rfl
      have hd := ho 0
      rw [h0] at hd
      rw [good 0 e]
      refine ⟨e, fun j => ok_cov (w := false) hd.2 _ ?_ (hd.1 j)⟩
      rw [hfr j]
      exact ok_fresh _
    | succ k ih =>
      have h1 := ih.2
      have hd := ho (k + 1)
      obtain ⟨net, h2, h3⟩ : ∃ net, (states (k + 1)).step cfg (ops (k + 1)) = .ok net ∧ ∀ j, (shapes j).Ok true (net.stats j) := by
        cases hop : ops (k + 1) with
        | cov new decay =>
          rw [hop] at hd
          exact ⟨_, rfl, fun j => ok_cov hd.2 _ (h1 j) (hd.1 j)⟩
        | inv damping =>
          rw [hop] at hd
          choose s hs using fun j => invertible (rule := cfg.rule) hp (hlam.trans_le hd) (shapes j) (hpr j) (h1 j)
          refine ⟨{ states (k + 1) with stats := s }, ?_, fun j => ok_inv _ (h1 j) (hs j)⟩
          simp only [Net.step]
          rw [collect_ok hs]
          rfl
        | train f' damping =>
          rw [hop] at hd
          choose u hu using fun j => usable (rule := cfg.rule) hp (hlam.trans_le hd.2) (shapes j) (hpr j) (h1 j) (grad f' (states (k + 1)).params j)
          have hc : (states (k + 1)).precondition cfg damping (grad f' (states (k + 1)).params) = .ok u := collect_ok hu
          simp only [Net.step, Net.trainStep, Bind.bind, Except.bind, Pure.pure, Except.pure, hc]
          exact ⟨_, rfl, h1⟩
      rw [good _ h2]
      exact ⟨h2, h3⟩
  exact ⟨states, rfl, fun k => (key k).1⟩

/-- C110: at any time, for a block without a mixture of dense and diagonal factors and any vector: the preconditioned vector has at most
the length of the vector over the least damping, and makes no obtuse angle with it. -/
theorem C110_bounded (ht : Trajectory cfg start ops states) (hfr : ∀ j, start.stats j = (shapes j).fresh) (hpr : ∀ j, (shapes j).Proper)
    (hp : cfg.power = 1) (hlam : 0 < lam) (ho : ∀ k, (ops k).Fits lam f) (k : ℕ) {j : Fin B} (hmix : ¬(shapes j).Mixed) {damping : ℝ}
    (hd : lam ≤ damping) {g u : Fin (shapes j).dim → ℝ}
    (hu : (shapes j).precondition cfg.rule cfg.power damping ((states k).stats j) g = .ok u) :
    lam * ∑ i, u i ^ 2 ≤ ∑ i, g i * u i ∧ lam ^ 2 * ∑ i, u i ^ 2 ≤ ∑ i, g i ^ 2 := by
  obtain ⟨w, h1⟩ := state_ok ht hfr hpr hp hlam ho k
  have h2 := (tame hp hlam hd _ hmix (hpr j) (h1 j).1 (h1 j).2 (by simp) hu).1
  refine ⟨h2, ?_⟩
  have h3 : 0 ≤ ∑ i, (g i - lam * u i) ^ 2 := Finset.sum_nonneg fun i _ => sq_nonneg _
  have h4 : ∑ i, (g i - lam * u i) ^ 2 = ∑ i, g i ^ 2 - 2 * lam * ∑ i, g i * u i + lam ^ 2 * ∑ i, u i ^ 2 := by
    rw [Finset.mul_sum, Finset.mul_sum, ← Finset.sum_sub_distrib, ← Finset.sum_add_distrib]
    exact Finset.sum_congr rfl fun i _ => by ring
  have h5 : (∑ i, g i * u i) ^ 2 ≤ (∑ i, g i ^ 2) * ∑ i, u i ^ 2 := Finset.sum_mul_sq_le_sq_mul_sq _ _ _
  have hS : 0 ≤ ∑ i, u i ^ 2 := Finset.sum_nonneg fun i _ => sq_nonneg _
  have hG : 0 ≤ ∑ i, g i ^ 2 := Finset.sum_nonneg fun i _ => sq_nonneg _
  rcases eq_or_lt_of_le hS with h6 | h6
  · rw [← h6, mul_zero]
    exact hG
  · have h7 : (lam * ∑ i, u i ^ 2) ^ 2 ≤ (∑ i, g i * u i) ^ 2 := pow_le_pow_left₀ (mul_nonneg hlam.le hS) h2 2
    have h8 : lam ^ 2 * (∑ i, u i ^ 2) * ∑ i, u i ^ 2 ≤ (∑ i, g i ^ 2) * ∑ i, u i ^ 2 := by nlinarith
    exact le_of_mul_le_mul_right h8 h6

/-- C110: for all blocks the same holds as long as the covariances and the damping have not changed since the last update of the inverses. -/
theorem C110_synced (ht : Trajectory cfg start ops states) (hfr : ∀ j, start.stats j = (shapes j).fresh) (hpr : ∀ j, (shapes j).Proper)
    (hp : cfg.power = 1) (hlam : 0 < lam) (ho : ∀ k, (ops k).Fits lam f) {k n : ℕ} {damping : ℝ} (hk : ops k = .inv damping)
    (hn : ∀ l, k < l → l ≤ k + n → ∃ d, ops l = .train f d) {j : Fin B} {g u : Fin (shapes j).dim → ℝ}
    (hu : (shapes j).precondition cfg.rule cfg.power damping ((states (k + n + 1)).stats j) g = .ok u) :
    damping * ∑ i, u i ^ 2 ≤ ∑ i, g i * u i := by
  obtain ⟨w, h1⟩ := state_ok ht hfr hpr hp hlam ho k
  have hs := ht.2 k
  have hd := ho k
  rw [hk] at hs hd
  have hkeep : (states (k + n + 1)).stats = (states (k + 1)).stats := by
    clear hu
    induction n with
    | zero => rfl
    | succ n ih =>
      obtain ⟨d, hd⟩ := hn (k + n + 1) (by omega) (by omega)
      have h3 := ht.2 (k + n + 1)
      rw [hd] at h3
      simp only [Net.step, Net.trainStep, Bind.bind, Except.bind, Pure.pure, Except.pure] at h3
      split at h3
      · cases h3
      · rw [show k + (n + 1) + 1 = k + n + 1 + 1 from by omega, ← Except.ok.inj h3, ← ih fun l h5 h6 => hn l h5 (by omega)]
  rw [hkeep] at hu
  simp only [Net.step] at hs
  cases hc : collect (fun j => (shapes j).invUpdate cfg.rule cfg.power damping ((states k).stats j)) with
  | error e => rw [hc] at hs; cases hs
  | ok s =>
    rw [hc] at hs
    rw [← Except.ok.inj hs] at hu
    exact (tame_synced hp (hlam.trans_le hd) (le_refl _) _ (hpr j) (h1 j).1 (collect_inv hc j) hu).1

/-- C110: without mixed blocks no training step increases the loss, and without a norm constraint every one lowers it by at least half
the learning rate times the squared Fisher norm. -/
theorem C110_descends_partial (ht : Trajectory cfg start ops states) (hfr : ∀ j, start.stats j = (shapes j).fresh) (hpr : ∀ j, (shapes j).Proper)
    (hmix : ∀ j, ¬(shapes j).Mixed) (hp : cfg.power = 1) (hlam : 0 < lam) (ho : ∀ k, (ops k).Fits lam f) (hf : Differentiable ℝ f)
    (hL : 0 ≤ L) (hsm : SmoothBelow (f start.params) L f) (hm : cfg.momentum = 0)
    (hlr : 0 ≤ cfg.learningRate) (hlr' : L * cfg.learningRate ≤ lam) (k : ℕ) :
    f (states (k + 1)).params ≤ f (states k).params ∧
    ∀ damping, ops k = .train f damping → ∃ s, NormAt cfg f damping (states k) s ∧ 0 ≤ s ∧
      (cfg.normConstraint = none → f (states (k + 1)).params ≤ f (states k).params - cfg.learningRate / 2 * s) := by
  obtain ⟨-, h1, h2⟩ := descent ht hfr hpr hmix hp hlam ho hf hL hsm hm hlr hlr' k
  constructor
  · by_cases h : ∃ damping, ops k = .train f damping
    · obtain ⟨damping, h⟩ := h
      obtain ⟨s, -, h4, h5⟩ := h1 damping h
      have := mul_nonneg (div_nonneg hlr zero_le_two) (mul_nonneg (clipFactor_mem cfg.normConstraint cfg.learningRate s).1 h4)
      linarith
    · rw [h2 fun damping h' => h ⟨damping, h'⟩]
  · intro damping h
    obtain ⟨s, h3, h4, h5⟩ := h1 damping h
    refine ⟨s, h3, h4, fun hn => ?_⟩
    rw [hn] at h5
    simpa [clipFactor] using h5

/-- C110: and if the loss is bounded below, the squared Fisher norm of the training steps tends to zero. -/
theorem C110_vanishes_partial (ht : Trajectory cfg start ops states) (hfr : ∀ j, start.stats j = (shapes j).fresh) (hpr : ∀ j, (shapes j).Proper)
    (hmix : ∀ j, ¬(shapes j).Mixed) (hp : cfg.power = 1) (hlam : 0 < lam) (ho : ∀ k, (ops k).Fits lam f) (hf : Differentiable ℝ f)
    (hL : 0 ≤ L) (hsm : SmoothBelow (f start.params) L f) (hm : cfg.momentum = 0) (hc : ∀ v ∈ cfg.normConstraint, 0 < v)
    (hlr : 0 < cfg.learningRate) (hlr' : L * cfg.learningRate ≤ lam) (hb : ∀ k, m ≤ f (states k).params) {ε : ℝ} (hε : 0 < ε) :
    ∃ K, ∀ k, K ≤ k → ∀ damping, ops k = .train f damping → ∃ s, NormAt cfg f damping (states k) s ∧ 0 ≤ s ∧ s < ε := by
  classical
  have h0 := descent ht hfr hpr hmix hp hlam ho hf hL hsm hm hlr.le hlr'
  choose s hs using fun k => (h0 k).2.1
  let a : ℕ → ℝ := fun k => if h : ∃ damping, ops k = .train f damping then
    cfg.learningRate / 2 * (clipFactor cfg.normConstraint cfg.learningRate (s k h.choose h.choose_spec) * s k h.choose h.choose_spec) else 0
  have ha : ∀ k, 0 ≤ a k := by
    intro k
    simp only [a]
    split_ifs with h
    · exact mul_nonneg (div_nonneg hlr.le zero_le_two) (mul_nonneg (clipFactor_mem _ _ _).1 (hs k _ h.choose_spec).2.1)
    · exact le_refl _
  have hstep : ∀ k, f (states (k + 1)).params ≤ f (states k).params - a k := by
    intro k
    simp only [a]
    split_ifs with h
    · exact (hs k _ h.choose_spec).2.2
    · rw [(h0 k).2.2 fun damping h' => h ⟨damping, h'⟩, sub_zero]
  have h1 := (decrease_small ha hstep hb).2
  obtain ⟨δ, hδ, h2⟩ := clip_lower cfg.normConstraint hc hlr hε
  obtain ⟨K, hK⟩ := eventually_atTop.mp (h1.eventually (gt_mem_nhds (show 0 < cfg.learningRate / 2 * δ by positivity)))
  refine ⟨K, fun k hk damping h => ?_⟩
  have hex : ∃ damping, ops k = .train f damping := ⟨damping, h⟩
  obtain rfl : hex.choose = damping := by
    have := hex.choose_spec.symm.trans h
    injection this
  refine ⟨s k _ hex.choose_spec, (hs k _ hex.choose_spec).1, (hs k _ hex.choose_spec).2.1, ?_⟩
  by_contra hn
  have h3 := h2 _ (not_lt.mp hn)
  have h4 := hK k hk
  simp only [a, dif_pos hex] at h4
  have := mul_le_mul_of_nonneg_left h3 (div_nonneg hlr.le zero_le_two)
  linarith

theorem state_moderate {b Λ c : ℝ} (ht : Trajectory cfg start ops states) (hfr : ∀ j, start.stats j = (shapes j).fresh)
    (hpr : ∀ j, (shapes j).Proper) (hp : cfg.power = 1) (hlam : 0 < lam) (ho : ∀ k, (ops k).Fits lam f)
    (hmod : ∀ k, (ops k).Moderate b Λ) (hc : ∀ j, (shapes j).worst b Λ ≤ c) (k : ℕ) :
    (∀ j, (shapes j).Below b ((states k).stats j)) ∧
    ((∃ i d, i < k ∧ ops i = .inv d) → ∀ j, (shapes j).Stored lam (some c) ((states k).stats j)) := by
  induction k with
  | zero =>
    refine ⟨fun j => ?_, by rintro ⟨i, d, h, -⟩; omega⟩
    rw [ht.1, hfr j]
    exact below_fresh _ _
  | succ k ih =>
    obtain ⟨h1, h2⟩ := ih
    obtain ⟨w, h0⟩ := state_ok ht hfr hpr hp hlam ho k
    have hs := ht.2 k
    have hk := ho k
    have hmk := hmod k
    have before : (∃ i d, i < k + 1 ∧ ops i = .inv d) → (∀ d, ops k ≠ .inv d) → ∃ i d, i < k ∧ ops i = .inv d := by
      rintro ⟨i, d, h3, h4⟩ h5
      refine ⟨i, d, ?_, h4⟩
      rcases Nat.lt_succ_iff_lt_or_eq.mp h3 with h6 | rfl
      · exact h6
      · exact absurd h4 (h5 d)
    cases hop : ops k with
    | cov new decay =>
      rw [hop] at hs hk hmk
      rw [← Except.ok.inj hs]
      exact ⟨fun j => below_cov hk.2 _ (h1 j) (hmk j), fun h3 j => stored_cov _ _ (h2 (before h3 (by simp [hop])) j)⟩
    | inv damping =>
      rw [hop] at hs hk hmk
      simp only [Net.step] at hs
      cases hcol : collect (fun j => (shapes j).invUpdate cfg.rule cfg.power damping ((states k).stats j)) with
      | error e => rw [hcol] at hs; cases hs
      | ok s =>
        rw [hcol] at hs
        rw [← Except.ok.inj hs]
        refine ⟨fun j => below_inv _ (h1 j) (collect_inv hcol j), fun _ j => ?_⟩
        exact stored_inv (b := b) (Λ := Λ) (k := c) hp hlam hk true _ (hpr j) (h0 j).1 (fun _ => ⟨h1 j, hmk, hc j⟩) (collect_inv hcol j)
    | train f' damping =>
      rw [hop] at hs
      simp only [Net.step, Net.trainStep, Bind.bind, Except.bind, Pure.pure, Except.pure] at hs
      split at hs
      · cases hs
      · rw [← Except.ok.inj hs]
        exact ⟨h1, fun h3 => h2 (before h3 (by simp [hop]))⟩

/-- C110: and if moreover the estimates and the dampings stay bounded, the gradient at the training steps tends to zero. -/
theorem C110_stationary_partial {b Λ : ℝ} (ht : Trajectory cfg start ops states) (hfr : ∀ j, start.stats j = (shapes j).fresh)
    (hpr : ∀ j, (shapes j).Proper) (hmix : ∀ j, ¬(shapes j).Mixed) (hp : cfg.power = 1) (hlam : 0 < lam) (ho : ∀ k, (ops k).Fits lam f)
    (hf : Differentiable ℝ f) (hL : 0 ≤ L) (hsm : SmoothBelow (f start.params) L f) (hm : cfg.momentum = 0)
    (hc : ∀ v ∈ cfg.normConstraint, 0 < v) (hlr : 0 < cfg.learningRate) (hlr' : L * cfg.learningRate ≤ lam)
    (hb : ∀ k, m ≤ f (states k).params) (hmod : ∀ k, (ops k).Moderate b Λ) (hi : ∃ k damping, ops k = .inv damping)
    {ε : ℝ} (hε : 0 < ε) :
    ∃ K, ∀ k, K ≤ k → (∃ damping, ops k = .train f damping) → ∑ j, ∑ i, grad f (states k).params j i ^ 2 < ε := by
  obtain ⟨k0, d0, hk0⟩ := hi
  obtain ⟨c, hc0, hcw⟩ : ∃ c : ℝ, 0 < c ∧ ∀ j, (shapes j).worst b Λ ≤ c := by
    refine ⟨1 + ∑ j, |(shapes j).worst b Λ|, by positivity, fun j => ?_⟩
    have := Finset.single_le_sum (f := fun j => |(shapes j).worst b Λ|) (fun j _ => abs_nonneg _) (Finset.mem_univ j)
    have := le_abs_self ((shapes j).worst b Λ)
    linarith
  obtain ⟨K, hK⟩ := C110_vanishes_partial ht hfr hpr hmix hp hlam ho hf hL hsm hm hc hlr hlr' hb (div_pos hε hc0)
  refine ⟨max K (k0 + 1), fun k hk ⟨damping, h⟩ => ?_⟩
  obtain ⟨s, ⟨u, h1, rfl⟩, h2, h3⟩ := hK k ((le_max_left _ _).trans hk) damping h
  obtain ⟨w, h4⟩ := state_ok ht hfr hpr hp hlam ho k
  obtain ⟨h5, h6⟩ := state_moderate ht hfr hpr hp hlam ho hmod hcw k
  have hd := ho k
  have hmk := hmod k
  rw [h] at hd hmk
  have h7 := (net_small fun j => tame (K := some c) hp hlam hd.2 _ (hmix j) (hpr j) (h4 j).1
    (h6 ⟨k0, d0, (Nat.lt_of_succ_le ((le_max_right _ _).trans hk)), hk0⟩ j)
    (fun k' hk' => by
      obtain rfl : c = k' := by simpa using hk'
      exact ⟨b, Λ, h5 j, hmk, hcw j⟩) (collect_inv h1 j)).2 c rfl
  rw [lt_div_iff₀ hc0] at h3
  have e : ∑ j, ∑ i, grad f (states k).params j i ^ 2 = inner (grad f (states k).params) (grad f (states k).params) := by
    simp only [inner, pow_two]
  rw [e]
  linarith

end trajectory

/-! ### Cases -/

theorem half_smooth (θ d : Params shapes) (t : ℝ) :
    inner (θ + t • d) (θ + t • d) / 2 = inner θ θ / 2 + t * inner θ d + 1 / 2 * t ^ 2 * inner d d := by
  simp only [inner, Finset.mul_sum, Finset.sum_div, ← Finset.sum_add_distrib, Pi.add_apply, Pi.smul_apply, smul_eq_mul]
  exact Finset.sum_congr rfl fun k _ => Finset.sum_congr rfl fun i _ => by ring

theorem half_differentiable : Differentiable ℝ fun θ : Params shapes => inner θ θ / 2 := by
  unfold inner
  fun_prop

theorem half_fderiv (θ d : Params shapes) : fderiv ℝ (fun θ : Params shapes => inner θ θ / 2) θ d = inner θ d := by
  have h2 : HasDerivAt (fun t : ℝ => θ + t • d) d 0 := by
    have := ((hasDerivAt_id (0 : ℝ)).smul_const d).const_add θ
    rwa [one_smul] at this
  have h3 : HasFDerivAt (fun θ : Params shapes => inner θ θ / 2) (fderiv ℝ (fun θ : Params shapes => inner θ θ / 2) θ) (θ + (0 : ℝ) • d) := by
    rw [zero_smul, add_zero]
    exact (half_differentiable θ).hasFDerivAt
  have h4 := h3.comp_hasDerivAt (0 : ℝ) h2
  have h5 : HasDerivAt (fun t : ℝ => inner θ θ / 2 + t * inner θ d + 1 / 2 * t ^ 2 * inner d d) (inner θ d) 0 := by
    have h6 := (((hasDerivAt_id (0 : ℝ)).mul_const (inner θ d)).const_add (inner θ θ / 2)).add
      ((((hasDerivAt_id (0 : ℝ)).pow 2).const_mul (1 / 2)).mul_const (inner d d))
    refine h6.congr_deriv ?_
    simp
  refine h4.unique ?_
  have e : ((fun θ : Params shapes => inner θ θ / 2) ∘ fun t : ℝ => θ + t • d) =
      fun t : ℝ => inner θ θ / 2 + t * inner θ d + 1 / 2 * t ^ 2 * inner d d := funext fun t => half_smooth θ d t
  rw [e]
  exact h5

theorem half_grad (θ : Params shapes) : grad (fun θ : Params shapes => inner θ θ / 2) θ = θ := by
  funext k i
  rw [grad, half_fderiv, inner]
  rw [Finset.sum_eq_single k, Finset.sum_eq_single i]
  · simp
  · intro j _ hj
    simp [Pi.single_eq_of_ne hj]
  · simp
  · intro j _ hj
    simp [Pi.single_eq_of_ne hj]
  · simp

theorem half_below (c : ℝ) : SmoothBelow (shapes := shapes) c 1 fun θ => inner θ θ / 2 := fun θ d t _ => by
  rw [half_fderiv]
  exact (half_smooth θ d t).le

/-- Estimates that are multiples of the identity. -/
def Shape.unit (a b : ℝ) : (sh : Shape) → sh.New
  | .kron _ n q bias _ _ => (a • (1 : Matrix (Fin (n + bias.toNat)) (Fin (n + bias.toNat)) ℝ), b • (1 : Matrix (Fin q) (Fin q) ℝ))
  | .full n => a • (1 : Matrix (Fin n) (Fin n) ℝ)
  | .diagonal _ n => (fun _ => a : Fin n → ℝ)

theorem unit_psd {a b : ℝ} (ha : 0 ≤ a) (hb : 0 ≤ b) : (sh : Shape) → sh.Psd (sh.unit a b)
  | .kron _ _ _ _ _ _ => ⟨Matrix.PosSemidef.one.smul ha, Matrix.PosSemidef.one.smul hb⟩
  | .full _ => Matrix.PosSemidef.one.smul ha
  | .diagonal _ _ => fun _ => ha

theorem unit_below {kind : KronKind} {n q : ℕ} {bias i o : Bool} {b : ℝ} (hn : (↑(n + bias.toNat) : ℝ) ≤ b) (hq : (q : ℝ) ≤ b) :
    (Shape.kron kind n q bias i o).NewBelow b ((Shape.kron kind n q bias i o).unit 1 1) := by
  show Matrix.trace ((1 : ℝ) • (1 : Matrix (Fin (n + bias.toNat)) (Fin (n + bias.toNat)) ℝ)) ≤ b ∧ Matrix.trace ((1 : ℝ) • (1 : Matrix (Fin q) (Fin q) ℝ)) ≤ b
  rw [one_smul, one_smul, Matrix.trace_one, Matrix.trace_one, Fintype.card_fin, Fintype.card_fin]
  exact ⟨hn, hq⟩

/-- A net of a convolution with two inputs per filter, three outputs and a bias whose output is seen at five locations, a fully connected
layer with two diagonal factors, a full and a diagonal block, trained with all operations in turn on half the square of all parameters: the
hypotheses of the theorems hold. -/
example : ∃ (shapes : Fin 4 → Shape) (cfg : Config) (start : Net shapes) (ops : ℕ → Op shapes) (states : ℕ → Net shapes) (lam L : ℝ)
    (f : Params shapes → ℝ), Trajectory cfg start ops states ∧ (∀ j, start.stats j = (shapes j).fresh) ∧ (∀ j, (shapes j).Proper) ∧
    (∀ j, ¬(shapes j).Mixed) ∧ cfg.power = 1 ∧ 0 < lam ∧ (∀ k, (ops k).Fits lam f) ∧ Differentiable ℝ f ∧ 0 ≤ L ∧
    SmoothBelow (f start.params) L f ∧ cfg.momentum = 0 ∧ (∀ v ∈ cfg.normConstraint, 0 < v) ∧ 0 < cfg.learningRate ∧
    L * cfg.learningRate ≤ lam ∧ (∀ k, 0 ≤ f (states k).params) ∧ (∀ k, (ops k).Moderate 3 2) ∧ (∃ k damping, ops k = .inv damping) ∧
    ∃ k damping, ops k = .train f damping := by
  let shapes : Fin 4 → Shape := ![.kron (.conv 5) 2 3 true false false, .kron .fullyConnected 2 1 false true true, .full 3,
    .diagonal .naive 7]
  let f : Params shapes → ℝ := fun θ => inner θ θ / 2
  let cfg : Config := ⟨1, 0, some (1 / 100), .tracenorm, 1⟩
  let start : Net shapes := ⟨fun _ _ => 1, fun _ _ => 0, fun j => (shapes j).fresh⟩
  let ops : ℕ → Op shapes := fun k => if k % 3 = 0 then .cov (fun j => (shapes j).unit 1 1) (95 / 100) else if k % 3 = 1 then .inv 2
    else .train f 1
  have hpr : ∀ j, (shapes j).Proper := by
    intro j
    fin_cases j
    · exact ⟨by decide, by norm_num [KronKind.renorm]⟩
    · exact ⟨by decide, by norm_num [KronKind.renorm]⟩
    · trivial
    · intro l h; cases h
  have hmix : ∀ j, ¬(shapes j).Mixed := by
    intro j
    fin_cases j <;> simp [shapes, Shape.Mixed]
  have ho : ∀ k, (ops k).Fits (1 : ℝ) f := by
    intro k
    simp only [ops]
    split_ifs
    · exact ⟨fun j => unit_psd zero_le_one zero_le_one _, by norm_num⟩
    · exact one_le_two
    · exact ⟨rfl, le_refl _⟩
  obtain ⟨states, hs⟩ := C110_succeeds (cfg := cfg) (start := start) (fun _ => rfl) hpr rfl one_pos ho
    (show ops 0 = .cov (fun j => (shapes j).unit 1 1) (95 / 100) from rfl)
  refine ⟨shapes, cfg, start, ops, states, 1, 1, f, hs, fun _ => rfl, hpr, hmix, rfl, one_pos, ho, half_differentiable, zero_le_one,
    half_below _, rfl, by simp [cfg], one_pos, by simp [cfg], fun k => div_nonneg (inner_self_nonneg _) zero_le_two, fun k => ?_,
    ⟨1, 2, rfl⟩, 2, 1, rfl⟩
  simp only [ops]
  split_ifs
  · intro j
    fin_cases j
    · exact unit_below (by norm_num) (by norm_num)
    · exact unit_below (by norm_num) (by norm_num)
    · show Matrix.trace (_ • (1 : Matrix (Fin 3) (Fin 3) ℝ)) ≤ (3 : ℝ)
      simp [Matrix.trace]
    · intro i
      show (1 : ℝ) ≤ 3
      norm_num
  · exact le_refl (2 : ℝ)
  · exact one_le_two (α := ℝ)

/-! ### Mixed blocks -/

theorem rule_value {x : ℝ} (hx : 0 < x) : setupDamping .tracenorm 1 1 1 (x ^ 2) 1 1 none = .ok (1 / x, x) := by
  have h1 : x ^ 2 ≠ 0 := by positivity
  have h2 : √((1 : ℝ) / x ^ 2) = 1 / x := by
    rw [show (1 : ℝ) / x ^ 2 = (1 / x) ^ 2 by ring]
    exact Real.sqrt_sq (by positivity)
  have h3 : (0 : ℝ) < x ^ 2 := by positivity
  simp only [setupDamping, piAdjustedDamping, piTracenorm, Nat.cast_one, mul_one, one_mul, h1, if_false, h3, if_true, h2, Bind.bind, Except.bind,
    Pure.pure, Except.pure, Real.one_rpow]
  simp

theorem one_scale {n : ℕ} {d e : ℝ} (h : 0 < d + e) : (d • (1 : Matrix (Fin n) (Fin n) ℝ) + e • 1)⁻¹ = (d + e)⁻¹ • 1 := by
  apply Matrix.inv_eq_right_inv
  rw [← add_smul, Matrix.smul_mul, Matrix.mul_smul, mul_one, smul_smul, mul_inv_cancel₀ h.ne', one_smul]

theorem unit_damping {s : Fac true (1 + false.toNat) × Fac false 1} {x : ℝ} (hx : 0 < x) (w1 : 0 < Fac.weight true s.1) (w2 : 0 < Fac.weight false s.2)
    (e1 : Fac.estimate true s.1 = (1 : ℝ) • 1) (e2 : Fac.estimate false s.2 = (x ^ 2 : ℝ) • 1) :
    kronDamping .tracenorm 1 1 .fullyConnected true false s = .ok (1 / x, x) := by
  rw [← rule_value hx]
  simp only [kronDamping, fac_trace w1, fac_trace w2, e1, e2, KronKind.normalization]
  simp

theorem fresh_zero {n : ℕ} (b : Bool) : Fac.weight (n := n) b (Fac.fresh b) = 0 ∧ Fac.sum (n := n) b (Fac.fresh b) = 0 := by
  cases b <;> simp [Fac.fresh, Fac.weight, Fac.sum, MovAvg.init]

theorem sum_unit {n : ℕ} (b : Bool) (s : Fac b n) (c decay : ℝ) :
    Fac.sum b (Fac.addCov b s (c • 1) decay) = decay • Fac.sum b s + c • 1 := by
  rw [(fac_add b s _ _).2]
  cases b with
  | false => rfl
  | true =>
    rw [if_pos rfl]
    congr 1
    ext i j
    simp [Matrix.diagonal_apply, Matrix.one_apply]

/-- A block with a diagonal input factor: estimates 1 and 1/100, an update of the inverses with damping 1, then the average of the squared
derivatives rises to 1. -/
theorem slow : ∃ s2 : Fac true (1 + false.toNat) × Fac false 1,
    kronInvUpdate .tracenorm 1 1 .fullyConnected true false ((Fac.addCov true (Fac.fresh true) ((1 : ℝ) • 1) (95 / 100),
      Fac.addCov false (Fac.fresh false) ((1 / 100 : ℝ) • 1) (95 / 100)) : Fac true (1 + false.toNat) × Fac false 1) = .ok s2 ∧
    ∀ g, kronPrecondition .tracenorm 1 1 .fullyConnected (n := 1) false true false
      (Fac.addCov true s2.1 ((1 : ℝ) • 1) (95 / 100), Fac.addCov false s2.2 ((19405 / 10000 : ℝ) • 1) (95 / 100)) g =
        .ok fun r j => 50 / 11 * g r j := by
  set a1 : Fac true (1 + false.toNat) := Fac.addCov true (Fac.fresh true) ((1 : ℝ) • 1) (95 / 100) with ha1
  set b1 : Fac false 1 := Fac.addCov false (Fac.fresh false) ((1 / 100 : ℝ) • 1) (95 / 100) with hb1
  have wa1 : Fac.weight true a1 = 1 := by rw [ha1, (fac_add _ _ _ _).1, (fresh_zero _).1]; norm_num
  have wb1 : Fac.weight false b1 = 1 := by rw [hb1, (fac_add _ _ _ _).1, (fresh_zero _).1]; norm_num
  have sa1 : Fac.sum true a1 = (1 : ℝ) • 1 := by rw [ha1, sum_unit, (fresh_zero _).2, smul_zero, zero_add]
  have sb1 : Fac.sum false b1 = (1 / 100 : ℝ) • 1 := by rw [hb1, sum_unit, (fresh_zero _).2, smul_zero, zero_add]
  have d1 : kronDamping .tracenorm 1 1 .fullyConnected true false (a1, b1) = .ok (1 / (1 / 10), 1 / 10) :=
    unit_damping (by norm_num) (by rw [wa1]; exact one_pos) (by rw [wb1]; exact one_pos)
      (by rw [Fac.estimate, wa1, sa1, inv_one, one_smul]) (by rw [Fac.estimate, wb1, sb1, inv_one, one_smul]; norm_num)
  refine ⟨(Fac.updateInverse true a1 (1 / (1 / 10)), Fac.updateInverse false b1 (1 / 10)), ?_, fun g => ?_⟩
  · simp only [kronInvUpdate, d1]
    rfl
  set a2 : Fac true (1 + false.toNat) := Fac.updateInverse true a1 (1 / (1 / 10)) with ha2
  set b2 : Fac false 1 := Fac.updateInverse false b1 (1 / 10) with hb2
  have inv2 : DenseStat.inverse (b2 : DenseStat 1) = (100 / 11 : ℝ) • 1 := by
    have h : (DenseStat.avg (b1 : DenseStat 1)).totalWeight = 1 := wb1
    have h' : (DenseStat.avg (b1 : DenseStat 1)).var = (1 / 100 : ℝ) • 1 := sb1
    have h2 : DenseStat.inverse (b2 : DenseStat 1) = ((1 / 100 : ℝ) • (1 : Matrix (Fin 1) (Fin 1) ℝ) + (1 / 10 : ℝ) • 1)⁻¹ := by
      rw [hb2, ← h']
      simp [Fac.updateInverse, DenseStat.step, MovAvg.value, h]
    rw [h2, one_scale (by norm_num)]
    norm_num
  set a3 : Fac true (1 + false.toNat) := Fac.addCov true a2 ((1 : ℝ) • 1) (95 / 100) with ha3
  set b3 : Fac false 1 := Fac.addCov false b2 ((19405 / 10000 : ℝ) • 1) (95 / 100) with hb3
  have wa3 : Fac.weight true a3 = 195 / 100 := by rw [ha3, (fac_add _ _ _ _).1, ha2, (keep_trace _ _).2.1, wa1]; norm_num
  have wb3 : Fac.weight false b3 = 195 / 100 := by rw [hb3, (fac_add _ _ _ _).1, hb2, (keep_trace _ _).2.1, wb1]; norm_num
  have sa3 : Fac.sum true a3 = (195 / 100 : ℝ) • 1 := by
    rw [ha3, sum_unit, ha2, (keep_trace _ _).2.2, sa1, smul_smul, ← add_smul]; norm_num
  have sb3 : Fac.sum false b3 = (195 / 100 : ℝ) • 1 := by
    rw [hb3, sum_unit, hb2, (keep_trace _ _).2.2, sb1, smul_smul, ← add_smul]; norm_num
  have ea3 : Fac.estimate true a3 = (1 : ℝ) • 1 := by rw [Fac.estimate, wa3, sa3, smul_smul]; norm_num
  have eb3 : Fac.estimate false b3 = (1 : ℝ) • 1 := by rw [Fac.estimate, wb3, sb3, smul_smul]; norm_num
  have d3 : kronDamping .tracenorm 1 1 .fullyConnected true false (a3, b3) = .ok (1, 1) := by
    have := unit_damping (s := (a3, b3)) one_pos (by rw [wa3]; norm_num) (by rw [wb3]; norm_num) ea3 (by rw [eb3, one_pow])
    simpa using this
  obtain ⟨fa, h1, h2⟩ := updated_factor (b := true) (s := a3) (by rw [wa3]; norm_num) (by rw [sa3]; exact Matrix.PosSemidef.one.smul (by norm_num))
    (d := 1) one_pos
  have h3 := factor_dense (b3 : DenseStat 1) 1
  have inv3 : DenseStat.inverse (b3 : DenseStat 1) = (100 / 11 : ℝ) • 1 := inv2
  rw [inv3] at h3
  rw [ea3, one_scale (by norm_num)] at h2
  rw [kron_precondition (i := true) (o := false) (s := (a3, b3)) (d := (1, 1)) one_ne_zero d3 h1 rfl h2 h3 g]
  congr 1
  funext r j
  simp [KronKind.renorm]
  ring

/-- C110 fails for mixed blocks: a fully connected layer with one weight, one example and a diagonal input factor, the default decay, damping 1
throughout, learning rate 1 and half the square of the weight as the loss. The covariances, the inverses and again the covariances are
updated; the first training step then increases the loss more than tenfold. -/
theorem C110_mixed_counterexample : ∃ (shapes : Fin 1 → Shape) (cfg : Config) (start : Net shapes) (ops : ℕ → Op shapes)
    (states : ℕ → Net shapes) (f : Params shapes → ℝ), Trajectory cfg start ops states ∧ (∀ j, start.stats j = (shapes j).fresh) ∧
    (∀ j, (shapes j).Proper) ∧ cfg.power = 1 ∧ (∀ k, (ops k).Fits 1 f) ∧ Differentiable ℝ f ∧ SmoothBelow (f start.params) 1 f ∧
    cfg.momentum = 0 ∧ cfg.normConstraint = none ∧ cfg.learningRate = 1 ∧ (∀ k, (ops k).Moderate 2 1) ∧
    (∃ new, ops 0 = .cov new (95 / 100)) ∧ ops 1 = .inv 1 ∧ (∃ new, ops 2 = .cov new (95 / 100)) ∧ ops 3 = .train f 1 ∧
    10 * f (states 3).params < f (states 4).params := by
  let shapes : Fin 1 → Shape := fun _ => .kron .fullyConnected 1 1 false true false
  let f : Params shapes → ℝ := fun θ => inner θ θ / 2
  let cfg : Config := ⟨1, 0, none, .tracenorm, 1⟩
  let start : Net shapes := ⟨fun _ _ => 1, fun _ _ => 0, fun j => (shapes j).fresh⟩
  let ops : ℕ → Op shapes := fun k => if k = 0 then .cov (fun j => (shapes j).unit 1 (1 / 100)) (95 / 100) else if k = 1 then .inv 1 else
    if k = 2 then .cov (fun j => (shapes j).unit 1 (19405 / 10000)) (95 / 100) else .train f 1
  have hpr : ∀ j, (shapes j).Proper := fun j => ⟨one_ne_zero, one_pos⟩
  have ho : ∀ k, (ops k).Fits (1 : ℝ) f := by
    intro k
    simp only [ops]
    split_ifs
    · exact ⟨fun j => unit_psd zero_le_one (by norm_num) _, by norm_num⟩
    · exact le_refl (1 : ℝ)
    · exact ⟨fun j => unit_psd zero_le_one (by norm_num) _, by norm_num⟩
    · exact ⟨rfl, le_refl _⟩
  have hmod : ∀ k, (ops k).Moderate (2 : ℝ) 1 := by
    have key : ∀ b : ℝ, b ≤ 2 → ∀ j, (shapes j).NewBelow 2 ((shapes j).unit 1 b) := fun b hb j => by
      show Matrix.trace ((1 : ℝ) • (1 : Matrix (Fin (1 + false.toNat)) (Fin (1 + false.toNat)) ℝ)) ≤ 2 ∧
        Matrix.trace (b • (1 : Matrix (Fin 1) (Fin 1) ℝ)) ≤ 2
      rw [Matrix.trace_smul, Matrix.trace_smul, Matrix.trace_one]
      simpa using hb
    intro k
    simp only [ops]
    split_ifs
    · exact key _ (by norm_num)
    · exact le_refl (1 : ℝ)
    · exact key _ (by norm_num)
    · exact le_refl (1 : ℝ)
  obtain ⟨states, hs⟩ := C110_succeeds (cfg := cfg) (start := start) (fun _ => rfl) hpr rfl one_pos ho
    (show ops 0 = .cov (fun j => (shapes j).unit 1 (1 / 100)) (95 / 100) from rfl)
  refine ⟨shapes, cfg, start, ops, states, f, hs, fun _ => rfl, hpr, rfl, ho, half_differentiable, half_below _, rfl, rfl, rfl, hmod, ⟨_, rfl⟩, rfl,
    ⟨_, rfl⟩, rfl, ?_⟩
  obtain ⟨s2, h1, h2⟩ := slow
  have t0 : states 1 = ⟨start.params, start.velocity, fun j => (shapes j).covUpdate ((shapes j).fresh) ((shapes j).unit 1 (1 / 100)) (95 / 100)⟩ := by
    have := hs.2 0
    rw [hs.1] at this
    exact (Except.ok.inj this).symm
  have t1 : states 2 = ⟨start.params, start.velocity, fun _ => s2⟩ := by
    have h := hs.2 1
    rw [t0] at h
    have hc : collect (fun j => (shapes j).invUpdate cfg.rule cfg.power 1
        ((shapes j).covUpdate ((shapes j).fresh) ((shapes j).unit 1 (1 / 100)) (95 / 100))) = .ok (fun _ => s2) := collect_ok fun _ => h1
    have h' : (collect (fun j => (shapes j).invUpdate cfg.rule cfg.power 1
        ((shapes j).covUpdate ((shapes j).fresh) ((shapes j).unit 1 (1 / 100)) (95 / 100)))).map
        (fun s => (⟨start.params, start.velocity, s⟩ : Net shapes)) = .ok (states 2) := h
    rw [hc] at h'
    exact (Except.ok.inj h').symm
  have t2 : states 3 = ⟨start.params, start.velocity, fun j => (shapes j).covUpdate s2 ((shapes j).unit 1 (19405 / 10000)) (95 / 100)⟩ := by
    have := hs.2 2
    rw [t1] at this
    exact (Except.ok.inj this).symm
  have hp : (states 3).precondition cfg 1 (grad f (states 3).params) = .ok ((50 / 11 : ℝ) • (states 3).params) := by
    rw [half_grad]
    refine collect_ok fun j => ?_
    rw [t2]
    have h3 := h2 fun i k => start.params j (finProdFinEquiv (i, k))
    exact congrArg (Except.map fun (u : Fin (1 + false.toNat) → Fin 1 → ℝ) (k : Fin ((1 + false.toNat) * 1)) =>
      u (finProdFinEquiv.symm k).1 (finProdFinEquiv.symm k).2) h3
  have t3 : (states 4).params = (-(39 / 11) : ℝ) • (states 3).params := by
    have h := hs.2 3
    have h' : (states 3).trainStep cfg f 1 = .ok (states 4) := h
    simp only [Net.trainStep, Bind.bind, Except.bind, Pure.pure, Except.pure, hp] at h'
    rw [← Except.ok.inj h']
    simp only [cfg, clipFactor, zero_smul, zero_add, one_smul]
    funext k i
    simp only [Pi.sub_apply, Pi.smul_apply, smul_eq_mul]
    ring
  have hpos : f (states 3).params = 1 / 2 := by
    rw [t2]
    show (∑ k : Fin 1, ∑ i : Fin 1, (1 : ℝ) * 1) / 2 = 1 / 2
    simp
  have hf4 : f (states 4).params = (39 / 11) ^ 2 * f (states 3).params := by
    rw [t3]
    simp only [f, inner, Pi.smul_apply, smul_eq_mul, Finset.mul_sum, Finset.sum_div]
    exact Finset.sum_congr rfl fun k _ => Finset.sum_congr rfl fun i _ => by ring
  rw [hf4, hpos]
  norm_num

end Kfac.Mix
