import Verif.Factor.LinAlgLemmas
import Mathlib.Data.Finset.Card
import Mathlib.Data.List.Dedup
import Mathlib.Tactic.SplitIfs
import Mathlib.Tactic.FinCases
import Mathlib.LinearAlgebra.Matrix.Notation

/-! # C47: matrix powers of dense factors -/

namespace Kfac.Factor

open Matrix

variable {k : ℕ} {D Env : Type} [DecidableEq D]

/-! ### Dictionaries -/

theorem get?_map {K V : Type} [DecidableEq K] (l : List (K × V)) (g : K → V) (key : K) :
    get? (l.map fun v => (v.1, g v.1)) key = if key ∈ l.map (·.1) then some (g key) else none := by
  induction l with
  | nil => simp [get?]
  | cons a l ih =>
    by_cases h : a.1 = key
    · simp [get?, h]
    · have hk : key ≠ a.1 := fun h' => h h'.symm
      have h1 : get? ((a :: l).map fun v => (v.1, g v.1)) key = get? (l.map fun v => (v.1, g v.1)) key := by
        simp [get?, h]
      have h2 : key ∈ (a :: l).map (·.1) ↔ key ∈ l.map (·.1) := by
        rw [List.map_cons, List.mem_cons]
        exact or_iff_right hk
      rw [h1, ih]
      by_cases h3 : key ∈ l.map (·.1)
      · rw [if_pos h3, if_pos (h2.2 h3)]
      · rw [if_neg h3, if_neg (fun h => h3 (h2.1 h))]

theorem addTo_nodup {K : Type} [DecidableEq K] {l : List K} (h : l.Nodup) (key : K) : (addTo l key).Nodup := by
  unfold addTo
  split_ifs with hk
  · exact h
  · rw [List.nodup_append]
    refine ⟨h, by simp, ?_⟩
    intro a ha b hb
    rw [List.mem_singleton] at hb
    rintro rfl
    exact hk (hb ▸ ha)

theorem mem_addTo {K : Type} [DecidableEq K] (l : List K) (key x : K) : x ∈ addTo l key ↔ x ∈ l ∨ x = key := by
  unfold addTo
  split_ifs with hk
  · constructor
    · exact .inl
    · rintro (h | rfl) <;> assumption
  · simp

/-! ### What the registrations leave behind -/

/-- The invariant of the registration phase. -/
structure Registered (regs : List (Reg D Env)) (f : Dense k D Env) : Prop where
  vars : f.matVars = [] ∧ f.cholVars = [] ∧ f.cholInvVars = []
  nodup : f.matRegs.Nodup
  mat : ∀ e id, (e, id) ∈ f.matRegs ↔ e ≠ 1 ∧ ∃ d, Reg.matpower e d ∈ regs ∧ d.id = id
  chol : ∀ id, id ∈ f.cholRegs ↔ ∃ d, Reg.cholesky d ∈ regs ∧ d.id = id
  cholInv : ∀ id, id ∈ f.cholInvRegs ↔ ∃ d, Reg.choleskyInverse d ∈ regs ∧ d.id = id
  eig : f.eigendecomp = true ↔ Reg.eigendecomp ∈ regs
  known : ∀ d ∈ f.funcs, ∃ r ∈ regs, r.func = some d
  matKnown : ∀ r ∈ f.matRegs, r.2 ∈ f.funcs.map (·.id)
  cholKnown : ∀ id ∈ f.cholRegs, id ∈ f.funcs.map (·.id)
  cholInvKnown : ∀ id ∈ f.cholInvRegs, id ∈ f.funcs.map (·.id)

theorem registerDamping_mono (f : Dense k D Env) (d : DampingFunc D Env) :
    (∀ id ∈ f.funcs.map (·.id), id ∈ (f.registerDamping d).funcs.map (·.id)) ∧
    d.id ∈ (f.registerDamping d).funcs.map (·.id) ∧
    (∀ x ∈ (f.registerDamping d).funcs, x ∈ f.funcs ∨ x = d) ∧
    (f.registerDamping d).matRegs = f.matRegs ∧ (f.registerDamping d).cholRegs = f.cholRegs ∧
    (f.registerDamping d).cholInvRegs = f.cholInvRegs ∧ (f.registerDamping d).matVars = f.matVars ∧
    (f.registerDamping d).cholVars = f.cholVars ∧ (f.registerDamping d).cholInvVars = f.cholInvVars ∧
    (f.registerDamping d).eigendecomp = f.eigendecomp := by
  unfold Dense.registerDamping
  split_ifs with h
  · exact ⟨fun _ h => h, h, fun _ h => .inl h, rfl, rfl, rfl, rfl, rfl, rfl, rfl⟩
  · refine ⟨?_, ?_, ?_, rfl, rfl, rfl, rfl, rfl, rfl, rfl⟩
    · intro id hid; simp only [List.map_append, List.mem_append]; exact .inl hid
    · simp
    · intro x hx; simpa using hx

theorem registered_after (regs : List (Reg D Env)) : Registered regs (Dense.after (k := k) regs) := by
  classical
  induction regs using List.reverseRecOn with
  | nil =>
    constructor <;> simp [Dense.after]
  | append_singleton regs r ih =>
    have hfold : Dense.after (k := k) (regs ++ [r]) = Reg.apply (Dense.after regs) r := by
      simp [Dense.after]
    rw [hfold]
    generalize Dense.after (k := k) regs = f at ih
    cases r with
    | eigendecomp =>
      obtain ⟨h1, h2, h3, h4, h5, h6, h7, h8, h9, h10⟩ := ih
      refine ⟨h1, h2, ?_, ?_, ?_, ?_, ?_, h8, h9, h10⟩
      · intro e id; simpa [Reg.apply, Dense.touchEigendecomp] using h3 e id
      · intro id; simpa [Reg.apply, Dense.touchEigendecomp] using h4 id
      · intro id; simpa [Reg.apply, Dense.touchEigendecomp] using h5 id
      · simp [Reg.apply, Dense.touchEigendecomp]
      · intro d hd; obtain ⟨r, hr, h⟩ := h7 d hd; exact ⟨r, List.mem_append_left _ hr, h⟩
    | matpower e d =>
      simp only [Reg.apply, Dense.registerMatpower]
      split_ifs with he
      · subst he
        obtain ⟨h1, h2, h3, h4, h5, h6, h7, h8, h9, h10⟩ := ih
        refine ⟨h1, h2, ?_, ?_, ?_, ?_, ?_, h8, h9, h10⟩
        · intro e id; rw [h3]
          refine and_congr_right fun hne => ?_
          simp [hne]
        · intro id; simpa using h4 id
        · intro id; simpa using h5 id
        · simpa using h6
        · intro d hd; obtain ⟨r, hr, h⟩ := h7 d hd; exact ⟨r, List.mem_append_left _ hr, h⟩
      · obtain ⟨h1, h2, h3, h4, h5, h6, h7, h8, h9, h10⟩ := ih
        obtain ⟨m1, m2, m3, m4, m5, m6, m7, m8, m9, m10⟩ := registerDamping_mono f d
        refine ⟨by simp only [m7, m8, m9]; exact h1, ?_, ?_, ?_, ?_, ?_, ?_, ?_, ?_, ?_⟩
        · simp only [m4]; exact addTo_nodup h2 _
        · intro e' id
          simp only [mem_addTo, m4, h3, Prod.mk.injEq, List.mem_append, List.mem_singleton, Reg.matpower.injEq]
          constructor
          · rintro (⟨hne, d', hd', hid⟩ | ⟨rfl, rfl⟩)
            · exact ⟨hne, d', .inl hd', hid⟩
            · exact ⟨he, d, .inr ⟨rfl, rfl⟩, rfl⟩
          · rintro ⟨hne, d', hd' | ⟨rfl, rfl⟩, hid⟩
            · exact .inl ⟨hne, d', hd', hid⟩
            · exact .inr ⟨rfl, hid.symm⟩
        · intro id; simp only [m5]; simpa using h4 id
        · intro id; simp only [m6]; simpa using h5 id
        · simp only [m10]; simpa using h6
        · intro x hx
          rcases m3 x hx with hx | rfl
          · obtain ⟨r, hr, h⟩ := h7 x hx; exact ⟨r, List.mem_append_left _ hr, h⟩
          · exact ⟨_, List.mem_append_right _ (List.mem_singleton_self _), rfl⟩
        · intro r hr
          rw [mem_addTo] at hr
          rcases hr with hr | rfl
          · exact m1 _ (h8 _ (m4 ▸ hr))
          · exact m2
        · intro id hid; exact m1 _ (h9 _ (m5 ▸ hid))
        · intro id hid; exact m1 _ (h10 _ (m6 ▸ hid))
    | cholesky d =>
      obtain ⟨h1, h2, h3, h4, h5, h6, h7, h8, h9, h10⟩ := ih
      obtain ⟨m1, m2, m3, m4, m5, m6, m7, m8, m9, m10⟩ := registerDamping_mono f d
      simp only [Reg.apply, Dense.registerCholesky]
      refine ⟨by simp only [m7, m8, m9]; exact h1, by simp only [m4]; exact h2, ?_, ?_, ?_, ?_, ?_, ?_, ?_, ?_⟩
      · intro e' id; simp only [m4]; simpa using h3 e' id
      · intro id
        simp only [mem_addTo, m5, h4, List.mem_append, List.mem_singleton, Reg.cholesky.injEq]
        constructor
        · rintro (⟨d', hd', hid⟩ | rfl)
          · exact ⟨d', .inl hd', hid⟩
          · exact ⟨d, .inr rfl, rfl⟩
        · rintro ⟨d', hd' | rfl, hid⟩
          · exact .inl ⟨d', hd', hid⟩
          · exact .inr hid.symm
      · intro id; simp only [m6]; simpa using h5 id
      · simp only [m10]; simpa using h6
      · intro x hx
        rcases m3 x hx with hx | rfl
        · obtain ⟨r, hr, h⟩ := h7 x hx; exact ⟨r, List.mem_append_left _ hr, h⟩
        · exact ⟨_, List.mem_append_right _ (List.mem_singleton_self _), rfl⟩
      · intro r hr; exact m1 _ (h8 _ (m4 ▸ hr))
      · intro id hid
        rw [mem_addTo] at hid
        rcases hid with hid | rfl
        · exact m1 _ (h9 _ (m5 ▸ hid))
        · exact m2
      · intro id hid; exact m1 _ (h10 _ (m6 ▸ hid))
    | choleskyInverse d =>
      obtain ⟨h1, h2, h3, h4, h5, h6, h7, h8, h9, h10⟩ := ih
      obtain ⟨m1, m2, m3, m4, m5, m6, m7, m8, m9, m10⟩ := registerDamping_mono f d
      simp only [Reg.apply, Dense.registerCholeskyInverse]
      refine ⟨by simp only [m7, m8, m9]; exact h1, by simp only [m4]; exact h2, ?_, ?_, ?_, ?_, ?_, ?_, ?_, ?_⟩
      · intro e' id; simp only [m4]; simpa using h3 e' id
      · intro id; simp only [m5]; simpa using h4 id
      · intro id
        simp only [mem_addTo, m6, h5, List.mem_append, List.mem_singleton, Reg.choleskyInverse.injEq]
        constructor
        · rintro (⟨d', hd', hid⟩ | rfl)
          · exact ⟨d', .inl hd', hid⟩
          · exact ⟨d, .inr rfl, rfl⟩
        · rintro ⟨d', hd' | rfl, hid⟩
          · exact .inl ⟨d', hd', hid⟩
          · exact .inr hid.symm
      · simp only [m10]; simpa using h6
      · intro x hx
        rcases m3 x hx with hx | rfl
        · obtain ⟨r, hr, h⟩ := h7 x hx; exact ⟨r, List.mem_append_left _ hr, h⟩
        · exact ⟨_, List.mem_append_right _ (List.mem_singleton_self _), rfl⟩
      · intro r hr; exact m1 _ (h8 _ (m4 ▸ hr))
      · intro id hid; exact m1 _ (h9 _ (m5 ▸ hid))
      · intro id hid
        rw [mem_addTo] at hid
        rcases hid with hid | rfl
        · exact m1 _ (h10 _ (m6 ▸ hid))
        · exact m2

/-- Creating the variables after any registrations succeeds. -/
theorem instantiate_after (regs : List (Reg D Env)) :
    ∃ f, (Dense.after (k := k) regs).instantiate = .ok f ∧
      f.matVars.map (·.1) = (Dense.after (k := k) regs).matRegs ∧
      f.cholVars.map (·.1) = (Dense.after (k := k) regs).cholRegs ∧
      f.cholInvVars.map (·.1) = (Dense.after (k := k) regs).cholInvRegs ∧
      f.funcs = (Dense.after (k := k) regs).funcs ∧ f.eigendecomp = (Dense.after (k := k) regs).eigendecomp := by
  obtain ⟨h1, h2, h3⟩ := (registered_after (k := k) regs).vars
  unfold Dense.instantiate
  rw [if_neg (by simp [h1, h2, h3])]
  exact ⟨_, rfl, by simp [h1, Function.comp_def], by simp [h2, Function.comp_def],
    by simp [h3, Function.comp_def], rfl, rfl⟩

/-! ### The values computed -/

theorem cholesky_inverse_eq {L A : Mat k} (h : L * Lᵀ = A) : (Lᵀ)⁻¹ * L⁻¹ = A⁻¹ := by
  rw [← Matrix.mul_inv_rev, h]

/-- All three methods of `posdef_inv` give the inverse. -/
theorem posdefInv_eq {la : Linalg k} (hla : la.Good) (m : InvMethod) {cov : Mat k} (hc : Psd cov) {d : ℝ}
    (hd : 0 < d) : posdefInv la m cov d = (cov + d • 1)⁻¹ := by
  have hpd := hc.add_damping hd
  cases m with
  | matrixInverse => rfl
  | cholesky => exact cholesky_inverse_eq (hla.cholesky _ hpd.1 hpd.2)
  | eig =>
    have hU := hla.orthonormal _ hpd.1
    have hA := hla.eigen _ hpd.1
    have hX : IsPower (cov + d • 1) (-1) (posdefInv la .eig cov d) := by
      intro v a h
      have e : posdefInv la .eig cov d = (la.eig (cov + d • 1)).2 *
          diagonal (fun i => ((la.eig (cov + d • 1)).1 i)⁻¹) * (la.eig (cov + d • 1)).2ᵀ := by
        simp only [posdefInv]
        congr 1
        ext i j
        simp [div_eq_mul_inv]
      rw [e]
      rw [hA] at h
      exact conj_eigen hU _ _ v a _ h (fun i hi => by rw [hi, Real.rpow_neg_one])
    exact isPower_unique hpd.1 hX (isPower_inv hpd)

/-- The eigendecomposition gives the power. -/
theorem eigPower {la : Linalg k} (hla : la.Good) (c : Constants) (hclip : c.clipThreshold ≤ 0) {cov : Mat k}
    (hc : Psd cov) {d : ℝ} (p : ℝ) :
    IsPower (cov + d • 1) p ((Matrix.of fun i j => (eigTensors la c cov).2 i j *
      ((eigTensors la c cov).1 j + d) ^ p) * (eigTensors la c cov).2ᵀ) := by
  have hU := hla.orthonormal _ hc.1
  have hA := hla.eigen _ hc.1
  have hpos : ∀ i, 0 ≤ (la.eig cov).1 i := by
    intro i
    have h1 : (la.eig cov).2ᵀ * cov * (la.eig cov).2 = diagonal (la.eig cov).1 := by
      have h0 : cov * (la.eig cov).2 = (la.eig cov).2 * diagonal (la.eig cov).1 := by
        calc cov * (la.eig cov).2
            = (la.eig cov).2 * diagonal (la.eig cov).1 * (la.eig cov).2ᵀ * (la.eig cov).2 := by rw [← hA]
          _ = _ := by rw [Matrix.mul_assoc, hU, Matrix.mul_one]
      rw [Matrix.mul_assoc, h0, ← Matrix.mul_assoc, hU, Matrix.one_mul]
    have h2 := congrFun (congrFun h1 i) i
    rw [diagonal_apply_eq, mul_mul_apply] at h2
    rw [← h2]
    exact hc.2 _
  have hmax : (eigTensors la c cov).1 = (la.eig cov).1 := by
    funext i
    exact max_eq_left (hclip.trans (hpos i))
  have e : (Matrix.of fun i j => (eigTensors la c cov).2 i j * ((eigTensors la c cov).1 j + d) ^ p) *
      (eigTensors la c cov).2ᵀ = (la.eig cov).2 * diagonal (fun i => ((la.eig cov).1 i + d) ^ p) *
      (la.eig cov).2ᵀ := by
    rw [hmax]
    simp only [eigTensors]
    congr 1
    ext i j
    simp
  rw [e]
  intro v a h
  rw [hA, conj_add hU] at h
  exact conj_eigen hU _ _ v a _ h (fun i hi => by rw [hi])

/-! ### Runs -/

/-- What a run leaves behind. -/
theorem runs_last (la : Linalg k) (c : Constants) (g : Dense k D Env) (hist : List (Env × Mat k)) (env : Env)
    (cov : Mat k) (f : Dense k D Env) (hkeys : g.useEig c = true ∨ ∀ e ∈ f.matVars, e.1.1 = -1) :
    ∃ f', g.runs la c f (hist ++ [(env, cov)]) = .ok f' ∧
      f'.matVars = f.matVars.map (fun v => (v.1,
        if g.useEig c then (Matrix.of fun i j => (eigTensors la c cov).2 i j *
          ((eigTensors la c cov).1 j + f.dampingValue env v.1.2) ^ v.1.1) * (eigTensors la c cov).2ᵀ
        else posdefInv la c.invMethod cov (f.dampingValue env v.1.2))) ∧
      f'.cholVars = f.cholVars.map (fun v => (v.1, cholesky la cov (f.dampingValue env v.1))) ∧
      f'.cholInvVars = f.cholInvVars.map (fun v => (v.1, (cholesky la cov (f.dampingValue env v.1))⁻¹)) := by
  have hstep : ∀ f : Dense k D Env, (g.useEig c = true ∨ ∀ e ∈ f.matVars, e.1.1 = -1) →
      ¬ (g.useEig c = false ∧ ∃ e ∈ f.matVars, e.1.1 ≠ -1) := by
    rintro f (h | h) ⟨h1, e, he, h2⟩
    · rw [h] at h1; cases h1
    · exact h2 (h e he)
  induction hist generalizing f with
  | nil =>
    simp only [List.nil_append, Dense.runs, Dense.runInverseOps]
    rw [if_neg (hstep f hkeys)]
    exact ⟨_, rfl, rfl, rfl, rfl⟩
  | cons r rs ih =>
    simp only [List.cons_append, Dense.runs]
    cases hr : g.runInverseOps la c f r.1 r.2 with
    | error e =>
      exfalso
      unfold Dense.runInverseOps at hr
      rw [if_neg (hstep f hkeys)] at hr
      cases hr
    | ok f1 =>
      unfold Dense.runInverseOps at hr
      rw [if_neg (hstep f hkeys)] at hr
      have hkeys1 : g.useEig c = true ∨ ∀ e ∈ f1.matVars, e.1.1 = -1 := by
        rcases hkeys with h | h
        · exact .inl h
        · refine .inr ?_
          cases hr
          intro e he
          obtain ⟨v, hv, rfl⟩ := List.mem_map.1 he
          exact h v hv
      obtain ⟨f', e1, e2, e3, e4⟩ := ih f1 hkeys1
      cases hr
      refine ⟨f', e1, ?_, ?_, ?_⟩
      · rw [e2]; simp only [List.map_map]; rfl
      · rw [e3]; simp only [List.map_map]; rfl
      · rw [e4]; simp only [List.map_map]; rfl

theorem dampingValue_eq (regs : List (Reg D Env)) (f : Dense k D Env)
    (hf : f.funcs = (Dense.after (k := k) regs).funcs)
    (agree : ∀ r ∈ regs, ∀ r' ∈ regs, ∀ d d', r.func = some d → r'.func = some d' → d.id = d'.id →
      d.value = d'.value) (r : Reg D Env) (hr : r ∈ regs) (d : DampingFunc D Env) (hd : r.func = some d)
    (hid : d.id ∈ f.funcs.map (·.id)) (env : Env) : f.dampingValue env d.id = d.value env := by
  have hk := (registered_after (k := k) regs).known
  unfold Dense.dampingValue
  cases h : f.funcs.find? fun x => decide (x.id = d.id) with
  | none =>
    rw [List.find?_eq_none] at h
    obtain ⟨x, hx, hxid⟩ := List.mem_map.1 hid
    exact absurd (by simpa using hxid) (h x hx)
  | some x =>
    have h1 := List.mem_of_find?_eq_some h
    have h2 := List.find?_some h
    simp only [decide_eq_true_eq] at h2
    obtain ⟨r', hr', e⟩ := hk x (hf ▸ h1)
    simp only
    rw [agree r' hr' r hr x d e hd h2]

omit [DecidableEq D] in
theorem count_keys (l : List ((ℝ × D) × Mat k)) [DecidablePred fun e : (ℝ × D) × Mat k => e.1.1 = -1] :
    l.length - (l.filter fun e => decide (e.1.1 = -1)).length ≥ 1 ↔ ∃ e ∈ l, e.1.1 ≠ -1 := by
  rw [ge_iff_le, Nat.succ_le_iff, Nat.sub_pos_iff_lt]
  constructor
  · intro h
    by_contra hn
    push Not at hn
    rw [List.filter_eq_self.2 (fun e he => by simpa using hn e he)] at h
    exact lt_irrefl _ h
  · rintro ⟨e, he, hne⟩
    exact List.length_filter_lt_length_iff_exists.2 ⟨e, he, by simpa using hne⟩

/-- After any registrations, any earlier runs of the inverse ops, and a last run with positive semidefinite
covariance and positive damping values, what is served for a registered power (or for exponent 1) is the real
power of covariance plus damping times the identity, whichever way it is computed: whatever other operations are
registered, whether or not an eigendecomposition is cached (`flag`), for every threshold of the choice and every
inversion method. -/
theorem C47_power {la : Linalg k} (hla : la.Good) (c : Constants) (hclip : c.clipThreshold ≤ 0)
    (regs : List (Reg D Env))
    (agree : ∀ r ∈ regs, ∀ r' ∈ regs, ∀ d d', r.func = some d → r'.func = some d' → d.id = d'.id →
      d.value = d'.value)
    (flag : Bool) (hist : List (Env × Mat k)) (env : Env) (cov : Mat k) (hcov : Psd cov)
    (hpos : ∀ r ∈ regs, ∀ d, r.func = some d → 0 < d.value env) :
    ∃ f f', (Dense.after (k := k) regs).instantiate = .ok f ∧
      ({ f with eigendecomp := flag } : Dense k D Env).runs la c f (hist ++ [(env, cov)]) = .ok f' ∧
      (∀ exp d, Reg.matpower exp d ∈ regs → ∃ X, f'.getMatpower env cov exp d = .ok X ∧
        IsPower (cov + d.value env • 1) exp X) ∧
      (∀ d, Reg.cholesky d ∈ regs → ∃ L, f'.getCholesky d = .ok L ∧ (∀ i j, i < j → L i j = 0) ∧
        L * Lᵀ = cov + d.value env • 1) ∧
      (∀ d, Reg.choleskyInverse d ∈ regs → ∃ M L, f'.getCholeskyInverse d = .ok M ∧ M * L = 1 ∧
        (∀ i j, i < j → L i j = 0) ∧ L * Lᵀ = cov + d.value env • 1 ∧
        (Reg.cholesky d ∈ regs → f'.getCholesky d = .ok L)) := by
  classical
  obtain ⟨f, hf, hm, hch, hci, hfu, he⟩ := instantiate_after (k := k) regs
  have hreg := registered_after (k := k) regs
  have hkeys : ({ f with eigendecomp := flag } : Dense k D Env).useEig c = true ∨
      ∀ e ∈ f.matVars, e.1.1 = -1 := by
    by_cases h : ∀ e ∈ f.matVars, e.1.1 = -1
    · exact .inr h
    · push Not at h
      left
      have := (count_keys f.matVars).2 h
      simp only [Dense.useEig, Bool.or_eq_true, decide_eq_true_eq]
      exact .inl (.inr this)
  obtain ⟨f', hr, e1, e2, e3⟩ := runs_last la c { f with eigendecomp := flag } hist env cov f hkeys
  have hval : ∀ r ∈ regs, ∀ d, r.func = some d → d.id ∈ f.funcs.map (·.id) → f.dampingValue env d.id = d.value env :=
    fun r hr d hd hid => dampingValue_eq regs f hfu agree r hr d hd hid env
  refine ⟨f, f', hf, hr, ?_, ?_, ?_⟩
  · intro exp d hd
    unfold Dense.getMatpower
    by_cases h1 : exp = 1
    · rw [if_neg (by simpa using h1)]
      subst h1
      exact ⟨_, rfl, isPower_one⟩
    · have hmem : (exp, d.id) ∈ f.matVars.map (·.1) := by
        rw [hm, hreg.mat]; exact ⟨h1, d, hd, rfl⟩
      have hid : d.id ∈ f.funcs.map (·.id) := by
        rw [hfu]; exact hreg.matKnown _ (hm ▸ hmem)
      rw [if_pos h1, e1, get?_map f.matVars (fun key =>
        if ({ f with eigendecomp := flag } : Dense k D Env).useEig c then
          (Matrix.of fun i j => (eigTensors la c cov).2 i j *
          ((eigTensors la c cov).1 j + f.dampingValue env key.2) ^ key.1) * (eigTensors la c cov).2ᵀ
        else posdefInv la c.invMethod cov (f.dampingValue env key.2)), if_pos hmem]
      refine ⟨_, rfl, ?_⟩
      rw [hval _ hd d rfl hid]
      have hp := hpos _ hd d rfl
      split_ifs with hu
      · exact eigPower hla c hclip hcov exp
      · have hexp : exp = -1 := by
          rcases hkeys with h | h
          · exact absurd h hu
          · obtain ⟨v, hv, hve⟩ := List.mem_map.1 hmem
            have := h v hv
            rw [hve] at this
            exact this
        rw [posdefInv_eq hla _ hcov hp, hexp]
        exact isPower_inv (hcov.add_damping hp)
  · intro d hd
    have hmem : d.id ∈ f.cholVars.map (·.1) := by rw [hch, hreg.chol]; exact ⟨d, hd, rfl⟩
    have hid : d.id ∈ f.funcs.map (·.id) := by rw [hfu]; exact hreg.cholKnown _ (hch ▸ hmem)
    have hpd := hcov.add_damping (hpos _ hd d rfl)
    unfold Dense.getCholesky
    rw [e2, get?_map f.cholVars (fun id => cholesky la cov (f.dampingValue env id)), if_pos hmem,
      hval _ hd d rfl hid]
    exact ⟨_, rfl, hla.lower _ hpd.1 hpd.2, hla.cholesky _ hpd.1 hpd.2⟩
  · intro d hd
    have hmem : d.id ∈ f.cholInvVars.map (·.1) := by rw [hci, hreg.cholInv]; exact ⟨d, hd, rfl⟩
    have hid : d.id ∈ f.funcs.map (·.id) := by rw [hfu]; exact hreg.cholInvKnown _ (hci ▸ hmem)
    have hpd := hcov.add_damping (hpos _ hd d rfl)
    unfold Dense.getCholeskyInverse
    rw [e3, get?_map f.cholInvVars (fun id => (cholesky la cov (f.dampingValue env id))⁻¹), if_pos hmem,
      hval _ hd d rfl hid]
    refine ⟨_, cholesky la cov (d.value env), rfl, ?_, hla.lower _ hpd.1 hpd.2, hla.cholesky _ hpd.1 hpd.2, ?_⟩
    rotate_left
    · intro hd'
      have hmem' : d.id ∈ f.cholVars.map (·.1) := by rw [hch, hreg.chol]; exact ⟨d, hd', rfl⟩
      unfold Dense.getCholesky
      rw [e2, get?_map f.cholVars (fun id => cholesky la cov (f.dampingValue env id)), if_pos hmem',
        hval _ hd d rfl hid]
    refine nonsing_inv_mul _ (isUnit_iff_ne_zero.2 ?_)
    intro h0
    have := hpd.det_ne_zero
    rw [← hla.cholesky _ hpd.1 hpd.2, det_mul, show (la.chol (cov + d.value env • 1)).det = 0 from h0,
      zero_mul] at this
    exact this rfl

/-- The power that is served is the only one, in particular the two ways agree: the direct inverse is what the
eigendecomposition gives for exponent -1. -/
theorem C47_agree {la : Linalg k} (hla : la.Good) (c : Constants) (hclip : c.clipThreshold ≤ 0) (m : InvMethod)
    {cov : Mat k} (hcov : Psd cov) {d : ℝ} (hd : 0 < d) :
    (Matrix.of fun i j => (eigTensors la c cov).2 i j * ((eigTensors la c cov).1 j + d) ^ (-1 : ℝ)) *
      (eigTensors la c cov).2ᵀ = posdefInv la m cov d ∧
    (cov + d • 1) * posdefInv la m cov d = 1 ∧
    ∀ p X Y, IsPower (cov + d • 1) p X → IsPower (cov + d • 1) p Y → X = Y := by
  have hpd := hcov.add_damping hd
  have h1 : IsPower (cov + d • 1) (-1) (posdefInv la m cov d) := by
    rw [posdefInv_eq hla m hcov hd]; exact isPower_inv hpd
  refine ⟨isPower_unique hpd.1 (eigPower hla c hclip hcov _) h1, ?_, fun p X Y => isPower_unique hpd.1⟩
  rw [posdefInv_eq hla m hcov hd]
  exact mul_nonsing_inv _ (isUnit_iff_ne_zero.2 hpd.det_ne_zero)

/-- What was not registered is not served. -/
theorem C47_unregistered (la : Linalg k) (c : Constants) (regs : List (Reg D Env)) (flag : Bool)
    (hist : List (Env × Mat k)) (f f' : Dense k D Env) (env : Env) (cov : Mat k)
    (hf : (Dense.after (k := k) regs).instantiate = .ok f)
    (hr : ({ f with eigendecomp := flag } : Dense k D Env).runs la c f hist = .ok f')
    (exp : ℝ) (h1 : exp ≠ 1) (d : DampingFunc D Env)
    (hd : ∀ d', Reg.matpower exp d' ∈ regs → d'.id ≠ d.id) :
    f'.getMatpower env cov exp d = .error "KeyError" := by
  classical
  obtain ⟨f0, hf0, hm, -⟩ := instantiate_after (k := k) regs
  rw [hf] at hf0
  cases hf0
  have hnot : (exp, d.id) ∉ f.matVars.map (·.1) := by
    rw [hm, (registered_after (k := k) regs).mat]
    rintro ⟨-, d', hd', hid⟩
    exact hd d' hd' hid
  have hkeys : ∀ (hist : List (Env × Mat k)) (f0 f' : Dense k D Env),
      ({ f with eigendecomp := flag } : Dense k D Env).runs la c f0 hist = .ok f' →
      f'.matVars.map (·.1) = f0.matVars.map (·.1) := by
    intro hist
    induction hist with
    | nil => intro f0 f' h; simp only [Dense.runs] at h; cases h; rfl
    | cons r rs ih =>
      intro f0 f' h
      simp only [Dense.runs] at h
      cases h1 : ({ f with eigendecomp := flag } : Dense k D Env).runInverseOps la c f0 r.1 r.2 with
      | error e => rw [h1] at h; cases h
      | ok f1 =>
        rw [h1] at h
        rw [ih f1 f' h]
        unfold Dense.runInverseOps at h1
        by_cases hif : ({ f with eigendecomp := flag } : Dense k D Env).useEig c = false ∧
            ∃ e ∈ f0.matVars, e.1.1 ≠ -1
        · rw [if_pos hif] at h1; cases h1
        · rw [if_neg hif] at h1
          cases h1
          simp [Function.comp_def]
  unfold Dense.getMatpower
  rw [if_pos h1]
  have hnone : get? f'.matVars (exp, d.id) = none := by
    rw [get?, Option.map_eq_none_iff, List.find?_eq_none]
    intro e he hek
    simp only [decide_eq_true_eq] at hek
    apply hnot
    rw [← hkeys hist f f' hr, ← hek]
    exact List.mem_map_of_mem he
  rw [hnone]

open Classical in
/-- The choice depends only on what was asked for: the eigendecomposition is used exactly if it was requested
itself, or a power other than 1 and -1 was registered, or inverses for at least as many different dampings as the
threshold. -/
theorem C47_choice (c : Constants) (regs : List (Reg D Env)) (f : Dense k D Env)
    (hf : (Dense.after (k := k) regs).instantiate = .ok f) :
    f.useEig c = true ↔
      Reg.eigendecomp ∈ regs ∨ (∃ exp d, Reg.matpower exp d ∈ regs ∧ exp ≠ 1 ∧ exp ≠ -1) ∨
      ∃ ids : Finset D, c.eigThreshold ≤ ids.card ∧ ∀ id ∈ ids, ∃ d, Reg.matpower (-1) d ∈ regs ∧ d.id = id := by
  obtain ⟨f0, hf0, hm, -, -, -, he⟩ := instantiate_after (k := k) regs
  rw [hf] at hf0
  cases hf0
  have hreg := registered_after (k := k) regs
  simp only [Dense.useEig, Bool.or_eq_true, decide_eq_true_eq, or_assoc]
  rw [he, hreg.eig]
  refine or_congr_right (or_congr ?_ ?_)
  · have := count_keys f.matVars
    rw [this]
    constructor
    · rintro ⟨e, hmem, hne⟩
      have h2 : e.1 ∈ f.matVars.map (·.1) := List.mem_map_of_mem hmem
      rw [hm, hreg.mat] at h2
      obtain ⟨h3, d, hd, -⟩ := h2
      exact ⟨_, d, hd, h3, hne⟩
    · rintro ⟨exp, d, hd, h1, h2⟩
      have : (exp, d.id) ∈ f.matVars.map (·.1) := by rw [hm, hreg.mat]; exact ⟨h1, d, hd, rfl⟩
      obtain ⟨e, hmem, hee⟩ := List.mem_map.1 this
      exact ⟨e, hmem, by rw [hee]; exact h2⟩
  · -- the ids of the registered inverses, without repetition
    have hlen : (f.matVars.filter fun e => decide (e.1.1 = -1)).length =
        (((Dense.after (k := k) regs).matRegs.filter fun r => decide (r.1 = -1)).map (·.2)).length := by
      rw [List.length_map, ← hm, List.filter_map, List.length_map]
      rfl
    have hnodup : (((Dense.after (k := k) regs).matRegs.filter fun r => decide (r.1 = -1)).map (·.2)).Nodup := by
      refine List.Nodup.map_on ?_ (hreg.nodup.filter _)
      intro x hx y hy hxy
      simp only [List.mem_filter, decide_eq_true_eq] at hx hy
      exact Prod.ext (hx.2.trans hy.2.symm) hxy
    have hmem : ∀ id, id ∈ (((Dense.after (k := k) regs).matRegs.filter fun r => decide (r.1 = -1)).map (·.2)) ↔
        ∃ d, Reg.matpower (-1) d ∈ regs ∧ d.id = id := by
      intro id
      simp only [List.mem_map, List.mem_filter, decide_eq_true_eq, Prod.exists]
      constructor
      · rintro ⟨e, i, ⟨h1, rfl⟩, rfl⟩
        exact ((hreg.mat _ _).1 h1).2
      · intro h
        exact ⟨-1, id, ⟨(hreg.mat _ _).2 ⟨by norm_num, h⟩, rfl⟩, rfl⟩
    rw [hlen, ge_iff_le]
    constructor
    · intro h
      refine ⟨_, (List.toFinset_card_of_nodup hnodup).symm ▸ h, ?_⟩
      intro id hid
      exact (hmem id).1 (List.mem_toFinset.1 hid)
    · rintro ⟨ids, hcard, hall⟩
      refine hcard.trans ?_
      rw [← List.toFinset_card_of_nodup hnodup]
      refine Finset.card_le_card ?_
      intro id hid
      exact List.mem_toFinset.2 ((hmem id).2 (hall id hid))

/-! ### Concrete case: the covariance ((2, 1), (1, 2)) with damping 1 and a registered inverse -/

def demoFunc : DampingFunc ℕ Unit := ⟨0, fun _ => 1⟩

theorem demo_psd : Psd (!![2, 1; 1, 2] : Mat 2) := by
  refine ⟨?_, fun v => ?_⟩
  · ext i j; fin_cases i <;> fin_cases j <;> rfl
  · simp only [dotProduct, mulVec, Fin.sum_univ_two]
    simp
    nlinarith [sq_nonneg (v 0 + v 1), sq_nonneg (v 0), sq_nonneg (v 1)]

/-- What is served is the inverse of ((3, 1), (1, 3)). -/
example (la : Linalg 2) (hla : la.Good) (hist : List (Unit × Mat 2)) :
    ∃ f f', (Dense.after (k := 2) [Reg.matpower (-1) demoFunc]).instantiate = .ok f ∧
      f.runs la Constants.default f (hist ++ [((), !![2, 1; 1, 2])]) = .ok f' ∧
      f'.getMatpower () !![2, 1; 1, 2] (-1) demoFunc = .ok !![3 / 8, -1 / 8; -1 / 8, 3 / 8] := by
  obtain ⟨f, f', h1, h2, h3, -⟩ := C47_power hla Constants.default le_rfl [Reg.matpower (-1) demoFunc]
    (by intro r hr r' hr' d d' hd hd' _
        simp only [List.mem_singleton] at hr hr'
        subst hr; subst hr'
        rw [hd] at hd'; cases hd'; rfl) false hist () !![2, 1; 1, 2] demo_psd
    (by intro r hr d hd
        simp only [List.mem_singleton] at hr
        subst hr
        cases hd
        simp [demoFunc])
  have hfalse : ({ f with eigendecomp := false } : Dense 2 ℕ Unit) = f := by
    obtain ⟨f0, hf0, -, -, -, -, he⟩ := instantiate_after (k := 2) [Reg.matpower (-1) demoFunc]
    rw [h1] at hf0
    cases hf0
    have : f.eigendecomp = false := by
      rw [he]
      have := (registered_after (k := 2) [Reg.matpower (-1) demoFunc]).eig
      simpa using this
    cases f
    simp_all
  rw [hfalse] at h2
  obtain ⟨X, hX, hp⟩ := h3 (-1) demoFunc (by simp)
  refine ⟨f, f', h1, h2, ?_⟩
  rw [hX]
  congr 1
  have hpd := demo_psd.add_damping (d := 1) one_pos
  rw [isPower_unique hpd.1 hp (isPower_inv hpd)]
  refine inv_eq_right_inv ?_
  ext i j
  fin_cases i <;> fin_cases j <;> simp [mul_apply, Fin.sum_univ_two] <;> norm_num

/-- Three inverses are computed directly with the default threshold 4. -/
example (f : Dense 2 ℕ Unit) (h : (Dense.after (k := 2) [Reg.matpower (-1) ⟨0, fun _ => 1⟩,
    Reg.matpower (-1) ⟨1, fun _ => 2⟩, Reg.matpower (-1) ⟨2, fun _ => 3⟩, Reg.cholesky ⟨3, fun _ => 3⟩]).instantiate =
    .ok f) : f.useEig Constants.default = false := by
  rw [Bool.eq_false_iff, Ne, C47_choice _ _ _ h]
  rintro (h | ⟨e, d, h, -, h1⟩ | ⟨ids, hc, hi⟩)
  · simp at h
  · simp at h
    rcases h with h | h | h <;> exact h1 h.1
  · have : ids ⊆ {0, 1, 2} := by
      intro id hid
      obtain ⟨d, hd, rfl⟩ := hi id hid
      simp at hd
      rcases hd with rfl | rfl | rfl <;> simp
    have := Finset.card_le_card this
    simp [Constants.default] at hc this
    omega

end Kfac.Factor
