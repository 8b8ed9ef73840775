import Verif.Factor.Shared
import Verif.Factor.PropsDense
import Verif.Block.Props

/-! # C96: blocks that share factors each use their own damping -/

namespace Kfac.Factor

open Matrix Kfac.Block Classical

set_option linter.unusedSectionVars false

variable {F T : Type} [DecidableEq F]

/-! ### Specification -/

/-- The estimators that come out of registration: blocks refer to the collection's factors, no dimension, number of
locations or number of uses is zero. -/
structure Net.WF (n : Net F T) : Prop where
  kron : ∀ i o k, BlockOf.kron i o k ∈ n.blocks → i ∈ n.factors ∧ o ∈ n.factors ∧ 0 < k.renorm
  full : ∀ f, BlockOf.full f ∈ n.blocks → f ∈ n.factors
  dim : ∀ f, 0 < n.dim f

/-- A run with positive semidefinite covariances and positive damping. -/
structure Net.Healthy (n : Net F T) (v : Values F T n.dim) : Prop where
  psd : ∀ f, Psd (v.cov f)
  damping : 0 < n.damping.value v

/-- How a block's damping is to be divided between its own two factors in a run: the product of the parts is the
damping, normalised for the block's kind, and their ratio is that of the mean eigenvalues of the block's own two
covariances (equal parts with pi "off" or when a covariance vanishes). -/
structure Net.Split (n : Net F T) (i o : F) (kind : KronKind) (v : Values F T n.dim) (d e : ℝ) : Prop where
  pos : 0 < d ∧ 0 < e
  product : d * e = kind.normalization.elim (n.damping.value v) (fun m => n.damping.value v / m ^ n.power)
  off : n.piRule = .off → d = e
  ratio : n.piRule = .tracenorm → 0 < (v.cov i).trace → 0 < (v.cov o).trace →
    d / e = ((v.cov i).trace / n.dim i) / ((v.cov o).trace / n.dim o)
  degenerate : n.piRule = .tracenorm → (v.cov i).trace = 0 ∨ (v.cov o).trace = 0 → d = e

/-- The last run of the inverse update of factor `f` was with values `v`. -/
def LastRun {dim : F → ℕ} (sched : List (F × Values F T dim)) (f : F) (v : Values F T dim) : Prop :=
  ∃ pre post, sched = pre ++ (f, v) :: post ∧ ∀ e ∈ post, e.1 ≠ f

/-! ### Registrations as a list of calls -/

/-- The calls made by a block for one exponent. -/
noncomputable def Net.callsMat (n : Net F T) (b : BlockOf F) (exp : ℝ) :
    List (F × Reg (FuncId T) (Values F T n.dim)) :=
  match b with
  | .kron i o k => [(i, .matpower exp (n.inputFunc i o k)), (o, .matpower exp (n.outputFunc i o k))]
  | .full f => [(f, .matpower exp n.fullFunc)]

/-- The calls made by a block. -/
noncomputable def Net.calls (n : Net F T) (w : Wanted) (b : BlockOf F) :
    List (F × Reg (FuncId T) (Values F T n.dim)) :=
  w.exps.flatMap (n.callsMat b) ++
  (if w.chol then match b with
    | .kron i o k => [(i, .cholesky (n.inputFunc i o k)), (o, .cholesky (n.outputFunc i o k))]
    | .full f => [(f, .cholesky n.fullFunc)] else []) ++
  (if w.cholInv then match b with
    | .kron i o k => [(i, .choleskyInverse (n.inputFunc i o k)), (o, .choleskyInverse (n.outputFunc i o k))]
    | .full f => [(f, .choleskyInverse n.fullFunc)] else [])

/-- The registrations that reach factor `f`. -/
noncomputable def Net.regsAt (n : Net F T) (w : Wanted) (f : F) : List (Reg (FuncId T) (Values F T n.dim)) :=
  (n.blocks.flatMap (n.calls w)).filterMap fun c => if c.1 = f then some c.2 else none

noncomputable def Net.callAll (n : Net F T) (s : n.State) (l : List (F × Reg (FuncId T) (Values F T n.dim))) :
    n.State := l.foldl (fun s c => n.call s c.1 c.2) s

theorem callAll_append (n : Net F T) (s : n.State) (l m) : n.callAll s (l ++ m) = n.callAll (n.callAll s l) m := by
  unfold Net.callAll; rw [List.foldl_append]

theorem registerBlock_eq (n : Net F T) (w : Wanted) (s : n.State) (b : BlockOf F) :
    n.registerBlock w s b = n.callAll s (n.calls w b) := by
  have h1 : ∀ (exps : List ℝ) (s : n.State), exps.foldl (fun s exp => n.registerMatpower s b exp) s =
      n.callAll s (exps.flatMap (n.callsMat b)) := by
    intro exps
    induction exps with
    | nil => intro s; rfl
    | cons e es ih =>
      intro s
      rw [List.foldl_cons, ih, List.flatMap_cons, callAll_append]
      congr 1
      cases b <;> rfl
  unfold Net.registerBlock Net.calls
  rw [callAll_append, callAll_append, ← h1]
  cases w.chol <;> cases w.cholInv <;> cases b <;> rfl

theorem register_eq (n : Net F T) (w : Wanted) :
    n.register w = n.callAll (fun _ => {}) (n.blocks.flatMap (n.calls w)) := by
  unfold Net.register
  generalize (fun _ => {} : n.State) = s
  induction n.blocks generalizing s with
  | nil => rfl
  | cons b bs ih => rw [List.foldl_cons, ih, List.flatMap_cons, callAll_append, registerBlock_eq]

theorem callAll_at (n : Net F T) (s : n.State) (l) (f : F) :
    n.callAll s l f = (l.filterMap fun c => if c.1 = f then some c.2 else none).foldl Reg.apply (s f) := by
  induction l generalizing s with
  | nil => rfl
  | cons c cs ih =>
    have : n.callAll s (c :: cs) = n.callAll (n.call s c.1 c.2) cs := rfl
    rw [this, ih]
    by_cases h : c.1 = f
    · subst h
      simp [Net.call]
    · have h' : f ≠ c.1 := fun e => h e.symm
      simp [Net.call, h, h']

theorem register_at (n : Net F T) (w : Wanted) (f : F) : n.register w f = Dense.after (n.regsAt w f) := by
  rw [register_eq, callAll_at]; rfl

/-- The damping functions that reach a factor. -/
theorem regsAt_func {n : Net F T} {w : Wanted} {f : F} {r} (hr : r ∈ n.regsAt w f) {d} (hd : r.func = some d) :
    (∃ i o k, BlockOf.kron i o k ∈ n.blocks ∧ f = i ∧ d = n.inputFunc i o k) ∨
    (∃ i o k, BlockOf.kron i o k ∈ n.blocks ∧ f = o ∧ d = n.outputFunc i o k) ∨
    (BlockOf.full f ∈ n.blocks ∧ d = n.fullFunc) := by
  unfold Net.regsAt at hr
  obtain ⟨c, hc, hcf⟩ := List.mem_filterMap.1 hr
  split_ifs at hcf with h
  cases hcf
  obtain ⟨b, hb, hcb⟩ := List.mem_flatMap.1 hc
  unfold Net.calls at hcb
  cases b with
  | kron i o k =>
    have : (c.1 = i ∧ d = n.inputFunc i o k) ∨ (c.1 = o ∧ d = n.outputFunc i o k) := by
      simp only [Net.callsMat, List.mem_append, List.mem_flatMap, List.mem_cons, List.not_mem_nil, or_false] at hcb
      rcases hcb with (⟨e, -, h | h⟩ | h) | h
      · subst h; simp [Reg.func] at hd; exact .inl ⟨rfl, hd.symm⟩
      · subst h; simp [Reg.func] at hd; exact .inr ⟨rfl, hd.symm⟩
      · split_ifs at h
        · simp only [List.mem_cons, List.not_mem_nil, or_false] at h
          rcases h with h | h
          · subst h; simp [Reg.func] at hd; exact .inl ⟨rfl, hd.symm⟩
          · subst h; simp [Reg.func] at hd; exact .inr ⟨rfl, hd.symm⟩
        · cases h
      · split_ifs at h
        · simp only [List.mem_cons, List.not_mem_nil, or_false] at h
          rcases h with h | h
          · subst h; simp [Reg.func] at hd; exact .inl ⟨rfl, hd.symm⟩
          · subst h; simp [Reg.func] at hd; exact .inr ⟨rfl, hd.symm⟩
        · cases h
    rcases this with ⟨h1, h2⟩ | ⟨h1, h2⟩
    · exact .inl ⟨i, o, k, hb, h ▸ h1, h2⟩
    · exact .inr (.inl ⟨i, o, k, hb, h ▸ h1, h2⟩)
  | full g =>
    have : c.1 = g ∧ d = n.fullFunc := by
      simp only [Net.callsMat, List.mem_append, List.mem_flatMap, List.mem_cons, List.not_mem_nil, or_false] at hcb
      rcases hcb with (⟨e, -, h⟩ | h) | h
      · subst h; simp [Reg.func] at hd; exact ⟨rfl, hd.symm⟩
      · split_ifs at h
        · simp only [List.mem_cons, List.not_mem_nil, or_false] at h
          subst h; simp [Reg.func] at hd; exact ⟨rfl, hd.symm⟩
        · cases h
      · split_ifs at h
        · simp only [List.mem_cons, List.not_mem_nil, or_false] at h
          subst h; simp [Reg.func] at hd; exact ⟨rfl, hd.symm⟩
        · cases h
    right; right
    rw [← h, this.1]
    exact ⟨hb, this.2⟩

theorem regsAt_ne_eig {n : Net F T} {w : Wanted} {f : F} : Reg.eigendecomp ∉ n.regsAt w f := by
  intro hm
  unfold Net.regsAt at hm
  obtain ⟨c, hc, hcf⟩ := List.mem_filterMap.1 hm
  split_ifs at hcf
  have hcf := Option.some.inj hcf
  obtain ⟨b, -, hcb⟩ := List.mem_flatMap.1 hc
  have key : ∃ d, c.2.func = some d := by
    unfold Net.calls at hcb
    rw [List.mem_append, List.mem_append, List.mem_flatMap] at hcb
    rcases hcb with (⟨e, -, h⟩ | h) | h
    · cases b <;> simp only [Net.callsMat, List.mem_cons, List.not_mem_nil, or_false] at h
      · rcases h with rfl | rfl <;> exact ⟨_, rfl⟩
      · subst h; exact ⟨_, rfl⟩
    · split_ifs at h
      · cases b <;> simp only [List.mem_cons, List.not_mem_nil, or_false] at h
        · rcases h with rfl | rfl <;> exact ⟨_, rfl⟩
        · subst h; exact ⟨_, rfl⟩
      · cases h
    · split_ifs at h
      · cases b <;> simp only [List.mem_cons, List.not_mem_nil, or_false] at h
        · rcases h with rfl | rfl <;> exact ⟨_, rfl⟩
        · subst h; exact ⟨_, rfl⟩
      · cases h
  obtain ⟨d, hd⟩ := key
  rw [hcf] at hd
  cases hd

theorem regsAt_mem {n : Net F T} {w : Wanted} {f : F} {r} {b} (hb : b ∈ n.blocks) (hc : (f, r) ∈ n.calls w b) :
    r ∈ n.regsAt w f :=
  List.mem_filterMap.2 ⟨(f, r), List.mem_flatMap.2 ⟨b, hb, hc⟩, by simp⟩

/-! ### Equal ids mean equal dampings -/

theorem dampingId_inj {n : Net F T} {i o i' o' : F} {k k' : KronKind} {x x' : ℝ}
    (h : n.dampingId i o k ++ [.str "ref", .scalar (.num x)] = n.dampingId i' o' k' ++ [.str "ref", .scalar (.num x')]) :
    n.name i = n.name i' ∧ n.name o = n.name o' ∧ k.normalization = k'.normalization ∧ x = x' := by
  unfold Net.dampingId at h
  cases h1 : k.normalization <;> cases h2 : k'.normalization <;> rw [h1, h2] at h <;> simp at h
  · exact ⟨h.1, h.2.1, rfl, h.2.2⟩
  · exact ⟨h.1, h.2.1, by rw [h.2.2.1], h.2.2.2⟩

theorem value_congr {n : Net F T} {i o : F} {k k' : KronKind} (h : k.normalization = k'.normalization) :
    n.computeDamping i o k = n.computeDamping i o k' := by
  funext v
  unfold Net.computeDamping
  rw [h]

theorem regs_agree {n : Net F T} (hwf : n.WF) (hname : ∀ f ∈ n.factors, ∀ g ∈ n.factors, n.name f = n.name g → f = g)
    {w : Wanted} {f : F} : ∀ r ∈ n.regsAt w f, ∀ r' ∈ n.regsAt w f, ∀ d d', r.func = some d → r'.func = some d' →
      d.id = d'.id → d.value = d'.value := by
  intro r hr r' hr' d d' hd hd' hid
  rcases regsAt_func hr hd with ⟨i, o, k, hb, -, rfl⟩ | ⟨i, o, k, hb, -, rfl⟩ | ⟨hb, rfl⟩ <;>
  rcases regsAt_func hr' hd' with ⟨i', o', k', hb', -, rfl⟩ | ⟨i', o', k', hb', -, rfl⟩ | ⟨hb', rfl⟩
  · obtain ⟨a1, a2, a3, -⟩ := dampingId_inj hid
    obtain rfl := hname _ (hwf.kron _ _ _ hb).1 _ (hwf.kron _ _ _ hb').1 a1
    obtain rfl := hname _ (hwf.kron _ _ _ hb).2.1 _ (hwf.kron _ _ _ hb').2.1 a2
    show (fun v => (n.computeDamping i o k v).1) = fun v => (n.computeDamping i o k' v).1
    rw [value_congr a3]
  · obtain ⟨-, -, -, a⟩ := dampingId_inj hid
    norm_num at a
  · have := congrArg List.length hid
    simp only [Net.inputFunc, Net.fullFunc, List.length_append, List.length_cons, List.length_nil] at this
    omega
  · obtain ⟨-, -, -, a⟩ := dampingId_inj hid
    norm_num at a
  · obtain ⟨a1, a2, a3, -⟩ := dampingId_inj hid
    obtain rfl := hname _ (hwf.kron _ _ _ hb).1 _ (hwf.kron _ _ _ hb').1 a1
    obtain rfl := hname _ (hwf.kron _ _ _ hb).2.1 _ (hwf.kron _ _ _ hb').2.1 a2
    show (fun v => (n.computeDamping i o k v).2) = fun v => (n.computeDamping i o k' v).2
    rw [value_congr a3]
  · have := congrArg List.length hid
    simp only [Net.outputFunc, Net.fullFunc, List.length_append, List.length_cons, List.length_nil] at this
    omega
  · have := congrArg List.length hid
    simp only [Net.inputFunc, Net.fullFunc, List.length_append, List.length_cons, List.length_nil] at this
    omega
  · have := congrArg List.length hid
    simp only [Net.outputFunc, Net.fullFunc, List.length_append, List.length_cons, List.length_nil] at this
    omega
  · rfl

/-! ### The dampings -/

theorem Psd.trace_nonneg {k : ℕ} {A : Mat k} (h : Psd A) : 0 ≤ A.trace := by
  refine Finset.sum_nonneg fun i _ => ?_
  have := h.2 (Pi.single i 1)
  simpa using this

theorem split_spec {n : Net F T} (hwf : n.WF) {i o : F} {k : KronKind} (hb : BlockOf.kron i o k ∈ n.blocks)
    {v : Values F T n.dim} (hv : n.Healthy v) :
    n.Split i o k v (n.computeDamping i o k v).1 (n.computeDamping i o k v).2 := by
  have hk := (hwf.kron _ _ _ hb).2.2
  have hn : ∀ m ∈ k.normalization, 0 < m := by
    intro m h
    cases k <;> simp only [KronKind.normalization, Option.mem_def, Option.some.injEq, reduceCtorEq] at h <;>
      subst h <;> exact hk
  have ht := (hv.psd i).trace_nonneg
  have ht' := (hv.psd o).trace_nonneg
  unfold Net.computeDamping
  cases hr : n.piRule with
  | tracenorm =>
    obtain ⟨d, e, h1, p1, p2, h4, h5, h6⟩ := C08_split n.power (v.cov i).trace (v.cov o).trace (n.damping.value v)
      (n.dim i) (n.dim o) k.normalization hv.damping (hwf.dim i) (hwf.dim o) ht ht' hn
    rw [h1]
    exact ⟨⟨p1, p2⟩, h4, (fun h => by rw [hr] at h; cases h), fun _ a b => h5 ⟨a, b⟩, fun _ h => h6 h⟩
  | off =>
    rw [setupDamping_eq]
    show n.Split i o k v
      ((k.normalization.elim (n.damping.value v) (normalizeDamping n.power (n.damping.value v))) ^ (1 / 2 : ℝ))
      ((k.normalization.elim (n.damping.value v) (normalizeDamping n.power (n.damping.value v))) ^ (1 / 2 : ℝ))
    have e1 : k.normalization.elim (n.damping.value v) (normalizeDamping n.power (n.damping.value v)) =
        k.normalization.elim (n.damping.value v) (fun m => n.damping.value v / m ^ n.power) := by
      cases k.normalization with
      | none => rfl
      | some m =>
        simp only [Option.elim, normalizeDamping]
        split_ifs with h
        · rfl
        · rw [not_not] at h; rw [h]; simp
    have e2 : 0 < k.normalization.elim (n.damping.value v) (fun m => n.damping.value v / m ^ n.power) := by
      cases hm : k.normalization with
      | none => exact hv.damping
      | some m =>
        have := Real.rpow_pos_of_pos (hn m hm) n.power
        have := hv.damping
        simp only [Option.elim]; positivity
    rw [e1]
    have e3 := Real.rpow_pos_of_pos e2 (1 / 2)
    refine ⟨⟨e3, e3⟩, ?_, fun _ => rfl, (fun h => by rw [hr] at h; cases h), (fun h => by rw [hr] at h; cases h)⟩
    rw [← Real.rpow_add e2]; norm_num

theorem regs_pos {n : Net F T} (hwf : n.WF) {w : Wanted} {f : F} {v : Values F T n.dim} (hv : n.Healthy v) :
    ∀ r ∈ n.regsAt w f, ∀ d, r.func = some d → 0 < d.value v := by
  intro r hr d hd
  rcases regsAt_func hr hd with ⟨i, o, k, hb, -, rfl⟩ | ⟨i, o, k, hb, -, rfl⟩ | ⟨hb, rfl⟩
  · exact (split_spec hwf hb hv).pos.1
  · exact (split_spec hwf hb hv).pos.2
  · exact hv.damping

/-! ### Creating the variables -/

theorem instantiateAll_eq (n : Net F T) (x : n.State) (s : n.State) (fs : List F) (hnd : fs.Nodup)
    (hx : ∀ f ∈ fs, (s f).instantiate = .ok (x f)) :
    n.instantiateAll s fs = .ok fun f => if f ∈ fs then x f else s f := by
  induction fs generalizing s with
  | nil => simp [Net.instantiateAll]
  | cons f fs ih =>
    rw [List.nodup_cons] at hnd
    unfold Net.instantiateAll
    rw [hx f (by simp)]
    simp only
    rw [ih _ hnd.2]
    · congr 1
      funext g
      by_cases h : g = f
      · subst h; simp [hnd.1]
      · simp [h]
    · intro g hg
      have : g ≠ f := fun h => hnd.1 (h ▸ hg)
      rw [Function.update_of_ne this]
      exact hx g (by simp [hg])

theorem makeVars_ok {n : Net F T} {w : Wanted} {s : n.State} (hs : n.makeVars w = .ok s) :
    (∀ f ∈ n.factors, ∀ g ∈ n.factors, n.name f = n.name g → f = g) ∧
    ∀ f ∈ n.factors, (Dense.after (n.regsAt w f)).instantiate = .ok (s f) := by
  unfold Net.makeVars at hs
  simp only at hs
  split_ifs at hs with hnd
  have hnd1 := (List.nodup_append.1 hnd).1
  have hnd2 : n.factors.Nodup := List.Nodup.of_map _ hnd1
  refine ⟨fun f hf g hg h => List.inj_on_of_nodup_map hnd1 hf hg (by rw [h]), ?_⟩
  have hex : ∀ f, ∃ x, (Dense.after (k := n.dim f) (n.regsAt w f)).instantiate = .ok x :=
    fun f => (instantiate_after (k := n.dim f) (n.regsAt w f)).imp fun _ h => h.1
  choose x hx using hex
  rw [instantiateAll_eq n x (n.register w) n.factors hnd2
    (fun f _ => by rw [register_at]; exact hx f)] at hs
  have := Except.ok.inj hs
  subst this
  intro f hf
  rw [hx f]
  simp [hf]

/-! ### Running the updates -/

/-- The runs of one factor. -/
def runsAt {n : Net F T} (f : F) (sched : List (F × Values F T n.dim)) :
    List (Values F T n.dim × Mat (n.dim f)) :=
  (sched.filter fun e => e.1 = f).map fun e => (e.2, e.2.cov f)

theorem runInverses_eq (n : Net F T) (la : (k : ℕ) → Linalg k) (c : Constants) (g s y : n.State)
    (sched : List (F × Values F T n.dim))
    (h : ∀ f, (g f).runs (la (n.dim f)) c (s f) (runsAt f sched) = .ok (y f)) :
    n.runInverses la c g s sched = .ok y := by
  induction sched generalizing s with
  | nil =>
    have : s = y := funext fun f => Except.ok.inj (h f)
    rw [this]; rfl
  | cons r rs ih =>
    unfold Net.runInverses
    have h1 := h r.1
    have : runsAt r.1 (r :: rs) = (r.2, r.2.cov r.1) :: runsAt (n := n) r.1 rs := by simp [runsAt]
    rw [this, Dense.runs] at h1
    cases hx : (g r.1).runInverseOps (la (n.dim r.1)) c (s r.1) r.2 (r.2.cov r.1) with
    | error e => rw [hx] at h1; cases h1
    | ok x =>
      rw [hx] at h1
      refine ih _ fun f => ?_
      by_cases hf : f = r.1
      · subst hf
        rw [Function.update_self]
        exact h1
      · rw [Function.update_of_ne hf]
        have h2 := h f
        have : runsAt f (r :: rs) = runsAt (n := n) f rs := by
          have : r.1 ≠ f := fun e => hf e.symm
          simp [runsAt, this]
        rwa [this] at h2

theorem runs_succeed {n : Net F T} {k : ℕ} (la : Linalg k) (c : Constants) (f : Dense k (FuncId T) (Values F T n.dim))
    (hist : List (Values F T n.dim × Mat k)) : ∃ f', f.runs la c f hist = .ok f' := by
  have hkeys : f.useEig c = true ∨ ∀ e ∈ f.matVars, e.1.1 = -1 := by
    by_cases h : ∀ e ∈ f.matVars, e.1.1 = -1
    · exact .inr h
    · push Not at h
      left
      have := (count_keys f.matVars).2 h
      simp only [Dense.useEig, Bool.or_eq_true, decide_eq_true_eq]
      exact .inl (.inr this)
  rcases List.eq_nil_or_concat hist with rfl | ⟨l, a, rfl⟩
  · exact ⟨f, rfl⟩
  · obtain ⟨f', h, -⟩ := runs_last la c f l a.1 a.2 f hkeys
    exact ⟨f', by simpa using h⟩

theorem lastRun_runsAt {n : Net F T} {sched : List (F × Values F T n.dim)} {f : F} {v} (h : LastRun sched f v) :
    ∃ hist, runsAt f sched = hist ++ [(v, v.cov f)] := by
  obtain ⟨pre, post, rfl, hpost⟩ := h
  refine ⟨runsAt f pre, ?_⟩
  have : post.filter (fun e => e.1 = f) = [] := by
    rw [List.filter_eq_nil_iff]; simpa using hpost
  simp [runsAt, List.filter_append, this]

/-- Everything about one factor: what is served after a schedule whose last run of the factor was with `v`. -/
theorem factor_served {n : Net F T} (hwf : n.WF) {la : (k : ℕ) → Linalg k} (hla : ∀ k, (la k).Good)
    (c : Constants) (hclip : c.clipThreshold ≤ 0) {w : Wanted} {s : n.State} (hs : n.makeVars w = .ok s)
    (sched : List (F × Values F T n.dim)) :
    ∃ s', n.runInverses la c s s sched = .ok s' ∧ ∀ f ∈ n.factors, ∀ v, LastRun sched f v → n.Healthy v →
      (∀ exp d, Reg.matpower exp d ∈ n.regsAt w f → ∃ X, (s' f).getMatpower v (v.cov f) exp d = .ok X ∧
        IsPower (v.cov f + d.value v • 1) exp X) ∧
      (∀ d, Reg.cholesky d ∈ n.regsAt w f → ∃ L, (s' f).getCholesky d = .ok L ∧ (∀ i j, i < j → L i j = 0) ∧
        L * Lᵀ = v.cov f + d.value v • 1) ∧
      (∀ d, Reg.choleskyInverse d ∈ n.regsAt w f → ∃ M L, (s' f).getCholeskyInverse d = .ok M ∧ M * L = 1 ∧
        (∀ i j, i < j → L i j = 0) ∧ L * Lᵀ = v.cov f + d.value v • 1) := by
  obtain ⟨hname, hinst⟩ := makeVars_ok hs
  have hex : ∀ f, ∃ y, (s f).runs (la (n.dim f)) c (s f) (runsAt f sched) = .ok y :=
    fun f => runs_succeed (la (n.dim f)) c (s f) (runsAt f sched)
  choose y hy using hex
  refine ⟨y, runInverses_eq n la c s s y sched hy, fun f hf v hlast hv => ?_⟩
  obtain ⟨hist, hh⟩ := lastRun_runsAt hlast
  obtain ⟨x, x', h1, h2, h3, h4, h5⟩ := C47_power (hla (n.dim f)) c hclip (n.regsAt w f) (regs_agree hwf hname) false
    hist v (v.cov f) (hv.psd f) (regs_pos hwf hv)
  have hx : x = s f := by
    have := hinst f hf
    rw [h1] at this
    exact Except.ok.inj this
  subst hx
  have heig : ({ s f with eigendecomp := false } : Dense (n.dim f) (FuncId T) (Values F T n.dim)) = s f := by
    obtain ⟨f0, hf0, -, -, -, -, he⟩ := instantiate_after (k := n.dim f) (n.regsAt w f)
    rw [h1] at hf0
    have h0 := Except.ok.inj hf0
    subst h0
    have : (s f).eigendecomp = false := by
      rw [he, Bool.eq_false_iff, Ne, (registered_after (k := n.dim f) (n.regsAt w f)).eig]
      exact regsAt_ne_eig
    rcases hsf : s f with ⟨a1, a2, a3, a4, a5, a6, a7, a8⟩
    rw [hsf] at this
    simp only at this
    rw [this]
  rw [heig, ← hh, hy f] at h2
  have := Except.ok.inj h2
  subst this
  refine ⟨h3, h4, fun d hd => ?_⟩
  obtain ⟨M, L, a, b, c', d', -⟩ := h5 d hd
  exact ⟨M, L, a, b, c', d'⟩

theorem getMatpower_stored {k : ℕ} {D Env : Type} [DecidableEq D] (f : Dense k D Env) (env env' : Env) (cov cov' : Mat k)
    {exp : ℝ} (h : exp ≠ 1) (d : DampingFunc D Env) : f.getMatpower env cov exp d = f.getMatpower env' cov' exp d := by
  unfold Dense.getMatpower
  rw [if_pos h, if_pos h]

/-! ### The properties -/

/-- Multiplying by a registered power of a Kronecker block, whatever factors the block shares with other blocks:
both matrices are powers of the factor's covariance, as it was when the factor was last updated, plus the part of
this block's own damping. -/
theorem C96_matpower {n : Net F T} (hwf : n.WF) {la : (k : ℕ) → Linalg k} (hla : ∀ k, (la k).Good)
    (c : Constants) (hclip : c.clipThreshold ≤ 0) {w : Wanted} {s : n.State} (hs : n.makeVars w = .ok s)
    (sched : List (F × Values F T n.dim)) {i o : F} {kind : KronKind} (hb : BlockOf.kron i o kind ∈ n.blocks)
    {exp : ℝ} (hexp : exp ∈ w.exps) (h1 : exp ≠ 1) {vi vo : Values F T n.dim} (hi : LastRun sched i vi)
    (ho : LastRun sched o vo) (gi : n.Healthy vi) (go : n.Healthy vo) :
    ∃ s', n.runInverses la c s s sched = .ok s' ∧
      ∃ X Y d e d' e', n.Split i o kind vi d e ∧ n.Split i o kind vo d' e' ∧
        IsPower (vi.cov i + d • 1) exp X ∧ IsPower (vo.cov o + e' • 1) exp Y ∧
        ∀ now x, n.multiplyMatpower s' now i o kind exp x = .ok (kind.renorm ^ exp • (X * x * Y)) := by
  obtain ⟨s', hr, H⟩ := factor_served hwf hla c hclip hs sched
  have hm := hwf.kron _ _ _ hb
  have c1 : (i, Reg.matpower exp (n.inputFunc i o kind)) ∈ n.calls w (.kron i o kind) := by
    unfold Net.calls
    simp only [List.mem_append, List.mem_flatMap]
    exact .inl (.inl ⟨exp, hexp, by simp [Net.callsMat]⟩)
  have c2 : (o, Reg.matpower exp (n.outputFunc i o kind)) ∈ n.calls w (.kron i o kind) := by
    unfold Net.calls
    simp only [List.mem_append, List.mem_flatMap]
    exact .inl (.inl ⟨exp, hexp, by simp [Net.callsMat]⟩)
  obtain ⟨X, x1, x2⟩ := (H i hm.1 vi hi gi).1 exp _ (regsAt_mem hb c1)
  obtain ⟨Y, y1, y2⟩ := (H o hm.2.1 vo ho go).1 exp _ (regsAt_mem hb c2)
  refine ⟨s', hr, X, Y, _, _, _, _, split_spec hwf hb gi, split_spec hwf hb go, x2, y2, fun now x => ?_⟩
  unfold Net.multiplyMatpower
  rw [getMatpower_stored (s' i) now vi (now.cov i) (vi.cov i) h1, x1,
    getMatpower_stored (s' o) now vo (now.cov o) (vo.cov o) h1, y1, Matrix.mul_assoc]
  rfl

/-- Exponent 1 is not stored: it uses the current covariances and the current damping. -/
theorem C96_multiply {n : Net F T} (hwf : n.WF) (s : n.State) {i o : F} {kind : KronKind}
    (hb : BlockOf.kron i o kind ∈ n.blocks) {now : Values F T n.dim} (hnow : n.Healthy now) :
    ∃ d e, n.Split i o kind now d e ∧ ∀ x, n.multiplyMatpower s now i o kind 1 x =
      .ok (kind.renorm • ((now.cov i + d • 1) * x * (now.cov o + e • 1))) := by
  refine ⟨_, _, split_spec hwf hb hnow, fun x => ?_⟩
  unfold Net.multiplyMatpower Dense.getMatpower
  rw [if_neg (by simp), if_neg (by simp), Matrix.mul_assoc, Real.rpow_one]
  rfl

/-- The preconditioner: with the inverses of a block's factors last updated in the same run, `multiply_inverse`
solves the system of the damped block. With normalisation power 1 its total damping is the estimator's. -/
theorem C96_inverse {n : Net F T} (hwf : n.WF) {la : (k : ℕ) → Linalg k} (hla : ∀ k, (la k).Good)
    (c : Constants) (hclip : c.clipThreshold ≤ 0) {w : Wanted} {s : n.State} (hs : n.makeVars w = .ok s)
    (hw : -1 ∈ w.exps) (sched : List (F × Values F T n.dim)) {v : Values F T n.dim} (hv : n.Healthy v) :
    ∃ s', n.runInverses la c s s sched = .ok s' ∧
      ∀ i o kind, BlockOf.kron i o kind ∈ n.blocks → LastRun sched i v → LastRun sched o v →
        ∃ d e, n.Split i o kind v d e ∧ (n.power = 1 → kind.renorm * (d * e) = n.damping.value v) ∧
          ∀ now x, ∃ y, n.multiplyMatpower s' now i o kind (-1) x = .ok y ∧
            kind.renorm • ((v.cov i + d • 1) * y * (v.cov o + e • 1)) = x := by
  obtain ⟨s', hr, -⟩ := factor_served hwf hla c hclip hs sched
  refine ⟨s', hr, fun i o kind hb hi ho => ?_⟩
  obtain ⟨s'', hr', X, Y, d, e, d', e', hsp, hsp', hX, hY, hmul⟩ :=
    C96_matpower hwf hla c hclip hs sched hb hw (by norm_num) hi ho hv hv
  rw [hr] at hr'
  have := Except.ok.inj hr'
  subst this
  have hk := (hwf.kron _ _ _ hb).2.2
  -- the two splits are the same pair
  have hee : e' = e ∧ d' = d := by
    have p1 := hsp.product
    have p2 := hsp'.product
    have q : d / e = d' / e' := by
      cases hr : n.piRule with
      | off =>
        rw [hsp.off hr, hsp'.off hr, div_self hsp.pos.2.ne', div_self hsp'.pos.2.ne']
      | tracenorm =>
        by_cases h0 : (v.cov i).trace = 0 ∨ (v.cov o).trace = 0
        · rw [hsp.degenerate hr h0, hsp'.degenerate hr h0, div_self hsp.pos.2.ne', div_self hsp'.pos.2.ne']
        · push Not at h0
          have t1 := lt_of_le_of_ne (hv.psd i).trace_nonneg h0.1.symm
          have t2 := lt_of_le_of_ne (hv.psd o).trace_nonneg h0.2.symm
          rw [hsp.ratio hr t1 t2, hsp'.ratio hr t1 t2]
    have hpe : d * e = d' * e' := p1.trans p2.symm
    have hsq : e ^ 2 = e' ^ 2 := by
      have he := hsp.pos.2.ne'
      have he' := hsp'.pos.2.ne'
      have hd := hsp.pos.1.ne'
      rw [div_eq_div_iff he he'] at q
      have : d * e ^ 2 = d * e' ^ 2 := by
        calc d * e ^ 2 = (d * e) * e := by ring
          _ = (d' * e) * e' := by rw [hpe]; ring
          _ = (d * e') * e' := by rw [q]
          _ = d * e' ^ 2 := by ring
      exact mul_left_cancel₀ hd this
    have he : e' = e := by
      nlinarith [hsp.pos.2, hsp'.pos.2]
    refine ⟨he, ?_⟩
    rw [he] at hpe
    exact (mul_right_cancel₀ hsp.pos.2.ne' hpe).symm
  obtain ⟨rfl, rfl⟩ := hee
  refine ⟨_, _, hsp, fun hp => ?_, fun now x => ⟨_, hmul now x, ?_⟩⟩
  · rw [hsp.product, hp]
    cases kind <;> simp only [KronKind.normalization, KronKind.renorm, Option.elim, Real.rpow_one, one_mul] <;>
      exact mul_div_cancel₀ _ hk.ne'
  · have pA := (hv.psd i).add_damping hsp.pos.1
    have pG := (hv.psd o).add_damping hsp.pos.2
    rw [isPower_unique pA.1 hX (isPower_inv pA), isPower_unique pG.1 hY (isPower_inv pG), Real.rpow_neg_one]
    rw [Matrix.mul_smul, Matrix.smul_mul, smul_smul, mul_inv_cancel₀ hk.ne', one_smul, Matrix.mul_assoc,
      Matrix.mul_assoc, nonsing_inv_mul _ (isUnit_iff_ne_zero.2 pG.det_ne_zero), Matrix.mul_one, ← Matrix.mul_assoc,
      mul_nonsing_inv _ (isUnit_iff_ne_zero.2 pA.det_ne_zero), Matrix.one_mul]

/-- The stored Cholesky factors of a Kronecker block. -/
theorem C96_cholesky {n : Net F T} (hwf : n.WF) {la : (k : ℕ) → Linalg k} (hla : ∀ k, (la k).Good)
    (c : Constants) (hclip : c.clipThreshold ≤ 0) {w : Wanted} {s : n.State} (hs : n.makeVars w = .ok s)
    (hw : w.chol = true) (sched : List (F × Values F T n.dim)) {i o : F} {kind : KronKind}
    (hb : BlockOf.kron i o kind ∈ n.blocks) {vi vo : Values F T n.dim} (hi : LastRun sched i vi)
    (ho : LastRun sched o vo) (gi : n.Healthy vi) (go : n.Healthy vo) :
    ∃ s', n.runInverses la c s s sched = .ok s' ∧
      ∃ L M d e d' e', n.Split i o kind vi d e ∧ n.Split i o kind vo d' e' ∧
        (∀ a b, a < b → L a b = 0) ∧ L * Lᵀ = vi.cov i + d • 1 ∧
        (∀ a b, a < b → M a b = 0) ∧ M * Mᵀ = vo.cov o + e' • 1 ∧
        (∀ x, n.multiplyCholesky s' i o kind false x = .ok (kind.renorm ^ (1 / 2 : ℝ) • (L * x * Mᵀ))) ∧
        (∀ x, n.multiplyCholesky s' i o kind true x = .ok (kind.renorm ^ (1 / 2 : ℝ) • (Lᵀ * x * M))) := by
  obtain ⟨s', hr, H⟩ := factor_served hwf hla c hclip hs sched
  have hm := hwf.kron _ _ _ hb
  have c1 : (i, Reg.cholesky (n.inputFunc i o kind)) ∈ n.calls w (.kron i o kind) := by
    simp [Net.calls, hw]
  have c2 : (o, Reg.cholesky (n.outputFunc i o kind)) ∈ n.calls w (.kron i o kind) := by
    simp [Net.calls, hw]
  obtain ⟨L, l1, l2, l3⟩ := (H i hm.1 vi hi gi).2.1 _ (regsAt_mem hb c1)
  obtain ⟨M, m1, m2, m3⟩ := (H o hm.2.1 vo ho go).2.1 _ (regsAt_mem hb c2)
  refine ⟨s', hr, L, M, _, _, _, _, split_spec hwf hb gi, split_spec hwf hb go, l2, l3, m2, m3, fun x => ?_, fun x => ?_⟩
  · unfold Net.multiplyCholesky
    rw [l1, m1, Matrix.mul_assoc]
    rfl
  · unfold Net.multiplyCholesky
    rw [l1, m1, Matrix.mul_assoc]
    rfl

/-- The stored inverse Cholesky factors. -/
theorem C96_cholesky_inverse {n : Net F T} (hwf : n.WF) {la : (k : ℕ) → Linalg k} (hla : ∀ k, (la k).Good)
    (c : Constants) (hclip : c.clipThreshold ≤ 0) {w : Wanted} {s : n.State} (hs : n.makeVars w = .ok s)
    (hw : w.cholInv = true) (sched : List (F × Values F T n.dim)) {i o : F} {kind : KronKind}
    (hb : BlockOf.kron i o kind ∈ n.blocks) {vi vo : Values F T n.dim} (hi : LastRun sched i vi)
    (ho : LastRun sched o vo) (gi : n.Healthy vi) (go : n.Healthy vo) :
    ∃ s', n.runInverses la c s s sched = .ok s' ∧
      ∃ L M d e d' e', n.Split i o kind vi d e ∧ n.Split i o kind vo d' e' ∧
        (∀ a b, a < b → L a b = 0) ∧ L * Lᵀ = vi.cov i + d • 1 ∧
        (∀ a b, a < b → M a b = 0) ∧ M * Mᵀ = vo.cov o + e' • 1 ∧
        (∀ x, ∃ y, n.multiplyCholeskyInverse s' i o kind false x = .ok y ∧
          kind.renorm ^ (1 / 2 : ℝ) • (L * y * Mᵀ) = x) ∧
        (∀ x, ∃ y, n.multiplyCholeskyInverse s' i o kind true x = .ok y ∧
          kind.renorm ^ (1 / 2 : ℝ) • (Lᵀ * y * M) = x) := by
  obtain ⟨s', hr, H⟩ := factor_served hwf hla c hclip hs sched
  have hm := hwf.kron _ _ _ hb
  have c1 : (i, Reg.choleskyInverse (n.inputFunc i o kind)) ∈ n.calls w (.kron i o kind) := by
    simp [Net.calls, hw]
  have c2 : (o, Reg.choleskyInverse (n.outputFunc i o kind)) ∈ n.calls w (.kron i o kind) := by
    simp [Net.calls, hw]
  obtain ⟨L', L, l1, l0, l2, l3⟩ := (H i hm.1 vi hi gi).2.2 _ (regsAt_mem hb c1)
  obtain ⟨M', M, m1, m0, m2, m3⟩ := (H o hm.2.1 vo ho go).2.2 _ (regsAt_mem hb c2)
  have hL : L * L' = 1 := mul_eq_one_comm.1 l0
  have hM : M * M' = 1 := mul_eq_one_comm.1 m0
  have hL' : Lᵀ * L'ᵀ = 1 := by rw [← transpose_mul, l0, transpose_one]
  have hM' : M'ᵀ * Mᵀ = 1 := by rw [← transpose_mul, hM, transpose_one]
  have hk : kind.renorm ^ (1 / 2 : ℝ) * kind.renorm ^ (-(1 / 2) : ℝ) = 1 := by
    rw [← Real.rpow_add hm.2.2]; norm_num
  refine ⟨s', hr, L, M, _, _, _, _, split_spec hwf hb gi, split_spec hwf hb go, l2, l3, m2, m3,
    fun x => ⟨kind.renorm ^ (-(1 / 2) : ℝ) • (L' * (x * M'ᵀ)), ?_, ?_⟩,
    fun x => ⟨kind.renorm ^ (-(1 / 2) : ℝ) • (L'ᵀ * (x * M')), ?_, ?_⟩⟩
  · unfold Net.multiplyCholeskyInverse
    rw [l1, m1]
    rfl
  · rw [Matrix.mul_smul, Matrix.smul_mul, smul_smul, hk, one_smul, ← Matrix.mul_assoc, hL, Matrix.one_mul,
      Matrix.mul_assoc, hM', Matrix.mul_one]
  · unfold Net.multiplyCholeskyInverse
    rw [l1, m1]
    rfl
  · rw [Matrix.mul_smul, Matrix.smul_mul, smul_smul, hk, one_smul, ← Matrix.mul_assoc, hL', Matrix.one_mul,
      Matrix.mul_assoc, m0, Matrix.mul_one]

/-- Full blocks use the whole damping. -/
theorem C96_full {n : Net F T} (hwf : n.WF) {la : (k : ℕ) → Linalg k} (hla : ∀ k, (la k).Good)
    (c : Constants) (hclip : c.clipThreshold ≤ 0) {w : Wanted} {s : n.State} (hs : n.makeVars w = .ok s)
    (sched : List (F × Values F T n.dim)) {f : F} (hb : BlockOf.full f ∈ n.blocks)
    {exp : ℝ} (hexp : exp ∈ w.exps) (h1 : exp ≠ 1) {v : Values F T n.dim} (hf : LastRun sched f v) (hv : n.Healthy v) :
    ∃ s', n.runInverses la c s s sched = .ok s' ∧
      ∃ X, IsPower (v.cov f + n.damping.value v • 1) exp X ∧
        ∀ now x, n.multiplyFull s' now f exp x = .ok (X *ᵥ x) := by
  obtain ⟨s', hr, H⟩ := factor_served hwf hla c hclip hs sched
  have c1 : (f, Reg.matpower exp n.fullFunc) ∈ n.calls w (.full f) := by
    unfold Net.calls
    simp only [List.mem_append, List.mem_flatMap]
    exact .inl (.inl ⟨exp, hexp, by simp [Net.callsMat]⟩)
  obtain ⟨X, x1, x2⟩ := (H f (hwf.full _ hb) v hf hv).1 exp _ (regsAt_mem hb c1)
  refine ⟨s', hr, X, x2, fun now x => ?_⟩
  unfold Net.multiplyFull
  rw [getMatpower_stored (s' f) now v (now.cov f) (v.cov f) h1, x1]
  rfl

/-- Names are what the ids of the damping functions are made of; two factors of one name are never used: creating
the variables fails. -/
theorem C96_names {n : Net F T} (w : Wanted) {f g : F} (hf : f ∈ n.factors) (hg : g ∈ n.factors) (h : f ≠ g)
    (hn : n.name f = n.name g) : ∃ e, n.makeVars w = .error e := by
  cases hs : n.makeVars w with
  | error e => exact ⟨e, rfl⟩
  | ok s => exact absurd ((makeVars_ok hs).1 f hf g hg hn) h

/-! ### A concrete case -/

/-- Two fully connected layers that read the same input: factors `a` (input) and `b`, `c` (outputs). -/
noncomputable def demoNet : Net (Fin 3) Unit where
  dim := ![2, 1, 1]
  name := ![ "a", "b", "c" ]
  factors := [0, 1, 2]
  blocks := [.kron 0 1 .fullyConnected, .kron 0 2 .fullyConnected]
  piRule := .tracenorm
  power := 1
  damping := .tensor ()
  render := fun | .tensor _ => "damping" | .num _ => "x"

theorem demoNet_wf : demoNet.WF where
  kron := by
    intro i o k h
    simp only [demoNet, List.mem_cons, BlockOf.kron.injEq, List.not_mem_nil, or_false] at h
    rcases h with ⟨rfl, rfl, rfl⟩ | ⟨rfl, rfl, rfl⟩ <;> simp [demoNet, KronKind.renorm]
  full := by
    intro f h
    simp [demoNet] at h
  dim := by intro f; fin_cases f <;> simp [demoNet]

theorem demo_ids : (demoNet.inputFunc 0 1 .fullyConnected).id ≠ (demoNet.inputFunc 0 2 .fullyConnected).id := by
  intro h
  simp [Net.inputFunc, Net.dampingId, KronKind.normalization, demoNet] at h

theorem demoNet_vars : ∃ s, demoNet.makeVars ⟨[-1], false, false⟩ = .ok s := by
  have hr : ∀ f, (demoNet.register ⟨[-1], false, false⟩ f).matRegs = (![
      [(-1, (demoNet.inputFunc 0 1 .fullyConnected).id), (-1, (demoNet.inputFunc 0 2 .fullyConnected).id)],
      [(-1, (demoNet.outputFunc 0 1 .fullyConnected).id)],
      [(-1, (demoNet.outputFunc 0 2 .fullyConnected).id)]] : Fin 3 → List (ℝ × FuncId Unit)) f ∧
      (demoNet.register ⟨[-1], false, false⟩ f).cholRegs = [] ∧
      (demoNet.register ⟨[-1], false, false⟩ f).cholInvRegs = [] := by
    intro f
    rw [register_at]
    have e : demoNet.blocks = [.kron 0 1 .fullyConnected, .kron 0 2 .fullyConnected] := rfl
    have hne : (-1 : ℝ) ≠ 1 := by norm_num
    fin_cases f <;>
      simp [Net.regsAt, e, Net.calls, Net.callsMat, Dense.after, Reg.apply, Dense.registerMatpower, hne,
        Dense.registerDamping, addTo, demo_ids.symm]
  have hnames : ((demoNet.factors.map fun f => demoNet.name f ++ "/" ++ "cov") ++
      demoNet.factors.flatMap (demoNet.invNames (demoNet.register ⟨[-1], false, false⟩))).Nodup := by
    have e : demoNet.factors = [0, 1, 2] := rfl
    simp only [e, Net.invNames, List.flatMap_cons, List.flatMap_nil, (hr _).1, (hr _).2.1, (hr _).2.2]
    simp [Net.listToString, Net.inputFunc, Net.outputFunc, Net.dampingId, KronKind.normalization, demoNet]
  unfold Net.makeVars
  simp only
  rw [if_pos hnames]
  have hex : ∀ f, ∃ x, (Dense.after (k := demoNet.dim f) (demoNet.regsAt ⟨[-1], false, false⟩ f)).instantiate = .ok x :=
    fun f => (instantiate_after (k := demoNet.dim f) _).imp fun _ h => h.1
  choose x hx using hex
  exact ⟨_, instantiateAll_eq demoNet x _ _ (by simp [demoNet]) (fun f _ => by rw [register_at]; exact hx f)⟩

/-- Covariances 2 I, 3 and 5 and damping 1. -/
noncomputable def demoValues : Values (Fin 3) Unit demoNet.dim where
  cov := fun f => (![2, 3, 5] : Fin 3 → ℝ) f • 1
  tensor := fun _ => 1

theorem demo_healthy : demoNet.Healthy demoValues where
  psd := by
    intro f
    refine ⟨by simp [demoValues, Matrix.IsSymm], fun v => ?_⟩
    have : (0 : ℝ) ≤ (![2, 3, 5] : Fin 3 → ℝ) f := by fin_cases f <;> simp
    simp only [demoValues, Matrix.smul_mulVec, one_mulVec, dotProduct_smul, smul_eq_mul]
    exact mul_nonneg this (Finset.sum_nonneg fun i _ => mul_self_nonneg _)
  damping := by simp [demoNet, Scalar.value, demoValues]

/-- After one update of all inverses both layers are preconditioned with their own splits 2 : 3 and 2 : 5. -/
example {la : (k : ℕ) → Linalg k} (hla : ∀ k, (la k).Good) :
    ∃ s s', demoNet.makeVars ⟨[-1], false, false⟩ = .ok s ∧
      demoNet.runInverses la Constants.default s s [(0, demoValues), (1, demoValues), (2, demoValues)] = .ok s' ∧
      ∃ d e d' e', demoNet.Split 0 1 .fullyConnected demoValues d e ∧ d / e = 2 / 3 ∧
        demoNet.Split 0 2 .fullyConnected demoValues d' e' ∧ d' / e' = 2 / 5 ∧
        (∀ now x, ∃ y, demoNet.multiplyMatpower s' now 0 1 .fullyConnected (-1) x = .ok y ∧
          (1 : ℝ) • ((demoValues.cov 0 + d • 1) * y * (demoValues.cov 1 + e • 1)) = x) ∧
        (∀ now x, ∃ y, demoNet.multiplyMatpower s' now 0 2 .fullyConnected (-1) x = .ok y ∧
          (1 : ℝ) • ((demoValues.cov 0 + d' • 1) * y * (demoValues.cov 2 + e' • 1)) = x) := by
  obtain ⟨s, hs⟩ := demoNet_vars
  obtain ⟨s', hr, h⟩ := C96_inverse demoNet_wf hla Constants.default le_rfl hs (by simp)
    [(0, demoValues), (1, demoValues), (2, demoValues)] demo_healthy
  have l0 : LastRun [((0 : Fin 3), demoValues), (1, demoValues), (2, demoValues)] 0 demoValues :=
    ⟨[], [(1, demoValues), (2, demoValues)], rfl, by simp⟩
  have l1 : LastRun [((0 : Fin 3), demoValues), (1, demoValues), (2, demoValues)] 1 demoValues :=
    ⟨[(0, demoValues)], [(2, demoValues)], rfl, by simp⟩
  have l2 : LastRun [((0 : Fin 3), demoValues), (1, demoValues), (2, demoValues)] 2 demoValues :=
    ⟨[(0, demoValues), (1, demoValues)], [], rfl, by simp⟩
  obtain ⟨d, e, a1, -, a3⟩ := h 0 1 .fullyConnected (by simp [demoNet]) l0 l1
  obtain ⟨d', e', b1, -, b3⟩ := h 0 2 .fullyConnected (by simp [demoNet]) l0 l2
  have t0 : (demoValues.cov 0).trace = 4 := by
    show ((2 : ℝ) • (1 : Matrix (Fin 2) (Fin 2) ℝ)).trace = 4
    rw [Matrix.trace_smul, Matrix.trace_one]; norm_num
  have t1 : (demoValues.cov 1).trace = 3 := by
    show ((3 : ℝ) • (1 : Matrix (Fin 1) (Fin 1) ℝ)).trace = 3
    rw [Matrix.trace_smul, Matrix.trace_one]; norm_num
  have t2 : (demoValues.cov 2).trace = 5 := by
    show ((5 : ℝ) • (1 : Matrix (Fin 1) (Fin 1) ℝ)).trace = 5
    rw [Matrix.trace_smul, Matrix.trace_one]; norm_num
  refine ⟨s, s', hs, hr, d, e, d', e', a1, ?_, b1, ?_, a3, b3⟩
  · rw [a1.ratio rfl (by rw [t0]; norm_num) (by rw [t1]; norm_num), t0, t1]
    simp [demoNet]; norm_num
  · rw [b1.ratio rfl (by rw [t0]; norm_num) (by rw [t2]; norm_num), t0, t2]
    simp [demoNet]; norm_num

end Kfac.Factor
