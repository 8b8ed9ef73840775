import Verif.Examples.Towers
import Mathlib.Tactic.Ring
import Mathlib.Tactic.NormNum
import Mathlib.Algebra.BigOperators.Group.List.Basic

/-! # C125: training with several towers -/

namespace Kfac.Examples.Towers

variable {α σ E : Type} [AddCommGroup E] [Module ℝ E]

/-! ### Pieces -/

theorem flatten_pieces (k n : ℕ) (xs : List α) : (pieces k n xs).flatten = xs.take (k * n) := by
  induction n generalizing xs with
  | zero => simp [pieces]
  | succ n ih =>
    rw [pieces, List.flatten_cons, ih, Nat.mul_succ, Nat.add_comm (k * n), List.take_add]

theorem length_pieces (k n : ℕ) (xs : List α) : (pieces k n xs).length = n := by
  induction n generalizing xs with
  | zero => rfl
  | succ n ih => simp [pieces, ih]

theorem mem_pieces_length (k n : ℕ) (xs : List α) (h : k * n ≤ xs.length) :
    ∀ p ∈ pieces k n xs, p.length = k := by
  induction n generalizing xs with
  | zero => simp [pieces]
  | succ n ih =>
    rw [Nat.mul_succ] at h
    intro p hp
    rcases List.mem_cons.1 hp with rfl | hp
    · rw [List.length_take]
      omega
    · exact ih _ (by rw [List.length_drop]; omega) p hp

theorem dvd_pieces (T k n : ℕ) (xs : List α) (hk : T ∣ k) (h : T ∣ xs.length) :
    ∀ p ∈ pieces k n xs, T ∣ p.length := by
  induction n generalizing xs with
  | zero => simp [pieces]
  | succ n ih =>
    intro p hp
    rcases List.mem_cons.1 hp with rfl | hp
    · rw [List.length_take]
      rcases Nat.le_total k xs.length with h' | h'
      · rwa [Nat.min_eq_left h']
      · rwa [Nat.min_eq_right h']
    · refine ih _ ?_ p hp
      rw [List.length_drop]
      exact Nat.dvd_sub h hk

theorem dropLast_pieces (k n : ℕ) (xs : List α) (h : k * (n - 1) ≤ xs.length) :
    ∀ p ∈ (pieces k n xs).dropLast, p.length = k := by
  induction n generalizing xs with
  | zero => simp [pieces]
  | succ n ih =>
    rcases n with _ | n
    · simp [pieces]
    · intro p hp
      simp only [Nat.add_sub_cancel, Nat.mul_succ] at h ih
      rw [pieces, List.dropLast_cons_of_ne_nil (by simp [pieces])] at hp
      rcases List.mem_cons.1 hp with rfl | hp
      · rw [List.length_take]
        omega
      · exact ih _ (by rw [List.length_drop]; omega) p hp

theorem nonempty_pieces (k n : ℕ) (xs : List α) (hk : 0 < k) (h : k * n < xs.length + k) :
    ∀ p ∈ pieces k n xs, p ≠ [] ∧ p.length ≤ k := by
  induction n generalizing xs with
  | zero => simp [pieces]
  | succ n ih =>
    intro p hp
    rw [Nat.mul_succ] at h
    rcases List.mem_cons.1 hp with rfl | hp
    · refine ⟨fun h0 => ?_, by rw [List.length_take]; omega⟩
      have := congrArg List.length h0
      rw [List.length_take, List.length_nil] at this
      omega
    · rcases n with _ | n
      · simp [pieces] at hp
      · rw [Nat.mul_succ] at h
        exact ih _ (by rw [List.length_drop, Nat.mul_succ]; omega) p hp

theorem count_bounds (B n : ℕ) (hB : 0 < B) :
    n ≤ B * ((n + B - 1) / B) ∧ B * ((n + B - 1) / B) < n + B := by
  have h1 := Nat.div_add_mod (n + B - 1) B
  have h2 := Nat.mod_lt (n + B - 1) hB
  omega

theorem flatten_batches (B : ℕ) (hB : 0 < B) (data : List α) : (batches B data).flatten = data := by
  rw [batches, flatten_pieces]
  exact List.take_of_length_le (count_bounds B _ hB).1

theorem dvd_flatten (T : ℕ) (bs : List (List α)) (h : ∀ b ∈ bs, T ∣ b.length) : T ∣ bs.flatten.length := by
  induction bs with
  | nil => simp
  | cons b bs ih =>
    rw [List.flatten_cons, List.length_append]
    exact Nat.dvd_add (h b (by simp)) (ih fun c hc => h c (by simp [hc]))

/-! ### Means -/

theorem sum_means (c : ℕ) (f : α → E) (ps : List (List α)) (h : ∀ p ∈ ps, p.length = c) :
    (ps.map fun p => mean (p.map f)).sum = (c : ℝ)⁻¹ • (ps.flatten.map f).sum := by
  induction ps with
  | nil => simp
  | cons p ps ih =>
    rw [List.map_cons, List.sum_cons, ih fun q hq => h q (by simp [hq]), List.flatten_cons, List.map_append,
      List.sum_append, smul_add, mean, List.length_map, h p (by simp)]

/-- Equal pieces: the mean of the means is the mean. -/
theorem mean_means (T : ℕ) (f : α → E) (b : List α) (h : T ∣ b.length) :
    mean ((pieces (b.length / T) T b).map fun p => mean (p.map f)) = mean (b.map f) := by
  have hl : b.length / T * T = b.length := Nat.div_mul_cancel h
  rw [mean, sum_means (b.length / T) f _ (mem_pieces_length _ _ _ hl.le), flatten_pieces, hl, List.take_length, mean,
    List.length_map, List.length_map, length_pieces, smul_smul, ← mul_inv, ← Nat.cast_mul,
    Nat.mul_comm, hl]

/-! ### Properties -/

/-- Specification: training without towers, every step averaging over a whole batch. -/
noncomputable def whole (q : σ → α → E) (update : σ → E → σ) : List (List α) → σ → List E × σ
  | [], s => ([], s)
  | b :: bs, s =>
    let m := (b.length : ℝ)⁻¹ • (b.map (q s)).sum
    let r := whole q update bs (update s m)
    (m :: r.1, r.2)

theorem step_eq (T : ℕ) (hT : 0 < T) (q : σ → α → E) (update : σ → E → σ) (b : List α) (h : T ∣ b.length) (s : σ) :
    step T q update b s = .ok (mean (b.map (q s)), update s (mean (b.map (q s)))) := by
  have hm : ¬(T = 0 ∨ b.length % T ≠ 0) := by
    rw [not_or, not_not]
    exact ⟨by omega, Nat.mod_eq_zero_of_dvd h⟩
  simp only [step, split, if_neg hm, Bind.bind, Except.bind, Pure.pure, Except.pure, mean_means T (q s) b h]

theorem loop_eq (T : ℕ) (hT : 0 < T) (q : σ → α → E) (update : σ → E → σ) (bs : List (List α))
    (h : ∀ b ∈ bs, T ∣ b.length) (s : σ) : loop T q update bs s = .ok (whole q update bs s) := by
  induction bs generalizing s with
  | nil => rfl
  | cons b bs ih =>
    rw [loop, step_eq T hT q update b (h b (by simp)) s]
    simp only [Bind.bind, Except.bind]
    rw [ih (fun c hc => h c (by simp [hc]))]
    simp [whole, mean, Pure.pure, Except.pure]

theorem loop_error (T : ℕ) (hT : 0 < T) (q : σ → α → E) (update : σ → E → σ) (bs : List (List α)) (s : σ)
    (r : List E × σ) (h : loop T q update bs s = .ok r) : ∀ b ∈ bs, T ∣ b.length := by
  induction bs generalizing s r with
  | nil => simp
  | cons b bs ih =>
    have hb : T ∣ b.length := by
      by_contra hn
      have : T = 0 ∨ b.length % T ≠ 0 := .inr fun h0 => hn (Nat.dvd_of_mod_eq_zero h0)
      simp [loop, step, split, if_pos this, Bind.bind, Except.bind] at h
    intro c hc
    rcases List.mem_cons.1 hc with rfl | hc
    · exact hb
    · rw [loop, step_eq T hT q update b hb s] at h
      simp only [Bind.bind, Except.bind] at h
      cases hl : loop T q update bs (update s (mean (b.map (q s)))) with
      | error e => rw [hl] at h; simp at h
      | ok r' => exact ih _ r' hl c hc

theorem train_eq (tb : ℕ) (devices : List String) (hd : devices ≠ []) (q : σ → α → E) (update : σ → E → σ)
    (data : List α) (s : σ) :
    train tb devices q update data s =
      loop devices.length q update (batches (tb * devices.length) data) s := by
  simp [train, hd]

/-- With at least one device training ends without an error exactly if the number of devices divides the number of examples
in all passes over the data: then and only then the last batch can be split. -/
theorem C125_completes_partial (tb : ℕ) (htb : 0 < tb) (devices : List String) (hd : devices ≠ []) (q : σ → α → E)
    (update : σ → E → σ) (data : List α) (s : σ) :
    (∃ r, train tb devices q update data s = .ok r) ↔ devices.length ∣ data.length := by
  have hT : 0 < devices.length := List.length_pos_iff.2 hd
  rw [train_eq tb devices hd]
  constructor
  · rintro ⟨r, hr⟩
    have := dvd_flatten _ _ (loop_error _ hT q update _ s r hr)
    rwa [flatten_batches _ (Nat.mul_pos htb hT)] at this
  · intro h
    exact ⟨_, loop_eq _ hT q update _ (dvd_pieces _ _ _ _ (Dvd.intro_left tb rfl) h) s⟩

/-- If it ends, the reported averages and the final parameters are those of training without towers on batches of
`tower_batch_size * len(devices)` examples, of which only the last may be smaller, and every example is used once. -/
theorem C125_single (tb : ℕ) (htb : 0 < tb) (devices : List String) (q : σ → α → E) (update : σ → E → σ)
    (data : List α) (s : σ) (r : List E × σ) (h : train tb devices q update data s = .ok r) :
    ∃ bs : List (List α), bs.flatten = data ∧ (∀ b ∈ bs.dropLast, b.length = tb * devices.length) ∧
      (∀ b ∈ bs, b ≠ [] ∧ b.length ≤ tb * devices.length) ∧ r = whole q update bs s := by
  by_cases hd : devices = []
  · simp [train, hd] at h
  have hT : 0 < devices.length := List.length_pos_iff.2 hd
  have hB := Nat.mul_pos htb hT
  have hc := count_bounds (tb * devices.length) data.length hB
  rw [train_eq tb devices hd] at h
  refine ⟨batches (tb * devices.length) data, flatten_batches _ hB data, ?_, nonempty_pieces _ _ _ hB hc.2, ?_⟩
  · refine dropLast_pieces _ _ _ ?_
    rw [Nat.mul_sub]
    omega
  · rw [loop_eq _ hT q update _ (loop_error _ hT q update _ s r h)] at h
    exact (Except.ok.inj h).symm

/-- One pass over the 60000 training examples of MNIST on seven devices never ends properly, whatever the model. -/
theorem C125_remainder_counterexample (devices : List String) (hd : devices.length = 7) (q : σ → α → E)
    (update : σ → E → σ) (data : List α) (hn : data.length = 60000) (s : σ) (r : List E × σ) :
    train 128 devices q update data s ≠ .ok r := by
  intro h
  have := (C125_completes_partial 128 (by decide) devices (by rintro rfl; simp at hd) q update data s).1 ⟨r, h⟩
  rw [hd, hn] at this
  omega

/-- Without devices one tower is prepared, but there is no device to place it on. -/
theorem C125_devices_counterexample (tb : ℕ) (q : σ → α → E) (update : σ → E → σ) (data : List α) (s : σ) :
    train tb [] q update data s = .error "IndexError: list index out of range" := by
  simp [train]

/-- Two towers with one example each, four examples: two steps, each with the mean of two examples. -/
example : ∃ r, train 1 ["/gpu:0", "/gpu:1"] (fun (s : ℝ) (a : ℝ) => a - s) (fun s m => s + m) [1, 3, 5, 11] 0 = .ok r ∧
    r = ([2, 6], 8) := by
  obtain ⟨r, hr⟩ := (C125_completes_partial 1 one_pos ["/gpu:0", "/gpu:1"] (by simp) (fun (s : ℝ) (a : ℝ) => a - s)
    (fun s m => s + m) [1, 3, 5, 11] 0).2 (by simp)
  refine ⟨r, hr, ?_⟩
  rw [train_eq _ _ (by simp), loop_eq _ (by simp) _ _ _ (by simp [batches, pieces])] at hr
  rw [← Except.ok.inj hr]
  norm_num [batches, pieces, whole]

end Kfac.Examples.Towers
