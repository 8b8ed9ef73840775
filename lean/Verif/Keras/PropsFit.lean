import Verif.Keras.Fit
import Verif.Keras.PropsDecay
import Mathlib.Tactic.NormNum

/-! # C118: a whole run with decay callbacks -/

namespace Kfac.Keras.Decay

theorem trainBegin_ok (o : Opt) (cbs : List Callback) :
    trainBegin o cbs = .ok () ↔ ∀ cb ∈ cbs, (o.attrs cb.hyperparameter).isSome ∧ o.iterations.isSome := by
  induction cbs with
  | nil => simp [trainBegin]
  | cons cb cbs ih =>
    simp only [trainBegin, onTrainBegin, List.forall_mem_cons]
    cases h1 : o.attrs cb.hyperparameter <;> cases h2 : o.iterations <;>
      simp_all [Bind.bind, Except.bind]

/-- Assignments leave the counter alone. -/
theorem foldl_assign_iterations (cbs : List Callback) (o : Opt) :
    (cbs.foldl assign o).iterations = o.iterations := by
  induction cbs generalizing o with
  | nil => rfl
  | cons cb cbs ih =>
    rw [List.foldl_cons, ih]
    unfold assign
    split <;> rfl

theorem foldl_assign_other (cbs : List Callback) (o : Opt) (k : String) (hk : ∀ cb ∈ cbs, cb.hyperparameter ≠ k) :
    (cbs.foldl assign o).attrs k = o.attrs k := by
  induction cbs generalizing o with
  | nil => rfl
  | cons cb cbs ih =>
    rw [List.foldl_cons, ih _ (fun c hc => hk c (List.mem_cons_of_mem _ hc))]
    have := hk cb List.mem_cons_self
    unfold assign
    split
    · simp only
      rw [if_neg (fun h => this h.symm)]
    · rfl

/-- With one callback per attribute, each makes its own assignment. -/
theorem foldl_assign_mem (cbs : List Callback) (hnd : (cbs.map (·.hyperparameter)).Nodup) (o : Opt) (t : ℕ)
    (ht : o.iterations = some t) (cb : Callback) (hcb : cb ∈ cbs) (v : ℝ) (hv : o.attrs cb.hyperparameter = some v) :
    (cbs.foldl assign o).attrs cb.hyperparameter = some (onBatchBegin cb.sched cb.delay t v) := by
  induction cbs generalizing o with
  | nil => simp at hcb
  | cons c cbs ih =>
    rw [List.map_cons, List.nodup_cons] at hnd
    rw [List.foldl_cons]
    rcases List.mem_cons.mp hcb with rfl | hcb'
    · rw [foldl_assign_other]
      · unfold assign
        rw [ht, hv]
        simp
      · intro c' hc' heq
        exact hnd.1 (heq ▸ List.mem_map_of_mem hc')
    · have hne : cb.hyperparameter ≠ c.hyperparameter := fun h => hnd.1 (h ▸ List.mem_map_of_mem hcb')
      refine ih hnd.2 (assign o c) ?_ hcb' ?_
      · unfold assign; split <;> simp_all
      · unfold assign
        split
        · simp only; rw [if_neg hne, hv]
        · exact hv

/-- The state after `n` batches and the attributes used by the last of them. -/
theorem batches_snoc (cbs : List Callback) (n : ℕ) (o : Opt) :
    batches cbs (n + 1) o =
      ((batch cbs (batches cbs n o).1).1, (batches cbs n o).2 ++ [(batch cbs (batches cbs n o).1).2]) := by
  induction n generalizing o with
  | zero => rfl
  | succ n ih =>
    conv_lhs => rw [batches]
    rw [ih]
    simp only [batches, List.cons_append]

theorem batches_add (cbs : List Callback) (m n : ℕ) (o : Opt) :
    batches cbs (m + n) o =
      ((batches cbs n (batches cbs m o).1).1, (batches cbs m o).2 ++ (batches cbs n (batches cbs m o).1).2) := by
  induction m generalizing o with
  | zero => simp [batches]
  | succ m ih =>
    rw [show m + 1 + n = (m + n) + 1 by omega, batches]
    rw [ih]
    simp only [batches, List.cons_append]

/-- A run of epochs is a run of all their batches. -/
theorem epochs_batches (cbs : List Callback) (metrics : String → Option ℝ) (e : ℕ) (ns : List ℕ) (o : Opt) :
    ((epochs cbs metrics e ns o).opt, (epochs cbs metrics e ns o).used) = batches cbs ns.sum o := by
  induction ns generalizing e o with
  | nil => rfl
  | cons n ns ih =>
    rw [List.sum_cons, batches_add, ← ih (e + 1)]
    rfl

theorem batches_length (cbs : List Callback) (n : ℕ) (o : Opt) : (batches cbs n o).2.length = n := by
  induction n generalizing o with
  | zero => rfl
  | succ n ih => simp [batches, ih]

theorem batches_iterations (cbs : List Callback) (n : ℕ) (o : Opt) (t : ℕ) (ht : o.iterations = some t) :
    (batches cbs n o).1.iterations = some (t + n) := by
  induction n generalizing o t with
  | zero => exact ht
  | succ n ih =>
    rw [batches]
    simp only
    rw [ih _ (t + 1) (by simp [batch, foldl_assign_iterations, ht])]
    congr 1
    omega

/-- The value of a decayed attribute after `n` batches. -/
def after (cb : Callback) (t : ℕ) (v : ℝ) : ℕ → ℝ
  | 0 => v
  | n + 1 => valueAt cb.sched cb.delay t v n

theorem after_succ (cb : Callback) (t : ℕ) (v : ℝ) (n : ℕ) :
    after cb t v (n + 1) = onBatchBegin cb.sched cb.delay (t + n) (after cb t v n) := by
  cases n <;> rfl

theorem batches_attr (cbs : List Callback) (hnd : (cbs.map (·.hyperparameter)).Nodup) (o : Opt) (t : ℕ)
    (ht : o.iterations = some t) (cb : Callback) (hcb : cb ∈ cbs) (v : ℝ) (hv : o.attrs cb.hyperparameter = some v)
    (n : ℕ) : (batches cbs n o).1.attrs cb.hyperparameter = some (after cb t v n) := by
  induction n with
  | zero => exact hv
  | succ n ih =>
    rw [batches_snoc, after_succ]
    exact foldl_assign_mem cbs hnd _ _ (batches_iterations cbs n o t ht) cb hcb _ ih

theorem batches_used (cbs : List Callback) (n i : ℕ) (hi : i < n) (o : Opt) :
    (batches cbs n o).2[i]? = some (batches cbs (i + 1) o).1.attrs := by
  obtain ⟨m, rfl⟩ := Nat.exists_eq_add_of_lt hi
  rw [show i + m + 1 = (i + 1) + m by omega, batches_add, List.getElem?_append_left (by rw [batches_length]; omega),
    batches_snoc]
  simp only
  rw [List.getElem?_append_right (by rw [batches_length]), batches_length]
  simp [batch]

theorem batches_other (cbs : List Callback) (k : String) (hk : ∀ cb ∈ cbs, cb.hyperparameter ≠ k) (n : ℕ) (o : Opt) :
    (batches cbs n o).1.attrs k = o.attrs k := by
  induction n with
  | zero => rfl
  | succ n ih =>
    rw [batches_snoc, ← ih]
    exact foldl_assign_other cbs _ k hk

theorem fit_ok {cbs : List Callback} {metrics : String → Option ℝ} {e : ℕ} {ns : List ℕ} {o : Opt} {h : History}
    (hf : fit cbs metrics e ns o = .ok h) : trainBegin o cbs = .ok () ∧ h = epochs cbs metrics e ns o := by
  unfold fit at hf
  cases hb : trainBegin o cbs with
  | error m => rw [hb] at hf; simp [Bind.bind, Except.bind] at hf
  | ok u =>
    rw [hb] at hf
    exact ⟨rfl, (Except.ok.inj hf).symm⟩

/-- C118, acceptance: a run is refused, before anything is changed, exactly when some callback names an attribute that
the optimizer does not have or the optimizer does not count its iterations. -/
theorem C118_accepted (cbs : List Callback) (metrics : String → Option ℝ) (e : ℕ) (ns : List ℕ) (o : Opt) :
    (∃ h, fit cbs metrics e ns o = .ok h) ↔
      ∀ cb ∈ cbs, (o.attrs cb.hyperparameter).isSome ∧ o.iterations.isSome := by
  rw [← trainBegin_ok]
  constructor
  · rintro ⟨h, hh⟩; exact (fit_ok hh).1
  · intro h
    refine ⟨epochs cbs metrics e ns o, ?_⟩
    unfold fit
    rw [h]
    rfl

/-- C118, values: with at most one callback per attribute, batch `i` of a run, counted over all epochs, uses for every
decayed attribute exactly the value its own schedule alone would give (C56), whatever the other callbacks, their order
and the division into epochs; attributes without a callback keep their value. -/
theorem C118_values (cbs : List Callback) (hnd : (cbs.map (·.hyperparameter)).Nodup) (metrics : String → Option ℝ)
    (e : ℕ) (ns : List ℕ) (o : Opt) (h : History) (hf : fit cbs metrics e ns o = .ok h) :
    h.used.length = ns.sum ∧
    (∀ cb ∈ cbs, ∃ t v, o.iterations = some t ∧ o.attrs cb.hyperparameter = some v ∧
      ∀ i < ns.sum, ∃ u, h.used[i]? = some u ∧
        u cb.hyperparameter = some (valueAt cb.sched cb.delay t v i)) ∧
    ∀ k, (∀ cb ∈ cbs, cb.hyperparameter ≠ k) → h.opt.attrs k = o.attrs k ∧ ∀ u ∈ h.used, u k = o.attrs k := by
  obtain ⟨hb, rfl⟩ := fit_ok hf
  have he := epochs_batches cbs metrics e ns o
  have h1 : (epochs cbs metrics e ns o).opt = (batches cbs ns.sum o).1 := congrArg Prod.fst he
  have h2 : (epochs cbs metrics e ns o).used = (batches cbs ns.sum o).2 := congrArg Prod.snd he
  refine ⟨by rw [h2, batches_length], ?_, ?_⟩
  · intro cb hcb
    obtain ⟨ha, hi⟩ := (trainBegin_ok o cbs).mp hb cb hcb
    obtain ⟨v, hv⟩ := Option.isSome_iff_exists.mp ha
    obtain ⟨t, ht⟩ := Option.isSome_iff_exists.mp hi
    refine ⟨t, v, ht, hv, fun i hin => ⟨_, by rw [h2]; exact batches_used cbs _ i hin o, ?_⟩⟩
    rw [batches_attr cbs hnd o t ht cb hcb v hv]
    rfl
  · intro k hk
    refine ⟨by rw [h1, batches_other cbs k hk], fun u hu => ?_⟩
    rw [h2] at hu
    obtain ⟨i, hi, rfl⟩ := List.mem_iff_getElem.mp hu
    rw [batches_length] at hi
    have := batches_used cbs _ i hi o
    rw [List.getElem?_eq_getElem (by rw [batches_length]; exact hi)] at this
    rw [Option.some.inj this, batches_other cbs k hk]

theorem foldl_onEpochEnd (o : Opt) (cbs : List Callback) (logs : String → Option ℝ) (k : String) :
    cbs.foldl (onEpochEnd o) logs k =
      if ∃ cb ∈ cbs, cb.hyperparameter = k then o.attrs k else logs k := by
  induction cbs generalizing logs with
  | nil => simp
  | cons cb cbs ih =>
    rw [List.foldl_cons, ih]
    by_cases h1 : ∃ c ∈ cbs, c.hyperparameter = k
    · rw [if_pos h1, if_pos (by obtain ⟨c, hc, h⟩ := h1; exact ⟨c, List.mem_cons_of_mem _ hc, h⟩)]
    · rw [if_neg h1]
      unfold onEpochEnd
      by_cases h2 : k = cb.hyperparameter
      · rw [if_pos h2, if_pos ⟨cb, List.mem_cons_self, h2.symm⟩, h2]
      · rw [if_neg h2, if_neg]
        rintro ⟨c, hc, h⟩
        rcases List.mem_cons.mp hc with rfl | hc
        · exact h2 h.symm
        · exact h1 ⟨c, hc, h⟩

/-- The epochs one by one: what epoch `j` has printed and logged. -/
theorem epochs_get (cbs : List Callback) (metrics : String → Option ℝ) (e : ℕ) (ns : List ℕ) (o : Opt) (j : ℕ)
    (hj : j < ns.length) :
    (epochs cbs metrics e ns o).logs[j]? =
      some (cbs.foldl (onEpochEnd (batches cbs (ns.take (j + 1)).sum o).1) metrics) := by
  induction ns generalizing e o j with
  | nil => simp at hj
  | cons n ns ih =>
    cases j with
    | zero => simp [epochs]
    | succ j =>
      simp only [epochs, List.getElem?_cons_succ]
      rw [ih _ _ _ (by simpa using hj), List.take_succ_cons, List.sum_cons, batches_add]

/-- C118, logs: the logs of every epoch with a batch hold for every decayed attribute the value its last batch has used,
and leave the other entries as they are. No two callbacks need name different attributes. -/
theorem C118_logs (cbs : List Callback) (metrics : String → Option ℝ) (e : ℕ) (ns : List ℕ) (o : Opt) (h : History)
    (hf : fit cbs metrics e ns o = .ok h) :
    h.logs.length = ns.length ∧ ∀ j (hj : j < ns.length), 0 < ns[j] → ∃ l u, h.logs[j]? = some l ∧
      h.used[(ns.take (j + 1)).sum - 1]? = some u ∧
      ∀ k, l k = if ∃ cb ∈ cbs, cb.hyperparameter = k then u k else metrics k := by
  obtain ⟨-, rfl⟩ := fit_ok hf
  have h2 : (epochs cbs metrics e ns o).used = (batches cbs ns.sum o).2 :=
    congrArg Prod.snd (epochs_batches cbs metrics e ns o)
  constructor
  · clear h2 hf
    induction ns generalizing e o with
    | nil => rfl
    | cons n ns ih => simp [epochs, ih]
  · intro j hj hn
    have hs : 0 < (ns.take (j + 1)).sum := by
      rw [List.take_succ_eq_append_getElem hj, List.sum_append]
      simp; omega
    have hle : (ns.take (j + 1)).sum ≤ ns.sum := by
      conv_rhs => rw [← List.take_append_drop (j + 1) ns, List.sum_append]
      omega
    refine ⟨_, (batches cbs ((ns.take (j + 1)).sum - 1 + 1) o).1.attrs, epochs_get cbs metrics e ns o j hj, ?_,
      fun k => ?_⟩
    · exact (h2 ▸ batches_used cbs _ ((ns.take (j + 1)).sum - 1) (by omega) o)
    · rw [foldl_onEpochEnd, Nat.sub_add_cancel hs]

/-- C118, resumption: a run can be cut between epochs: continuing the optimizer with the same callbacks gives the values,
the printed lines and the logs of the run that was not cut. -/
theorem C118_resume (cbs : List Callback) (metrics : String → Option ℝ) (e : ℕ) (ns ms : List ℕ) (o : Opt) (h : History)
    (hf : fit cbs metrics e (ns ++ ms) o = .ok h) :
    ∃ h1 h2, fit cbs metrics e ns o = .ok h1 ∧ fit cbs metrics (e + ns.length) ms h1.opt = .ok h2 ∧
      h.opt = h2.opt ∧ h.used = h1.used ++ h2.used ∧ h.printed = h1.printed ++ h2.printed ∧
      h.logs = h1.logs ++ h2.logs := by
  obtain ⟨hb, rfl⟩ := fit_ok hf
  have hb' := (trainBegin_ok o cbs).mp hb
  obtain ⟨h1, hh1⟩ := (C118_accepted cbs metrics e ns o).mpr hb'
  obtain ⟨-, rfl⟩ := fit_ok hh1
  have keep : ∀ (p : Opt) (c : Callback) (k : String), (p.attrs k).isSome → ((assign p c).attrs k).isSome := by
    intro p c k hk
    unfold assign
    split
    · simp only; split
      · rfl
      · exact hk
    · exact hk
  have keep2 : ∀ (l : List Callback) (p : Opt) (k : String), (p.attrs k).isSome →
      ((l.foldl assign p).attrs k).isSome := by
    intro l
    induction l with
    | nil => intro p k hk; exact hk
    | cons c l ih => intro p k hk; exact ih _ _ (keep _ _ _ hk)
  have keep3 : ∀ (n : ℕ) (p : Opt) (k : String), (p.attrs k).isSome → ((batches cbs n p).1.attrs k).isSome := by
    intro n
    induction n with
    | zero => intro p k hk; exact hk
    | succ n ih => intro p k hk; exact ih _ _ (keep2 _ _ _ hk)
  have hopt : (epochs cbs metrics e ns o).opt = (batches cbs ns.sum o).1 :=
    congrArg Prod.fst (epochs_batches cbs metrics e ns o)
  obtain ⟨h2, hh2⟩ := (C118_accepted cbs metrics (e + ns.length) ms (epochs cbs metrics e ns o).opt).mpr (by
    intro cb hcb
    obtain ⟨ha, hi⟩ := hb' cb hcb
    obtain ⟨t, ht⟩ := Option.isSome_iff_exists.mp hi
    rw [hopt, batches_iterations cbs _ o t ht]
    exact ⟨keep3 _ _ _ ha, rfl⟩)
  obtain ⟨-, rfl⟩ := fit_ok hh2
  refine ⟨_, _, hh1, hh2, ?_⟩
  clear hf hb hb' hh1 hh2 keep keep2 keep3 hopt
  induction ns generalizing e o with
  | nil => simp [epochs]
  | cons n ns ih =>
    obtain ⟨i1, i2, i3, i4⟩ := ih (e + 1) (batches cbs n o).1
    have hl : e + (n :: ns).length = e + 1 + ns.length := by simp; omega
    rw [hl]
    simp only [List.cons_append, epochs]
    exact ⟨i1, by rw [i2, List.append_assoc], by rw [i3, List.append_assoc], by rw [i4]⟩

/-- C118, printing (partial: the documentation promises a line every epoch for a verbosity above 1 only): a callback with
a verbosity of at most 0 prints nothing and one with a verbosity above 1 prints at the start of every epoch the value the
attribute then has. -/
theorem C118_printed_partial (cb : Callback) (metrics : String → Option ℝ) (e : ℕ) (ns : List ℕ) (o : Opt) (h : History)
    (hf : fit [cb] metrics e ns o = .ok h) :
    (cb.verbose ≤ 0 → h.printed = []) ∧
    (1 < cb.verbose → ∃ t v, o.iterations = some t ∧ o.attrs cb.hyperparameter = some v ∧
      h.printed = (List.range ns.length).map fun j =>
        (e + j + 1, cb.hyperparameter, after cb t v (ns.take j).sum)) := by
  obtain ⟨hb, rfl⟩ := fit_ok hf
  obtain ⟨ha, hi⟩ := (trainBegin_ok o [cb]).mp hb cb (by simp)
  clear hf hb
  constructor
  · intro hv
    clear ha hi
    induction ns generalizing e o with
    | nil => rfl
    | cons n ns ih =>
      simp only [epochs, ih]
      simp [onEpochBegin, not_lt.mpr hv]
  · intro hv
    obtain ⟨v, hv'⟩ := Option.isSome_iff_exists.mp ha
    obtain ⟨t, ht⟩ := Option.isSome_iff_exists.mp hi
    refine ⟨t, v, ht, hv', ?_⟩
    have key : ∀ (ns : List ℕ) (e m : ℕ), (epochs [cb] metrics e ns (batches [cb] m o).1).printed =
        (List.range ns.length).map fun j =>
          (e + j + 1, cb.hyperparameter, after cb t v (m + (ns.take j).sum)) := by
      intro ns
      induction ns with
      | nil => intros; rfl
      | cons n ns ih =>
        intro e m
        have hadd : (batches [cb] n (batches [cb] m o).1).1 = (batches [cb] (m + n) o).1 := by rw [batches_add]
        simp only [epochs, hadd, ih]
        rw [List.length_cons, List.range_succ_eq_map, List.map_cons, List.map_map]
        simp only [List.flatMap_cons, List.flatMap_nil, List.append_nil, onEpochBegin,
          batches_attr [cb] (by simp) o t ht cb (by simp) v hv' m]
        rw [if_pos (by omega)]
        simp only [List.singleton_append, List.take_zero, List.sum_nil, Nat.add_zero]
        congr 1
        apply List.map_congr_left
        intro j _
        simp only [Function.comp, Nat.succ_eq_add_one, List.take_succ_cons, List.sum_cons]
        rw [show e + 1 + j + 1 = e + (j + 1) + 1 by omega, ← Nat.add_assoc m]
    have := key ns e 0
    simpa [batches] using this

/-- C118 for every verbosity is false: "When > 1, the hyperparameter value is printed every epoch", but a verbosity of 1
prints as well. -/
theorem C118_verbose_counterexample (name : String) (delay : ℤ) (sched : Schedule) (metrics : String → Option ℝ)
    (v : ℝ) (t : ℕ) :
    ∃ h, fit [⟨name, delay, 1, sched⟩] metrics 0 [1] ⟨fun k => if k = name then some v else none, some t⟩ = .ok h ∧
      h.printed = [(1, name, v)] := by
  refine ⟨epochs [⟨name, delay, 1, sched⟩] metrics 0 [1] ⟨fun k => if k = name then some v else none, some t⟩, ?_, ?_⟩
  · simp [fit, trainBegin, onTrainBegin, Bind.bind, Except.bind, Pure.pure, Except.pure]
  · simp [epochs, onEpochBegin]

/-- Two attributes decayed at once, over two epochs of two batches. -/
noncomputable def exCallbacks : List Callback :=
  [⟨"learning_rate", 0, 2, polynomial 1 0 1 4⟩, ⟨"damping", 1, 0, fun s => if 0 < s then some (1 / 2) else none⟩]

example : (exCallbacks.map (·.hyperparameter)).Nodup := by decide +revert

example : ∃ h, fit exCallbacks (fun _ => none) 0 [2, 2]
      ⟨fun k => if k = "learning_rate" then some 1 else if k = "damping" then some 3 else none, some 0⟩ = .ok h ∧
    h.used.length = 4 ∧
    ∃ u, h.used[3]? = some u ∧ u "learning_rate" = some (1 / 4) ∧ u "damping" = some (1 / 2) := by
  obtain ⟨h, hh⟩ := (C118_accepted exCallbacks (fun _ => none) 0 [2, 2]
    ⟨fun k => if k = "learning_rate" then some 1 else if k = "damping" then some 3 else none, some 0⟩).mpr
    (by intro cb hcb; simp [exCallbacks] at hcb; rcases hcb with rfl | rfl <;> simp)
  obtain ⟨h1, h2, -⟩ := C118_values exCallbacks (by decide +revert) _ _ _ _ h hh
  refine ⟨h, hh, h1, ?_⟩
  obtain ⟨t, v, ht, hv, hu⟩ := h2 _ (by simp [exCallbacks] : (⟨"learning_rate", 0, 2, polynomial 1 0 1 4⟩ : Callback) ∈ exCallbacks)
  obtain ⟨t', v', ht', hv', hu'⟩ := h2 _ (by simp [exCallbacks] :
    (⟨"damping", 1, 0, fun s => if 0 < s then some (1 / 2) else none⟩ : Callback) ∈ exCallbacks)
  obtain ⟨u, hu1, hu2⟩ := hu 3 (by simp)
  obtain ⟨u', hu1', hu2'⟩ := hu' 3 (by simp)
  rw [hu1] at hu1'
  obtain rfl := Option.some.inj hu1'
  refine ⟨u, hu1, ?_, ?_⟩
  · simp only [Option.some.injEq] at ht
    subst ht
    simp only at hu2
    rw [hu2]
    simp [valueAt, onBatchBegin, polynomial]
    norm_num
  · simp only [Option.some.injEq] at ht'
    subst ht'
    simp only at hu2'
    rw [hu2']
    simp [valueAt, onBatchBegin]

end Kfac.Keras.Decay
