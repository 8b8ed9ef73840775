import Verif.Opt.Lists
import Mathlib.Tactic.NormNum
import Mathlib.Algebra.BigOperators.Fin

/-!
# C95 — arithmetic on lists of (tensor, variable) pairs checks that the lists match
-/

namespace Kfac.Opt

set_option linter.unusedSectionVars false

variable {K E : Type} [DecidableEq K] [Fintype E]

/-! ### Specification -/

/-- The two lists name the same variables in the same order. -/
def SameVars (a b : Pairs K E) : Prop := a.map (·.2) = b.map (·.2)

/-- Some position has two different variables. -/
def DifferAt (a b : Pairs K E) (i : ℕ) : Prop := ∃ x y, a[i]? = some x ∧ b[i]? = some y ∧ x.2 ≠ y.2

/-! ### Lemmas -/

theorem zip_any_iff (a b : List K) :
    (a.zip b).any (fun p => p.1 ≠ p.2) = true ↔ ∃ (i : ℕ) (x y : K), a[i]? = some x ∧ b[i]? = some y ∧ x ≠ y := by
  rw [List.any_eq_true]
  constructor
  · rintro ⟨p, hp, hne⟩
    obtain ⟨i, hi, rfl⟩ := List.mem_iff_getElem.1 hp
    simp only [List.length_zip, lt_min_iff] at hi
    refine ⟨i, a[i], b[i], by simp [hi], by simp [hi], ?_⟩
    simpa using hne
  · rintro ⟨i, x, y, hx, hy, hne⟩
    refine ⟨(x, y), List.mem_iff_getElem?.2 ⟨i, ?_⟩, by simpa using hne⟩
    rw [List.getElem?_zip_eq_some]
    exact ⟨hx, hy⟩

theorem checkMatch_iff (a b : Pairs K E) : (∃ e, checkMatch a b = .error e) ↔ ∃ i, DifferAt a b i := by
  have hz : (a.zip b).any (fun p => p.1.2 ≠ p.2.2) = ((a.map (·.2)).zip (b.map (·.2))).any fun p => p.1 ≠ p.2 := by
    rw [List.zip_map, List.any_map]
    rfl
  unfold checkMatch
  rw [hz]
  have hd : (∃ i, DifferAt a b i) ↔
      ∃ (i : ℕ) (x y : K), (a.map (·.2))[i]? = some x ∧ (b.map (·.2))[i]? = some y ∧ x ≠ y := by
    constructor
    · rintro ⟨i, x, y, hx, hy, hne⟩
      exact ⟨i, x.2, y.2, by simp [hx], by simp [hy], hne⟩
    · rintro ⟨i, x, y, hx, hy, hne⟩
      rw [List.getElem?_map, Option.map_eq_some_iff] at hx hy
      obtain ⟨p, hp, rfl⟩ := hx
      obtain ⟨q, hq, rfl⟩ := hy
      exact ⟨i, p, q, hp, hq, hne⟩
  rw [hd, ← zip_any_iff]
  split_ifs with h
  · exact ⟨fun _ => h, fun _ => ⟨_, rfl⟩⟩
  · exact ⟨fun ⟨e, he⟩ => by simp at he, fun hh => absurd hh h⟩

theorem checkMatch_ok (a b : Pairs K E) (h : ¬ ∃ i, DifferAt a b i) : checkMatch a b = .ok () := by
  cases hc : checkMatch a b with
  | ok u => rfl
  | error e => exact absurd ((checkMatch_iff a b).1 ⟨e, hc⟩) h

theorem same_not_differ (a b : Pairs K E) (h : SameVars a b) : ¬ ∃ i, DifferAt a b i := by
  rintro ⟨i, x, y, hx, hy, hne⟩
  have := congrArg (fun l : List K => l[i]?) h
  simp only [List.getElem?_map, hx, hy, Option.map_some, Option.some.injEq] at this
  exact hne this

theorem not_same_differ (a b : Pairs K E) (hl : a.length = b.length) (h : ¬ SameVars a b) : ∃ i, DifferAt a b i := by
  by_contra hno
  apply h
  unfold SameVars
  apply List.ext_getElem?
  intro i
  by_cases hi : i < a.length
  · have hi' : i < b.length := hl ▸ hi
    by_contra hne
    apply hno
    refine ⟨i, a[i], b[i], by simp [hi], by simp [hi'], ?_⟩
    intro hh
    apply hne
    simp [hi, hi', hh]
  · simp [not_lt.1 hi, hl ▸ not_lt.1 hi]

theorem same_length (a b : Pairs K E) (h : SameVars a b) : a.length = b.length := by
  have := congrArg List.length h
  simpa using this

/-! ### The theorems -/

/-- Lists with the same variables in the same order: `sum_p` adds tensor by tensor and keeps the variables, `ip_p` is the sum of
all products of entries, and `assert_variables_match_pairs_list` accepts them unless they are empty. -/
theorem C95_matching (a b : Pairs K E) (h : SameVars a b) :
    (∃ c, sumP a b = .ok c ∧ SameVars c a ∧
      ∀ i (hi : i < a.length) (hi' : i < b.length), c[i]? = some (a[i].1 + b[i].1, a[i].2)) ∧
    (a ≠ [] → ipP a b = .ok (∑ i : Fin a.length, ∑ e, a[i].1 e * (b[i.1]'(same_length a b h ▸ i.2)).1 e)) ∧
    (a ≠ [] → assertVariablesMatch a b = .ok ()) := by
  have hc := checkMatch_ok a b (same_not_differ a b h)
  have hl := same_length a b h
  refine ⟨⟨_, by rw [sumP, hc]; rfl, ?_, ?_⟩, ?_, ?_⟩
  · unfold SameVars
    rw [List.map_map]
    apply List.ext_getElem?
    intro i
    by_cases hi : i < a.length
    · have hi' : i < b.length := hl ▸ hi
      simp [hi, hi']
    · simp [not_lt.1 hi]
  · intro i hi hi'
    simp [hi, hi']
  · intro hne
    have hb : b ≠ [] := by
      rintro rfl
      exact hne (List.length_eq_zero_iff.1 hl)
    unfold ipP
    rw [hc]
    simp only [bind, Except.bind]
    unfold ip
    rw [if_neg (by simp [hne, hb])]
    congr 1
    have key : ((a.map (·.1)).zip (b.map (·.1))).map (fun p => innerProduct p.1 p.2) =
        List.ofFn fun i : Fin a.length => ∑ e, a[i].1 e * (b[i.1]'(hl ▸ i.2)).1 e := by
      apply List.ext_getElem
      · simp [hl]
      · intro i h1 h2
        simp [innerProduct]
    rw [key, List.sum_ofFn]
  · intro hne
    have hb : b ≠ [] := by
      rintro rfl
      exact hne (List.length_eq_zero_iff.1 hl)
    unfold assertVariablesMatch
    rw [if_neg (by simp [hne, hb]), if_neg]
    rw [zip_any_iff]
    rintro ⟨i, x, y, hx, hy, hxy⟩
    rw [h, hy] at hx
    exact hxy (Option.some.inj hx).symm

/-- Lists of the same length with different variables are rejected by all three. -/
theorem C95_mismatch_partial (a b : Pairs K E) (hl : a.length = b.length) (h : ¬ SameVars a b) :
    (∃ e, sumP a b = .error e) ∧ (∃ e, ipP a b = .error e) ∧ ∃ e, assertVariablesMatch a b = .error e := by
  have hd := not_same_differ a b hl h
  obtain ⟨e, he⟩ := (checkMatch_iff a b).2 hd
  refine ⟨⟨e, by rw [sumP, he]; rfl⟩, ⟨e, by rw [ipP, he]; rfl⟩, ?_⟩
  unfold assertVariablesMatch
  split_ifs with h1 h2
  · exact ⟨_, rfl⟩
  · exact ⟨_, rfl⟩
  · exfalso
    apply h2
    rw [zip_any_iff]
    obtain ⟨i, x, y, hx, hy, hne⟩ := hd
    exact ⟨i, x.2, y.2, by simp [hx], by simp [hy], hne⟩

/-- But when one list continues where the other one ends, all three accept them and ignore the rest. -/
theorem C95_prefix_counterexample (a b : Pairs K E) (ha : a ≠ []) (hb : b ≠ []) :
    ¬ SameVars (a ++ b) a ∧ sumP (a ++ b) a = sumP a a ∧ ipP (a ++ b) a = ipP a a ∧ (∃ r, ipP a a = .ok r) ∧
      assertVariablesMatch (a ++ b) a = .ok () := by
  have hzip : ∀ {α : Type} (l m : List α), (l ++ m).zip l = l.zip l := by
    intro α l m
    conv_lhs => rw [← List.append_nil l]
    rw [List.append_assoc, List.zip_append rfl]
    simp
  have hc : checkMatch (a ++ b) a = checkMatch a a := by
    unfold checkMatch
    rw [hzip]
  refine ⟨?_, ?_, ?_, ?_, ?_⟩
  · intro h
    have := same_length _ _ h
    simp only [List.length_append, Nat.add_eq_left] at this
    exact hb (List.length_eq_zero_iff.1 this)
  · unfold sumP
    rw [hc, hzip]
  · unfold ipP ip
    rw [hc, List.map_append, hzip]
  · exact ⟨_, (C95_matching a a rfl).2.1 ha⟩
  · unfold assertVariablesMatch
    rw [if_neg (by simp [ha]), List.map_append, hzip, if_neg]
    rw [zip_any_iff]
    rintro ⟨i, x, y, hx, hy, hne⟩
    rw [hx] at hy
    exact hne (Option.some.inj hy)

/-- Two empty lists name the same variables, but `ip_p` and `assert_variables_match_pairs_list` fail on them. -/
theorem C95_empty_counterexample :
    SameVars ([] : Pairs K E) [] ∧ (∃ e, ipP ([] : Pairs K E) [] = .error e) ∧
      ∃ e, assertVariablesMatch ([] : Pairs K E) [] = .error e :=
  ⟨rfl, ⟨_, rfl⟩, ⟨_, rfl⟩⟩

/-! ### Examples -/

/-- Lists over the variables 0 and 1 with scalar tensors. -/
def exPairs (u v : ℝ) : Pairs ℕ Unit := [(fun _ => u, 0), (fun _ => v, 1)]

example : ipP (exPairs 2 3) (exPairs 5 7) = .ok 31 := by
  rw [(C95_matching (exPairs 2 3) (exPairs 5 7) rfl).2.1 (by simp [exPairs])]
  congr 1
  change ∑ i : Fin 2, _ = _
  rw [Fin.sum_univ_two]
  simp [exPairs]
  norm_num

example : ∃ e, ipP (exPairs 2 3) (exPairs 5 7).reverse = .error e :=
  (C95_mismatch_partial (exPairs 2 3) (exPairs 5 7).reverse rfl (by simp [SameVars, exPairs])).2.1

end Kfac.Opt
