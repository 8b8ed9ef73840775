import Verif.Match.Model

/-! # List semantics of the matcher -/

namespace Kfac.Match

variable {N Name : Type} [DecidableEq N] [DecidableEq Name]

mutual
/-- All results of a pattern, in the order in which the matcher tries them. -/
def results (g : Graph N) : Pat N Name → N → Bind N Name → Set N → List (Bind N Name × Set N)
  | .elem name restrictions, d, b, c =>
    if restrictions.all (fun r => r d) then
      match name with
      | none => [(b, c ∪ {d})]
      | some v =>
        match b v with
        | some x => if x = d then [(b, c ∪ {d})] else []
        | none => [(Function.update b v (some d), c ∪ {d})]
    else []
  | .choice ps, d, b, c => resultsChoice g ps d b c
  | .list _, _, _, _ => []
  | .not p, d, b, c => if (results g p d b ∅).isEmpty then [(b, c)] else []
  | .any, d, b, c => [(b, c ∪ {d})]
  | .anyNoconsume, _, b, c => [(b, c)]
  | .internalIn p ins, d, b, c =>
    (results g p d b c).flatMap fun r =>
      match g.inputs d with
      | none => []
      | some l => resultsList g ins l r.1 r.2
  | .internalOut p outs, d, b, c =>
    (results g p d b c).flatMap fun r =>
      match g.outputs d with
      | none => []
      | some l => resultsList g outs l r.1 r.2
  | .internalInOut p ins outs, d, b, c =>
    (results g p d b c).flatMap fun r =>
      match g.inputs d with
      | none => []
      | some l => (resultsList g ins l r.1 r.2).flatMap fun r' =>
        match g.outputs d with
        | none => []
        | some l' => resultsList g outs l' r'.1 r'.2
  | .eqv n, d, b, c => if d = n then [(b, c ∪ {d})] else []

def resultsChoice (g : Graph N) : List (Pat N Name) → N → Bind N Name → Set N → List (Bind N Name × Set N)
  | [], _, _, _ => []
  | p :: ps, d, b, c => results g p d b c ++ resultsChoice g ps d b c

def resultsList (g : Graph N) : List (Pat N Name) → List N → Bind N Name → Set N → List (Bind N Name × Set N)
  | [], [], b, c => [(b, c)]
  | p :: ps, x :: xs, b, c => (results g p x b c).flatMap fun r => resultsList g ps xs r.1 r.2
  | [], _ :: _, _, _ => []
  | _ :: _, [], _, _ => []
end

/-- Calling a continuation on a list of results until it returns something truthy. -/
def tryAll {σ R X : Type} : List X → (X → Ans σ R) → Ans σ R
  | [], _ => fail
  | x :: xs, k => orElse (k x) (tryAll xs k)

theorem orElse_fail {σ R : Type} (a : Ans σ R) : orElse a fail = a := by
  funext s
  simp only [orElse, fail]
  split
  · next h => rw [h]
  · next h => rw [h]

theorem orElse_assoc {σ R : Type} (a b c : Ans σ R) : orElse (orElse a b) c = orElse a (orElse b c) := by
  funext s
  simp only [orElse]
  cases a s with
  | mk r s' => cases r <;> rfl

theorem fail_orElse {σ R : Type} (a : Ans σ R) : orElse fail a = a := rfl

theorem tryAll_append {σ R X : Type} (l l' : List X) (k : X → Ans σ R) :
    tryAll (l ++ l') k = orElse (tryAll l k) (tryAll l' k) := by
  induction l with
  | nil => rfl
  | cons x l ih => rw [List.cons_append, tryAll, tryAll, ih, orElse_assoc]

theorem tryAll_flatMap {σ R X Y : Type} (l : List X) (f : X → List Y) (k : Y → Ans σ R) :
    tryAll (l.flatMap f) k = tryAll l fun x => tryAll (f x) k := by
  induction l with
  | nil => rfl
  | cons x l ih => rw [List.flatMap_cons, tryAll_append, ih, tryAll]

theorem tryAll_single {σ R X : Type} (x : X) (k : X → Ans σ R) : tryAll [x] k = k x := by
  rw [tryAll, tryAll, orElse_fail]

theorem tryAll_true {X : Type} (l : List X) :
    (tryAll l (fun _ s => (some (), s)) () : Option Unit × Unit).1 = if l.isEmpty then none else some () := by
  cases l <;> rfl

theorem tryAll_first {X Y : Type} (l : List X) (f : X → Y) :
    (tryAll l (fun x s => (some (f x), s)) () : Option Y × Unit).1 = l.head?.map f := by
  cases l <;> rfl

theorem tryAll_collect {X Y : Type} (l : List X) (f : X → Y) (s : List Y) :
    (tryAll (R := Unit) l (fun x s => (none, s ++ [f x])) s).2 = s ++ l.map f := by
  induction l generalizing s with
  | nil => simp [tryAll, fail]
  | cons x l ih => rw [tryAll, orElse]; simp [ih]

mutual
theorem matchPat_eq (g : Graph N) : ∀ (p : Pat N Name) {σ R : Type} (d : N) (b : Bind N Name) (c : Set N)
    (k : Bind N Name → Set N → Ans σ R), matchPat g p d b c k = tryAll (results g p d b c) fun r => k r.1 r.2
  | .elem name rs, _, _, d, b, c, k => by
    simp only [matchPat, results]
    by_cases h : (rs.all fun r => r d) = true
    · rw [if_pos h, if_pos h]
      cases name with
      | none => simp only [tryAll_single]
      | some v =>
        cases hb : b v with
        | none => simp only [hb, tryAll_single]
        | some x =>
          by_cases hx : x = d
          · simp only [hb, if_pos hx, tryAll_single]
          · simp only [hb, if_neg hx]; rfl
    · rw [if_neg h, if_neg h]; rfl
  | .choice ps, _, _, d, b, c, k => by
    simp only [matchPat, results]
    exact matchChoice_eq g ps d b c k
  | .list _, _, _, _, _, _, _ => by simp only [matchPat, results]; rfl
  | .not p, _, _, d, b, c, k => by
    simp only [matchPat, results]
    rw [matchPat_eq g p, tryAll_true]
    by_cases h : (results g p d b ∅).isEmpty = true
    · rw [if_pos h, if_pos h]; simp only [tryAll_single]
    · rw [if_neg h, if_neg h]; rfl
  | .any, _, _, d, b, c, k => by simp only [matchPat, results, tryAll_single]
  | .anyNoconsume, _, _, d, b, c, k => by simp only [matchPat, results, tryAll_single]
  | .internalIn p ins, _, _, d, b, c, k => by
    simp only [matchPat, results]
    rw [matchPat_eq g p, tryAll_flatMap]
    congr 1; funext r
    cases g.inputs d with
    | none => rfl
    | some l => exact matchList_eq g ins l r.1 r.2 k
  | .internalOut p outs, _, _, d, b, c, k => by
    simp only [matchPat, results]
    rw [matchPat_eq g p, tryAll_flatMap]
    congr 1; funext r
    cases g.outputs d with
    | none => rfl
    | some l => exact matchList_eq g outs l r.1 r.2 k
  | .internalInOut p ins outs, _, _, d, b, c, k => by
    simp only [matchPat, results]
    rw [matchPat_eq g p, tryAll_flatMap]
    congr 1; funext r
    cases g.inputs d with
    | none => rfl
    | some l =>
      simp only
      rw [matchList_eq g ins, tryAll_flatMap]
      congr 1; funext r'
      cases g.outputs d with
      | none => rfl
      | some l' => exact matchList_eq g outs l' r'.1 r'.2 k
  | .eqv n, _, _, d, b, c, k => by
    simp only [matchPat, results]
    by_cases h : d = n
    · rw [if_pos h, if_pos h]; simp only [tryAll_single]
    · rw [if_neg h, if_neg h]; rfl

theorem matchChoice_eq (g : Graph N) : ∀ (ps : List (Pat N Name)) {σ R : Type} (d : N) (b : Bind N Name) (c : Set N)
    (k : Bind N Name → Set N → Ans σ R),
    matchChoice g ps d b c k = tryAll (resultsChoice g ps d b c) fun r => k r.1 r.2
  | [], _, _, _, _, _, _ => by simp only [matchChoice, resultsChoice]; rfl
  | p :: ps, _, _, d, b, c, k => by
    simp only [matchChoice, resultsChoice]
    rw [matchPat_eq g p, matchChoice_eq g ps, tryAll_append]

theorem matchList_eq (g : Graph N) : ∀ (ps : List (Pat N Name)) {σ R : Type} (l : List N) (b : Bind N Name) (c : Set N)
    (k : Bind N Name → Set N → Ans σ R),
    matchList g ps l b c k = tryAll (resultsList g ps l b c) fun r => k r.1 r.2
  | [], _, _, [], b, c, k => by simp only [matchList, resultsList, tryAll_single]
  | p :: ps, _, _, x :: xs, b, c, k => by
    simp only [matchList, resultsList]
    rw [matchPat_eq g p, tryAll_flatMap]
    congr 1; funext r
    exact matchList_eq g ps xs r.1 r.2 k
  | [], _, _, _ :: _, _, _, _ => by simp only [matchList, resultsList]; rfl
  | _ :: _, _, _, [], _, _, _ => by simp only [matchList, resultsList]; rfl
end

end Kfac.Match
