import Verif.Opt.Model
import Mathlib.Tactic.SplitIfs

/-! # C46: the constructor of the optimizer -/

namespace Kfac.Opt

/-- Specification: the momentum types that use the quadratic model. -/
def QmodelName (t : String) : Prop := t = "qmodel" ∨ t = "qmodel_fixedmu"

/-- Specification: the others. -/
def PlainName (t : String) : Prop := t = "regular" ∨ t = "adam"

/-- Construction succeeds, with stored momentum type `t` and base learning rate `lr`, exactly for the consistent
combinations of arguments. -/
theorem C46_accepts (a : Args) (t : String) (lr : ℝ) :
    construct a = .ok (t, lr) ↔
      t.toList = a.momentumType.toList.map Char.toLower ∧ (QmodelName t ∨ PlainName t) ∧
      (a.normConstraint ≠ none → PlainName t) ∧ (t = "qmodel" → a.momentum = none) ∧
      (a.usePassedLoss = true ∨ a.trainBatch = true) ∧
      (QmodelName t → a.learningRate = none ∧
        (∀ r, a.rescale = some r → lr = r) ∧ (a.rescale = none → lr = 1)) ∧
      (PlainName t → a.learningRate = some lr ∧ a.rescale = none) := by
  have e1 : isQmodel "regular" = false := by decide
  have e2 : isQmodel "adam" = false := by decide
  have e3 : isQmodel "qmodel" = true := by decide
  have e4 : isQmodel "qmodel_fixedmu" = true := by decide
  obtain ⟨mt, mom, nc, l, r, u, tb⟩ := a
  simp only [construct]
  rw [show (t.toList = mt.toList.map Char.toLower) ↔ t = lower mt from
    ⟨fun h => by rw [lower, ← h, String.ofList_toList], fun h => by rw [h, lower, String.toList_ofList]⟩]
  generalize lower mt = T
  by_cases htT : t = T
  swap
  · have hne : ∀ x : Except String (String × ℝ), (∀ l, x ≠ .ok (t, l)) → (x = .ok (t, lr) ↔ False) :=
      fun x hx => ⟨fun h => hx lr h, False.elim⟩
    rw [hne _ ?_]
    · simp [htT]
    · intro l'
      split_ifs <;> (try cases l) <;> (try cases r) <;> simp [Ne.symm htT]
  subst htT
  by_cases h : t ∈ ["regular", "adam", "qmodel", "qmodel_fixedmu"]
  · rw [if_neg (not_not.2 h)]
    simp only [List.mem_cons, List.not_mem_nil, or_false] at h
    rcases h with rfl | rfl | rfl | rfl <;> cases mom <;> cases nc <;> cases l <;> cases r <;> cases u <;>
      cases tb <;> simp [e1, e2, e3, e4, QmodelName, PlainName, eq_comm]
  · rw [if_pos h]
    simp only [List.mem_cons, List.not_mem_nil, or_false, not_or] at h
    simp [QmodelName, PlainName, h]

/-- Momentum type 'qmodel' in any capitalisation, momentum and learning rate None: accepted, base learning rate 1;
with `qmodel_update_rescale` 1/2 the base learning rate is 1/2. -/
example : construct ⟨"QModel", none, none, none, none, true, false⟩ = .ok ("qmodel", 1) := by
  rw [C46_accepts]
  have h : "qmodel".toList = "QModel".toList.map Char.toLower := by decide
  refine ⟨h, .inl (.inl rfl), by simp, by simp, by simp, by simp, ?_⟩
  rintro (h | h) <;> exact absurd h (by decide)

example : construct ⟨"qmodel_fixedmu", some (1 / 2), none, none, some (1 / 2), true, false⟩ =
    .ok ("qmodel_fixedmu", 1 / 2) := by
  rw [C46_accepts]
  have h : "qmodel_fixedmu".toList = "qmodel_fixedmu".toList.map Char.toLower := by decide
  refine ⟨h, .inl (.inr rfl), by simp, by simp, by simp, by simp, ?_⟩
  rintro (h | h) <;> exact absurd h (by decide)

/-- The default momentum of 0.9 is refused for 'qmodel'. -/
example (lr : ℝ) : construct ⟨"qmodel", some 0.9, none, none, none, true, false⟩ ≠ .ok ("qmodel", lr) := by
  rw [Ne, C46_accepts]
  simp

end Kfac.Opt
