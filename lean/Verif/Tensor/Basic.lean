import Mathlib.Data.List.Basic
import Mathlib.Algebra.BigOperators.Group.List.Basic
import Mathlib.Tactic.Ring

/-!
# Dense tensors in row-major layout

A TensorFlow dense tensor is modelled as a shape together with its entries in row-major order.
This is the part of TensorFlow the modelled code relies on (`tf.reshape`, `tf.concat`, slicing,
broadcasting); it is trusted, not modelled from `/repo`.
-/

namespace Kfac

/-- A dense tensor: `shape` and row-major `data`. -/
structure Tensor (α : Type) where
  shape : List Nat
  data : List α
deriving DecidableEq, Repr

namespace Tensor
variable {α : Type}

/-- A tensor is well formed when it has as many entries as its shape says. -/
def WF (t : Tensor α) : Prop := t.data.length = t.shape.prod

instance (t : Tensor α) : Decidable t.WF := by unfold WF; infer_instance

/-- Row-major linear index of a multi-index. -/
def ravel : List Nat → List Nat → Nat
  | _ :: ss, i :: is => i * ss.prod + ravel ss is
  | _, _ => 0

/-- Multi-index of a row-major linear index. -/
def unravel : List Nat → Nat → List Nat
  | [], _ => []
  | _ :: ss, n => n / ss.prod :: unravel ss (n % ss.prod)

/-- A multi-index is valid for a shape: same rank and each component within bounds. -/
def Valid (shape idx : List Nat) : Prop := List.Forall₂ (· < ·) idx shape

theorem ravel_lt : ∀ {shape idx : List Nat}, Valid shape idx → ravel shape idx < shape.prod
  | [], [], _ => by simp [ravel]
  | s :: ss, i :: is, h => by
    cases h with
    | cons h1 h2 =>
      have := ravel_lt (shape := ss) (idx := is) h2
      simp only [ravel, List.prod_cons]
      calc i * ss.prod + ravel ss is < i * ss.prod + ss.prod := by omega
        _ = (i + 1) * ss.prod := by ring
        _ ≤ s * ss.prod := Nat.mul_le_mul_right _ h1

theorem unravel_ravel : ∀ {shape idx : List Nat}, Valid shape idx →
    unravel shape (ravel shape idx) = idx
  | [], [], _ => rfl
  | s :: ss, i :: is, h => by
    cases h with
    | cons h1 h2 =>
      have hlt := ravel_lt (shape := ss) (idx := is) h2
      have hpos : 0 < ss.prod := by omega
      simp only [ravel, unravel, List.cons.injEq]
      constructor
      · rw [Nat.mul_comm, Nat.mul_add_div hpos, Nat.div_eq_of_lt hlt]; omega
      · rw [Nat.mul_comm, Nat.mul_add_mod, Nat.mod_eq_of_lt hlt]
        exact unravel_ravel h2

theorem unravel_valid : ∀ {shape : List Nat} {n : Nat}, n < shape.prod → Valid shape (unravel shape n)
  | [], n, _ => by simp [unravel, Valid]
  | s :: ss, n, h => by
    simp only [List.prod_cons] at h
    have hpos : 0 < ss.prod := Nat.pos_of_ne_zero (by rintro h0; simp [h0] at h)
    refine List.Forall₂.cons ?_ ?_
    · exact Nat.div_lt_of_lt_mul (by rw [Nat.mul_comm]; exact h)
    · exact unravel_valid (Nat.mod_lt _ hpos)

theorem ravel_unravel : ∀ {shape : List Nat} {n : Nat}, n < shape.prod →
    ravel shape (unravel shape n) = n
  | [], n, h => by simp at h; simp [ravel, h]
  | s :: ss, n, h => by
    simp only [List.prod_cons] at h
    have hpos : 0 < ss.prod := Nat.pos_of_ne_zero (by rintro h0; simp [h0] at h)
    simp only [ravel, unravel]
    rw [ravel_unravel (Nat.mod_lt _ hpos), Nat.mul_comm]
    exact Nat.div_add_mod n ss.prod

/-- Entry of a tensor at a multi-index (`0` outside; used only at valid indices). -/
def get [Zero α] (t : Tensor α) (idx : List Nat) : α := t.data.getD (ravel t.shape idx) 0

/-- The tensor of a given shape with given entries. -/
def ofFn (shape : List Nat) (f : List Nat → α) : Tensor α :=
  ⟨shape, (List.range shape.prod).map fun n => f (unravel shape n)⟩

@[simp] theorem ofFn_shape (shape : List Nat) (f : List Nat → α) : (ofFn shape f).shape = shape := rfl

theorem ofFn_wf (shape : List Nat) (f : List Nat → α) : (ofFn shape f).WF := by
  simp [WF, ofFn]

theorem get_ofFn [Zero α] {shape : List Nat} (f : List Nat → α) {idx : List Nat}
    (h : Valid shape idx) : (ofFn shape f).get idx = f idx := by
  have h1 := ravel_lt h
  simp [get, ofFn, List.getD_eq_getElem?_getD, h1, unravel_ravel h]

/-- Two well-formed tensors of equal shape with equal entries are equal. -/
theorem ext_get [Zero α] {s t : Tensor α} (hs : s.WF) (ht : t.WF) (hsh : s.shape = t.shape)
    (h : ∀ idx, Valid s.shape idx → s.get idx = t.get idx) : s = t := by
  cases s with
  | mk s1 s2 =>
    cases t with
    | mk t1 t2 =>
      simp only at hsh
      subst hsh
      congr 1
      simp only [WF] at hs ht
      apply List.ext_getElem (by omega)
      intro n h1 h2
      have hn : n < s1.prod := by omega
      have := h (unravel s1 n) (unravel_valid hn)
      simpa [get, ravel_unravel hn, List.getD_eq_getElem?_getD, h1, h2] using this

theorem eq_ofFn [Zero α] {t : Tensor α} (ht : t.WF) : t = ofFn t.shape t.get :=
  ext_get ht (ofFn_wf _ _) rfl fun _ h => (get_ofFn _ h).symm

/-- `tf.reshape` to a fully specified shape: fails unless the sizes agree. -/
def reshape (t : Tensor α) (shape : List Nat) : Except String (Tensor α) :=
  if t.data.length = shape.prod then .ok ⟨shape, t.data⟩ else .error "reshape: size mismatch"

end Tensor
end Kfac
