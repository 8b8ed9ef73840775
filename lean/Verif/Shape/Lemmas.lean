import Verif.Shape.Model
import Mathlib.Algebra.BigOperators.Group.List.Basic
import Mathlib.Tactic.Ring

/-! # Lemmas about the shapes -/

namespace Kfac.Shape

@[simp] theorem ok_bind {α β : Type} (a : α) (f : α → Except String β) : (Except.ok a >>= f) = f a := rfl

@[simp] theorem error_bind {α β : Type} (e : String) (f : α → Except String β) :
    ((Except.error e : Except String α) >>= f) = .error e := rfl

@[simp] theorem pure_ok {α : Type} (a : α) : (pure a : Except String α) = .ok a := rfl

theorem bind_ok {α β : Type} {x : Except String α} {f : α → Except String β} {b : β} :
    (x >>= f) = .ok b ↔ ∃ a, x = .ok a ∧ f a = .ok b := by
  cases x <;> simp

theorem mapM_ok {α β : Type} {f : α → Except String β} {g : α → β} : ∀ {l : List α}, (∀ a ∈ l, f a = .ok (g a)) →
    l.mapM f = .ok (l.map g)
  | [], _ => rfl
  | a :: l, h => by
    rw [List.mapM_cons, h a (by simp), ok_bind, mapM_ok fun b hb => h b (by simp [hb])]
    rfl

@[simp] theorem broadcastRev_self : ∀ s : Dims, broadcastRev s s = .ok s
  | [] => rfl
  | a :: s => by simp [broadcastRev, broadcastRev_self s]

@[simp] theorem broadcast_self (s : Dims) : broadcast s s = .ok s := by simp [broadcast]

@[simp] theorem broadcast_row (m n : ℕ) : broadcast [m, n] [n] = .ok [m, n] := by simp [broadcast, broadcastRev]

theorem broadcast_patches (a b c n : ℕ) : broadcast [a, b, c, n] [n] = .ok [a, b, c, n] := by
  simp [broadcast, broadcastRev]

theorem broadcast_outer (m n : ℕ) : broadcast [m, 1] [n] = .ok [m, n] := by
  by_cases h : 1 = n <;> simp [broadcast, broadcastRev, h]

theorem computeCov_matrix (m n : ℕ) : computeCov [m, n] = .ok [n, n] := by simp [computeCov, matmul, transpose]

theorem homog_matrix (bias : Bool) (m n : ℕ) : homog bias [m, n] = .ok [m, n + one bias] := by
  cases bias <;> simp [homog, appendHomog, one]

theorem homog_vector (bias : Bool) (n : ℕ) : homog bias [n] = .ok [n + one bias] := by
  cases bias <;> simp [homog, appendHomog, one]

theorem homog_patches (bias : Bool) (a b c n : ℕ) : homog bias [a, b, c, n] = .ok [a, b, c, n + one bias] := by
  cases bias <;> simp [homog, appendHomog, one]

theorem reshapeRows_mul {n : ℕ} (hn : 0 < n) {s : Dims} {m : ℕ} (h : s.prod = m * n) :
    reshapeRows n s = .ok [m, n] := by
  simp [reshapeRows, h, Nat.ne_of_gt hn, Nat.mul_div_cancel _ hn]

theorem reshapeCols_mul {n : ℕ} (hn : 0 < n) {s : Dims} {m : ℕ} (h : s.prod = n * m) :
    reshapeCols n s = .ok [n, m] := by
  simp [reshapeCols, h, Nat.ne_of_gt hn, Nat.mul_div_cancel_left _ hn]

/-- An update with contributions of the declared shape succeeds. -/
theorem updated_ok {v : Dims} {cs : List (Except String Dims)} (h0 : cs ≠ []) (h : ∀ c ∈ cs, c = .ok v) :
    updated (.ok v) cs = .ok v := by
  have e : cs.mapM id = .ok (cs.map fun _ => v) := mapM_ok h
  obtain ⟨c, cs, rfl⟩ := List.exists_cons_of_ne_nil h0
  simp only [updated, ok_bind, e, List.map_cons]
  rw [if_neg, if_pos trivial]
  simp

/-- An update never changes the shape of the variable. -/
theorem updated_eq {v w : Dims} {cs : List (Except String Dims)} (h : updated (.ok v) cs = .ok w) : w = v := by
  simp only [updated, ok_bind, bind_ok] at h
  obtain ⟨new, -, h⟩ := h
  cases new with
  | nil => simp at h
  | cons a rest =>
    simp only at h
    split_ifs at h with h1 h2
    exact (Except.ok.inj h).symm

/-- Towers whose tensors have the shape `s` behind the batch. -/
def tensors (s : Dims) (d : Option ℕ) (batches : List ℕ) : List T := batches.map fun n => ⟨n :: s, d⟩

theorem partitioned_tensors {s : Dims} {d : Option ℕ} {batches : List ℕ} (h : batches ≠ []) :
    partitioned (tensors s d batches) = .ok ⟨batches.sum :: s, d⟩ := by
  obtain ⟨n, ns, rfl⟩ := List.exists_cons_of_ne_nil h
  have e : (tensors s d (n :: ns)).mapM (fun s => dim s.dims 0) = .ok (n :: ns) := by
    rw [mapM_ok (g := fun t => t.dims.headD 0)]
    · simp [tensors, Function.comp_def]
    · intro a ha
      simp only [tensors, List.mem_map] at ha
      obtain ⟨b, -, rfl⟩ := ha
      simp [dim]
  unfold partitioned
  simp only [tensors, List.map_cons] at e ⊢
  rw [if_neg, if_neg, e]
  · simp
  · simp
  · simp

/-- What the factors get to see of the batches of the towers. -/
def merged (concat : Bool) (batches : List ℕ) : List ℕ := if concat then [batches.sum] else batches

theorem merged_ne {concat : Bool} {batches : List ℕ} (h : batches ≠ []) : merged concat batches ≠ [] := by
  cases concat <;> simp [merged, h]

theorem processData_ok (concat : Bool) {s t : Dims} {d e : Option ℕ} {batches : List ℕ} (h : batches ≠ []) (k : ℕ) :
    processData concat (tensors s d batches) (List.replicate k (tensors t e batches)) =
      .ok (tensors s d (merged concat batches), List.replicate k (tensors t e (merged concat batches))) := by
  cases concat
  · simp [processData, merged]
  · have h1 := partitioned_tensors (s := s) (d := d) h
    have h2 := partitioned_tensors (s := t) (d := e) h
    have h3 : (List.replicate k (tensors t e batches)).mapM (fun g => do return [← partitioned g]) =
        .ok (List.replicate k (tensors t e [batches.sum])) := by
      rw [mapM_ok (g := fun _ => tensors t e [batches.sum]), List.map_replicate]
      intro a ha
      rw [List.eq_of_mem_replicate ha, h2]
      rfl
    simp only [processData, if_true, h1, ok_bind, h3, merged]
    rfl

theorem first_replicate {s : Dims} {d : Option ℕ} {batches : List ℕ} (h : batches ≠ []) {k : ℕ} (hk : 0 < k) :
    ∃ n ∈ batches, first (List.replicate k (tensors s d batches)) = .ok ⟨n :: s, d⟩ := by
  obtain ⟨n, ns, rfl⟩ := List.exists_cons_of_ne_nil h
  obtain ⟨k, rfl⟩ : ∃ j, k = j + 1 := ⟨k - 1, by omega⟩
  exact ⟨n, by simp, by simp [first, tensors, List.replicate_succ]⟩

theorem flatten_ne {α : Type} {l : List α} (h : l ≠ []) {k : ℕ} (hk : 0 < k) : (List.replicate k l).flatten ≠ [] := by
  obtain ⟨k, rfl⟩ : ∃ j, k = j + 1 := ⟨k - 1, by omega⟩
  simp [List.replicate_succ, h]

theorem mem_flatten_tensors {s : Dims} {d : Option ℕ} {batches : List ℕ} {k : ℕ} {x : T}
    (h : x ∈ (List.replicate k (tensors s d batches)).flatten) : ∃ n ∈ batches, x = ⟨n :: s, d⟩ := by
  simp only [List.mem_flatten, List.mem_replicate] at h
  obtain ⟨l, ⟨-, rfl⟩, h⟩ := h
  simp only [tensors, List.mem_map] at h
  obtain ⟨n, hn, rfl⟩ := h
  exact ⟨n, hn, rfl⟩

theorem tensors_ne {s : Dims} {d : Option ℕ} {batches : List ℕ} (h : batches ≠ []) : tensors s d batches ≠ [] := by
  simpa [tensors] using h

/-- An update with one contribution for each source and tower. -/
theorem updated_tensors {s : Dims} {d : Option ℕ} {batches : List ℕ} {k : ℕ} {v : Dims} {f : T → Except String Dims}
    (h : batches ≠ []) (hk : 0 < k) (hf : ∀ n ∈ batches, f ⟨n :: s, d⟩ = .ok v) :
    updated (.ok v) ((List.replicate k (tensors s d batches)).flatten.map f) = .ok v := by
  refine updated_ok (by simpa using flatten_ne (tensors_ne h) hk) fun c hc => ?_
  obtain ⟨x, hx, rfl⟩ := List.mem_map.1 hc
  obtain ⟨n, hn, rfl⟩ := mem_flatten_tensors hx
  exact hf n hn

theorem singleton_replicate {α : Type} (l : α) : [l] = List.replicate 1 l := rfl

theorem fcKronecker_ok {n : ℕ} {batches : List ℕ} {k : ℕ} (bias : Bool) (h : batches ≠ []) (hk : 0 < k) :
    fcKronecker (List.replicate k (tensors [n] none batches)) bias = .ok [n + one bias, n + one bias] := by
  obtain ⟨a, -, e⟩ := first_replicate (s := [n]) (d := none) h hk
  simp only [fcKronecker, e, ok_bind, Option.isSome_none, Bool.false_eq_true, if_false, dim, List.getElem?_cons_succ,
    List.getElem?_cons_zero]
  exact updated_tensors h hk fun m _ => by simp [homog_matrix, computeCov_matrix]

theorem diagKronecker_ok {n : ℕ} {batches : List ℕ} {k : ℕ} (bias : Bool) (h : batches ≠ []) (hk : 0 < k) :
    diagKronecker (List.replicate k (tensors [n] none batches)) bias = .ok [n + one bias] := by
  obtain ⟨a, -, e⟩ := first_replicate (s := [n]) (d := none) h hk
  simp only [diagKronecker, e, ok_bind, dim, List.getElem?_cons_succ, List.getElem?_cons_zero, pure_ok]
  exact updated_tensors h hk fun m _ => by simp [diagonalCov, homog_vector, reduceFirst]

theorem diagKronecker_sparse {n : ℕ} {batches : List ℕ} {k : ℕ} (bias : Bool) (h : batches ≠ []) (hk : 0 < k) :
    diagKronecker (List.replicate k (tensors [] (some n) batches)) bias = .ok [n + one bias] := by
  obtain ⟨a, -, e⟩ := first_replicate (s := []) (d := some n) h hk
  simp only [diagKronecker, e, ok_bind]
  exact updated_tensors h hk fun m _ => by simp [diagonalCov, homog_vector, reduceFirst]

/-- An operator of this size, as a matrix or as a diagonal. -/
def operator (diag : Bool) (n : ℕ) : Dims := if diag then [n] else [n, n]

theorem opMatmul_operator (diag : Bool) (m n : ℕ) : opMatmul (operator diag m) [m, n] = .ok [m, n] := by
  cases diag <;> simp [operator, opMatmul, matmul]

theorem opMatmulRight_operator (diag : Bool) (m n : ℕ) : opMatmulRight (operator diag n) [m, n] = .ok [m, n] := by
  cases diag <;> simp [operator, opMatmulRight, matmul]

/-- The parameters of a layer with weights of shape `s ++ [o]` and possibly a bias. -/
def layer (s : Dims) (o : ℕ) (bias : Bool) : Params := ⟨s ++ [o], if bias then some [o] else none⟩

@[simp] theorem layer_bias (s : Dims) (o : ℕ) (bias : Bool) : (layer s o bias).bias.isSome = bias := by
  cases bias <;> rfl

theorem toMat2d_layer {s : Dims} {o : ℕ} (ho : 0 < o) (bias : Bool) :
    toMat2d (layer s o bias) = .ok [s.prod + one bias, o] := by
  cases bias
  · simp [toMat2d, layer, lastDim, one, reshapeRows_mul ho (s := s ++ [o]) (m := s.prod) (by simp)]
  · simp [toMat2d, layer, lastDim, one, reshapeRows_mul ho (s := s ++ [o]) (m := s.prod) (by simp), concatRows]

theorem ofMat2d_layer {s : Dims} {o : ℕ} (bias : Bool) :
    ofMat2d (layer s o bias) [s.prod + one bias, o] = .ok (layer s o bias) := by
  cases bias
  · simp [ofMat2d, layer, one, reshapeTo]
  · simp [ofMat2d, layer, one, reshapeTo]

theorem kronMultiply_ok {s : Dims} {o : ℕ} (ho : 0 < o) (bias a b : Bool) :
    kronMultiply (operator a (s.prod + one bias)) (operator b o) (layer s o bias) = .ok (layer s o bias) := by
  simp [kronMultiply, toMat2d_layer ho, opMatmul_operator, opMatmulRight_operator, ofMat2d_layer]

theorem columnMultiply_diag {n : ℕ} {ps : List Dims} (h : (ps.map List.prod).sum = n) :
    columnMultiply [n] ps = .ok ps := by
  simp [columnMultiply, opMatmul, h]

theorem columnMultiply_full {n : ℕ} {ps : List Dims} (h : (ps.map List.prod).sum = n) :
    columnMultiply [n, n] ps = .ok ps := by
  simp [columnMultiply, opMatmul, matmul, h]

theorem layer_size (s : Dims) (o : ℕ) (bias : Bool) :
    ((layer s o bias).toList.map List.prod).sum = (s.prod + one bias) * o := by
  cases bias <;> simp [layer, Params.toList, one, Nat.add_mul]

end Kfac.Shape
