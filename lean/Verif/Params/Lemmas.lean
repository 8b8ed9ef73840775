import Verif.Params.Model

/-! Helper lemmas for the parameter-layout properties. -/

namespace Kfac.Params
open Kfac Tensor

variable {α : Type}

theorem columnLoop_flatten (ts : List (Tensor α)) (hwf : ∀ t ∈ ts, t.WF) (pre post : List α) :
    columnLoop (pre ++ (ts.map Tensor.data).flatten ++ post) (ts.map Tensor.shape) pre.length
      = .ok ts := by
  induction ts generalizing pre with
  | nil => rfl
  | cons t ts ih =>
    have ht : t.data.length = t.shape.prod := hwf t (by simp)
    have ih' := ih (fun u hu => hwf u (by simp [hu])) (pre ++ t.data)
    have e : pre ++ ((t :: ts).map Tensor.data).flatten ++ post
        = pre ++ t.data ++ (ts.map Tensor.data).flatten ++ post := by simp
    have hslice : List.take t.shape.prod (List.drop pre.length
        (pre ++ t.data ++ (ts.map Tensor.data).flatten ++ post)) = t.data := by
      rw [List.append_assoc, List.append_assoc, List.drop_left, ← ht, List.take_left]
    rw [e, List.map_cons, columnLoop, hslice]
    rw [List.length_append, ht] at ih'
    simp only [reshape, ht, if_true, Except.bind, bind, ih', pure, Except.pure]

theorem columnLoop_total (col : List α) (shapes : List (List Nat)) (offset : Nat)
    (h : offset + (shapes.map List.prod).sum ≤ col.length) :
    ∃ ts, columnLoop col shapes offset = .ok ts ∧ ts.map Tensor.shape = shapes ∧
      (∀ t ∈ ts, t.WF) ∧
      (ts.map Tensor.data).flatten = (col.drop offset).take (shapes.map List.prod).sum := by
  induction shapes generalizing offset with
  | nil => exact ⟨[], rfl, rfl, by simp, by simp⟩
  | cons s ss ih =>
    simp only [List.map_cons, List.sum_cons] at h
    obtain ⟨ts, h1, h2, h3, h4⟩ := ih (offset + s.prod) (by omega)
    have hlen : ((col.drop offset).take s.prod).length = s.prod := by
      simp; omega
    refine ⟨⟨s, (col.drop offset).take s.prod⟩ :: ts, ?_, by simp [h2], ?_, ?_⟩
    · simp only [columnLoop, reshape, hlen, if_true, Except.bind, bind, h1, pure, Except.pure]
    · intro t ht
      rcases List.mem_cons.1 ht with rfl | ht
      · exact hlen
      · exact h3 t ht
    · simp only [List.map_cons, List.flatten_cons, h4, List.sum_cons]
      rw [← List.drop_drop, List.take_add]

theorem columnLoop_short (col : List α) (shapes : List (List Nat)) (offset : Nat)
    (ho : offset ≤ col.length) (h : col.length < offset + (shapes.map List.prod).sum) :
    ∃ e, columnLoop col shapes offset = .error e := by
  induction shapes generalizing offset with
  | nil => simp at h; omega
  | cons s ss ih =>
    simp only [List.map_cons, List.sum_cons] at h
    by_cases hs : offset + s.prod ≤ col.length
    · obtain ⟨e, he⟩ := ih (offset + s.prod) hs (by omega)
      have hlen : ((col.drop offset).take s.prod).length = s.prod := by simp; omega
      exact ⟨e, by simp only [columnLoop, reshape, hlen, if_true, Except.bind, bind, he]⟩
    · have hlen : ((col.drop offset).take s.prod).length ≠ s.prod := by simp; omega
      exact ⟨_, by simp only [columnLoop, reshape, hlen, if_false, Except.bind, bind]; rfl⟩

theorem prod_eq_of_getLast? {s : List Nat} {c : Nat} (h : s.getLast? = some c) :
    s.prod = s.dropLast.prod * c := by
  have h2 : s = s.dropLast ++ [c] := by
    have := List.dropLast_append_getLast? c (by simpa using h)
    exact this.symm
  conv_lhs => rw [h2]
  simp

theorem reshapeTo2d_ok {t : Tensor α} {c : Nat} (hwf : t.WF) (hl : t.shape.getLast? = some c)
    (hc : c ≠ 0) : reshapeTo2d t = .ok ⟨[t.shape.dropLast.prod, c], t.data⟩ := by
  have hp : t.data.length = t.shape.dropLast.prod * c := by
    rw [hwf, prod_eq_of_getLast? hl]
  simp only [reshapeTo2d, hl, hc, if_false, hp, Nat.mul_mod_left, if_true]
  rw [Nat.mul_div_cancel _ (Nat.pos_of_ne_zero hc)]

theorem mapM_ok {β γ : Type} (f : β → Except String γ) (g : β → γ) (l : List β)
    (h : ∀ x ∈ l, f x = .ok (g x)) : l.mapM f = .ok (l.map g) := by
  induction l with
  | nil => rfl
  | cons x xs ih =>
    rw [List.mapM_cons, h x (by simp), ih fun y hy => h y (by simp [hy])]
    rfl

/-- Reading a concatenation of pieces that all have `n` entries along `axis`. -/
theorem concatGet_uniform [Zero α] (axis n : Nat) (ts : List (Tensor α))
    (hn : ∀ t ∈ ts, t.shape.getD axis 0 = n) (idx : List Nat) (hax : axis < idx.length)
    (hlt : idx.getD axis 0 < ts.length * n) :
    concatGet axis ts idx =
      (ts.getD (idx.getD axis 0 / n) ⟨[], []⟩).get (idx.set axis (idx.getD axis 0 % n)) := by
  induction ts generalizing idx with
  | nil => simp at hlt
  | cons t ts ih =>
    have hpos : 0 < n := by
      rcases Nat.eq_zero_or_pos n with h | h
      · simp [h] at hlt
      · exact h
    have ht := hn t (by simp)
    unfold concatGet
    simp only [ht]
    by_cases hi : idx.getD axis 0 < n
    · simp only [hi, if_true, Nat.div_eq_of_lt hi, Nat.mod_eq_of_lt hi]
      simp only [List.getD_cons_zero]
      congr 1
      apply List.ext_getElem (by simp)
      intro k h1 h2
      rw [List.getElem_set]
      split
      · subst_vars
        simp [List.getD_eq_getElem?_getD, h1]
      · rfl
    · simp only [hi, if_false]
      have hlt' : idx.getD axis 0 - n < ts.length * n := by
        simp only [List.length_cons] at hlt
        have : (ts.length + 1) * n = ts.length * n + n := by ring
        omega
      have hset : (idx.set axis (idx.getD axis 0 - n)).getD axis 0 = idx.getD axis 0 - n := by
        simp [List.getD_eq_getElem?_getD, hax]
      rw [ih (fun u hu => hn u (by simp [hu])) _ (by simpa using hax) (by rw [hset]; exact hlt')]
      rw [hset, List.set_set]
      have hge : n ≤ idx.getD axis 0 := by omega
      have h1 : idx.getD axis 0 / n = (idx.getD axis 0 - n) / n + 1 := by
        rw [Nat.div_eq_sub_div hpos hge]
      have h2 : idx.getD axis 0 % n = (idx.getD axis 0 - n) % n := Nat.mod_eq_sub_mod hge
      rw [h1, ← h2, List.getD_cons_succ]

theorem concat_ok [Zero α] {axis : Nat} {ts : List (Tensor α)} {shape : List Nat} (hne : ts ≠ [])
    (hs : ∀ t ∈ ts, t.shape.length = shape.length ∧ t.shape.set axis 0 = shape.set axis 0) :
    concat axis ts = .ok (ofFn (shape.set axis (ts.map fun u => u.shape.getD axis 0).sum)
      (concatGet axis ts)) := by
  cases ts with
  | nil => exact absurd rfl hne
  | cons t ts =>
    have ht := hs t (by simp)
    have hall : (ts.all fun u => decide (u.shape.length = t.shape.length ∧
        u.shape.set axis 0 = t.shape.set axis 0)) = true := by
      rw [List.all_eq_true]
      intro u hu
      have := hs u (by simp [hu])
      simp [this.1, this.2, ht.1, ht.2]
    have hset : ∀ x, t.shape.set axis x = shape.set axis x := by
      intro x
      have := congrArg (fun l => List.set l axis x) ht.2
      simpa using this
    rw [← hset]
    simp only [concat, hall, if_true]

variable [Zero α]

/-- One input channel's block: zero except in its own channel. -/
def blockFn (f : Tensor α) (h w c m i : Nat) : Tensor α :=
  ofFn [h, w, c, m] fun idx => if idx.getD 2 0 = i then f.get idx else 0

theorem valid4 {h w c m : Nat} {idx : List Nat} (hv : Valid [h, w, c, m] idx) :
    ∃ y x i k, idx = [y, x, i, k] ∧ y < h ∧ x < w ∧ i < c ∧ k < m := by
  unfold Valid at hv
  rcases hv with _ | ⟨h1, hv⟩
  rcases hv with _ | ⟨h2, hv⟩
  rcases hv with _ | ⟨h3, hv⟩
  rcases hv with _ | ⟨h4, hv⟩
  cases hv
  exact ⟨_, _, _, _, rfl, h1, h2, h3, h4⟩

theorem valid4' {h w c m y x i k : Nat} (h1 : y < h) (h2 : x < w) (h3 : i < c) (h4 : k < m) :
    Valid [h, w, c, m] [y, x, i, k] :=
  .cons h1 (.cons h2 (.cons h3 (.cons h4 .nil)))

theorem zeros_get {h w c m y x i k : Nat} (h1 : y < h) (h2 : x < w) (h3 : i < c) (h4 : k < m) :
    (zeros [h, w, c, m] : Tensor α).get [y, x, i, k] = 0 :=
  get_ofFn _ (valid4' h1 h2 h3 h4)

theorem sliceChannel_get (f : Tensor α) {h w j m y x k : Nat} (h1 : y < h) (h2 : x < w)
    (h4 : k < m) : (sliceChannel f h w j m).get [y, x, 0, k] = f.get [y, x, j, k] := by
  rw [sliceChannel, get_ofFn _ (valid4' h1 h2 (by omega) h4)]; rfl

theorem concat_elements (f : Tensor α) {h w c m i : Nat} (hi : i < c) :
    concat 2 (depthwiseElements f h w c m i) = .ok (blockFn f h w c m i) := by
  have hshape : ∀ t ∈ depthwiseElements f h w c m i, t.shape.length = [h, w, c, m].length ∧
      t.shape.set 2 0 = [h, w, c, m].set 2 0 := by
    intro t ht
    unfold depthwiseElements at ht
    simp only [List.mem_append, List.mem_singleton] at ht
    rcases ht with (ht | ht) | ht
    · split at ht
      · rw [List.mem_singleton] at ht; subst ht; exact ⟨rfl, rfl⟩
      · simp at ht
    · subst ht; exact ⟨rfl, rfl⟩
    · split at ht
      · rw [List.mem_singleton] at ht; subst ht; exact ⟨rfl, rfl⟩
      · simp at ht
  have hne : depthwiseElements f h w c m i ≠ [] := by simp [depthwiseElements]
  rw [concat_ok hne hshape]
  have htot : ((depthwiseElements f h w c m i).map fun u => u.shape.getD 2 0).sum = c := by
    unfold depthwiseElements
    split <;> split <;> simp [zeros, sliceChannel] <;> omega
  rw [htot]
  congr 1
  show ofFn [h, w, c, m] _ = ofFn [h, w, c, m] _
  refine ext_get (ofFn_wf _ _) (ofFn_wf _ _) (by simp only [ofFn_shape]) ?_
  intro idx hv
  have hv : Valid [h, w, c, m] idx := hv
  rw [get_ofFn _ hv, get_ofFn _ hv]
  obtain ⟨y, x, j, k, rfl, h1, h2, h3, h4⟩ := valid4 hv
  have step : ∀ (t : Tensor α) (ts : List (Tensor α)) (j n : Nat), t.shape.getD 2 0 = n →
      concatGet 2 (t :: ts) [y, x, j, k]
        = if j < n then t.get [y, x, j, k] else concatGet 2 ts [y, x, j - n, k] := by
    intro t ts j n hn
    rw [concatGet]
    simp only [hn]
    rfl
  have tail : ∀ r : Nat, r < c - i → concatGet 2 ([sliceChannel f h w i m] ++
      (if i + 1 < c then [zeros [h, w, c - (i + 1), m]] else [])) [y, x, r, k]
      = if r = 0 then f.get [y, x, i, k] else 0 := by
    intro r hr
    rw [List.singleton_append, step _ _ _ 1 rfl]
    by_cases h0 : r = 0
    · subst h0
      simp only [Nat.zero_lt_one, if_true]
      exact sliceChannel_get f h1 h2 h4
    · have hlt : ¬ r < 1 := by omega
      have hic : i + 1 < c := by omega
      simp only [hlt, if_false, h0, hic, if_true]
      rw [step _ _ _ (c - (i + 1)) rfl, if_pos (by omega), zeros_get h1 h2 (by omega) h4]
  unfold depthwiseElements
  show _ = if j = i then _ else _
  by_cases h0 : i > 0
  · simp only [h0, if_true, List.append_assoc]
    rw [List.singleton_append, step _ _ _ i rfl]
    by_cases hji : j < i
    · rw [if_pos hji, zeros_get h1 h2 hji h4, if_neg (by omega)]
    · rw [if_neg hji, tail _ (by omega)]
      by_cases hj : j = i
      · subst hj; simp
      · rw [if_neg (by omega), if_neg hj]
  · have : i = 0 := by omega
    subst this
    simp only [Nat.lt_irrefl, gt_iff_lt, if_false, List.nil_append]
    rw [tail _ (by omega)]
    by_cases hj : j = 0
    · subst hj; simp
    · rw [if_neg hj, if_neg hj]

end Kfac.Params
