import Verif.Params.Lemmas

/-!
# C01–C04: parameter layouts
-/

namespace Kfac.Params
open Kfac Tensor

variable {α : Type}

/-! ## C01 — packing tensors into a column -/

/-- Packing any non-empty list of tensors and unpacking with the same templates returns the same
tensors in the same order. -/
theorem C01_unpack_pack (ts : List (Tensor α)) (hne : ts ≠ []) (hwf : ∀ t ∈ ts, t.WF) :
    (tensorsToColumn ts).bind (columnToTensors (ts.map Tensor.shape)) = .ok ts := by
  have h := columnLoop_flatten ts hwf [] []
  cases ts with
  | nil => exact absurd rfl hne
  | cons t ts => simpa [tensorsToColumn, Except.bind, columnToTensors] using h

/-- Unpacking any column of the right length yields tensors of the requested shapes, and packing these
gives the column back. -/
theorem C01_pack_unpack (shapes : List (List Nat)) (hne : shapes ≠ []) (col : List α)
    (hlen : col.length = (shapes.map List.prod).sum) :
    ∃ ts, columnToTensors shapes col = .ok ts ∧ ts.map Tensor.shape = shapes ∧
      (∀ t ∈ ts, t.WF) ∧ tensorsToColumn ts = .ok col := by
  obtain ⟨ts, h1, h2, h3, h4⟩ := columnLoop_total col shapes 0 (by omega)
  refine ⟨ts, h1, h2, h3, ?_⟩
  cases ts with
  | nil => exact absurd h2.symm hne
  | cons t ts =>
    rw [tensorsToColumn, h4, List.drop_zero, ← hlen, List.take_length]
    simp

/-- A column that is too short is rejected, whatever the templates. -/
theorem C01_short_column_rejected (shapes : List (List Nat)) (col : List α)
    (h : col.length < (shapes.map List.prod).sum) :
    ∃ e, columnToTensors shapes col = .error e :=
  columnLoop_short col shapes 0 (by omega) (by omega)

/-- The single-tensor forms are inverse to each other; a column of the wrong length is rejected. -/
theorem C01_single (t : Tensor α) (ht : t.WF) :
    columnToTensor t.shape (tensorToColumn t) = .ok t ∧
    (∀ col : List α, col.length = t.shape.prod →
      (columnToTensor t.shape col).map tensorToColumn = .ok col) ∧
    (∀ col : List α, col.length ≠ t.shape.prod → ∃ e, columnToTensor t.shape col = .error e) := by
  refine ⟨?_, ?_, ?_⟩
  · have : t.data.length = t.shape.prod := ht
    simp [columnToTensor, tensorToColumn, reshape, this]
  · intro col h
    simp [columnToTensor, reshape, h, Except.map, tensorToColumn]
  · intro col h
    exact ⟨_, by simp only [columnToTensor, reshape, h, if_false]; rfl⟩

/-- The empty list cannot be packed (`tf.concat` of zero tensors raises), so the round trip of the
property's empty-list case fails with an error rather than returning `[]`. -/
theorem C01_empty_list_rejected : ∃ e, tensorsToColumn ([] : List (Tensor α)) = .error e := ⟨_, rfl⟩

/-- Observed behaviour: entries beyond the templates' total size are silently ignored. -/
theorem C01_surplus_ignored (ts : List (Tensor α)) (hwf : ∀ t ∈ ts, t.WF) (extra : List α) :
    columnToTensors (ts.map Tensor.shape) ((ts.map Tensor.data).flatten ++ extra) = .ok ts := by
  simpa [columnToTensors] using columnLoop_flatten ts hwf [] extra

example : ([⟨[2, 3], [1, 2, 3, 4, 5, 6]⟩, ⟨[], [7]⟩, ⟨[0, 4], []⟩, ⟨[2], [8, 9]⟩] :
    List (Tensor Nat)) ≠ [] ∧
    ∀ t ∈ ([⟨[2, 3], [1, 2, 3, 4, 5, 6]⟩, ⟨[], [7]⟩, ⟨[0, 4], []⟩, ⟨[2], [8, 9]⟩] :
      List (Tensor Nat)), t.WF := by decide
example : [1, 2, 3, 4, 5, 6, 7].length = ([[2, 3], [], [0, 4]].map List.prod).sum := by decide
example : [1, 2, 3].length < ([[2, 3], []].map List.prod).sum := by decide

/-! ## C02 — layer parameters and the two-dimensional form -/

/-- Weight without bias: to the matrix form and back. -/
theorem C02_weight_roundtrip (w : Tensor α) (c : Nat) (hw : w.WF) (hl : w.shape.getLast? = some c)
    (hc : c ≠ 0) :
    ∃ m, layerParamsToMat2d (.weight w) = .ok m ∧ m.WF ∧ m.shape = [w.shape.dropLast.prod, c] ∧
      mat2dToLayerParams (.weight w) m = .ok (.weight w) := by
  refine ⟨_, reshapeTo2d_ok hw hl hc, ?_, rfl, ?_⟩
  · show w.data.length = _
    rw [hw, prod_eq_of_getLast? hl]; simp
  · have : w.data.length = w.shape.prod := hw
    simp [mat2dToLayerParams, reshape, this, bind, Except.bind, pure, Except.pure]

/-- Weight with bias: to the matrix form and back. The matrix has one row more than the flattened
weight, its leading rows are the weight and its last row is exactly the bias. -/
theorem C02_weight_bias_roundtrip (w b : Tensor α) (c : Nat) (hw : w.WF) (hb : b.WF)
    (hl : w.shape.getLast? = some c) (hc : c ≠ 0) (hbs : b.shape = [c]) :
    ∃ m, layerParamsToMat2d (.weightBias w b) = .ok m ∧ m.WF ∧
      m.shape = [w.shape.dropLast.prod + 1, c] ∧
      m.data.take (w.shape.dropLast.prod * c) = w.data ∧
      m.data.drop (w.shape.dropLast.prod * c) = b.data ∧
      mat2dToLayerParams (.weightBias w b) m = .ok (.weightBias w b) := by
  have hbl : b.data.length = c := by rw [hb, hbs]; simp
  have hwl : w.data.length = w.shape.dropLast.prod * c := by rw [hw, prod_eq_of_getLast? hl]
  refine ⟨⟨[w.shape.dropLast.prod + 1, c], w.data ++ b.data⟩, ?_, ?_, rfl, ?_, ?_, ?_⟩
  · simp only [layerParamsToMat2d, reshapeTo2d_ok hw hl hc, bind, Except.bind, concatRows, hbl,
      if_true]
  · show (w.data ++ b.data).length = _
    simp [hwl, hbl]; ring
  · show (w.data ++ b.data).take _ = _
    rw [← hwl]; simp
  · show (w.data ++ b.data).drop _ = _
    rw [← hwl]; simp
  · have h1 : (w.data ++ b.data).take (w.shape.dropLast.prod * c) = w.data := by
      rw [← hwl]; simp
    have h2 : (w.data ++ b.data).drop (w.shape.dropLast.prod * c) = b.data := by
      rw [← hwl]; simp
    have h3 : w.data.length = w.shape.prod := hw
    have hbe : (⟨[c], b.data⟩ : Tensor α) = b := by rw [← hbs]
    simp [mat2dToLayerParams, splitLastRow, h1, h2, reshape, h3, bind, Except.bind, pure,
      Except.pure, hbe]

/-- Any matrix of the right size is recovered from its layer-parameter form (with bias). -/
theorem C02_matrix_roundtrip (w b m : Tensor α) (c : Nat) (hl : w.shape.getLast? = some c)
    (hc : c ≠ 0) (hm : m.WF) (hms : m.shape = [w.shape.dropLast.prod + 1, c]) :
    ∃ p, mat2dToLayerParams (.weightBias w b) m = .ok p ∧ layerParamsToMat2d p = .ok m := by
  have hml : m.data.length = (w.shape.dropLast.prod + 1) * c := by rw [hm, hms]; simp
  have hml' : m.data.length = w.shape.dropLast.prod * c + c := by rw [hml]; ring
  have htl : (m.data.take (w.shape.dropLast.prod * c)).length = w.shape.prod := by
    rw [prod_eq_of_getLast? hl]; simp; omega
  have hdl : (m.data.drop (w.shape.dropLast.prod * c)).length = c := by simp; omega
  refine ⟨.weightBias ⟨w.shape, m.data.take (w.shape.dropLast.prod * c)⟩
    ⟨[c], m.data.drop (w.shape.dropLast.prod * c)⟩, ?_, ?_⟩
  · simp only [mat2dToLayerParams, splitLastRow, hms, Nat.add_sub_cancel, reshape,
      bind, Except.bind, pure, Except.pure, Nat.succ_ne_zero, if_false]
    rw [if_pos htl]
  · have := reshapeTo2d_ok (t := ⟨w.shape, m.data.take (w.shape.dropLast.prod * c)⟩) htl hl hc
    simp only [layerParamsToMat2d, this, bind, Except.bind, concatRows, hdl, if_true,
      List.take_append_drop]
    rw [← hms]

/-- Any matrix of the right size is recovered from its layer-parameter form (without bias). -/
theorem C02_matrix_roundtrip_nobias (w m : Tensor α) (c : Nat) (hl : w.shape.getLast? = some c)
    (hc : c ≠ 0) (hm : m.WF) (hms : m.shape = [w.shape.dropLast.prod, c]) :
    ∃ p, mat2dToLayerParams (.weight w) m = .ok p ∧ layerParamsToMat2d p = .ok m := by
  have hml : m.data.length = w.shape.prod := by
    rw [hm, hms, prod_eq_of_getLast? hl]; simp
  refine ⟨.weight ⟨w.shape, m.data⟩, ?_, ?_⟩
  · simp [mat2dToLayerParams, reshape, hml, bind, Except.bind, pure, Except.pure]
  · rw [layerParamsToMat2d, reshapeTo2d_ok (t := ⟨w.shape, m.data⟩) hml hl hc, ← hms]

/-- A bias whose length is not the weight's output dimension is rejected. -/
theorem C02_bias_mismatch_rejected (w b : Tensor α) (c : Nat) (hw : w.WF)
    (hl : w.shape.getLast? = some c) (hc : c ≠ 0) (hb : b.data.length ≠ c) :
    ∃ e, layerParamsToMat2d (.weightBias w b) = .error e := by
  refine ⟨"concat: shape mismatch", ?_⟩
  simp only [layerParamsToMat2d, reshapeTo2d_ok hw hl hc, bind, Except.bind, concatRows,
    if_neg (Ne.symm hb)]

/-- A scalar weight is rejected. -/
theorem C02_scalar_rejected (w : Tensor α) (h : w.shape = []) :
    ∃ e, layerParamsToMat2d (.weight w) = .error e := by
  refine ⟨_, by simp only [layerParamsToMat2d, reshapeTo2d, h, List.getLast?_nil]; rfl⟩

example : (⟨[2, 1, 2], [1, 2, 3, 4]⟩ : Tensor Nat).WF ∧ (⟨[2], [5, 6]⟩ : Tensor Nat).WF ∧
    ([2, 1, 2] : List Nat).getLast? = some 2 ∧
    layerParamsToMat2d (.weightBias ⟨[2, 1, 2], [1, 2, 3, 4]⟩ ⟨[2], [5, 6]⟩)
      = .ok (⟨[3, 2], [1, 2, 3, 4, 5, 6]⟩ : Tensor Nat) := by
  refine ⟨by decide, by decide, by decide, rfl⟩

/-! ## C03 — depthwise filters -/

section
variable [Zero α]

/-- The converted filter: its shape, and every entry. Output channel `o` belongs to input channel
`o / m`; the filter entry is carried there and all other input channels get zero. -/
theorem C03_conv_entries (f : Tensor α) (h w c m : Nat) (hs : f.shape = [h, w, c, m]) (hc : 0 < c) :
    ∃ g, depthwiseToConv f = .ok g ∧ g.WF ∧ g.shape = [h, w, c, c * m] ∧
      ∀ y x i o, y < h → x < w → i < c → o < c * m →
        g.get [y, x, i, o] = if o / m = i then f.get [y, x, i, o % m] else 0 := by
  have hmap : (List.range c).mapM (fun i => concat 2 (depthwiseElements f h w c m i))
      = .ok ((List.range c).map (blockFn f h w c m)) := by
    apply mapM_ok
    intro i hi
    exact concat_elements f (List.mem_range.1 hi)
  have hshape : ∀ t ∈ (List.range c).map (blockFn f h w c m),
      t.shape.length = [h, w, c, m].length ∧ t.shape.set 3 0 = [h, w, c, m].set 3 0 := by
    intro t ht
    simp only [List.mem_map, List.mem_range] at ht
    obtain ⟨i, _, rfl⟩ := ht
    exact ⟨rfl, rfl⟩
  have hne : (List.range c).map (blockFn f h w c m) ≠ [] := by
    simp; omega
  have htot : (((List.range c).map (blockFn f h w c m)).map fun u => u.shape.getD 3 0).sum
      = c * m := by
    have : (((List.range c).map (blockFn f h w c m)).map fun u => u.shape.getD 3 0)
        = List.replicate c m := by
      apply List.ext_getElem (by simp)
      intro n h1 h2
      simp [blockFn]
    rw [this]; simp
  refine ⟨ofFn [h, w, c, c * m] (concatGet 3 ((List.range c).map (blockFn f h w c m))),
    ?_, ofFn_wf _ _, rfl, ?_⟩
  · simp only [depthwiseToConv, hs, hmap, bind, Except.bind]
    rw [concat_ok hne hshape, htot]
    rfl
  · intro y x i o h1 h2 h3 h4
    rw [get_ofFn _ (valid4' h1 h2 h3 h4)]
    have hm : 0 < m := by
      rcases Nat.eq_zero_or_pos m with h0 | h0
      · simp [h0] at h4
      · exact h0
    rw [concatGet_uniform 3 m _ (by
        intro t ht
        simp only [List.mem_map, List.mem_range] at ht
        obtain ⟨i, _, rfl⟩ := ht
        rfl) _ (by simp) (by simpa using h4)]
    have hq : o / m < c := Nat.div_lt_of_lt_mul (by rw [Nat.mul_comm]; exact h4)
    have e1 : [y, x, i, o].getD 3 0 = o := rfl
    have e2 : ∀ v, [y, x, i, o].set 3 v = [y, x, i, v] := fun _ => rfl
    rw [e1, e2, List.getD_eq_getElem?_getD]
    simp only [List.getElem?_map, List.getElem?_range hq, Option.map_some, Option.getD_some]
    rw [blockFn, get_ofFn _ (valid4' h1 h2 h3 (Nat.mod_lt _ hm))]
    show (if i = o / m then _ else _) = _
    by_cases hio : i = o / m
    · rw [if_pos hio, if_pos hio.symm]
    · rw [if_neg hio, if_neg (Ne.symm hio)]

/-- Converting a depthwise filter to an ordinary one and back returns it unchanged. -/
theorem C03_roundtrip (f : Tensor α) (h w c m : Nat) (hf : f.WF) (hs : f.shape = [h, w, c, m])
    (hc : 0 < c) :
    (depthwiseToConv f).bind convToDepthwise = .ok f := by
  obtain ⟨g, hg, hgwf, hgs, hget⟩ := C03_conv_entries f h w c m hs hc
  rw [hg]
  show convToDepthwise g = _
  have hlen : g.data.length = [h, w, c, c, m].prod := by
    rw [hgwf, hgs]; simp
  have hdiv : c * m / c = m := Nat.mul_div_cancel_left _ hc
  simp only [convToDepthwise, hgs, Nat.mul_mod_right, ne_eq, not_true, if_false, hdiv,
    reshape, hlen, if_true, bind, Except.bind, Nat.ne_of_gt hc]
  rw [concat_ok (shape := [h, w, c, m]) (by simp; omega) (by
    intro t ht
    simp only [List.mem_map, List.mem_range] at ht
    obtain ⟨i, _, rfl⟩ := ht
    exact ⟨rfl, rfl⟩)]
  congr 1
  have htot : (List.map (fun u : Tensor α => u.shape.getD 2 0) (List.map (fun i =>
      ofFn [h, w, 1, m] fun idx => (⟨[h, w, c, c, m], g.data⟩ : Tensor α).get
        [idx.getD 0 0, idx.getD 1 0, i, i, idx.getD 3 0]) (List.range c))).sum = c := by
    have : (List.map (fun u : Tensor α => u.shape.getD 2 0) (List.map (fun i =>
      ofFn [h, w, 1, m] fun idx => (⟨[h, w, c, c, m], g.data⟩ : Tensor α).get
        [idx.getD 0 0, idx.getD 1 0, i, i, idx.getD 3 0]) (List.range c)))
        = List.replicate c 1 := by
      apply List.ext_getElem (by simp)
      intro n h1 h2
      simp
    rw [this]; simp
  rw [htot]
  show ofFn [h, w, c, m] _ = f
  apply ext_get (ofFn_wf _ _) hf (by rw [hs]; rfl)
  intro idx hv
  have hv : Valid [h, w, c, m] idx := hv
  rw [get_ofFn _ hv]
  obtain ⟨y, x, i, k, rfl, h1, h2, h3, h4⟩ := valid4 hv
  rw [concatGet_uniform 2 1 _ (by
      intro t ht
      simp only [List.mem_map, List.mem_range] at ht
      obtain ⟨i, _, rfl⟩ := ht
      rfl) _ (by simp) (by simpa using h3)]
  have e1 : [y, x, i, k].getD 2 0 = i := rfl
  have e2 : ∀ v, [y, x, i, k].set 2 v = [y, x, v, k] := fun _ => rfl
  rw [e1, e2, List.getD_eq_getElem?_getD, Nat.div_one, Nat.mod_one]
  simp only [List.getElem?_map, List.getElem?_range h3, Option.map_some, Option.getD_some]
  rw [get_ofFn _ (valid4' h1 h2 (by omega) h4)]
  have hik : i * m + k < c * m := by
    calc i * m + k < i * m + m := by omega
      _ = (i + 1) * m := by ring
      _ ≤ c * m := Nat.mul_le_mul_right _ h3
  have hg4 := hget y x i (i * m + k) h1 h2 h3 hik
  have hmpos : 0 < m := by omega
  rw [Nat.mul_comm i m, Nat.mul_add_div hmpos, Nat.div_eq_of_lt h4, Nat.add_zero, if_pos rfl,
    Nat.mul_add_mod, Nat.mod_eq_of_lt h4] at hg4
  rw [← hg4]
  simp only [Tensor.get, hgs, ravel, List.getD_cons_zero, List.getD_cons_succ]
  congr 1
  simp [List.prod_cons]
  ring

/-- The inverse conversion rejects a channel count that is not a multiple of the input channels. -/
theorem C03_rejects_indivisible (f : Tensor α) (h w c o : Nat) (hs : f.shape = [h, w, c, o])
    (hco : o % c ≠ 0) : ∃ e, convToDepthwise f = .error e := by
  by_cases hc : c = 0
  · exact ⟨"ZeroDivisionError", by simp only [convToDepthwise, hs, hc, if_true]⟩
  · exact ⟨"out_channels must be evenly divisible by in_channels.", by
      simp only [convToDepthwise, hs, hc, if_false, hco, ne_eq, not_false_eq_true, if_true]⟩

/-- A filter without input channels is rejected by the forward conversion. -/
theorem C03_rejects_no_channels (f : Tensor α) (h w m : Nat) (hs : f.shape = [h, w, 0, m]) :
    ∃ e, depthwiseToConv f = .error e := by
  exact ⟨_, by simp only [depthwiseToConv, hs, List.range_zero, List.mapM_nil, bind, Except.bind,
    pure, Except.pure, concat]; rfl⟩

end

example : (⟨[1, 2, 2, 2], [1, 2, 3, 4, 5, 6, 7, 8]⟩ : Tensor Nat).WF ∧
    (depthwiseToConv (⟨[1, 2, 2, 2], [1, 2, 3, 4, 5, 6, 7, 8]⟩ : Tensor Nat)) =
      .ok ⟨[1, 2, 2, 4], [1, 2, 0, 0, 0, 0, 3, 4, 5, 6, 0, 0, 0, 0, 7, 8]⟩ := by
  refine ⟨by decide, by rfl⟩

/-! ## C04 — Kronecker products -/

/-- `kronecker_product` has the shape and the entries of the Kronecker product. -/
theorem C04_kronecker_entries [MulZeroClass α] (a b : Tensor α) (m n p q : Nat) (ha : a.WF)
    (hb : b.WF) (has : a.shape = [m, n]) (hbs : b.shape = [p, q]) :
    ∃ r, kroneckerProduct a b = .ok r ∧ r.WF ∧ r.shape = [m * p, n * q] ∧
      ∀ i j k l, i < m → j < n → k < p → l < q →
        r.get [i * p + k, j * q + l] = a.get [i, j] * b.get [k, l] := by
  have hal : a.data.length = [m, 1, n, 1].prod := by rw [ha, has]; simp
  have hbl : b.data.length = [1, p, 1, q].prod := by rw [hb, hbs]; simp
  have hz : List.zipWith (fun x y => if x = 1 then y else x) [m, 1, n, 1] [1, p, 1, q]
      = [m, p, n, q] := by
    simp only [List.zipWith_cons_cons, List.zipWith_nil_left, if_true]
    congr 1
    · split <;> omega
    · congr 2
      split <;> omega
  have hcond : ([m, 1, n, 1].length = [1, p, 1, q].length ∧
      (List.zip [m, 1, n, 1] [1, p, 1, q]).all
        (fun p => decide (p.1 = p.2 ∨ p.1 = 1 ∨ p.2 = 1)) = true) := by
    simp
  let fn : List Nat → α := fun idx =>
      (⟨[m, 1, n, 1], a.data⟩ : Tensor α).get
        (List.zipWith (fun i s => if s = 1 then 0 else i) idx [m, 1, n, 1]) *
      (⟨[1, p, 1, q], b.data⟩ : Tensor α).get
        (List.zipWith (fun i s => if s = 1 then 0 else i) idx [1, p, 1, q])
  have hlen : (ofFn [m, p, n, q] fn).data.length = [m * p, n * q].prod := by
    have := ofFn_wf [m, p, n, q] fn
    rw [this]; simp; ring
  refine ⟨⟨[m * p, n * q], (ofFn [m, p, n, q] fn).data⟩, ?_, hlen, rfl, ?_⟩
  · simp only [kroneckerProduct, has, hbs, reshape, hal, hbl, if_true, bind, Except.bind,
      broadcastMul, hz]
    rw [if_pos hcond]
    show (if (ofFn [m, p, n, q] fn).data.length = [m * p, n * q].prod then _ else _) = _
    rw [if_pos hlen]
  · intro i j k l hi hj hk hl
    have e : (⟨[m * p, n * q], (ofFn [m, p, n, q] fn).data⟩ : Tensor α).get
        [i * p + k, j * q + l] = (ofFn [m, p, n, q] fn).get [i, k, j, l] := by
      simp only [Tensor.get, ofFn_shape, ravel]
      congr 1
      simp [List.prod_cons]
      ring
    rw [e, get_ofFn _ (valid4' hi hk hj hl)]
    have e1 : ravel [m, 1, n, 1]
        (List.zipWith (fun i s => if s = 1 then 0 else i) [i, k, j, l] [m, 1, n, 1])
        = ravel [m, n] [i, j] := by
      have z1 : (if m = 1 then 0 else i) = i := by split <;> omega
      have z2 : (if n = 1 then 0 else j) = j := by split <;> omega
      simp [ravel, z1, z2]
    have e2 : ravel [1, p, 1, q]
        (List.zipWith (fun i s => if s = 1 then 0 else i) [i, k, j, l] [1, p, 1, q])
        = ravel [p, q] [k, l] := by
      have z1 : (if p = 1 then 0 else k) = k := by split <;> omega
      have z2 : (if q = 1 then 0 else l) = l := by split <;> omega
      simp [ravel, z1, z2]
    simp only [fn, Tensor.get, e1, e2, has, hbs]

/-- Every row and column of the result is of the form used in `C04_kronecker_entries`: the entries are
thereby completely determined. -/
theorem C04_indices_cover (m p r : Nat) (hr : r < m * p) : ∃ i k, i < m ∧ k < p ∧ r = i * p + k := by
  have hp : 0 < p := by
    rcases Nat.eq_zero_or_pos p with h | h
    · simp [h] at hr
    · exact h
  refine ⟨r / p, r % p, Nat.div_lt_of_lt_mul (by rw [Nat.mul_comm]; exact hr), Nat.mod_lt _ hp, ?_⟩
  rw [Nat.mul_comm]; exact (Nat.div_add_mod r p).symm

example : kroneckerProduct (⟨[1, 2], [2, 3]⟩ : Tensor Nat) ⟨[2, 1], [5, 7]⟩
    = .ok ⟨[2, 2], [10, 15, 14, 21]⟩ := by rfl

end Kfac.Params
