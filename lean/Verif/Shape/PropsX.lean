import Verif.Shape.Lemmas
import Verif.Grad.PropsScale

/-! # C109: statistics, inverses and gradients of every documented layer have shapes that fit -/

namespace Kfac.Shape

theorem merged_mem_sum {concat : Bool} {batches : List ℕ} {n : ℕ} (h : n ∈ merged concat batches) (hb : batches ≠ [])
    (hp : ∀ b ∈ batches, 0 < b) : 0 < n := by
  cases concat
  · exact hp n (by simpa [merged] using h)
  · obtain ⟨b, l, rfl⟩ := List.exists_cons_of_ne_nil hb
    have := hp b (by simp)
    simp only [merged, if_true, List.mem_singleton] at h
    simp [h]
    omega

/-- Fully connected layers with Kronecker factors, for dense inputs. -/
theorem C109_fully_connected (concat diagIn diagOut bias : Bool) (batches : List ℕ) (hb : batches ≠ []) (sources : ℕ)
    (hs : 0 < sources) (i o : ℕ) (ho : 0 < o) :
    fcKfac concat diagIn diagOut (batches.map fun n => ⟨[n, i], none⟩)
      (List.replicate sources (batches.map fun n => ⟨[n, o], none⟩)) ⟨[i, o], if bias then some [o] else none⟩ =
      .ok ⟨[i, o], if bias then some [o] else none⟩ := by
  have h := processData_ok concat (s := [i]) (t := [o]) (d := none) (e := none) hb sources
  have hm := merged_ne (concat := concat) hb
  have k := kronMultiply_ok (s := [i]) ho bias diagIn diagOut
  simp only [List.prod_cons, List.prod_nil, Nat.mul_one] at k
  change fcKfac concat diagIn diagOut (tensors [i] none batches) (List.replicate sources (tensors [o] none batches))
    (layer [i] o bias) = .ok (layer [i] o bias)
  have k1 := fcKronecker_ok (n := i) bias hm (k := 1) (by simp)
  have k2 := diagKronecker_ok (n := i) bias hm (k := 1) (by simp)
  have k3 := fcKronecker_ok (n := o) false hm hs
  have k4 := diagKronecker_ok (n := o) false hm hs
  rw [← singleton_replicate] at k1 k2
  cases diagIn <;> cases diagOut <;>
    simpa [fcKfac, h, operator, one, k1, k2, k3, k4] using k

/-- Two towers of three and five examples, two sources, four inputs, two outputs and a bias. -/
example : fcKfac false false true [⟨[3, 4], none⟩, ⟨[5, 4], none⟩]
    [[⟨[3, 2], none⟩, ⟨[5, 2], none⟩], [⟨[3, 2], none⟩, ⟨[5, 2], none⟩]] ⟨[4, 2], some [2]⟩ = .ok ⟨[4, 2], some [2]⟩ :=
  C109_fully_connected false false true true [3, 5] (by simp) 2 (by simp) 4 2 (by simp)

/-- Fully connected layers on indices ("sparse inputs"), which need a diagonal input factor. -/
theorem C109_sparse (concat diagOut bias : Bool) (batches : List ℕ) (hb : batches ≠ []) (sources : ℕ)
    (hs : 0 < sources) (i o : ℕ) (ho : 0 < o) :
    fcKfac concat true diagOut (batches.map fun n => ⟨[n], some i⟩)
      (List.replicate sources (batches.map fun n => ⟨[n, o], none⟩)) ⟨[i, o], if bias then some [o] else none⟩ =
      .ok ⟨[i, o], if bias then some [o] else none⟩ := by
  have h := processData_ok concat (s := []) (t := [o]) (d := some i) (e := none) hb sources
  have hm := merged_ne (concat := concat) hb
  have k := kronMultiply_ok (s := [i]) ho bias true diagOut
  simp only [List.prod_cons, List.prod_nil, Nat.mul_one] at k
  change fcKfac concat true diagOut (tensors [] (some i) batches) (List.replicate sources (tensors [o] none batches))
    (layer [i] o bias) = .ok (layer [i] o bias)
  have k2 := diagKronecker_sparse (n := i) bias hm (k := 1) (by simp)
  have k3 := fcKronecker_ok (n := o) false hm hs
  have k4 := diagKronecker_ok (n := o) false hm hs
  rw [← singleton_replicate] at k2
  cases diagOut <;> simpa [fcKfac, h, operator, one, k2, k3, k4] using k

example : fcKfac true true false [⟨[3], some 7⟩, ⟨[5], some 7⟩] [[⟨[3, 2], none⟩, ⟨[5, 2], none⟩]] ⟨[7, 2], none⟩ =
    .ok ⟨[7, 2], none⟩ :=
  C109_sparse true false false [3, 5] (by simp) 1 (by simp) 7 2 (by simp)

/-- With a dense input factor they are refused. -/
theorem C109_sparse_dense (concat diagOut : Bool) (batches : List ℕ) (hb : batches ≠ []) (sources i : ℕ)
    (o : ℕ) (p : Params) :
    fcKfac concat false diagOut (batches.map fun n => ⟨[n], some i⟩)
      (List.replicate sources (batches.map fun n => ⟨[n, o], none⟩)) p =
      .error "ValueError: Dense factors currently don't support 1-hot sparse data" := by
  have h := processData_ok concat (s := []) (t := [o]) (d := some i) (e := none) hb sources
  obtain ⟨a, -, e⟩ := first_replicate (s := []) (d := some i) (merged_ne (concat := concat) hb) (k := 1) (by simp)
  rw [← singleton_replicate] at e
  change fcKfac concat false diagOut (tensors [] (some i) batches) (List.replicate sources (tensors [o] none batches)) p
    = _
  simp [fcKfac, h, fcKronecker, e]

example : fcKfac true false false [⟨[3], some 7⟩, ⟨[5], some 7⟩] [[⟨[3, 2], none⟩, ⟨[5, 2], none⟩]] ⟨[7, 2], none⟩ =
    .error "ValueError: Dense factors currently don't support 1-hot sparse data" :=
  C109_sparse_dense true false [3, 5] (by simp) 1 7 2 _

/-- Contributions that combine the inputs and the gradients of a tower. -/
theorem updated_zip {s t : Dims} {d e : Option ℕ} {batches : List ℕ} {k : ℕ} {v : Dims}
    {f : T × T → Except String Dims} (h : batches ≠ []) (hk : 0 < k)
    (hf : ∀ n ∈ batches, f (⟨n :: s, d⟩, ⟨n :: t, e⟩) = .ok v) :
    updated (.ok v) ((List.replicate k (tensors t e batches)).flatMap fun gs => ((tensors s d batches).zip gs).map f) =
      .ok v := by
  obtain ⟨k, rfl⟩ : ∃ j, k = j + 1 := ⟨k - 1, by omega⟩
  refine updated_ok ?_ fun c hc => ?_
  · obtain ⟨n, ns, rfl⟩ := List.exists_cons_of_ne_nil h
    simp [List.replicate_succ, tensors]
  · simp only [List.mem_flatMap, List.mem_replicate, List.mem_map] at hc
    obtain ⟨gs, ⟨-, rfl⟩, x, hx, rfl⟩ := hc
    rw [tensors, tensors, List.zip_map', List.mem_map] at hx
    obtain ⟨n, hn, rfl⟩ := hx
    exact hf n hn

/-- Fully connected layers with the diagonal of the Fisher matrix. -/
theorem C109_fully_connected_diagonal (concat bias : Bool) (batches : List ℕ) (hb : batches ≠ []) (sources : ℕ)
    (hs : 0 < sources) (i o : ℕ) :
    fcDiagonalFB concat (batches.map fun n => ⟨[n, i], none⟩)
      (List.replicate sources (batches.map fun n => ⟨[n, o], none⟩)) ⟨[i, o], if bias then some [o] else none⟩ =
      .ok ([i, o] :: if bias then [[o]] else []) := by
  have h := processData_ok concat (s := [i]) (t := [o]) (d := none) (e := none) hb sources
  have hm := merged_ne (concat := concat) hb
  change fcDiagonalFB concat (tensors [i] none batches) (List.replicate sources (tensors [o] none batches))
    (layer [i] o bias) = _
  obtain ⟨a, -, e1⟩ := first_replicate (s := [i]) (d := none) hm (k := 1) (by simp)
  obtain ⟨b, -, e2⟩ := first_replicate (s := [o]) (d := none) hm hs
  rw [← singleton_replicate] at e1
  have u := updated_zip (s := [i]) (t := [o]) (d := none) (e := none) (v := [i + one bias, o])
    (f := fun x => do matmul true false (← homog bias x.1.dims) x.2.dims) hm hs
    fun n _ => by simp [homog_matrix, matmul]
  have c : columnMultiply [(i + one bias) * o] (layer [i] o bias).toList = .ok (layer [i] o bias).toList :=
    columnMultiply_diag (by simp [layer_size])
  simp only [fcDiagonalFB, h, ok_bind, layer_bias, fcDiagonal, e1, e2, dim, List.getElem?_cons_succ,
    List.getElem?_cons_zero, pure_ok, u, List.prod_cons, List.prod_nil, Nat.mul_one, c]
  cases bias <;> rfl

example : fcDiagonalFB false [⟨[3, 4], none⟩, ⟨[5, 4], none⟩] [[⟨[3, 2], none⟩, ⟨[5, 2], none⟩]] ⟨[4, 2], some [2]⟩ =
    .ok [[4, 2], [2]] :=
  C109_fully_connected_diagonal false true [3, 5] (by simp) 1 (by simp) 4 2

/-- The output of a two-dimensional convolution. -/
def convOut (geo : Geometry) (h w kh kw o : ℕ) : Dims :=
  [outDim geo.valid h kh geo.stride.1 geo.rate.1, outDim geo.valid w kw geo.stride.2 geo.rate.2, o]

theorem convInput_ok (geo : Geometry) (keepInputs keepPatches : ℕ → ℕ) (bias : Bool) {batches : List ℕ}
    (hb : batches ≠ []) {h w kh kw c : ℕ} (o : ℕ) (mask : Bool) (hk : 0 < kh * kw * c) :
    convInput geo [kh, kw, c, o] keepInputs keepPatches (tensors [h, w, c] none batches) bias
      (if mask then some [kh, kw, c] else none) = .ok [kh * kw * c + one bias, kh * kw * c + one bias] := by
  have e : [kh, kw, c, o].dropLast.prod = kh * kw * c := by simp [Nat.mul_assoc]
  have u := updated_tensors (k := 1) (s := [h, w, c]) (d := none) (v := [kh * kw * c + one bias, kh * kw * c + one bias])
    (f := fun x => do
      let x ← match x.dims with
        | n :: s => Except.ok (keepInputs n :: s)
        | [] => .error "rank"
      let p ← imagePatches geo [kh, kw, c, o] x
      let p ← match (if mask then some [kh, kw, c] else none : Option Dims) with
        | none => .ok p
        | some m => if m = [kh, kw, c, o].dropLast then broadcast p [m.prod] else .error "AssertionError"
      let p ← reshapeRows (kh * kw * c) p
      let p ← match p with
        | [rows, s] => Except.ok [keepPatches rows, s]
        | _ => .error "rank"
      computeCov (← homog bias p)) hb (by simp) fun n _ => by
        have r := reshapeRows_mul hk (s := [keepInputs n, outDim geo.valid h kh geo.stride.1 geo.rate.1,
          outDim geo.valid w kw geo.stride.2 geo.rate.2, kh * kw * c])
          (m := keepInputs n * (outDim geo.valid h kh geo.stride.1 geo.rate.1 *
            outDim geo.valid w kw geo.stride.2 geo.rate.2)) (by simp [Nat.mul_assoc])
        have b := broadcast_patches (keepInputs n) (outDim geo.valid h kh geo.stride.1 geo.rate.1)
          (outDim geo.valid w kw geo.stride.2 geo.rate.2) (kh * kw * c)
        have e' : [kh, kw, c].prod = kh * kw * c := by simp [Nat.mul_assoc]
        cases mask <;> simp [imagePatches, r, b, e', homog_matrix, computeCov_matrix, -List.prod_cons]
  rw [← singleton_replicate, List.flatten_singleton] at u
  simp only [convInput, e]
  exact u

theorem convOutput_ok {batches : List ℕ} {k : ℕ} (h : batches ≠ []) (hk : 0 < k) {a b o : ℕ} (ho : 0 < o) :
    convOutput (List.replicate k (tensors [a, b, o] none batches)) = .ok [o, o] := by
  obtain ⟨n, -, e⟩ := first_replicate (s := [a, b, o]) (d := none) h hk
  simp only [convOutput, e, ok_bind, lastDim, List.getLast?_cons_cons, List.getLast?_singleton]
  exact updated_tensors h hk fun m _ => by
    simp [reshapeRows_mul ho (s := [m, a, b, o]) (m := m * (a * b)) (by simp [Nat.mul_assoc]), computeCov_matrix]

/-- Convolutions with Kronecker factors, with or without a mask, whatever part of the inputs and patches is kept. -/
theorem C109_conv2d (concat bias mask : Bool) (geo : Geometry) (keepInputs keepPatches : ℕ → ℕ) (batches : List ℕ)
    (hb : batches ≠ []) (sources : ℕ) (hs : 0 < sources) (h w kh kw c o : ℕ) (hk : 0 < kh * kw * c) (ho : 0 < o) :
    convKfc concat geo keepInputs keepPatches (if mask then some [kh, kw, c] else none)
      (batches.map fun n => ⟨[n, h, w, c], none⟩)
      (List.replicate sources (batches.map fun n => ⟨n :: convOut geo h w kh kw o, none⟩))
      ⟨[kh, kw, c, o], if bias then some [o] else none⟩ = .ok ⟨[kh, kw, c, o], if bias then some [o] else none⟩ := by
  have p := processData_ok concat (s := [h, w, c]) (t := convOut geo h w kh kw o) (d := none) (e := none) hb sources
  have hm := merged_ne (concat := concat) hb
  change convKfc concat geo keepInputs keepPatches _ (tensors [h, w, c] none batches)
    (List.replicate sources (tensors (convOut geo h w kh kw o) none batches)) (layer [kh, kw, c] o bias) =
      .ok (layer [kh, kw, c] o bias)
  have k := kronMultiply_ok (s := [kh, kw, c]) ho bias false false
  have e : [kh, kw, c].prod = kh * kw * c := by simp [Nat.mul_assoc]
  rw [e] at k
  have k1 := convInput_ok geo keepInputs keepPatches bias hm (h := h) (w := w) o mask hk
  have k2 : convOutput (List.replicate sources (tensors (convOut geo h w kh kw o) none (merged concat batches))) =
    .ok [o, o] := convOutput_ok hm hs ho
  have w' : (layer [kh, kw, c] o bias).weights = [kh, kw, c, o] := rfl
  simpa only [convKfc, p, ok_bind, layer_bias, w', k1, k2, operator, Bool.false_eq_true, if_false] using k

/-- A 3 × 3 filter with stride two and no padding on images of 9 × 7 pixels with three channels, with a mask; half of the
images and at most ten patches are kept. -/
example : convKfc true ⟨true, (2, 2), (1, 1)⟩ (· / 2) (min 10) (some [3, 3, 3]) [⟨[8, 9, 7, 3], none⟩]
    [[⟨[8, 4, 3, 5], none⟩]] ⟨[3, 3, 3, 5], some [5]⟩ = .ok ⟨[3, 3, 3, 5], some [5]⟩ :=
  C109_conv2d true true true ⟨true, (2, 2), (1, 1)⟩ (· / 2) (min 10) [8] (by simp) 1 (by simp) 9 7 3 3 3 5 (by simp)
    (by simp)

theorem convDiagonal_ok (geo : Geometry) (bias : Bool) {batches : List ℕ} (hb : batches ≠ []) {k : ℕ} (hk : 0 < k)
    (h w kh kw c o : ℕ) :
    convDiagonal geo [kh, kw, c, o] (tensors [h, w, c] none batches)
      (List.replicate k (tensors (convOut geo h w kh kw o) none batches)) bias none =
      .ok [kh * kw * c + one bias, o] := by
  have m1 : (tensors [h, w, c] none batches).mapM (fun x => do
      let p ← imagePatches geo [kh, kw, c, o] x.dims
      homog bias p) = .ok ((tensors [outDim geo.valid h kh geo.stride.1 geo.rate.1,
        outDim geo.valid w kw geo.stride.2 geo.rate.2, kh * kw * c + one bias] none batches).map T.dims) := by
    rw [mapM_ok (g := fun x => [x.dims.headD 0, outDim geo.valid h kh geo.stride.1 geo.rate.1,
        outDim geo.valid w kw geo.stride.2 geo.rate.2, kh * kw * c + one bias])]
    · simp [tensors, Function.comp_def]
    · intro a ha
      simp only [tensors, List.mem_map] at ha
      obtain ⟨n, -, rfl⟩ := ha
      simp [imagePatches, homog_patches]
  have u := updated_zip (s := [outDim geo.valid h kh geo.stride.1 geo.rate.1,
        outDim geo.valid w kw geo.stride.2 geo.rate.2, kh * kw * c + one bias]) (t := convOut geo h w kh kw o)
    (d := none) (e := none) (v := [kh * kw * c + one bias, o])
    (f := fun x => do reduceFirst (← einsumPatches x.1.dims x.2.dims)) hb hk
    fun n _ => by simp [convOut, einsumPatches, reduceFirst]
  have g : ∀ x ∈ (List.replicate k (tensors (convOut geo h w kh kw o) none batches)).flatten,
      x.dims.length = 4 ∧ x.dims.getLast? = some o := fun x hx => by
    obtain ⟨n, -, rfl⟩ := mem_flatten_tensors hx
    simp [convOut]
  have i : ∀ x ∈ tensors [h, w, c] none batches, x.dims.length = 4 ∧ x.dims.getLast? = some c := fun x hx => by
    simp only [tensors, List.mem_map] at hx
    obtain ⟨n, -, rfl⟩ := hx
    simp
  simp only [convDiagonal]
  rw [if_neg (by rintro ⟨x, hx, hn⟩; exact hn (i x hx).1), if_neg (by rintro ⟨x, hx, hn⟩; exact hn (i x hx).2),
    if_neg (by rintro ⟨x, hx, hn⟩; exact hn (g x hx).1), if_neg (by rintro ⟨x, hx, hn⟩; exact hn (g x hx).2)]
  simp only [ok_bind, m1]
  simpa [List.zip_map_left, Function.comp_def] using u

/-- Convolutions with the diagonal of the Fisher matrix, without a mask. -/
theorem C109_conv2d_diagonal_partial (concat bias : Bool) (geo : Geometry) (batches : List ℕ) (hb : batches ≠ [])
    (sources : ℕ) (hs : 0 < sources) (h w kh kw c o : ℕ) :
    convDiagonalFB concat geo none (batches.map fun n => ⟨[n, h, w, c], none⟩)
      (List.replicate sources (batches.map fun n => ⟨n :: convOut geo h w kh kw o, none⟩))
      ⟨[kh, kw, c, o], if bias then some [o] else none⟩ = .ok ([kh, kw, c, o] :: if bias then [[o]] else []) := by
  have p := processData_ok concat (s := [h, w, c]) (t := convOut geo h w kh kw o) (d := none) (e := none) hb sources
  have hm := merged_ne (concat := concat) hb
  change convDiagonalFB concat geo none (tensors [h, w, c] none batches)
    (List.replicate sources (tensors (convOut geo h w kh kw o) none batches)) (layer [kh, kw, c] o bias) = _
  have k := convDiagonal_ok geo bias hm hs h w kh kw c o
  have c' : columnMultiply [(kh * kw * c + one bias) * o] (layer [kh, kw, c] o bias).toList =
      .ok (layer [kh, kw, c] o bias).toList := columnMultiply_diag (by simp [layer_size, Nat.mul_assoc])
  have w' : (layer [kh, kw, c] o bias).weights = [kh, kw, c, o] := rfl
  simp only [convDiagonalFB, p, ok_bind, layer_bias, w', k, List.prod_cons, List.prod_nil, Nat.mul_one, c']
  cases bias <;> rfl

example : convDiagonalFB true ⟨true, (2, 2), (1, 1)⟩ none [⟨[8, 9, 7, 3], none⟩] [[⟨[8, 4, 3, 5], none⟩]]
    ⟨[3, 3, 3, 5], some [5]⟩ = .ok [[3, 3, 3, 5], [5]] :=
  C109_conv2d_diagonal_partial true true ⟨true, (2, 2), (1, 1)⟩ [8] (by simp) 1 (by simp) 9 7 3 3 3 5

/-- With a mask the update of the statistics fails, for any number of channels but one (and more filter weights than
channels). -/
theorem C109_conv2d_diagonal_counterexample (concat bias : Bool) (geo : Geometry) (n h w kh kw c o sources : ℕ)
    (hc : c ≠ 1) (hk : kh * kw * c ≠ c) (h1 : kh * kw * c ≠ 1) :
    (convDiagonalFB concat geo (some [kh, kw, c]) [⟨[n, h, w, c], none⟩]
      (List.replicate sources [⟨n :: convOut geo h w kh kw o, none⟩])
      ⟨[kh, kw, c, o], if bias then some [o] else none⟩).toOption = none := by
  have p := processData_ok concat (s := [h, w, c]) (t := convOut geo h w kh kw o) (d := none) (e := none)
    (batches := [n]) (by simp) sources
  have hm : merged concat [n] = [n] := by cases concat <;> simp [merged]
  rw [hm] at p
  change (convDiagonalFB concat geo _ (tensors [h, w, c] none [n])
    (List.replicate sources (tensors (convOut geo h w kh kw o) none [n])) (layer [kh, kw, c] o bias)).toOption = none
  have w' : (layer [kh, kw, c] o bias).weights = [kh, kw, c, o] := rfl
  simp only [convDiagonalFB, p, ok_bind, layer_bias, w', convDiagonal]
  split_ifs
  all_goals try rfl
  have b : ∃ e, broadcast [n, outDim geo.valid h kh geo.stride.1 geo.rate.1,
      outDim geo.valid w kw geo.stride.2 geo.rate.2, kh * kw * c] [kh, kw, c] = .error e := by
    simp only [broadcast, List.reverse_cons, List.reverse_nil, List.nil_append, List.cons_append, broadcastRev]
    split_ifs <;> simp_all
  obtain ⟨e, b⟩ := b
  simp [tensors, imagePatches, b]
  rfl

/-- Depthwise convolutions. -/
theorem C109_depthwise (concat : Bool) (geo : Geometry) (batches : List ℕ) (hb : batches ≠ []) (sources : ℕ)
    (hs : 0 < sources) (h w kh kw c m : ℕ) (hc : 0 < c) :
    depthwiseFB concat geo (batches.map fun n => ⟨[n, h, w, c], none⟩)
      (List.replicate sources (batches.map fun n => ⟨n :: convOut geo h w kh kw (c * m), none⟩)) [kh, kw, c, m] =
      .ok [[kh, kw, c, m]] := by
  have p := processData_ok concat (s := [h, w, c]) (t := convOut geo h w kh kw (c * m)) (d := none) (e := none) hb
    sources
  have hm := merged_ne (concat := concat) hb
  change depthwiseFB concat geo (tensors [h, w, c] none batches)
    (List.replicate sources (tensors (convOut geo h w kh kw (c * m)) none batches)) [kh, kw, c, m] = _
  have k := convDiagonal_ok geo false hm hs h w kh kw c (c * m)
  have c' : columnMultiply [(kh * kw * c + one false) * (c * m)] [[kh, kw, c, c * m]] = .ok [[kh, kw, c, c * m]] :=
    columnMultiply_diag (by simp [one, Nat.mul_assoc])
  have r : reshapeTo [kh, kw, c, c, m] [kh, kw, c, c * m] = .ok [kh, kw, c, c, m] := by simp [reshapeTo]
  simp only [depthwiseFB, p, ok_bind, k, depthwiseToConv, Nat.ne_of_gt hc, if_false, List.prod_cons, List.prod_nil,
    Nat.mul_one, c', List.mapM_cons, List.mapM_nil, convToDepthwise, Nat.mul_mod_right, ne_eq, not_true_eq_false,
    Nat.mul_div_cancel_left _ hc, r, pure_ok]

example : depthwiseFB true ⟨true, (2, 2), (1, 1)⟩ [⟨[8, 9, 7, 3], none⟩] [[⟨[8, 4, 3, 6], none⟩]] [3, 3, 3, 2] =
    .ok [[3, 3, 3, 2]] :=
  C109_depthwise true ⟨true, (2, 2), (1, 1)⟩ [8] (by simp) 1 (by simp) 9 7 3 3 3 2 (by simp)

/-- Parameters without structure. -/
theorem C109_generic (sources : ℕ) (hs : 0 < sources) (ps : List Dims) (p : Dims) :
    naiveFullFB sources ps = .ok ps ∧ naiveDiagonalFB sources p = .ok [p] := by
  obtain ⟨k, rfl⟩ : ∃ j, sources = j + 1 := ⟨sources - 1, by omega⟩
  constructor
  · have u := updated_ok (v := [(ps.map List.prod).sum, (ps.map List.prod).sum])
      (cs := (List.replicate (k + 1) ps).map fun g => do
        let column := [(g.map List.prod).sum, 1]
        broadcast column (← transpose column)) (by simp) (fun c hc => by
          simp only [List.mem_map, List.mem_replicate] at hc
          obtain ⟨g, ⟨-, rfl⟩, rfl⟩ := hc
          by_cases h : (g.map List.prod).sum = 1
          · simp [transpose, h]
          · simp [transpose, broadcast, broadcastRev, h, Ne.symm h])
    rw [List.replicate_succ] at u
    simp only [naiveFullFB, naiveFull, List.replicate_succ, u, ok_bind, columnMultiply_full]
  · have u := updated_ok (v := p) (cs := (List.replicate (k + 1) p).map Except.ok) (by simp) (fun c hc => by
      simp only [List.mem_map, List.mem_replicate] at hc
      obtain ⟨g, ⟨-, rfl⟩, rfl⟩ := hc
      rfl)
    rw [List.replicate_succ] at u
    simp only [naiveDiagonalFB, naiveDiagonal, List.replicate_succ, u, ok_bind]
    exact columnMultiply_diag (by simp)

/-! ### Layers that are used several times -/

/-- The documented formats of the data: a list over the uses, a single tensor with the uses folded into the batch, or a
single tensor with a dimension for the uses. -/
inductive Format where
  | perUse
  | folded
  | stacked
  deriving DecidableEq

/-- The data of one tower with `n` examples, each used `k` times. -/
def Format.data (k : ℕ) (s : Dims) (d : Option ℕ) : Format → ℕ → Uses
  | .perUse, n => .list (List.replicate k ⟨n :: s, d⟩)
  | .folded, n => .single ⟨k * n :: s, d⟩
  | .stacked, n => .single ⟨k :: n :: s, d⟩

/-- What the factors get of it. -/
def Format.tensor (k : ℕ) (s : Dims) (d : Option ℕ) : Format → ℕ → T
  | .stacked, n => ⟨k :: n :: s, d⟩
  | _, n => ⟨k * n :: s, d⟩

/-- The towers the factors get to see. -/
def Format.towers (concat : Bool) (batches : List ℕ) : Format → List ℕ
  | .perUse => merged concat batches
  | _ => batches

theorem Format.towers_ne {concat : Bool} {batches : List ℕ} (h : batches ≠ []) (f : Format) :
    f.towers concat batches ≠ [] := by
  cases f <;> simp [towers, h, merged_ne]

theorem filterMap_replicate {s : Dims} {d : Option ℕ} {k j : ℕ} (hj : j < k) : ∀ batches : List ℕ,
    (batches.map fun n => List.replicate k (⟨n :: s, d⟩ : T)).filterMap (·[j]?) = tensors s d batches
  | [] => rfl
  | n :: ns => by
    have := filterMap_replicate (s := s) (d := d) hj ns
    simp only [tensors] at this ⊢
    simp [hj, this]

theorem mapM_some {α β : Type} {f : α → Option β} {g : α → β} : ∀ {l : List α}, (∀ a ∈ l, f a = some (g a)) →
    l.mapM f = some (l.map g)
  | [], _ => rfl
  | a :: l, h => by
    rw [List.mapM_cons, h a (by simp), mapM_some fun b hb => h b (by simp [hb])]
    rfl

theorem flatMap_range (k : ℕ) (l : List ℕ) : (((List.range k).flatMap fun _ => l)).sum = k * l.sum := by
  induction k with
  | zero => simp
  | succ k ih => simp [List.range_succ, ih, Nat.add_mul]

theorem processUses_ok (concat : Bool) (f : Format) {k : ℕ} (hk : 0 < k) {num : Option ℕ}
    (hn : num = none ∨ num = some k) {s : Dims} {d : Option ℕ} {batches : List ℕ} (hb : batches ≠ []) :
    processUses concat num (batches.map (f.data k s d)) =
      .ok ((f.towers concat batches).map (f.tensor k s d), if f = .perUse then some k else num) := by
  obtain ⟨n, ns, rfl⟩ := List.exists_cons_of_ne_nil hb
  cases f with
  | perUse =>
    have e : ((n :: ns).map (Format.perUse.data k s d)).mapM Uses.list? =
        some ((n :: ns).map fun n => List.replicate k (⟨n :: s, d⟩ : T)) := by
      rw [mapM_some (g := fun u => (u.list?).getD [])]
      · simp [Format.data, Uses.list?, Function.comp_def]
      · intro a ha
        obtain ⟨m, -, rfl⟩ := List.mem_map.1 ha
        rfl
    have hc : ¬ (num.isSome ∧ num ≠ some (List.replicate k (⟨n :: s, d⟩ : T)).length) := by
      rcases hn with rfl | rfl <;> simp
    simp only [List.map_cons, Format.data] at e ⊢
    simp only [processUses]
    rw [if_neg hc, e]
    simp only []
    rw [if_neg (by simp)]
    cases concat with
    | true =>
      have h1 : ((List.range (List.replicate k (⟨n :: s, d⟩ : T)).length).flatMap fun j =>
          ((List.replicate k (⟨n :: s, d⟩ : T)) :: ns.map fun n => List.replicate k (⟨n :: s, d⟩ : T)).filterMap
            (·[j]?)) = tensors s d ((List.range k).flatMap fun _ => n :: ns) := by
        rw [List.length_replicate, tensors, List.map_flatMap]
        refine List.flatMap_congr fun j hj => ?_
        exact filterMap_replicate (List.mem_range.1 hj) (n :: ns)
      have h2 : ((List.range k).flatMap fun _ => n :: ns) ≠ [] := by
        obtain ⟨j, rfl⟩ : ∃ j, k = j + 1 := ⟨k - 1, by omega⟩
        simp [List.range_succ]
      rw [if_pos rfl, h1, partitioned_tensors h2, ok_bind, flatMap_range]
      simp [Format.towers, merged, Format.tensor]
    | false =>
      have h1 : ((List.replicate k (⟨n :: s, d⟩ : T)) :: ns.map fun n => List.replicate k (⟨n :: s, d⟩ : T)).mapM
          partitioned = .ok ((n :: ns).map (Format.perUse.tensor k s d)) := by
        have h3 := mapM_ok (f := partitioned) (g := fun l => ⟨(l.map fun t => t.dims.headD 0).sum :: s, d⟩)
          (l := (n :: ns).map fun n => List.replicate k (⟨n :: s, d⟩ : T)) (fun a ha => by
            obtain ⟨m, -, rfl⟩ := List.mem_map.1 ha
            have := partitioned_tensors (s := s) (d := d) (batches := List.replicate k m) (by simp; omega)
            simpa [tensors] using this)
        have hT : Format.perUse.tensor k s d = fun n => ⟨k * n :: s, d⟩ := rfl
        simpa [Function.comp_def, hT] using h3
      rw [if_neg (by simp), h1]
      simp [Format.towers, merged]
  | folded =>
    have e : ((n :: ns).map (Format.folded.data k s d)).mapM Uses.tensor? =
        some ((n :: ns).map (Format.folded.tensor k s d)) := by
      rw [mapM_some (g := fun u => (u.tensor?).getD ⟨[], none⟩)]
      · simp [Format.data, Uses.tensor?, Function.comp_def, Format.tensor]
      · intro a ha
        obtain ⟨m, -, rfl⟩ := List.mem_map.1 ha
        rfl
    simp only [List.map_cons, Format.data] at e ⊢
    simp [processUses, e, Format.towers]
  | stacked =>
    have e : ((n :: ns).map (Format.stacked.data k s d)).mapM Uses.tensor? =
        some ((n :: ns).map (Format.stacked.tensor k s d)) := by
      rw [mapM_some (g := fun u => (u.tensor?).getD ⟨[], none⟩)]
      · simp [Format.data, Uses.tensor?, Function.comp_def, Format.tensor]
      · intro a ha
        obtain ⟨m, -, rfl⟩ := List.mem_map.1 ha
        rfl
    simp only [List.map_cons, Format.data] at e ⊢
    simp [processUses, e, Format.towers]

theorem processMulti_ok (concat : Bool) (f g : Format) {k : ℕ} (hk : 0 < k) {num : Option ℕ}
    (hn : num = some k ∨ (num = none ∧ (f = .perUse ∨ g = .perUse))) {s t : Dims} {d e : Option ℕ} {batches : List ℕ}
    (hb : batches ≠ []) {sources : ℕ} (hs : 0 < sources) :
    processMulti concat num (batches.map (f.data k s d)) (List.replicate sources (batches.map (g.data k t e))) =
      .ok ((f.towers concat batches).map (f.tensor k s d),
        List.replicate sources ((g.towers concat batches).map (g.tensor k t e)), k) := by
  have h1 := processUses_ok concat f hk (num := num) (by tauto) (s := s) (d := d) hb
  have hn' : (if f = .perUse then some k else num) = none ∨ (if f = .perUse then some k else num) = some k := by
    by_cases hf : f = .perUse <;> simp [hf]; tauto
  have h2 := processUses_ok concat g hk hn' (s := t) (d := e) hb
  have h3 := mapM_ok (f := processUses concat (if f = .perUse then some k else num))
    (g := fun _ => ((g.towers concat batches).map (g.tensor k t e),
      if g = .perUse then some k else if f = .perUse then some k else num))
    (l := List.replicate sources (batches.map (g.data k t e))) (fun a ha => by
      rw [List.eq_of_mem_replicate ha, h2])
  have h4 : (if g = .perUse then some k else if f = .perUse then some k else num) = some k := by
    by_cases hg : g = .perUse <;> by_cases hf : f = .perUse <;> simp [hg, hf]; tauto
  rw [h4] at h3
  obtain ⟨j, rfl⟩ : ∃ j, sources = j + 1 := ⟨sources - 1, by omega⟩
  simp only [processMulti, h1, ok_bind, h3, List.map_replicate]
  simp [List.replicate_succ]

/-- The shape of a factor for several uses. -/
theorem multi_ok {f : Format} {concat : Bool} {batches : List ℕ} (hb : batches ≠ []) {k m n : ℕ} (hm : 0 < m)
    (hn : 0 < n) (diag bias : Bool) :
    (if diag then diagMulti (List.replicate m ((f.towers concat batches).map (f.tensor k [n] none))) bias
      else fcMulti (List.replicate m ((f.towers concat batches).map (f.tensor k [n] none))) bias) =
      .ok (operator diag (n + one bias)) := by
  have hne := f.towers_ne (concat := concat) hb
  generalize f.towers concat batches = bs at hne
  by_cases hf : f = .stacked
  · subst hf
    have ht : bs.map (Format.stacked.tensor k [n] none) = (bs.map fun b => ⟨k :: b :: [n], none⟩) := rfl
    obtain ⟨b, bs, rfl⟩ := List.exists_cons_of_ne_nil hne
    obtain ⟨j, rfl⟩ : ∃ j, m = j + 1 := ⟨m - 1, by omega⟩
    have hfst : first (List.replicate (j + 1) ((b :: bs).map (Format.stacked.tensor k [n] none))) =
        .ok ⟨[k, b, n], none⟩ := by simp [first, List.replicate_succ, Format.tensor]
    have r : ∀ b, reshapeRows n [k, b, n] = .ok [k * b, n] := fun b =>
      reshapeRows_mul hn (by simp [Nat.mul_assoc])
    cases diag
    · simp only [Bool.false_eq_true, if_false, fcMulti, hfst, ok_bind, Option.isSome_none, multiSize, operator]
      refine updated_ok (by simp) fun c hc => ?_
      simp only [List.mem_map, List.mem_flatten, List.mem_replicate] at hc
      obtain ⟨x, ⟨l, ⟨-, rfl⟩, hx⟩, rfl⟩ := hc
      obtain ⟨b, -, rfl⟩ := List.mem_map.1 hx
      simp [Format.tensor, foldUses, r, homog_matrix, computeCov_matrix]
    · simp only [if_true, diagMulti, hfst, ok_bind, multiSize, operator, pure_ok]
      refine updated_ok (by simp) fun c hc => ?_
      simp only [List.mem_map, List.mem_flatten, List.mem_replicate] at hc
      obtain ⟨x, ⟨l, ⟨-, rfl⟩, hx⟩, rfl⟩ := hc
      obtain ⟨b, -, rfl⟩ := List.mem_map.1 hx
      simp [Format.tensor, foldUses, r, homog_vector, diagonalCov, reduceFirst]
  · have ht : bs.map (f.tensor k [n] none) = tensors [n] none (bs.map (k * ·)) := by
      cases f <;> simp_all [Format.tensor, tensors]
    rw [ht]
    have hne' : bs.map (k * ·) ≠ [] := by simpa using hne
    obtain ⟨a, -, e⟩ := first_replicate (s := [n]) (d := none) hne' hm
    cases diag
    · simp only [Bool.false_eq_true, if_false, fcMulti, e, ok_bind, Option.isSome_none, multiSize, operator]
      exact updated_tensors hne' hm fun b _ => by simp [foldUses, homog_matrix, computeCov_matrix]
    · simp only [if_true, diagMulti, e, ok_bind, multiSize, operator, pure_ok]
      exact updated_tensors hne' hm fun b _ => by simp [foldUses, homog_vector, diagonalCov, reduceFirst]

/-- Fully connected layers used several times, under the assumption of independent uses, in every format. -/
theorem C109_fully_connected_multi (concat diagIn diagOut bias : Bool) (f g : Format) (k : ℕ) (hk : 0 < k)
    (num : Option ℕ) (hn : num = some k ∨ (num = none ∧ (f = .perUse ∨ g = .perUse))) (batches : List ℕ)
    (hb : batches ≠ []) (sources : ℕ) (hs : 0 < sources) (i o : ℕ) (hi : 0 < i) (ho : 0 < o) :
    fcMultiFB concat diagIn diagOut num (batches.map (f.data k [i] none))
      (List.replicate sources (batches.map (g.data k [o] none))) ⟨[i, o], if bias then some [o] else none⟩ =
      .ok ⟨[i, o], if bias then some [o] else none⟩ := by
  have h := processMulti_ok concat f g hk hn (s := [i]) (t := [o]) (d := none) (e := none) hb hs
  have k' := kronMultiply_ok (s := [i]) ho bias diagIn diagOut
  simp only [List.prod_cons, List.prod_nil, Nat.mul_one] at k'
  have k1 := multi_ok (f := f) (concat := concat) hb (k := k) (m := 1) (by simp) hi diagIn bias
  have k2 := multi_ok (f := g) (concat := concat) hb (k := k) hs ho diagOut false
  rw [← singleton_replicate] at k1
  have z : o + one false = o := rfl
  rw [z] at k2
  change fcMultiFB concat diagIn diagOut num _ _ (layer [i] o bias) = .ok (layer [i] o bias)
  simp only [fcMultiFB, h, ok_bind, layer_bias]
  cases diagIn <;> cases diagOut <;> simp only [if_true, Bool.false_eq_true, if_false] at k1 k2 ⊢ <;>
    simpa only [k1, k2, ok_bind] using k'

/-- Three uses of a layer on a batch of five, the inputs as a list and the gradients as one tensor. -/
example : fcMultiFB true false false none [.list [⟨[5, 4], none⟩, ⟨[5, 4], none⟩, ⟨[5, 4], none⟩]]
    [[.single ⟨[15, 2], none⟩]] ⟨[4, 2], some [2]⟩ = .ok ⟨[4, 2], some [2]⟩ :=
  C109_fully_connected_multi true false false true .perUse .folded 3 (by simp) none (by simp) [5] (by simp) 1 (by simp)
    4 2 (by simp) (by simp)

/-- Convolutions used several times. -/
theorem C109_conv2d_multi (concat bias : Bool) (f g : Format) (hf : f ≠ .stacked) (hg : g ≠ .stacked) (k : ℕ)
    (hk : 0 < k) (num : Option ℕ) (hn : num = some k ∨ (num = none ∧ (f = .perUse ∨ g = .perUse)))
    (geo : Geometry) (keepInputs keepPatches : ℕ → ℕ) (batches : List ℕ) (hb : batches ≠ []) (sources : ℕ)
    (hs : 0 < sources) (h w kh kw c o : ℕ) (hkc : 0 < kh * kw * c) (ho : 0 < o) :
    convMultiFB concat geo keepInputs keepPatches num (batches.map (f.data k [h, w, c] none))
      (List.replicate sources (batches.map (g.data k (convOut geo h w kh kw o) none)))
      ⟨[kh, kw, c, o], if bias then some [o] else none⟩ = .ok ⟨[kh, kw, c, o], if bias then some [o] else none⟩ := by
  have p := processMulti_ok concat f g hk hn (s := [h, w, c]) (t := convOut geo h w kh kw o) (d := none) (e := none)
    hb hs
  have ht : ∀ (f : Format) (s : Dims), f ≠ .stacked → (f.towers concat batches).map (f.tensor k s none) =
      tensors s none ((f.towers concat batches).map (k * ·)) := fun f s hf => by
    cases f <;> simp_all [Format.tensor, tensors]
  rw [ht f _ hf, ht g _ hg] at p
  have n1 : (f.towers concat batches).map (k * ·) ≠ [] := by simpa using f.towers_ne hb
  have n2 : (g.towers concat batches).map (k * ·) ≠ [] := by simpa using g.towers_ne hb
  have k' := kronMultiply_ok (s := [kh, kw, c]) ho bias false false
  have e : [kh, kw, c].prod = kh * kw * c := by simp [Nat.mul_assoc]
  rw [e] at k'
  have k1 := convInput_ok geo keepInputs keepPatches bias n1 (h := h) (w := w) o false hkc
  have k2 : convOutput (List.replicate sources (tensors (convOut geo h w kh kw o) none
    ((g.towers concat batches).map (k * ·)))) = .ok [o, o] := convOutput_ok n2 hs ho
  change convMultiFB concat geo keepInputs keepPatches num _ _ (layer [kh, kw, c] o bias) =
    .ok (layer [kh, kw, c] o bias)
  have w' : (layer [kh, kw, c] o bias).weights = [kh, kw, c, o] := rfl
  simp only [Bool.false_eq_true, if_false] at k1
  simpa only [convMultiFB, p, ok_bind, layer_bias, w', k1, k2, operator, Bool.false_eq_true, if_false] using k'

example : convMultiFB true ⟨false, (2, 2), (1, 1)⟩ id id (some 2) [.single ⟨[16, 9, 7, 3], none⟩]
    [[.list [⟨[8, 5, 4, 5], none⟩, ⟨[8, 5, 4, 5], none⟩]]] ⟨[3, 3, 3, 5], some [5]⟩ = .ok ⟨[3, 3, 3, 5], some [5]⟩ :=
  C109_conv2d_multi true true .folded .perUse (by simp) (by simp) 2 (by simp) (some 2) (by simp) ⟨false, (2, 2), (1, 1)⟩
    id id [8] (by simp) 1 (by simp) 9 7 3 3 3 5 (by simp) (by simp)

/-- Indices as inputs of a layer used several times. -/
theorem C109_sparse_multi (concat diagOut bias : Bool) (f g : Format) (k : ℕ) (hk : 0 < k)
    (num : Option ℕ) (hn : num = some k ∨ (num = none ∧ (f = .perUse ∨ g = .perUse))) (batches : List ℕ)
    (hb : batches ≠ []) (sources : ℕ) (hs : 0 < sources) (i o : ℕ) (ho : 0 < o) :
    fcMultiFB concat true diagOut num (batches.map (f.data k [] (some i)))
      (List.replicate sources (batches.map (g.data k [o] none))) ⟨[i, o], if bias then some [o] else none⟩ =
      .ok ⟨[i, o], if bias then some [o] else none⟩ := by
  have h := processMulti_ok concat f g hk hn (s := []) (t := [o]) (d := some i) (e := none) hb hs
  have k' := kronMultiply_ok (s := [i]) ho bias true diagOut
  simp only [List.prod_cons, List.prod_nil, Nat.mul_one] at k'
  have k1 : diagMulti [(f.towers concat batches).map (f.tensor k [] (some i))] bias =
      .ok (operator true (i + one bias)) := by
    have hne := f.towers_ne (concat := concat) hb
    generalize f.towers concat batches = bs at hne
    obtain ⟨b, bs, rfl⟩ := List.exists_cons_of_ne_nil hne
    have hfst : ∃ t : T, first [(b :: bs).map (f.tensor k [] (some i))] = .ok t ∧ t.depth = some i := by
      cases f <;> simp [first, Format.tensor]
    obtain ⟨t, ht, hd⟩ := hfst
    simp only [diagMulti, ht, ok_bind, hd]
    refine updated_ok (by simp) fun c hc => ?_
    simp only [List.flatten_singleton, List.mem_map] at hc
    obtain ⟨x, ⟨b, -, rfl⟩, rfl⟩ := hc
    cases f <;> simp [Format.tensor, diagonalCov, reduceFirst, homog_vector]
  have k2 := multi_ok (f := g) (concat := concat) hb (k := k) hs ho diagOut false
  have z : o + one false = o := rfl
  rw [z] at k2
  change fcMultiFB concat true diagOut num _ _ (layer [i] o bias) = .ok (layer [i] o bias)
  simp only [fcMultiFB, h, ok_bind, layer_bias, if_true, k1]
  cases diagOut <;> simp only [if_true, Bool.false_eq_true, if_false] at k2 ⊢ <;>
    simpa only [k2, ok_bind] using k'

example : fcMultiFB true true false none [.list [⟨[5], some 7⟩, ⟨[5], some 7⟩, ⟨[5], some 7⟩]]
    [[.single ⟨[15, 2], none⟩]] ⟨[7, 2], some [2]⟩ = .ok ⟨[7, 2], some [2]⟩ :=
  C109_sparse_multi true false true .perUse .folded 3 (by simp) none (by simp) [5] (by simp) 1 (by simp) 7 2 (by simp)

theorem covDt1_ok (bias : Bool) {k b n : ℕ} (hk : 0 < k) (hb : 0 < b) :
    covDt1 k bias [k * b, n] = .ok [n + one bias, n + one bias] := by
  have h0 : b ≠ 0 := by omega
  simp only [covDt1, foldUses, homog_matrix, ok_bind, Nat.ne_of_gt hk, Nat.mul_div_cancel_left _ hk, h0, if_false,
    computeCovRight, matmul, if_true, Bool.false_eq_true]

theorem options_ok {f : Format} (hf : f ≠ .stacked) {concat : Bool} {batches : List ℕ} (hb : batches ≠ [])
    (hp : ∀ b ∈ batches, 0 < b) {k m n : ℕ} (hm : 0 < m) (hk : 0 < k) (hn : 0 < n) (bias : Bool) :
    option1 (List.replicate m ((f.towers concat batches).map (f.tensor k [n] none))) k bias =
      .ok ([n + one bias, n + one bias], [n + one bias]) ∧
    option2 (List.replicate m ((f.towers concat batches).map (f.tensor k [n] none))) k bias =
      .ok ([n + one bias, n + one bias], [n + one bias, n + one bias], [n + one bias]) := by
  have e := multi_ok (f := f) (concat := concat) hb (k := k) hm hn false bias
  simp only [Bool.false_eq_true, if_false, operator] at e
  have hne := f.towers_ne (concat := concat) hb
  have hpos : ∀ b ∈ f.towers concat batches, 0 < b := by
    cases f with
    | perUse => exact fun b h => merged_mem_sum h hb hp
    | _ => exact hp
  generalize f.towers concat batches = bs at hne e hpos
  have ht : bs.map (f.tensor k [n] none) = tensors [n] none (bs.map (k * ·)) := by
    cases f <;> simp_all [Format.tensor, tensors]
  rw [ht] at e ⊢
  have hne' : bs.map (k * ·) ≠ [] := by simpa using hne
  obtain ⟨a, -, e1⟩ := first_replicate (s := [n]) (d := none) hne' hm
  have u := updated_tensors (s := [n]) (d := none) (v := [n + one bias, n + one bias])
    (f := fun x => covDt1 k bias x.dims) hne' hm fun b hb => by
      obtain ⟨c, hc, rfl⟩ := List.mem_map.1 hb
      exact covDt1_ok bias hk (hpos c hc)
  constructor
  · simp [option1, e, e1, u, vecShape, dim, matmul, transpose, assign, -List.map_flatten]
  · simp [option2, e, e1, u, vecShape, dim, matmul, transpose, assign, -List.map_flatten]

/-- Recurrent layers with either option, unless the inputs have a dimension for the uses. -/
theorem C109_series_partial (concat bias : Bool) (f g : Format) (hf : f ≠ .stacked) (hg : g ≠ .stacked) (k : ℕ)
    (hk : 0 < k) (num : Option ℕ) (hn : num = some k ∨ (num = none ∧ (f = .perUse ∨ g = .perUse))) (batches : List ℕ)
    (hb : batches ≠ []) (hp : ∀ b ∈ batches, 0 < b) (sources : ℕ) (hs : 0 < sources) (i o : ℕ) (hi : 0 < i)
    (ho : 0 < o) :
    series1FB concat num (batches.map (f.data k [i] none))
      (List.replicate sources (batches.map (g.data k [o] none))) ⟨[i, o], if bias then some [o] else none⟩ =
      .ok ⟨[i, o], if bias then some [o] else none⟩ ∧
    series2FB concat num (batches.map (f.data k [i] none))
      (List.replicate sources (batches.map (g.data k [o] none))) ⟨[i, o], if bias then some [o] else none⟩ =
      .ok ⟨[i, o], if bias then some [o] else none⟩ := by
  have h := processMulti_ok concat f g hk hn (s := [i]) (t := [o]) (d := none) (e := none) hb hs
  have k1 := options_ok hf (concat := concat) hb hp (m := 1) (by simp) hk hi bias
  have k2 := options_ok hg (concat := concat) hb hp hs hk ho false
  rw [← singleton_replicate] at k1
  have z : o + one false = o := rfl
  rw [z] at k2
  have t := toMat2d_layer (s := [i]) ho bias
  have b := ofMat2d_layer (s := [i]) (o := o) bias
  have r : reshapeCols o [o] = .ok [o, 1] := reshapeCols_mul ho (by simp)
  simp only [List.prod_cons, List.prod_nil, Nat.mul_one] at t b
  change series1FB concat num _ _ (layer [i] o bias) = .ok (layer [i] o bias) ∧
    series2FB concat num _ _ (layer [i] o bias) = .ok (layer [i] o bias)
  constructor
  · simp [series1FB, h, k1.1, k2.1, t, b, transpose, dim, r, broadcast_outer, matmul]
  · simp [series2FB, h, k1.2, k2.2, t, b, transpose, dim, r, broadcast_outer, matmul]

example : series1FB true none [.list [⟨[5, 4], none⟩, ⟨[5, 4], none⟩, ⟨[5, 4], none⟩]] [[.single ⟨[15, 2], none⟩]]
    ⟨[4, 2], some [2]⟩ = .ok ⟨[4, 2], some [2]⟩ :=
  (C109_series_partial true true .perUse .folded (by simp) (by simp) 3 (by simp) none (by simp) [5] (by simp) (by simp) 1
    (by simp) 4 2 (by simp) (by simp)).1

/-- Documented inputs of shape `[num_uses, batch_size, input_size]`: the variable for the eigenvalues gets the size of the
batch and its update fails unless the batch has as many examples as the layer has inputs. -/
theorem C109_series_counterexample (concat bias : Bool) (g : Format) (k : ℕ) (hk : 0 < k) (n i o : ℕ) (hi : 0 < i)
    (hn : n ≠ i) (sources : ℕ) (hs : 0 < sources) :
    (series1FB concat (some k) [.single ⟨[k, n, i], none⟩]
      (List.replicate sources [g.data k [o] none n]) ⟨[i, o], if bias then some [o] else none⟩).toOption = none ∧
    (series2FB concat (some k) [.single ⟨[k, n, i], none⟩]
      (List.replicate sources [g.data k [o] none n]) ⟨[i, o], if bias then some [o] else none⟩).toOption = none := by
  have h : processMulti concat (some k) [.single ⟨[k, n, i], none⟩] (List.replicate sources [g.data k [o] none n]) =
      .ok ([⟨[k, n, i], none⟩], _, k) :=
    processMulti_ok concat .stacked g hk (num := some k) (.inl rfl) (s := [i]) (t := [o]) (d := none) (e := none)
      (batches := [n]) (by simp) hs
  have e := multi_ok (f := .stacked) (concat := concat) (batches := [n]) (by simp) (k := k) (m := 1) (by simp) hi false
    bias
  rw [← singleton_replicate] at e
  simp only [Format.towers, List.map_cons, List.map_nil, Format.tensor, Bool.false_eq_true, if_false,
    operator] at e
  have h1 : ∃ x, option1 [[⟨[k, n, i], none⟩]] k bias = .error x := by
    simp only [option1, e, ok_bind, first]
    rcases hu : updated (.ok [i + one bias, i + one bias])
      ([[(⟨[k, n, i], none⟩ : T)]].flatten.map fun x => covDt1 k bias x.dims) with x | v
    · rw [hu]
      exact ⟨x, rfl⟩
    · obtain rfl := updated_eq hu
      rw [hu]
      simp [vecShape, dim, matmul, transpose, assign, hn]
  have h2 : ∃ x, option2 [[⟨[k, n, i], none⟩]] k bias = .error x := by
    simp only [option2, e, ok_bind, first]
    rcases hu : updated (.ok [i + one bias, i + one bias])
      ([[(⟨[k, n, i], none⟩ : T)]].flatten.map fun x => covDt1 k bias x.dims) with x | v
    · rw [hu]
      exact ⟨x, rfl⟩
    · obtain rfl := updated_eq hu
      rw [hu]
      simp [vecShape, dim, matmul, transpose, assign, hn]
  obtain ⟨x, h1⟩ := h1
  obtain ⟨y, h2⟩ := h2
  change (series1FB concat (some k) _ _ (layer [i] o bias)).toOption = none ∧
    (series2FB concat (some k) _ _ (layer [i] o bias)).toOption = none
  simp only [series1FB, series2FB, h, ok_bind, layer_bias, h1, h2, error_bind]
  exact ⟨rfl, rfl⟩

example : (series1FB true (some 3) [.single ⟨[3, 5, 4], none⟩] [[.single ⟨[15, 2], none⟩]] ⟨[4, 2], some [2]⟩).toOption =
    none :=
  (C109_series_counterexample true true .folded 3 (by simp) 5 4 2 (by simp) (by simp) 1 (by simp)).1

/-! ### Scale and shift -/

theorem keepDims_zero {axes : List ℕ} (h : 0 ∉ axes) (n : ℕ) (d : Dims) :
    Grad.keepDims axes 0 (n :: d) = n :: Grad.keepDims axes 1 d := by
  simp [Grad.keepDims, h]

/-- A parameter that broadcasts to one example broadcasts to a batch, along dimensions that do not depend on its size. -/
theorem broadcastDims_batch {p d : Dims} (h : Grad.Fits p (1 :: d)) (hd : ∀ a ∈ d, 0 < a) :
    ∃ axes, 0 ∉ axes ∧ (Grad.keepDims axes 1 d).prod = p.prod ∧
      ∀ (strict : Bool) (b : ℕ), Reg.broadcastDims strict p (b :: d) = .ok axes := by
  have hd' : ∀ a ∈ 1 :: d, 0 < a := by simpa using hd
  have hh : p.length = d.length + 1 → p.head? = some 1 := fun e => by
    cases p with
    | nil => simp at e
    | cons a q => simpa [e] using h.2 0 (by simp)
  have get : ∀ b i, 1 ≤ i → (b :: d).getD i 0 = (1 :: d).getD i 0 := fun b i hi => by
    obtain ⟨j, rfl⟩ : ∃ j, i = j + 1 := ⟨i - 1, by omega⟩
    simp
  have key : ∀ (strict : Bool) (b : ℕ), Reg.broadcastDims strict p (b :: d) = .ok
      (((List.range ((1 :: d).length - p.length)).filter fun i => 1 ≤ i) ++
        ((List.range (1 :: d).length).filter fun i => max ((1 :: d).length - p.length) 1 ≤ i).filter
          (fun i => p.getD (i - ((1 :: d).length - p.length)) 0 < (1 :: d).getD i 0)) := fun strict b => by
    have := Grad.broadcastDims_of (strict := strict) (p := p) (d := b :: d) (by simpa using h.1) (by simpa using hh)
      (fun i h1 h2 => by
        rw [get b i (by omega)]
        exact h.at hd' (by simp only [List.length_cons] at h1 ⊢; omega) (by simpa using h2))
    rw [this]
    congr 2
    refine List.filter_congr fun i hi => ?_
    simp only [List.mem_filter, List.mem_range, decide_eq_true_eq] at hi
    simp only [get b i (by omega)]
    rfl
  refine ⟨_, ?_, (Grad.broadcastDims_ravel (key true 1) h hd').1, key⟩
  simp

/-- Scale and shift layers whose parameters broadcast to the shape `d` of an example, with towers of any sizes. -/
theorem C109_scale_and_shift (concat full : Bool) (batches : List ℕ) (hb : batches ≠ []) (hp : ∀ b ∈ batches, 0 < b)
    (sources : ℕ) (hs : 0 < sources) (d scale : Dims) (shift : Option Dims) (hd : ∀ a ∈ d, 0 < a)
    (h1 : Grad.Fits scale (1 :: d)) (h2 : ∀ s ∈ shift, Grad.Fits s (1 :: d)) :
    scaleShiftFB concat full (batches.map fun n => ⟨n :: d, none⟩)
      (List.replicate sources (batches.map fun n => ⟨n :: d, none⟩)) scale shift = .ok (scale :: shift.toList) := by
  have p := processData_ok concat (s := d) (t := d) (d := none) (e := none) hb sources
  have hm := merged_ne (concat := concat) hb
  change scaleShiftFB concat full (tensors d none batches) (List.replicate sources (tensors d none batches)) scale shift
    = _
  obtain ⟨a, -, e1⟩ := first_replicate (s := d) (d := none) hb (k := 1) (by simp)
  obtain ⟨b, -, e2⟩ := first_replicate (s := d) (d := none) hb hs
  obtain ⟨a', -, e1'⟩ := first_replicate (s := d) (d := none) hm (k := 1) (by simp)
  obtain ⟨b', -, e2'⟩ := first_replicate (s := d) (d := none) hm hs
  rw [← singleton_replicate] at e1 e1'
  obtain ⟨axes, h0, hprod, hax⟩ := broadcastDims_batch h1 hd
  have flat : ∀ (axes : List ℕ) (n : ℕ), 0 ∉ axes → 0 < n → reshapeCols n (Grad.keepDims axes 0 (n :: d)) =
      .ok [n, (Grad.keepDims axes 1 d).prod] := fun axes n h0 hn => by
    rw [keepDims_zero h0]
    exact reshapeCols_mul hn (by simp)
  have cov : ∀ m n : ℕ, (if full then computeCov [m, n] else reduceFirst [m, n]) =
      .ok (if full then [n, n] else [n]) := fun m n => by
    cases full <;> simp [computeCov_matrix, reduceFirst]
  have col : ∀ n : ℕ, n = ((scale :: shift.toList).map List.prod).sum →
      columnMultiply (if full then [n, n] else [n]) (scale :: shift.toList) = .ok (scale :: shift.toList) :=
    fun n hn => by cases full <;> simp [columnMultiply_diag hn.symm, columnMultiply_full hn.symm]
  cases shift with
  | none =>
    have u := updated_zip (s := d) (t := d) (d := none) (e := none)
      (v := if full then [scale.prod, scale.prod] else [scale.prod])
      (f := fun x => do
        let n ← dim x.1.dims 0
        let prod ← broadcast x.1.dims x.2.dims
        let flat ← reshapeCols n (Grad.keepDims axes 0 prod)
        if full then computeCov flat else reduceFirst flat) hm hs fun n hn => by
          simp [dim, flat axes n h0 (merged_mem_sum hn hb hp), cov, hprod]
    simp only [scaleShiftFB, e1, e2, ok_bind, hax, p, scaleShift, e1', e2', List.tail_cons, hprod, Nat.add_zero, u]
    exact col _ (by simp)
  | some s =>
    obtain ⟨axes2, h02, hprod2, hax2⟩ := broadcastDims_batch (h2 s rfl) hd
    have u := updated_zip (s := d) (t := d) (d := none) (e := none)
      (v := if full then [scale.prod + s.prod, scale.prod + s.prod] else [scale.prod + s.prod])
      (f := fun x => do
        let n ← dim x.1.dims 0
        let prod ← broadcast x.1.dims x.2.dims
        let flat ← reshapeCols n (Grad.keepDims axes 0 prod)
        let flat ← concatCols flat (← reshapeCols n (Grad.keepDims axes2 0 x.2.dims))
        if full then computeCov flat else reduceFirst flat) hm hs fun n hn => by
          have := merged_mem_sum hn hb hp
          simp [dim, flat axes n h0 this, flat axes2 n h02 this, cov, hprod, hprod2, concatCols]
    simp only [scaleShiftFB, e1, e2, ok_bind, hax, hax2, Except.map, p, scaleShift, e1', e2', List.tail_cons, hprod,
      hprod2, u]
    exact col _ (by simp)

/-- A scale for the channels and a scalar shift of images with 2 × 2 pixels and three channels. -/
example : scaleShiftFB false true [⟨[4, 2, 2, 3], none⟩, ⟨[6, 2, 2, 3], none⟩]
    [[⟨[4, 2, 2, 3], none⟩, ⟨[6, 2, 2, 3], none⟩]] [3] (some []) = .ok [[3], []] :=
  C109_scale_and_shift false true [4, 6] (by simp) (by simp) 1 (by simp) [2, 2, 3] [3] (some []) (by simp)
    (by simp [Grad.Fits]) (by simp [Grad.Fits])

end Kfac.Shape
