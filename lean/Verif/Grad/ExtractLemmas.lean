import Verif.Grad.Extract
import Verif.Grad.PropsKfc
import Verif.Conv.Props
import Mathlib.Tactic.Linarith

/-! # Lemmas on the patch extractors -/

namespace Kfac.Grad

open Kfac.Conv Kfac.Stats

/-! ### Broadcasting along the last dimension -/

/-- What broadcasting does to an index. -/
def clip (i s : ℕ) : ℕ := if s = 1 then 0 else i

theorem clip_valid : ∀ {shape idx : List ℕ}, Tensor.Valid shape idx → List.zipWith clip idx shape = idx
  | [], [], _ => rfl
  | s :: ss, i :: is, h => by
    cases h with
    | cons h1 h2 =>
      simp only [List.zipWith_cons_cons, clip_valid h2, List.cons.injEq, and_true, clip]
      split <;> omega

theorem ravel_last : ∀ {s idx : List ℕ} {k : ℕ}, Tensor.Valid (s ++ [k]) idx →
    Tensor.ravel (List.replicate s.length 1 ++ [k]) (List.zipWith clip idx (List.replicate s.length 1 ++ [k])) =
      Tensor.ravel (s ++ [k]) idx % k
  | [], [i], k, h => by
    cases h with
    | cons h1 h2 =>
      simp only [List.length_nil, List.replicate_zero, List.nil_append, List.zipWith_cons_cons, clip, Tensor.ravel,
        List.prod_nil, mul_one, List.zipWith_nil_right]
      rw [Nat.add_zero, Nat.add_zero, Nat.mod_eq_of_lt h1]
      split <;> omega
  | a :: s, i :: is, k, h => by
    cases h with
    | cons h1 h2 =>
      have ih := ravel_last (s := s) (idx := is) (k := k) h2
      simp only [List.length_cons, List.replicate_succ, List.cons_append, List.zipWith_cons_cons, Tensor.ravel, ih,
        List.prod_append, List.prod_cons, List.prod_nil, mul_one]
      rw [← mul_assoc i, Nat.mul_add_mod']
      simp [clip]
  | [], [], k, h => by cases h
  | [], _ :: _ :: _, k, h => by cases h with | cons _ h2 => cases h2
  | _ :: _, [], k, h => by cases h

theorem last_fits : ∀ (s : List ℕ) (k : ℕ),
    (List.zip (s ++ [k]) (List.replicate s.length 1 ++ [k])).all (fun p => p.1 = p.2 ∨ p.1 = 1 ∨ p.2 = 1) = true
  | [], k => by simp
  | a :: s, k => by
    have ih := last_fits s k
    simp only [List.length_cons, List.replicate_succ, List.cons_append, List.zip_cons_cons, List.all_cons, ih,
      Bool.and_true]
    simp

theorem last_shape : ∀ (s : List ℕ) (k : ℕ),
    List.zipWith (fun x y => if x = 1 then y else x) (s ++ [k]) (List.replicate s.length 1 ++ [k]) = s ++ [k]
  | [], k => by simp
  | a :: s, k => by
    simp only [List.length_cons, List.replicate_succ, List.cons_append, List.zipWith_cons_cons, last_shape s k]
    split <;> simp_all

theorem mulBroadcast_last (s : List ℕ) (k : ℕ) (t : Tensor ℝ) (ht : t.WF) (hs : t.shape = s ++ [k]) (d : List ℝ) :
    ∃ u, mulBroadcast t ⟨[k], d⟩ = .ok ⟨s ++ [k], u⟩ ∧ u.length = t.data.length ∧
      ∀ r a, a < k → u.getD (r * k + a) 0 = t.data.getD (r * k + a) 0 * d.getD a 0 := by
  obtain ⟨shape, data⟩ := t
  simp only at hs
  subst hs
  have hl : data.length = (s ++ [k]).prod := ht
  have hm : max (s ++ [k]).length [k].length = s.length + 1 := by simp
  have h1 : padRank (s.length + 1) ⟨s ++ [k], data⟩ = ⟨s ++ [k], data⟩ := by simp [padRank]
  have h2 : padRank (s.length + 1) ⟨[k], d⟩ = ⟨List.replicate s.length 1 ++ [k], d⟩ := by simp [padRank]
  obtain ⟨u, hu⟩ : ∃ u : List ℝ, u = (List.range (s ++ [k]).prod).map (fun n =>
      (⟨s ++ [k], data⟩ : Tensor ℝ).get (List.zipWith (fun i s => if s = 1 then 0 else i) (Tensor.unravel (s ++ [k]) n)
        (s ++ [k])) *
      (⟨List.replicate s.length 1 ++ [k], d⟩ : Tensor ℝ).get (List.zipWith (fun i s => if s = 1 then 0 else i)
        (Tensor.unravel (s ++ [k]) n) (List.replicate s.length 1 ++ [k]))) := ⟨_, rfl⟩
  refine ⟨u, ?_, ?_, ?_⟩
  · simp only [mulBroadcast, hm, h1, h2, Params.broadcastMul]
    rw [if_pos ⟨by simp, last_fits s k⟩, last_shape]
    rw [hu]
    rfl
  · simp [hu, hl]
  · intro r a ha
    by_cases hb : r * k + a < (s ++ [k]).prod
    · have hv := Tensor.unravel_valid hb
      have e := clip_valid hv
      have e' := ravel_last hv
      change List.zipWith (fun i s => if s = 1 then 0 else i) _ _ = _ at e
      change Tensor.ravel _ (List.zipWith (fun i s => if s = 1 then 0 else i) _ _) = _ at e'
      rw [hu]
      simp only [List.getD_eq_getElem?_getD, List.getElem?_map, List.getElem?_range hb, Option.map_some,
        Option.getD_some, Tensor.get]
      rw [e, e', Tensor.ravel_unravel hb, Nat.mul_add_mod', Nat.mod_eq_of_lt ha]
    · have h0 : data.getD (r * k + a) 0 = 0 := by
        rw [List.getD_eq_getElem?_getD, List.getElem?_eq_none (by omega), Option.getD_none]
      rw [h0, zero_mul, hu]
      rw [List.getD_eq_getElem?_getD, List.getElem?_eq_none (by simpa using Nat.le_of_not_lt hb), Option.getD_none]

/-! ### Patches -/

theorem exists_flat {kh kw c : ℕ} (k : Fin (kh * kw * c)) : ∃ dh dw ch, flat dh dw ch = k := by
  refine ⟨(finProdFinEquiv.symm (finProdFinEquiv.symm k).1).1, (finProdFinEquiv.symm (finProdFinEquiv.symm k).1).2,
    (finProdFinEquiv.symm k).2, ?_⟩
  simp only [flat, Prod.mk.eta, Equiv.apply_symm_apply]

theorem convolution_identity {kh kw c : ℕ} (stride rate pad : ℤ × ℤ) (x : ℤ × ℤ → Fin c → ℝ) (p : ℤ × ℤ)
    (k : Fin (kh * kw * c)) :
    convolution stride rate pad x (identityFilter kh kw c) p k = imagePatch kh kw stride rate pad x p k := by
  obtain ⟨dh, dw, ch, rfl⟩ := exists_flat k
  exact (C68_patches kh kw stride rate pad x p dh dw ch).trans (imagePatch_flat kh kw stride rate pad x p dh dw ch).symm

theorem imageTensor_length {N c : ℕ} (kh kw oh ow : ℕ) (stride rate pad : ℤ × ℤ) (x : Fin N → ℤ × ℤ → Fin c → ℝ) :
    (imageTensor kh kw oh ow stride rate pad x).data.length = N * oh * ow * (kh * kw * c) := by
  have h : (imageTensor kh kw oh ow stride rate pad x).data.length = [N, oh, ow, kh * kw * c].prod := Tensor.ofFn_wf _ _
  rw [h]
  simp only [List.prod_cons, List.prod_nil]
  ring

theorem imageTensor_data {N c : ℕ} (kh kw oh ow : ℕ) (stride rate pad : ℤ × ℤ) (x : Fin N → ℤ × ℤ → Fin c → ℝ)
    (n : Fin N) (i : Fin oh) (j : Fin ow) (k : Fin (kh * kw * c)) :
    (imageTensor kh kw oh ow stride rate pad x).data.getD (((n * oh + i) * ow + j) * (kh * kw * c) + k) 0 =
      imagePatch kh kw stride rate pad (x n) ((i : ℤ), (j : ℤ)) k := by
  have h := Tensor.get_ofFn (at4 fun n => imagePatch kh kw stride rate pad (x n))
    (shape := [N, oh, ow, kh * kw * c]) (idx := [n, i, j, k])
    (.cons n.2 (.cons i.2 (.cons j.2 (.cons k.2 .nil))))
  rw [show at4 (fun n => imagePatch kh kw stride rate pad (x n)) [(n : ℕ), i, j, k] = _ from
    dif_pos ⟨n.2, k.2⟩] at h
  refine Eq.trans ?_ h
  rw [Tensor.get]
  change (imageTensor kh kw oh ow stride rate pad x).data.getD _ 0 = (imageTensor kh kw oh ow stride rate pad x).data.getD _ 0
  congr 1
  simp only [Tensor.ofFn_shape, Tensor.ravel, List.prod_cons, List.prod_nil]
  ring

theorem convolutionTensor_eq {N c : ℕ} (kh kw : ℕ) (g : ConvGeo) (x : Fin N → ℤ × ℤ → Fin c → ℝ) :
    convolutionTensor kh kw g x =
      .ok ⟨[N, g.oh, g.ow, kh, kw, c], (imageTensor kh kw g.oh g.ow g.stride g.rate g.pad x).data⟩ := by
  have e : (fun n => convolution g.stride g.rate g.pad (x n) (identityFilter (R := ℝ) kh kw c)) =
      fun n => imagePatch kh kw g.stride g.rate g.pad (x n) := by
    funext n p k
    exact convolution_identity _ _ _ _ _ _
  simp only [convolutionTensor, e]
  change (imageTensor kh kw g.oh g.ow g.stride g.rate g.pad x).reshape _ = _
  rw [Tensor.reshape, if_pos (by rw [imageTensor_length]; simp; ring)]

theorem pointwiseTensor_eq {N c : ℕ} (g : ConvGeo) (x : Fin N → ℤ × ℤ → Fin c → ℝ) :
    pointwiseTensor true 1 1 g x =
      .ok ⟨[N, g.h, g.w, 1, 1, c], (imageTensor 1 1 g.h g.w (1, 1) (1, 1) (0, 0) x).data⟩ := by
  simp only [pointwiseTensor, ne_eq, not_true_eq_false, or_self, if_false, Bool.not_true, Bool.false_eq_true]
  rw [Tensor.reshape, if_pos (by rw [imageTensor_length]; simp; ring)]

/-! ### Rows -/

/-- The row of the matrix of patches. -/
def rowsOf {N K : ℕ} (oh ow : ℕ) (f : Fin N → Fin oh → Fin ow → Fin K → ℝ) : Rows K :=
  (List.ofFn fun n => (List.ofFn fun i => List.ofFn fun j => f n i j).flatten).flatten

theorem patchesFlat_ok {N K oh ow : ℕ} (hK : 0 < K) (t : Tensor ℝ) (f : Fin N → Fin oh → Fin ow → Fin K → ℝ)
    (hl : t.data.length = N * oh * ow * K)
    (h : ∀ (n : Fin N) (i : Fin oh) (j : Fin ow) (k : Fin K),
      t.data.getD (((n * oh + i) * ow + j) * K + k) 0 = f n i j k) :
    patchesFlat K t = .ok (rowsOf oh ow f) := by
  unfold patchesFlat
  rw [if_neg (by rw [hl]; simp; omega)]
  congr 1
  have e : t.data.length / K = N * oh * ow := by rw [hl, Nat.mul_div_cancel _ hK]
  rw [show (List.ofFn fun r : Fin (t.data.length / K) => fun k : Fin K => t.data.getD (r * K + k) 0) =
    List.ofFn fun r : Fin (N * oh * ow) => fun k : Fin K => t.data.getD (r * K + k) 0 by rw [e]]
  rw [List.ofFn_mul, List.ofFn_mul, rowsOf]
  have hh : ∀ (n : Fin N) (i : Fin oh) (j : Fin ow),
      (fun k : Fin K => t.data.getD (((n * oh + i) * ow + j) * K + k) 0) = f n i j := fun n i j => funext (h n i j)
  rw [List.flatten_flatten, List.map_ofFn]
  refine congrArg List.flatten (congrArg List.ofFn (funext fun n => congrArg List.flatten (congrArg List.ofFn
    (funext fun i => congrArg List.ofFn (funext fun j => hh n i j)))))

theorem patchRows_eq {kh kw c N : ℕ} (oh ow : ℕ) (stride rate pad : ℤ × ℤ)
    (mask : Option (Fin kh → Fin kw → Fin c → ℝ)) (x : Fin N → ℤ × ℤ → Fin c → ℝ) :
    patchRows oh ow stride rate pad mask (List.ofFn x) =
      rowsOf oh ow fun n i j => maskTaps mask (patchGrid kh kw oh ow stride rate pad (x n) i j) := by
  unfold patchRows rowsOf
  rw [List.flatMap_def, List.map_ofFn]
  rfl

/-- The mask as a function. -/
def maskFun {kh kw c : ℕ} (m : Tensor ℝ) (dh : Fin kh) (dw : Fin kw) (ch : Fin c) : ℝ := m.get [dh, dw, ch]

theorem maskFun_data {kh kw c : ℕ} (m : Tensor ℝ) (hm : m.shape = [kh, kw, c]) (dh : Fin kh) (dw : Fin kw) (ch : Fin c) :
    m.data.getD (flat dh dw ch) 0 = maskFun m dh dw ch := by
  rw [maskFun, Tensor.get, hm]
  congr 1
  simp only [Tensor.ravel, List.prod_cons, List.prod_nil, flat, finProdFinEquiv_apply_val]
  ring

theorem maskTaps_eq {kh kw c : ℕ} (m : Tensor ℝ) (hm : m.shape = [kh, kw, c]) (p : Fin (kh * kw * c) → ℝ)
    (k : Fin (kh * kw * c)) : maskTaps (some (maskFun m)) p k = p k * m.data.getD k 0 := by
  obtain ⟨dh, dw, ch, rfl⟩ := exists_flat k
  rw [maskFun_data m hm]
  simp [maskTaps, flat]

/-! ### Broadcasting a last dimension of size 1 -/

theorem ravel_one : ∀ {s idx : List ℕ} {k : ℕ}, Tensor.Valid (s ++ [k]) idx → 
    Tensor.ravel (s ++ [1]) (List.zipWith clip idx (s ++ [1])) = Tensor.ravel (s ++ [k]) idx / k
  | [], [i], k, h => by
    cases h with
    | cons h1 h2 =>
      simp only [List.nil_append, List.zipWith_cons_cons, clip, Tensor.ravel, List.prod_nil, mul_one, if_true]
      rw [Nat.add_zero, Nat.add_zero, Nat.div_eq_of_lt h1]
  | a :: s, i :: is, k, h => by
    cases h with
    | cons h1 h2 =>
      have hk : 0 < k := by
        have hp : 0 < (s ++ [k]).prod := lt_of_le_of_lt (Nat.zero_le _) (Tensor.ravel_lt (idx := is) h2)
        rw [List.prod_append] at hp
        simpa using Nat.pos_of_mul_pos_left hp
      have ih := ravel_one (s := s) (idx := is) (k := k) h2
      simp only [List.cons_append, List.zipWith_cons_cons, Tensor.ravel, ih, List.prod_append, List.prod_cons,
        List.prod_nil, mul_one]
      rw [← mul_assoc i, Nat.mul_comm _ k, Nat.mul_add_div hk]
      congr 2
      unfold clip
      split <;> omega
  | [], [], k, h => by cases h
  | [], _ :: _ :: _, k, h => by cases h with | cons _ h2 => cases h2
  | _ :: _, [], k, h => by cases h

theorem one_fits : ∀ (s : List ℕ) (k : ℕ),
    (List.zip (s ++ [1]) (List.replicate s.length 1 ++ [k])).all (fun p => p.1 = p.2 ∨ p.1 = 1 ∨ p.2 = 1) = true
  | [], k => by simp
  | a :: s, k => by
    have ih := one_fits s k
    simp only [List.length_cons, List.replicate_succ, List.cons_append, List.zip_cons_cons, List.all_cons, ih,
      Bool.and_true]
    simp

theorem one_shape : ∀ (s : List ℕ) (k : ℕ),
    List.zipWith (fun x y => if x = 1 then y else x) (s ++ [1]) (List.replicate s.length 1 ++ [k]) = s ++ [k]
  | [], k => by simp
  | a :: s, k => by
    simp only [List.length_cons, List.replicate_succ, List.cons_append, List.zipWith_cons_cons, one_shape s k]
    split <;> simp_all

theorem mulBroadcast_one (s : List ℕ) (k : ℕ) (t : Tensor ℝ) (ht : t.WF) (hs : t.shape = s ++ [1]) (d : List ℝ) :
    ∃ u, mulBroadcast t ⟨[k], d⟩ = .ok ⟨s ++ [k], u⟩ ∧ u.length = t.data.length * k ∧
      ∀ r a, a < k → r < t.data.length → u.getD (r * k + a) 0 = t.data.getD r 0 * d.getD a 0 := by
  obtain ⟨shape, data⟩ := t
  simp only at hs
  subst hs
  have hl : data.length = s.prod := by simpa [Tensor.WF] using ht
  have hm : max (s ++ [1]).length [k].length = s.length + 1 := by simp
  have h1 : padRank (s.length + 1) ⟨s ++ [1], data⟩ = ⟨s ++ [1], data⟩ := by simp [padRank]
  have h2 : padRank (s.length + 1) ⟨[k], d⟩ = ⟨List.replicate s.length 1 ++ [k], d⟩ := by simp [padRank]
  obtain ⟨u, hu⟩ : ∃ u : List ℝ, u = (List.range (s ++ [k]).prod).map (fun n =>
      (⟨s ++ [1], data⟩ : Tensor ℝ).get (List.zipWith (fun i s => if s = 1 then 0 else i) (Tensor.unravel (s ++ [k]) n)
        (s ++ [1])) *
      (⟨List.replicate s.length 1 ++ [k], d⟩ : Tensor ℝ).get (List.zipWith (fun i s => if s = 1 then 0 else i)
        (Tensor.unravel (s ++ [k]) n) (List.replicate s.length 1 ++ [k]))) := ⟨_, rfl⟩
  refine ⟨u, ?_, ?_, ?_⟩
  · simp only [mulBroadcast, hm, h1, h2, Params.broadcastMul]
    rw [if_pos ⟨by simp, one_fits s k⟩, one_shape]
    rw [hu]
    rfl
  · simp [hu, hl]
  · intro r a ha hr
    have hb : r * k + a < (s ++ [k]).prod := by
      have hr : r < data.length := hr
      simp only [List.prod_append, List.prod_cons, List.prod_nil, mul_one, ← hl]
      nlinarith
    have hv := Tensor.unravel_valid hb
    have e := ravel_one hv
    have e' := ravel_last hv
    change Tensor.ravel _ (List.zipWith (fun i s => if s = 1 then 0 else i) _ _) = _ at e
    change Tensor.ravel _ (List.zipWith (fun i s => if s = 1 then 0 else i) _ _) = _ at e'
    rw [hu]
    simp only [List.getD_eq_getElem?_getD, List.getElem?_map, List.getElem?_range hb, Option.map_some,
      Option.getD_some, Tensor.get]
    rw [e, e', Tensor.ravel_unravel hb, Nat.mul_add_mod', Nat.mod_eq_of_lt ha, Nat.mul_comm r k,
      Nat.mul_add_div (by omega), Nat.div_eq_of_lt ha, Nat.add_zero]

theorem mulBroadcast_error (s : List ℕ) (c k : ℕ) (t : Tensor ℝ) (hs : t.shape = s ++ [c]) (d : List ℝ) (hc : c ≠ 1)
    (hk : k ≠ 1) (hck : c ≠ k) : ∃ e, mulBroadcast t ⟨[k], d⟩ = .error e := by
  obtain ⟨shape, data⟩ := t
  simp only at hs
  subst hs
  have hm : max (s ++ [c]).length [k].length = s.length + 1 := by simp
  have h1 : padRank (s.length + 1) ⟨s ++ [c], data⟩ = ⟨s ++ [c], data⟩ := by simp [padRank]
  have h2 : padRank (s.length + 1) ⟨[k], d⟩ = ⟨List.replicate s.length 1 ++ [k], d⟩ := by simp [padRank]
  refine ⟨"broadcast: incompatible shapes", ?_⟩
  simp only [mulBroadcast, hm, h1, h2, Params.broadcastMul]
  rw [if_neg]
  rintro ⟨-, h⟩
  rw [List.zip_append (by simp), List.all_append] at h
  simp [hc, hk, hck] at h

end Kfac.Grad
