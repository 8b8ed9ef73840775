import Verif.Train.Modes
import Verif.Train.PropsDeep
import Verif.Est.PropsModes

/-! # C106: on deep linear networks the blocks of K-FAC are exact -/

namespace Kfac.Train

open Kfac.Stats Kfac.Loss Kfac.Grad Kfac.Block Matrix MeasureTheory

/-! ### Specification -/

/-- One network after another. -/
def Net.comp : {n m o : ℕ} → Net n m → Net m o → Net n o
  | _, _, _, .nil, b => b
  | _, _, _, .cons bias l φ rest, b => .cons bias l φ (rest.comp b)

/-- The number of layers. -/
def Net.depth {n o : ℕ} : Net n o → ℕ
  | .nil => 0
  | .cons _ _ _ rest => rest.depth + 1

/-- An affine function. -/
def IsAffine {q k : ℕ} (φ : (Fin q → ℝ) → Fin k → ℝ) : Prop :=
  ∃ (M : Fin k → Fin q → ℝ) (c : Fin k → ℝ), ∀ s j, φ s j = (∑ p, M j p * s p) + c j

/-- A deep linear network: what follows a layer is affine. -/
def Net.Linear {n o : ℕ} : Net n o → Prop
  | .nil => True
  | .cons _ _ φ rest => IsAffine φ ∧ rest.Linear

/-- The loss `coeff ‖y - z‖²/(2 var)` of a batch, up to the constant of the Gaussian density. -/
noncomputable def gaussianLoss {n o : ℕ} (var coeff : ℝ) (e : Examples n o) (net : Net n o) : ℝ :=
  (∑ i, coeff * ((∑ j, (e.y i j - net.eval (e.x i) j) ^ 2) / (2 * var))) / (e.N + 1)

/-- The mean with exponentially decaying weights; every number comes with the decay applied to the earlier ones. -/
noncomputable def decayedMean (es : List (ℝ × ℝ)) : ℝ :=
  es.foldl (fun s e => e.1 * s + e.2) 0 / es.foldl (fun s e => e.1 * s + 1) 0

/-- The mean loss of several batches. -/
noncomputable def decayedLoss {n o : ℕ} (var coeff : ℝ) (es : List (Examples n o)) (net : Net n o) : ℝ :=
  decayedMean (es.map fun e => (e.decay, gaussianLoss var coeff e net))

/-! ### Composition -/

theorem comp_eval {n m o : ℕ} (a : Net n m) (b : Net m o) (x : Fin n → ℝ) : (a.comp b).eval x = b.eval (a.eval x) := by
  induction a with
  | nil => rfl
  | cons bias l φ rest ih => simp only [Net.comp, Net.eval, ih]

theorem bind_ok {α β : Type} {x : Except String α} {f : α → Except String β} {b : β} (h : x.bind f = .ok b) :
    ∃ a, x = .ok a ∧ f a = .ok b := by
  cases x with
  | error e => cases h
  | ok a => exact ⟨a, rfl, h⟩

/-! ### The statistics of one update -/

theorem lossSeen_good {N q k o : ℕ} {var coeff : ℝ} (hv : 0 < var) (hc : 0 ≤ coeff) (φ : (Fin q → ℝ) → Fin k → ℝ) (rest : Net k o)
    (s : Fin N → Fin q → ℝ) : Est.Good (lossSeen var coeff φ rest s) :=
  ⟨fun _ => hc, fun _ => hv, fun _ _ => trivial⟩

theorem output_cov {N q : ℕ} (gs : List (Batch N q)) :
    newCovOverReplicas computeCov [gs.map fun g => [List.ofFn g]] = Est.outputCov gs := by
  simp [newCovOverReplicas, allAverage, Est.outputCov]

theorem target_eq {N q k o : ℕ} (var coeff : ℝ) (φ : (Fin q → ℝ) → Fin k → ℝ) (rest : Net k o)
    (s : Fin N → Fin q → ℝ) (p p' : Fin q) : Est.target (lossSeen var coeff φ rest s) 0 p p' =
      (∑ i, coeff / var * ∑ j, gradient (fun s => rest.eval (φ s) j) (s i) p * gradient (fun s => rest.eval (φ s) j) (s i) p') / N := by
  unfold Est.target Est.curvature
  congr 1
  refine Finset.sum_congr rfl fun i _ => ?_
  rw [Finset.univ_unique, Finset.sum_singleton]
  show coeff * ∑ a : Bool × Fin o, ∑ a' : Bool × Fin o, (if a.1 then 0 else gradient (fun s => rest.eval (φ s) a.2) (s i) p) *
    (if a.1 = false ∧ a = a' then 1 / var else 0) * (if a'.1 then 0 else gradient (fun s => rest.eval (φ s) a'.2) (s i) p') = _
  have : ∀ a a' : Bool × Fin o, (if a.1 then 0 else gradient (fun s => rest.eval (φ s) a.2) (s i) p) *
      (if a.1 = false ∧ a = a' then 1 / var else 0) * (if a'.1 then 0 else gradient (fun s => rest.eval (φ s) a'.2) (s i) p') =
      if a' = a then (if a.1 then 0 else gradient (fun s => rest.eval (φ s) a.2) (s i) p *
        gradient (fun s => rest.eval (φ s) a.2) (s i) p' / var) else 0 := by
    intro a a'
    by_cases h : a' = a
    · subst h
      rcases a' with ⟨_ | _, j⟩ <;> simp
      ring
    · have h2 : ¬ (a.1 = false ∧ a = a') := fun h' => h h'.2.symm
      rw [if_neg h, if_neg h2, mul_zero, zero_mul]
  simp only [this, Finset.sum_ite_eq', Finset.mem_univ, if_true, Fintype.sum_prod_type, Fintype.sum_bool, Bool.false_eq_true,
    if_false, Finset.sum_const_zero, zero_add]
  rw [Finset.mul_sum, Finset.mul_sum]
  refine Finset.sum_congr rfl fun j _ => ?_
  ring

theorem exact_grads {N q k o : ℕ} {var coeff : ℝ} (hv : 0 < var) (hc : 0 ≤ coeff) (φ : (Fin q → ℝ) → Fin k → ℝ) (rest : Net k o)
    (s : Fin N → Fin q → ℝ) : ∃ gs, Draw.exact.grads var coeff φ rest s = .ok gs ∧ ∀ p p', Est.outputCov gs p p' =
      Est.target (lossSeen var coeff φ rest s) 0 p p' :=
  Est.C79_exact_partial (lossSeen var coeff φ rest s) (lossSeen_good hv hc φ rest s) (fun _ => trivial) 0 (fun _ => rfl)

/-- An update in the mode "exact" never fails. -/
theorem covUpdateBy_comp {N n m q k o : ℕ} {var coeff : ℝ} (decay : ℝ) (draw : Draw N o)
    (hd : ∀ {q k : ℕ} (φ : (Fin q → ℝ) → Fin k → ℝ) (rest : Net k o) (s : Fin N → Fin q → ℝ), ∃ gs, draw.grads var coeff φ rest s = .ok gs)
    (front : Net n m) (bias : Bool) (l : Layer (m + bias.toNat) q) (φ : (Fin q → ℝ) → Fin k → ℝ) (rest : Net k o)
    (x : Fin N → Fin n → ℝ) (gs : List (Batch N q))
    (hg : draw.grads var coeff φ rest (fun i => affine bias l.weights (front.eval (x i))) = .ok gs) :
    ∃ (front' : Net n m) (rest' : Net k o), front'.depth = front.depth ∧ front'.eval = front.eval ∧ rest'.eval = rest.eval ∧
      (front.comp (.cons bias l φ rest)).covUpdateBy var coeff decay x draw = .ok (front'.comp (.cons bias
        { l with
          input := l.input.step (.cov [[[List.ofFn fun i => appendHomog bias (front.eval (x i))]]] decay)
          output := l.output.step (.cov [gs.map fun g => [List.ofFn g]] decay) } φ rest')) := by
  have all : ∀ {n o : ℕ} (net : Net n o) (x : Fin N → Fin n → ℝ) (draw : Draw N o), (∀ {q k : ℕ} (φ : (Fin q → ℝ) → Fin k → ℝ)
      (rest : Net k o) (s : Fin N → Fin q → ℝ), ∃ gs, draw.grads var coeff φ rest s = .ok gs) →
      ∃ net', net.covUpdateBy var coeff decay x draw = .ok net' ∧ net'.eval = net.eval := by
    intro n o net
    induction net with
    | nil => exact fun _ _ _ => ⟨_, rfl, rfl⟩
    | cons bias l φ rest ih =>
      intro x draw hd
      obtain ⟨gs, h1⟩ := hd φ rest fun i => affine bias l.weights (x i)
      obtain ⟨rest', h2, h3⟩ := ih (fun i => φ (affine bias l.weights (x i))) draw hd
      simp only [Net.covUpdateBy, h1, h2, Bind.bind, Except.bind]
      exact ⟨_, rfl, by funext x; simp only [Net.eval, h3]⟩
  induction front with
  | nil =>
    obtain ⟨rest', h2, h3⟩ := all rest (fun i => φ (affine bias l.weights (x i))) draw hd
    refine ⟨.nil, rest', rfl, rfl, h3, ?_⟩
    simp only [Net.eval] at hg
    simp only [Net.comp, Net.covUpdateBy, hg, h2, Bind.bind, Except.bind]
    rfl
  | cons bias' l' φ' rest0 ih =>
    obtain ⟨gs', h1⟩ := hd φ' (rest0.comp (.cons bias l φ rest)) fun i => affine bias' l'.weights (x i)
    obtain ⟨front', rest', h0, h2, h3, h4⟩ := ih l (fun i => φ' (affine bias' l'.weights (x i))) hg
    simp only [Net.comp, Net.covUpdateBy, h1, h4, Bind.bind, Except.bind]
    refine ⟨.cons bias' { l' with
      input := l'.input.step (.cov [[[List.ofFn fun i => appendHomog bias' (x i)]]] decay)
      output := l'.output.step (.cov [gs'.map fun g => [List.ofFn g]] decay) } φ' front', rest', by simp only [Net.depth, h0], ?_, h3, rfl⟩
    funext x
    simp only [Net.eval, h2]

/-! ### Linear networks -/

theorem IsAffine.comp {n q k : ℕ} {ψ : (Fin q → ℝ) → Fin k → ℝ} {φ : (Fin n → ℝ) → Fin q → ℝ} (hψ : IsAffine ψ) (hφ : IsAffine φ) :
    IsAffine fun s => ψ (φ s) := by
  obtain ⟨R, d, hR⟩ := hψ
  obtain ⟨M, c, hM⟩ := hφ
  refine ⟨fun j p => ∑ a, R j a * M a p, fun j => (∑ a, R j a * c a) + d j, fun s j => ?_⟩
  simp only [hR, hM, mul_add, Finset.sum_add_distrib, Finset.mul_sum, Finset.sum_mul]
  rw [Finset.sum_comm, add_assoc]
  simp only [mul_assoc]

theorem IsAffine.layer {n q : ℕ} (bias : Bool) (w : Fin (n + bias.toNat) → Fin q → ℝ) : IsAffine (affine bias w) := by
  refine ⟨fun p r => w (Fin.castAdd _ r) p, affine bias w 0, fun s p => ?_⟩
  simp only [affine]
  rw [Fin.sum_univ_add, Fin.sum_univ_add]
  simp [appendHomog]

theorem IsAffine.eval {n o : ℕ} {net : Net n o} (h : net.Linear) : IsAffine net.eval := by
  induction net with
  | nil => exact ⟨fun j p => if p = j then 1 else 0, 0, fun s j => by simp [Net.eval]⟩
  | cons bias l φ rest ih => exact ((ih h.2).comp h.1).comp (.layer bias l.weights)

theorem gradient_affine {q : ℕ} {f : (Fin q → ℝ) → ℝ} {M : Fin q → ℝ} {c : ℝ} (h : ∀ s, f s = (∑ p, M p * s p) + c) (s : Fin q → ℝ)
    (p : Fin q) : gradient f s p = M p := by
  let L : (Fin q → ℝ) →L[ℝ] ℝ := ∑ p, M p • ContinuousLinearMap.proj p
  have hL : ∀ s, L s = ∑ p, M p * s p := fun s => by simp [L]
  have : f = fun s => L s + c := by funext s; rw [h, hL]
  rw [gradient, this, ((L.hasFDerivAt (x := s)).add_const c).fderiv, hL]
  simp [Pi.single_apply]

/-! ### Quadratic functions of the weights of a layer -/

/-- The quadratic form of the Kronecker product of two matrices. -/
def kronForm {P q : ℕ} (A : Matrix (Fin P) (Fin P) ℝ) (G : Matrix (Fin q) (Fin q) ℝ) (D : Fin P → Fin q → ℝ) : ℝ :=
  ∑ r, ∑ j, ∑ r', ∑ j', D r j * (A r r' * G j j') * D r' j'

/-- `F` is its tangent plus `Q`, at every point. -/
def Quadratic {P q : ℕ} (F Q : (Fin P → Fin q → ℝ) → ℝ) : Prop :=
  ∀ w, ∃ T : (Fin P → Fin q → ℝ) →L[ℝ] ℝ, HasFDerivAt F T w ∧ ∀ D, F (w + D) = F w + T D + Q D

theorem Quadratic.add {P q : ℕ} {F Q F' Q' : (Fin P → Fin q → ℝ) → ℝ} (h : Quadratic F Q) (h' : Quadratic F' Q') :
    Quadratic (fun w => F w + F' w) (fun D => Q D + Q' D) := by
  intro w
  obtain ⟨T, a, b⟩ := h w
  obtain ⟨T', a', b'⟩ := h' w
  refine ⟨T + T', a.add a', fun D => ?_⟩
  simp only [b, b', _root_.add_apply]
  ring

theorem Quadratic.smul {P q : ℕ} {F Q : (Fin P → Fin q → ℝ) → ℝ} (h : Quadratic F Q) (c : ℝ) :
    Quadratic (fun w => c * F w) (fun D => c * Q D) := by
  intro w
  obtain ⟨T, a, b⟩ := h w
  refine ⟨c • T, a.const_mul c, fun D => ?_⟩
  simp only [b, _root_.smul_apply, smul_eq_mul]
  ring

theorem Quadratic.zero {P q : ℕ} : Quadratic (P := P) (q := q) (fun _ => 0) (fun _ => 0) :=
  fun w => ⟨0, hasFDerivAt_const 0 w, fun D => by simp⟩

theorem Quadratic.sum {P q : ℕ} {ι : Type} (s : Finset ι) {F Q : ι → (Fin P → Fin q → ℝ) → ℝ} (h : ∀ i, Quadratic (F i) (Q i)) :
    Quadratic (fun w => ∑ i ∈ s, F i w) (fun D => ∑ i ∈ s, Q i D) := by
  classical
  induction s using Finset.induction_on with
  | empty => simpa using Quadratic.zero
  | insert i s hi ih => simpa only [Finset.sum_insert hi] using (h i).add ih

theorem Quadratic.square {P q : ℕ} (L : (Fin P → Fin q → ℝ) →L[ℝ] ℝ) (e : ℝ) : Quadratic (fun w => (e - L w) ^ 2) (fun D => L D ^ 2) := by
  intro w
  refine ⟨(-2 * (e - L w)) • L, ?_, fun D => ?_⟩
  · refine (((hasFDerivAt_const e w).sub L.hasFDerivAt).pow 2).congr_fderiv ?_
    ext D
    simp
  · simp only [map_add, _root_.smul_apply, smul_eq_mul]
    ring

/-- The output `j` of a linear network as a function of the weights of a layer with the inputs `a`. -/
noncomputable def layerForm {P q : ℕ} (M : Fin q → ℝ) (a : Fin P → ℝ) : (Fin P → Fin q → ℝ) →L[ℝ] ℝ :=
  ∑ p, ∑ r, (M p * a r) • (ContinuousLinearMap.proj (R := ℝ) (φ := fun _ : Fin q => ℝ) p).comp
    (ContinuousLinearMap.proj (R := ℝ) (φ := fun _ : Fin P => Fin q → ℝ) r)

theorem layerForm_apply {P q : ℕ} (M : Fin q → ℝ) (a : Fin P → ℝ) (w : Fin P → Fin q → ℝ) :
    layerForm M a w = ∑ p, M p * ∑ r, w r p * a r := by
  simp only [layerForm, _root_.sum_apply, _root_.smul_apply, ContinuousLinearMap.comp_apply,
    ContinuousLinearMap.proj_apply, smul_eq_mul, Finset.mul_sum]
  refine Finset.sum_congr rfl fun p _ => Finset.sum_congr rfl fun r _ => ?_
  ring

theorem kronForm_rank {P q : ℕ} (M : Fin q → ℝ) (a : Fin P → ℝ) (D : Fin P → Fin q → ℝ) :
    kronForm (Matrix.of fun r r' => a r * a r') (Matrix.of fun j j' => M j * M j') D = layerForm M a D ^ 2 := by
  have : layerForm M a D = ∑ r, ∑ j, D r j * (a r * M j) := by
    rw [layerForm_apply, Finset.sum_comm]
    refine Finset.sum_congr rfl fun p _ => ?_
    rw [Finset.mul_sum]
    refine Finset.sum_congr rfl fun r _ => ?_
    ring
  rw [this, sq, Finset.sum_mul_sum]
  simp only [kronForm, Matrix.of_apply]
  refine Finset.sum_congr rfl fun r _ => ?_
  rw [Finset.sum_comm]
  refine Finset.sum_congr rfl fun r' _ => ?_
  rw [Finset.sum_mul_sum]
  refine Finset.sum_congr rfl fun j _ => Finset.sum_congr rfl fun j' _ => ?_
  ring

theorem kronForm_add {P q : ℕ} (A A' : Matrix (Fin P) (Fin P) ℝ) (G : Matrix (Fin q) (Fin q) ℝ) (d : ℝ) (D : Fin P → Fin q → ℝ) :
    kronForm (d • A + A') G D = d * kronForm A G D + kronForm A' G D := by
  simp only [kronForm, Finset.mul_sum, ← Finset.sum_add_distrib, Matrix.add_apply, Matrix.smul_apply, smul_eq_mul]
  refine Finset.sum_congr rfl fun _ _ => Finset.sum_congr rfl fun _ _ => Finset.sum_congr rfl fun _ _ => Finset.sum_congr rfl fun _ _ => ?_
  ring

theorem kronForm_sum {P q N o : ℕ} (a : Fin N → Fin P → ℝ) (M : Fin o → Fin q → ℝ) (α β : ℝ) (D : Fin P → Fin q → ℝ) :
    kronForm (Matrix.of fun r r' => (∑ i, a i r * a i r') / α) (Matrix.of fun j j' => β * ∑ k, M k j * M k j') D =
      (∑ i, β * ∑ k, kronForm (Matrix.of fun r r' => a i r * a i r') (Matrix.of fun j j' => M k j * M k j') D) / α := by
  have e : ∀ (A : Matrix (Fin P) (Fin P) ℝ) (G : Matrix (Fin q) (Fin q) ℝ), kronForm A G D =
      ∑ t : (Fin P × Fin q) × (Fin P × Fin q), D t.1.1 t.1.2 * (A t.1.1 t.2.1 * G t.1.2 t.2.2) * D t.2.1 t.2.2 := by
    intro A G
    simp only [kronForm, Fintype.sum_prod_type]
  simp only [e, Matrix.of_apply]
  have e2 : ∀ f : Fin N → Fin o → (Fin P × Fin q) × (Fin P × Fin q) → ℝ,
      ∑ i, β * ∑ k, ∑ t, f i k t = ∑ t, ∑ i, β * ∑ k, f i k t := by
    intro f
    rw [Finset.sum_comm]
    refine Finset.sum_congr rfl fun i _ => ?_
    rw [← Finset.mul_sum, Finset.sum_comm]
  rw [e2, Finset.sum_div]
  refine Finset.sum_congr rfl fun t _ => ?_
  have e3 : ∀ i, β * ∑ k, D t.1.1 t.1.2 * (a i t.1.1 * a i t.2.1 * (M k t.1.2 * M k t.2.2)) * D t.2.1 t.2.2 =
      a i t.1.1 * a i t.2.1 * (β * (D t.1.1 t.1.2 * D t.2.1 t.2.2) * ∑ k, M k t.1.2 * M k t.2.2) := by
    intro i
    simp only [Finset.mul_sum]
    refine Finset.sum_congr rfl fun k _ => ?_
    ring
  rw [Finset.sum_congr rfl fun i _ => e3 i, ← Finset.sum_mul]
  ring

/-! ### The run -/

/-- The loss of a batch as a function of the weights of one layer: `f` gives the inputs of the layer, `h` what follows it. -/
noncomputable def lossBetween {n m q o : ℕ} (var coeff : ℝ) (f : (Fin n → ℝ) → Fin m → ℝ) (bias : Bool) (h : (Fin q → ℝ) → Fin o → ℝ)
    (e : Examples n o) (w : Fin (m + bias.toNat) → Fin q → ℝ) : ℝ :=
  (∑ i, coeff * ((∑ j, (e.y i j - h (affine bias w (f (e.x i))) j) ^ 2) / (2 * var))) / (e.N + 1)

theorem gaussianLoss_layer {n m q k o : ℕ} (var coeff : ℝ) (front : Net n m) (bias : Bool) (l : Layer (m + bias.toNat) q)
    (φ : (Fin q → ℝ) → Fin k → ℝ) (rest : Net k o) (e : Examples n o) (w : Fin (m + bias.toNat) → Fin q → ℝ) :
    gaussianLoss var coeff e (front.comp (.cons bias { l with weights := w } φ rest)) =
      lossBetween var coeff front.eval bias (fun s => rest.eval (φ s)) e w := by
  simp only [gaussianLoss, lossBetween, comp_eval, Net.eval]

/-- The second moments of the inputs of a layer. -/
noncomputable def inputMoments {n m : ℕ} (f : (Fin n → ℝ) → Fin m → ℝ) (bias : Bool) {N : ℕ} (x : Fin (N + 1) → Fin n → ℝ) :
    Matrix (Fin (m + bias.toNat)) (Fin (m + bias.toNat)) ℝ :=
  Matrix.of fun r r' => (∑ i, appendHomog bias (f (x i)) r * appendHomog bias (f (x i)) r') / (N + 1)

theorem lossBetween_quadratic {n m q o : ℕ} (var coeff : ℝ) (f : (Fin n → ℝ) → Fin m → ℝ) (bias : Bool) {h : (Fin q → ℝ) → Fin o → ℝ}
    {M : Fin o → Fin q → ℝ} {c : Fin o → ℝ} (hh : ∀ s j, h s j = (∑ p, M j p * s p) + c j) (e : Examples n o) :
    Quadratic (lossBetween var coeff f bias h e)
      (fun D => kronForm (inputMoments f bias e.x) (Matrix.of fun p p' => coeff / var * ∑ j, M j p * M j p') D / 2) := by
  have h1 := (Quadratic.sum Finset.univ fun i : Fin (e.N + 1) => (Quadratic.sum Finset.univ fun j : Fin o =>
    Quadratic.square (layerForm (M j) (appendHomog bias (f (e.x i)))) (e.y i j - c j)).smul (coeff / (2 * var))).smul (1 / ((e.N : ℝ) + 1))
  convert h1 using 1
  · funext w
    simp only [lossBetween, hh, layerForm_apply, affine]
    rw [div_eq_mul_one_div, mul_comm]
    congr 1
    refine Finset.sum_congr rfl fun i _ => ?_
    rw [mul_div_assoc', mul_div_right_comm]
    congr 1
    refine Finset.sum_congr rfl fun j _ => ?_
    ring
  · funext D
    rw [inputMoments, kronForm_sum]
    simp only [kronForm_rank]
    rw [div_div, mul_comm ((e.N : ℝ) + 1), ← div_div, Finset.sum_div, div_eq_mul_one_div, mul_comm]
    congr 1
    refine Finset.sum_congr rfl fun i _ => ?_
    by_cases hv : var = 0
    · simp [hv]
    · field_simp

/-- The output statistics of one batch in a linear network. -/
theorem exact_linear {N q k o : ℕ} {var coeff : ℝ} (hv : 0 < var) (hc : 0 ≤ coeff) {φ : (Fin q → ℝ) → Fin k → ℝ} {rest : Net k o}
    {M : Fin o → Fin q → ℝ} {c : Fin o → ℝ} (hh : ∀ s j, rest.eval (φ s) j = (∑ p, M j p * s p) + c j)
    (s : Fin (N + 1) → Fin q → ℝ) : ∃ gs, Draw.exact.grads var coeff φ rest s = .ok gs ∧
      Est.outputCov gs = Matrix.of fun p p' => coeff / var * ∑ j, M j p * M j p' := by
  obtain ⟨gs, h1, h2⟩ := exact_grads hv hc φ rest s
  refine ⟨gs, h1, ?_⟩
  ext p p'
  rw [h2, target_eq, Matrix.of_apply]
  have : ∀ j i p, gradient (fun s => rest.eval (φ s) j) (s i) p = M j p := fun j i p =>
    gradient_affine (f := fun s => rest.eval (φ s) j) (fun s => hh s j) (s i) p
  simp only [this, Finset.sum_const, Finset.card_univ, Fintype.card_fin, nsmul_eq_mul]
  rw [mul_div_cancel_left₀ _ (by positivity)]

theorem input_cov {n m N : ℕ} (f : (Fin n → ℝ) → Fin m → ℝ) (bias : Bool) (x : Fin (N + 1) → Fin n → ℝ) :
    newCovOverReplicas computeCov [[[List.ofFn fun i => appendHomog bias (f (x i))]]] = inputMoments f bias x := by
  rw [cov_one]
  ext r r'
  rw [Grad.computeCov_apply, inputMoments, Matrix.of_apply]
  rw [List.map_ofFn, List.sum_ofFn, List.length_ofFn, Nat.cast_add, Nat.cast_one]
  rfl

theorem covRun_layer {n m q k o : ℕ} {var coeff : ℝ} (hv : 0 < var) (hc : 0 ≤ coeff) (f : (Fin n → ℝ) → Fin m → ℝ) (bias : Bool)
    {φ : (Fin q → ℝ) → Fin k → ℝ} {h : (Fin k → ℝ) → Fin o → ℝ}
    {M : Fin o → Fin q → ℝ} {c : Fin o → ℝ} (hh : ∀ s j, h (φ s) j = (∑ p, M j p * s p) + c j) (es : List (Examples n o)) :
    ∀ (front : Net n m) (l : Layer (m + bias.toNat) q) (rest : Net k o) (s0 : (Fin (m + bias.toNat) → Fin q → ℝ) → ℝ) (t0 : ℝ),
    front.eval = f → rest.eval = h →
    Quadratic s0 (fun D => kronForm l.input.avg.var (Matrix.of fun p p' => coeff / var * ∑ j, M j p * M j p') D / 2) →
    l.input.avg.totalWeight = t0 → l.output.avg.totalWeight = t0 →
    l.output.avg.var = t0 • (Matrix.of fun p p' => coeff / var * ∑ j, M j p * M j p') →
    ∃ (front' : Net n m) (l' : Layer (m + bias.toNat) q) (rest' : Net k o),
      (front.comp (.cons bias l φ rest)).covRun var coeff es = .ok (front'.comp (.cons bias l' φ rest')) ∧
      front'.depth = front.depth ∧ front'.eval = f ∧ rest'.eval = h ∧ l'.weights = l.weights ∧
      Quadratic (fun w => es.foldl (fun s e => e.decay * s + lossBetween var coeff f bias (fun s => h (φ s)) e w) (s0 w))
        (fun D => kronForm l'.input.avg.var (Matrix.of fun p p' => coeff / var * ∑ j, M j p * M j p') D / 2) ∧
      l'.input.avg.totalWeight = es.foldl (fun s e => e.decay * s + 1) t0 ∧
      l'.output.avg.totalWeight = es.foldl (fun s e => e.decay * s + 1) t0 ∧
      l'.output.avg.var = es.foldl (fun s e => e.decay * s + 1) t0 • (Matrix.of fun p p' => coeff / var * ∑ j, M j p * M j p') := by
  induction es with
  | nil =>
    intro front l rest s0 t0 h1 h2 h3 h4 h5 h6
    exact ⟨front, l, rest, rfl, rfl, h1, h2, rfl, h3, h4, h5, h6⟩
  | cons e es ih =>
    intro front l rest s0 t0 h1 h2 h3 h4 h5 h6
    subst h1 h2
    obtain ⟨gs, g1, g2⟩ := exact_linear hv hc hh (fun i => affine bias l.weights (front.eval (e.x i)))
    obtain ⟨front1, rest1, a0, a1, a2, a3⟩ := covUpdateBy_comp e.decay .exact (fun φ rest s => (exact_grads hv hc φ rest s).imp fun _ h => h.1)
      front bias l φ rest e.x gs g1
    set l1 : Layer (m + bias.toNat) q := { l with
          input := l.input.step (.cov [[[List.ofFn fun i => appendHomog bias (front.eval (e.x i))]]] e.decay)
          output := l.output.step (.cov [gs.map fun g => [List.ofFn g]] e.decay) } with hl1
    obtain ⟨front', l', rest', b1, b0, b2, b3, b4, b5, b6, b7, b8⟩ := ih front1 l1 rest1
      (fun w => e.decay * s0 w + lossBetween var coeff front.eval bias (fun s => rest.eval (φ s)) e w) (e.decay * t0 + 1) a1 a2
      (by
        have := (h3.smul e.decay).add (lossBetween_quadratic var coeff front.eval bias hh e)
        convert this using 2 with D
        simp only [l1, DenseStat.step, MovAvg.add, one_smul, input_cov, kronForm_add]
        ring) (by simp only [l1, DenseStat.step, MovAvg.add, h4]) (by simp only [l1, DenseStat.step, MovAvg.add, h5]) (by
        simp only [l1, DenseStat.step, MovAvg.add, one_smul, output_cov, g2, h6, smul_smul, add_smul])
    refine ⟨front', l', rest', ?_, b0.trans a0, b2, b3, b4, b5, b6, b7, b8⟩
    rw [Net.covRun, a3]
    exact b1

theorem decay_pos {n o : ℕ} (es : List (Examples n o)) (hd : ∀ e ∈ es, 0 ≤ e.decay) :
    ∀ t0 : ℝ, 0 ≤ t0 → (es ≠ [] ∨ 0 < t0) → 0 < es.foldl (fun s e => e.decay * s + 1) t0 := by
  induction es with
  | nil => intro t0 _ h; simpa using h
  | cons e es ih =>
    intro t0 h0 _
    have h1 : 0 ≤ e.decay * t0 := mul_nonneg (hd e (by simp)) h0
    exact ih (fun e he => hd e (by simp [he])) _ (by linarith) (.inr (by linarith))

theorem decayedLoss_layer {n m q k o : ℕ} (var coeff : ℝ) (front : Net n m) (bias : Bool) (l : Layer (m + bias.toNat) q)
    (φ : (Fin q → ℝ) → Fin k → ℝ) (rest : Net k o) (es : List (Examples n o)) (w : Fin (m + bias.toNat) → Fin q → ℝ) :
    decayedLoss var coeff es (front.comp (.cons bias { l with weights := w } φ rest)) =
      (es.foldl (fun s e => e.decay * s + 1) 0)⁻¹ * es.foldl (fun s e => e.decay * s +
        lossBetween var coeff front.eval bias (fun s => rest.eval (φ s)) e w) 0 := by
  rw [decayedLoss, decayedMean, List.foldl_map, List.foldl_map, div_eq_inv_mul]
  simp only [gaussianLoss_layer]

theorem kronForm_smul {P q : ℕ} (A : Matrix (Fin P) (Fin P) ℝ) (G : Matrix (Fin q) (Fin q) ℝ) (d : ℝ) (D : Fin P → Fin q → ℝ) :
    kronForm (d • A) G D = d * kronForm A G D := by
  have := kronForm_add A 0 G d D
  simpa [kronForm] using this

theorem kronForm_eq {P q : ℕ} {A : Matrix (Fin P) (Fin P) ℝ} {G : Matrix (Fin q) (Fin q) ℝ} (hG : Gᵀ = G) (D : Fin P → Fin q → ℝ) :
    kronForm A G D = ∑ r, ∑ j, D r j * (A * Matrix.of D * G) r j := by
  unfold kronForm
  refine Finset.sum_congr rfl fun r _ => Finset.sum_congr rfl fun j _ => ?_
  rw [Matrix.mul_apply, Finset.mul_sum, Finset.sum_comm]
  refine Finset.sum_congr rfl fun j' _ => ?_
  rw [Matrix.mul_apply, Finset.sum_mul, Finset.mul_sum]
  refine Finset.sum_congr rfl fun r' _ => ?_
  have : G j' j = G j j' := by conv_lhs => rw [← hG, Matrix.transpose_apply]
  rw [this, Matrix.of_apply]
  ring

/-- Moving by the preconditioned gradient completes the square. -/
theorem kronForm_square {P q : ℕ} {A : Matrix (Fin P) (Fin P) ℝ} {G : Matrix (Fin q) (Fin q) ℝ} (hA : A.PosDef) (hG : G.PosDef)
    (g E u : Fin P → Fin q → ℝ) (hU : Matrix.of u = A⁻¹ * Matrix.of g * G⁻¹) :
    kronForm A G (E - u) = kronForm A G E - 2 * (∑ r, ∑ j, g r j * E r j) + kronForm A G u := by
  have sA : Aᵀ = A := by have := hA.isHermitian; rwa [Matrix.IsHermitian, conjTranspose_eq_transpose_of_trivial] at this
  have sG : Gᵀ = G := by have := hG.isHermitian; rwa [Matrix.IsHermitian, conjTranspose_eq_transpose_of_trivial] at this
  have uA : IsUnit A.det := hA.isUnit.map Matrix.detMonoidHom
  have uG : IsUnit G.det := hG.isUnit.map Matrix.detMonoidHom
  have e1 : A * Matrix.of u * G = Matrix.of g := by
    rw [hU, ← Matrix.mul_assoc, ← Matrix.mul_assoc, Matrix.mul_nonsing_inv _ uA, Matrix.one_mul, Matrix.mul_assoc,
      Matrix.nonsing_inv_mul _ uG, Matrix.mul_one]
  have tr : ∀ X Y : Matrix (Fin P) (Fin q) ℝ, ∑ r, ∑ j, X r j * Y r j = (Xᵀ * Y).trace := by
    intro X Y
    rw [Matrix.trace, Finset.sum_comm]
    refine Finset.sum_congr rfl fun j _ => ?_
    rw [Matrix.diag_apply, Matrix.mul_apply]
    rfl
  have k1 : ∀ X : Fin P → Fin q → ℝ, kronForm A G X = ((Matrix.of X)ᵀ * (A * Matrix.of X * G)).trace := fun X => by
    rw [kronForm_eq sG, ← tr]
    rfl
  have k2 : ∑ r, ∑ j, g r j * E r j = ((Matrix.of u)ᵀ * (A * (Matrix.of E) * G)).trace := by
    have h1 := tr (Matrix.of g) (Matrix.of E)
    have h2 : ∑ r, ∑ j, g r j * E r j = ((Matrix.of g)ᵀ * Matrix.of E).trace := h1
    rw [h2, ← e1]
    simp only [Matrix.transpose_mul, sA, sG]
    rw [Matrix.mul_assoc, Matrix.trace_mul_comm]
    simp only [Matrix.mul_assoc]
  have k3 : ((Matrix.of E)ᵀ * (A * Matrix.of u * G)).trace = ((Matrix.of u)ᵀ * (A * (Matrix.of E) * G)).trace := by
    rw [← Matrix.trace_transpose]
    simp only [Matrix.transpose_mul, sA, sG, Matrix.transpose_transpose]
    rw [Matrix.mul_assoc, Matrix.trace_mul_comm]
    simp only [Matrix.mul_assoc]
  have k4 : Matrix.of (E - u) = Matrix.of E - Matrix.of u := rfl
  rw [k1, k1, k1, k2, k4]
  simp only [Matrix.transpose_sub, Matrix.mul_sub, Matrix.sub_mul, Matrix.trace_sub, k3]
  ring

/-! ### Theorems -/

/-- C106: in a deep linear network with a Gaussian loss, after updates of the covariances in the mode "exact" on any batches, the
Kronecker product of the two factors of a layer is the Hessian of the mean loss by the parameters of that layer: the loss is
exactly its tangent plus the quadratic form of the block, for every change of the layer, whatever the targets. -/
theorem C106_exact {n m q k o : ℕ} {var coeff : ℝ} (hv : 0 < var) (hc : 0 ≤ coeff) (front : Net n m) (bias : Bool)
    (l : Layer (m + bias.toNat) q) (φ : (Fin q → ℝ) → Fin k → ℝ) (rest : Net k o)
    (hlin : (front.comp (.cons bias l φ rest)).Linear) (hf : (front.comp (.cons bias l φ rest)).Fresh)
    (es : List (Examples n o)) (hne : es ≠ []) (hd : ∀ e ∈ es, 0 ≤ e.decay) :
    ∃ (front' : Net n m) (l' : Layer (m + bias.toNat) q) (rest' : Net k o) (A : Matrix (Fin (m + bias.toNat)) (Fin (m + bias.toNat)) ℝ)
      (G : Matrix (Fin q) (Fin q) ℝ),
      (front.comp (.cons bias l φ rest)).covRun var coeff es = .ok (front'.comp (.cons bias l' φ rest')) ∧
      front'.depth = front.depth ∧ l'.input.avg.value true = some A ∧ l'.output.avg.value true = some G ∧
      (let F := fun w => decayedLoss var coeff es (front.comp (.cons bias { l with weights := w } φ rest))
      ∀ w D, F (w + D) = F w + (∑ r, ∑ j, matGradient F w r j * D r j) +
        (∑ r, ∑ j, ∑ r', ∑ j', D r j * (A r r' * G j j') * D r' j') / 2) := by
  have split : ∀ {n m : ℕ} (front : Net n m) (l : Layer (m + bias.toNat) q), (front.comp (.cons bias l φ rest)).Linear →
      (front.comp (.cons bias l φ rest)).Fresh → (IsAffine φ ∧ rest.Linear) ∧ l.input = ⟨MovAvg.init, 0⟩ ∧ l.output = ⟨MovAvg.init, 0⟩ := by
    intro n m front
    induction front with
    | nil => exact fun l h1 h2 => ⟨h1, h2.2.1, h2.2.2.1⟩
    | cons bias' l' φ' rest' ih => exact fun l h1 h2 => ih l h1.2 h2.2.2.2
  obtain ⟨⟨h1, h2⟩, h3, h4⟩ := split front l hlin hf
  obtain ⟨M, c, hM⟩ := (IsAffine.eval h2).comp h1
  obtain ⟨front', l', rest', b1, b0, b2, b3, b4, b5, b6, b7, b8⟩ := covRun_layer hv hc front.eval bias hM es front l rest (fun _ => 0) 0 rfl rfl
    (by
      convert Quadratic.zero using 2 with D
      simp [h3, MovAvg.init, kronForm]) (by simp [h3, MovAvg.init]) (by simp [h4, MovAvg.init]) (by simp [h4, MovAvg.init])
  have ht := decay_pos es hd 0 le_rfl (.inl hne)
  refine ⟨front', l', rest', _, _, b1, b0, value_eq (by rw [b6]; exact ht.ne'), value_eq (by rw [b7]; exact ht.ne'), ?_⟩
  intro F w D
  obtain ⟨T, t1, t2⟩ := (b5.smul (es.foldl (fun s e => e.decay * s + 1) 0)⁻¹) w
  have hF : F = fun w => (es.foldl (fun s e => e.decay * s + 1) 0)⁻¹ * es.foldl (fun s e => e.decay * s +
        lossBetween var coeff front.eval bias (fun s => rest.eval (φ s)) e w) 0 := by
    funext w
    exact decayedLoss_layer var coeff front bias l φ rest es w
  rw [matGradient_pair, hF, t1.fderiv, t2]
  congr 1
  have e : (l'.output.avg.totalWeight)⁻¹ • l'.output.avg.var = Matrix.of fun p p' => coeff / var * ∑ j, M j p * M j p' := by
    rw [b7, b8, smul_smul, inv_mul_cancel₀ ht.ne', one_smul]
  show _ = kronForm _ _ D / 2
  rw [e, kronForm_smul, b6]
  ring

/-- C106: hence, without damping and with invertible factors, the preconditioned gradient of the layer is its Newton step: moving the
layer by it minimises the mean loss over all parameters of the layer at once. -/
theorem C106_newton {n m q k o : ℕ} (hq : q ≠ 0) {var coeff : ℝ} (hv : 0 < var) (hc : 0 ≤ coeff) (front : Net n m) (bias : Bool)
    (l : Layer (m + bias.toNat) q) (φ : (Fin q → ℝ) → Fin k → ℝ) (rest : Net k o)
    (hlin : (front.comp (.cons bias l φ rest)).Linear) (hf : (front.comp (.cons bias l φ rest)).Fresh)
    (es : List (Examples n o)) (hne : es ≠ []) (hd : ∀ e ∈ es, 0 ≤ e.decay) (rule : PiRule) (power : ℝ) :
    ∃ (front' : Net n m) (l' : Layer (m + bias.toNat) q) (rest' : Net k o) (A : Matrix (Fin (m + bias.toNat)) (Fin (m + bias.toNat)) ℝ)
      (G : Matrix (Fin q) (Fin q) ℝ),
      (front.comp (.cons bias l φ rest)).covRun var coeff es = .ok (front'.comp (.cons bias l' φ rest')) ∧
      front'.depth = front.depth ∧ l'.input.avg.value true = some A ∧ l'.output.avg.value true = some G ∧
      (let F := fun w => decayedLoss var coeff es (front.comp (.cons bias { l with weights := w } φ rest))
      A.PosDef → G.PosDef → ∃ l'' u, l'.invUpdate rule power 0 = .ok l'' ∧
        l''.precondition bias (matGradient F l.weights) = .ok u ∧ ∀ w, F (l.weights - u) ≤ F w) := by
  obtain ⟨front', l', rest', A, G, h1, h0, h2, h3, h4⟩ := C106_exact hv hc front bias l φ rest hlin hf es hne hd
  refine ⟨front', l', rest', A, G, h1, h0, h2, h3, ?_⟩
  intro F pA pG
  set g := matGradient F l.weights with hg
  have hs : setupDamping rule power A.trace (m + bias.toNat) G.trace q 0 none = .ok (0, 0) :=
    setupDamping_zero rule power _ _ _ _ pG.posSemidef.trace_nonneg
  set l'' : Layer (m + bias.toNat) q := { l' with input := l'.input.step (.inv 0), output := l'.output.step (.inv 0) } with hl''
  have e1 : l'.invUpdate rule power 0 = .ok l'' := by
    simp only [Layer.invUpdate, h2, h3, hs, Except.map]
    rfl
  have e2 : l''.input.inverse = A⁻¹ := by simp [l'', DenseStat.step, h2]
  have e3 : l''.output.inverse = G⁻¹ := by simp [l'', DenseStat.step, h3]
  refine ⟨l'', fun r j => (A⁻¹ * Matrix.of g * G⁻¹) r j, e1, ?_, fun w => ?_⟩
  · rw [precondition_eq hq, e2, e3]
  · set u : Fin (m + bias.toNat) → Fin q → ℝ := fun r j => (A⁻¹ * Matrix.of g * G⁻¹) r j with hu
    have a3 := kronForm_square pA pG g ((w - l.weights) + u) u rfl
    have a4 : 0 ≤ kronForm A G ((w - l.weights) + u) := by
      rw [kronForm_eq (by have := pG.isHermitian; rwa [Matrix.IsHermitian, conjTranspose_eq_transpose_of_trivial] at this)]
      by_cases hz : (w - l.weights) + u = 0
      · simp [hz]
      · exact (inner_pos pA pG (X := Matrix.of ((w - l.weights) + u)) hz).le
    rw [add_sub_cancel_right] at a3
    have a5 : kronForm A G (-u) = kronForm A G u := by simp [kronForm]
    have b1 : F w = F l.weights + (∑ r, ∑ j, g r j * (w - l.weights) r j) + kronForm A G (w - l.weights) / 2 := by
      rw [← show l.weights + (w - l.weights) = w by abel]
      exact h4 l.weights (w - l.weights) |>.trans (by rw [add_sub_cancel]; rfl)
    have b2 : F (l.weights - u) = F l.weights + (∑ r, ∑ j, g r j * (-u) r j) + kronForm A G u / 2 := by
      rw [sub_eq_add_neg, ← a5]
      exact h4 l.weights (-u)
    have b3 : ∑ r, ∑ j, g r j * ((w - l.weights) + u) r j = (∑ r, ∑ j, g r j * (w - l.weights) r j) - ∑ r, ∑ j, g r j * (-u) r j := by
      simp only [Pi.add_apply, Pi.neg_apply, mul_add, mul_neg, Finset.sum_add_distrib, Finset.sum_neg_distrib, sub_neg_eq_add]
    rw [b1, b2]
    linarith

/-- C106: in the mode "gradients", with targets drawn from the predictive distribution, the expectation of the statistics of every
layer after an update is what the mode "exact" computes; so is the average over the signs in the mode "curvature_prop". This
holds in any network. -/
theorem C106_modes {N n m q k o : ℕ} {var coeff : ℝ} (hv : 0 < var) (hc : 0 ≤ coeff) (decay : ℝ) (front : Net n m) (bias : Bool)
    (l : Layer (m + bias.toNat) q) (φ : (Fin q → ℝ) → Fin k → ℝ) (rest : Net k o) (x : Fin N → Fin n → ℝ) :
    let net := front.comp (.cons bias l φ rest)
    let law := Measure.pi fun _ : Fin 1 => normalTargets (fun i => net.eval (x i)) fun _ _ => var
    let signs : (Fin N × Fin o → Bool) → Draw N o := fun b => .curvatureProp fun _ i j => if b (i, j) then 1 else -1
    ∃ (fe : Net n m) (le : Layer (m + bias.toNat) q) (re : Net k o)
      (fg : (Fin 1 → Fin N × Fin o → ℝ) → Net n m) (lg : (Fin 1 → Fin N × Fin o → ℝ) → Layer (m + bias.toNat) q)
      (rg : (Fin 1 → Fin N × Fin o → ℝ) → Net k o)
      (fc : (Fin N × Fin o → Bool) → Net n m) (lc : (Fin N × Fin o → Bool) → Layer (m + bias.toNat) q)
      (rc : (Fin N × Fin o → Bool) → Net k o),
      net.covUpdateBy var coeff decay x .exact = .ok (fe.comp (.cons bias le φ re)) ∧
      fe.depth = front.depth ∧ (∀ y, (fg y).depth = front.depth) ∧ (∀ b, (fc b).depth = front.depth) ∧
      (∀ y, net.covUpdateBy var coeff decay x (.gradients y) = .ok ((fg y).comp (.cons bias (lg y) φ (rg y)))) ∧
      (∀ b, net.covUpdateBy var coeff decay x (signs b) = .ok ((fc b).comp (.cons bias (lc b) φ (rc b)))) ∧
      (∀ y, (lg y).input = le.input ∧ (lg y).output.avg.totalWeight = le.output.avg.totalWeight) ∧
      (∀ b, (lc b).input = le.input ∧ (lc b).output.avg.totalWeight = le.output.avg.totalWeight) ∧
      ∀ j j', (Integrable (fun y => (lg y).output.avg.var j j') law ∧ ∫ y, (lg y).output.avg.var j j' ∂law = le.output.avg.var j j') ∧
        (∑ b, (lc b).output.avg.var j j') / 2 ^ (N * o) = le.output.avg.var j j' := by
  intro net law signs
  set s : Fin N → Fin q → ℝ := fun i => affine bias l.weights (front.eval (x i)) with hs
  have good : ∀ {q k : ℕ} (φ : (Fin q → ℝ) → Fin k → ℝ) (rest : Net k o) (s : Fin N → Fin q → ℝ),
      Est.Good (lossSeen var coeff φ rest s) := fun φ rest s => lossSeen_good hv hc φ rest s
  have sampled := fun {q k : ℕ} (φ : (Fin q → ℝ) → Fin k → ℝ) (rest : Net k o) (s : Fin N → Fin q → ℝ) =>
    Est.C79_gradients (lossSeen var coeff φ rest s) (good φ rest s) 0 ⟨0, rfl⟩
  have signed := fun {q k : ℕ} (φ : (Fin q → ℝ) → Fin k → ℝ) (rest : Net k o) (s : Fin N → Fin q → ℝ) =>
    Est.C79_curvature_prop_partial .fisher (lossSeen var coeff φ rest s) (good φ rest s) (fun _ => trivial) 0 ⟨0, rfl⟩
  let e : ((_ : Fin 1) × (Fin N × Fin o)) ≃ Fin N × Fin o := Equiv.uniqueSigma fun _ : Fin 1 => Fin N × Fin o
  have hsg : ∀ {q k : ℕ} (φ : (Fin q → ℝ) → Fin k → ℝ) (rest : Net k o) (s : Fin N → Fin q → ℝ) (b : Fin N × Fin o → Bool),
      (signs b).grads var coeff φ rest s = (Est.gradsCurvatureProp .fisher (lossSeen var coeff φ rest s)
        (Est.signsOf (lossSeen var coeff φ rest s) fun c : (_ : Fin 1) × (Fin N × Fin o) => b c.2) 0 >>= Est.noMissing) := fun _ _ _ _ => rfl
  obtain ⟨ge, e1, e2⟩ := exact_grads hv hc φ rest s
  obtain ⟨g, g1, g2, -⟩ := sampled φ rest s
  obtain ⟨c, c1, c2, -⟩ := signed φ rest s
  obtain ⟨fe, re, de, -, -, he⟩ := covUpdateBy_comp decay .exact (fun φ rest s => (exact_grads hv hc φ rest s).imp fun _ h => h.1)
      front bias l φ rest x ge e1
  have hg := fun y => covUpdateBy_comp decay (.gradients y) (fun φ rest s => (sampled φ rest s).elim fun g h => ⟨_, h.1 y⟩)
      front bias l φ rest x [g y] (g1 y)
  have hb := fun b : Fin N × Fin o → Bool => covUpdateBy_comp decay (signs b)
      (fun φ rest s => (signed φ rest s).elim fun g h => ⟨_, (hsg φ rest s b).trans (h.1 _)⟩)
      front bias l φ rest x [c fun p : (_ : Fin 1) × (Fin N × Fin o) => b p.2] ((hsg φ rest s b).trans (c1 _))
  choose fg rg dg _ _ hg using hg
  choose fc rc db _ _ hb using hb
  have hlaw : law = Est.jointLaw (lossSeen var coeff φ rest s) := by
    simp only [law, net, comp_eval]
    rfl
  have : IsProbabilityMeasure (normalTargets (fun i => net.eval (x i)) fun _ _ => var) :=
    Est.law_prob (.normalMean ⟨fun i => net.eval (x i), var⟩) hv
  have : IsProbabilityMeasure law := by
    simp only [law]
    infer_instance
  refine ⟨fe, _, re, fg, _, rg, fc, _, rc, he, de, dg, db, hg, hb, fun _ => ⟨rfl, rfl⟩, fun _ => ⟨rfl, rfl⟩, fun j j' => ?_⟩
  simp only [DenseStat.step, MovAvg.add, one_smul, output_cov, Matrix.add_apply]
  refine ⟨?_, ?_⟩
  · have h1 : Integrable (fun y : Fin 1 → Fin N × Fin o → ℝ => Est.outputCov [g y] j j') law ∧
        ∫ y, Est.outputCov [g y] j j' ∂law = Est.target (lossSeen var coeff φ rest s) 0 j j' := by
      rw [hlaw]
      exact g2 j j'
    refine ⟨(integrable_const _).add h1.1, ?_⟩
    have h2 := integral_add (μ := law) (integrable_const ((decay • l.output.avg.var) j j')) h1.1
    rw [integral_const, h1.2] at h2
    refine h2.trans ?_
    rw [e2]
    simp
  · have h1 := c2 j j'
    rw [Finset.sum_add_distrib, e2, ← h1, Est.signAverage]
    have h2 : Fintype.card (Est.SignIndex (lossSeen var coeff φ rest s)) = N * o := by
      show Fintype.card ((_ : Fin 1) × (Fin N × Fin o)) = N * o
      simp
    have h3 : ∑ x : Est.SignIndex (lossSeen var coeff φ rest s) → Bool, Est.outputCov [c x] j j' =
        ∑ b : Fin N × Fin o → Bool, Est.outputCov [c fun p : (_ : Fin 1) × (Fin N × Fin o) => b p.2] j j' := by
      refine Fintype.sum_equiv (Equiv.arrowCongr e (Equiv.refl Bool)) _ _ fun x => ?_
      congr 3
      funext p
      rcases p with ⟨k, p⟩
      obtain rfl : k = 0 := Subsingleton.elim _ _
      rfl
    rw [h2, h3, add_div]
    congr 1
    simp [Fintype.card_fun]

/-- A network of two linear layers with the weights 2 and 3, on the batch (1, 2) with targets (1, 5): the hypotheses of the theorems hold,
and the factors of the first layer, 5/2 and 18, are positive definite. -/
example : ∃ (front : Net 1 1) (l : Layer (1 + false.toNat) 1) (rest : Net 1 1) (es : List (Examples 1 1)),
    (front.comp (.cons false l id rest)).Linear ∧ (front.comp (.cons false l id rest)).Fresh ∧ es ≠ [] ∧ (∀ e ∈ es, 0 ≤ e.decay) ∧
    ∀ (front' : Net 1 1) (l' : Layer (1 + false.toNat) 1) (rest' : Net 1 1) (A G), (front.comp (.cons false l id rest)).covRun (1 / 2) 1 es = .ok (front'.comp (.cons false l' id rest')) →
      front'.depth = front.depth → l'.input.avg.value true = some A → l'.output.avg.value true = some G → A.PosDef ∧ G.PosDef := by
  have hid : IsAffine (id : (Fin 1 → ℝ) → Fin 1 → ℝ) := ⟨fun _ _ => 1, 0, fun s j => by
    have : j = 0 := Subsingleton.elim _ _
    simp [this]⟩
  let l : Layer (1 + false.toNat) 1 := fresh fun _ _ => 2
  let rest : Net 1 1 := .cons false (fresh fun _ _ => 3) id .nil
  let e : Examples 1 1 := ⟨1, fun i _ => (i : ℝ) + 1, fun i _ => 4 * i + 1, 0⟩
  have hh : ∀ s j, rest.eval (id s) j = (∑ p : Fin 1, (fun _ _ => 3 : Fin 1 → Fin 1 → ℝ) j p * s p) + (fun _ => 0 : Fin 1 → ℝ) j := by
    intro s j
    simp [rest, Net.eval, affine, fresh, appendHomog, Fin.append, Fin.addCases]
  refine ⟨.nil, l, rest, [e], ⟨hid, hid, trivial⟩, ⟨rfl, rfl, rfl, rfl, rfl, rfl, trivial⟩, by simp, by simp [e], ?_⟩
  intro front' l' rest' A G h1 h2 h3 h4
  obtain ⟨gs, g1, g2⟩ := exact_linear (var := 1 / 2) (coeff := 1) (by norm_num) (by norm_num) hh
    (fun i => affine false l.weights ((Net.nil : Net 1 1).eval (e.x i)))
  obtain ⟨front1, rest1, a0, a1, a2, a3⟩ := covUpdateBy_comp e.decay .exact
    (fun φ rest s => (exact_grads (by norm_num) (by norm_num) φ rest s).imp fun _ h => h.1) .nil false l id rest e.x gs g1
  rw [Net.covRun, a3] at h1
  have h5 := Except.ok.inj h1
  cases front' with
  | cons => simp [Net.depth] at h2
  | nil =>
    cases front1 with
    | cons => simp [Net.depth] at a0
    | nil =>
      simp only [Net.comp, Net.cons.injEq, heq_eq_eq, true_and] at h5
      obtain ⟨h6, -⟩ := h5
      rw [← h6] at h3 h4
      simp only [DenseStat.step, MovAvg.add, one_smul, input_cov, output_cov, g2] at h3 h4
      obtain ⟨-, hA⟩ := value_of h3
      obtain ⟨-, hG⟩ := value_of h4
      have one : ∀ (r r' : Fin 1), r = r' := fun r r' => Subsingleton.elim _ _
      have ah : ∀ (z : Fin 1 → ℝ) (r : Fin (1 + false.toNat)), appendHomog false z r = z 0 := fun z r => by
        rw [show r = Fin.castAdd false.toNat 0 from one r _]
        exact Fin.append_left _ _ _
      have eA : A = Matrix.diagonal fun _ => 5 / 2 := by
        rw [hA]
        ext r r'
        rw [show r' = r from Subsingleton.elim (α := Fin 1) _ _, Matrix.diagonal_apply_eq]
        simp [l, fresh, MovAvg.init, e, inputMoments, Net.eval, ah, Fin.sum_univ_two]
        norm_num
      have eG : G = Matrix.diagonal fun _ => 18 := by
        rw [hG]
        ext r r'
        rw [one r' r, Matrix.diagonal_apply_eq]
        simp [l, fresh, MovAvg.init, e]
        norm_num
      rw [eA, eG]
      exact ⟨Matrix.PosDef.diagonal fun _ => by norm_num, Matrix.PosDef.diagonal fun _ => by norm_num⟩

end Kfac.Train
