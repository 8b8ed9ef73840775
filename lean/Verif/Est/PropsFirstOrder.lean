import Verif.Est.FirstOrder
import Verif.Est.PropsModes
import Verif.Exec.Props
import Verif.Grad.Lemmas
import Mathlib.Analysis.Calculus.FDeriv.Pow

/-!
# C86: evaluated losses and first-order statistics
-/

namespace Kfac.Est
open Kfac.Loss Kfac.Exec MeasureTheory

variable {N n T K : ℕ} {q : Fin T → ℕ}

/-! ### Derivatives of the losses by anything their inputs depend on -/

section Chain
variable {E : Type} [NormedAddCommGroup E] [NormedSpace ℝ E]

theorem hasFDerivAt_neg_sum {ι : Type} [Fintype ι] {f : ι → E → ℝ} {f' : ι → E →L[ℝ] ℝ} {x : E}
    (h : ∀ i, HasFDerivAt (f i) (f' i) x) : HasFDerivAt (fun t => -∑ i, f i t) (∑ i, -(f' i)) x := by
  have := (HasFDerivAt.fun_sum fun i (_ : i ∈ Finset.univ) => h i).neg
  rw [Finset.sum_neg_distrib]
  exact this

theorem normalMean_chain (l : NormalMean N n) (hv : 0 < l.var) (y : Fin N × Fin n → ℝ) (x : E) (z : E → Batch N n)
    (z' : Fin N → Fin n → E →L[ℝ] ℝ) (h0 : z x = l.mean) (hz : ∀ b i, HasFDerivAt (fun t => z t b i) (z' b i) x) :
    HasFDerivAt (fun t => NormalMean.evaluate ⟨z t, l.var⟩ y) (∑ b, ∑ i, l.score y b i • z' b i) x := by
  have h1 : ∀ c : Fin N × Fin n, HasFDerivAt (fun t => normalLogProb (z t c.1 c.2) (Real.sqrt l.var) (y c))
      (((y c - l.mean c.1 c.2) / l.var) • z' c.1 c.2) x := by
    intro c
    have := (hasDerivAt_mean (z x c.1 c.2) (Real.sqrt l.var) (y c)).comp_hasFDerivAt x (hz c.1 c.2)
    rw [Real.sq_sqrt hv.le, h0] at this
    exact this
  refine (hasFDerivAt_neg_sum h1).congr_fderiv ?_
  rw [Fintype.sum_prod_type]
  ext u
  simp [l.score_eq hv]

theorem multiBernoulli_chain (l : MultiBernoulli N n) (y : Fin N × Fin n → Bool) (x : E) (z : E → Batch N n)
    (z' : Fin N → Fin n → E →L[ℝ] ℝ) (h0 : z x = l.logits) (hz : ∀ b i, HasFDerivAt (fun t => z t b i) (z' b i) x) :
    HasFDerivAt (fun t => MultiBernoulli.evaluate ⟨z t⟩ y) (∑ b, ∑ i, l.score y b i • z' b i) x := by
  have h1 : ∀ c : Fin N × Fin n, HasFDerivAt (fun t => Real.log (if y c then sigmoid (z t c.1 c.2)
      else 1 - sigmoid (z t c.1 c.2))) (((if y c then 1 else 0) - sigmoid (l.logits c.1 c.2)) • z' c.1 c.2) x := by
    intro c
    have := (hasDerivAt_log_bernoulli (z x c.1 c.2) (y c)).comp_hasFDerivAt x (hz c.1 c.2)
    rw [h0] at this
    exact this
  refine (hasFDerivAt_neg_sum h1).congr_fderiv ?_
  rw [Fintype.sum_prod_type]
  ext u
  simp [l.score_eq, ← neg_mul, ← Finset.sum_neg_distrib]

theorem categorical_chain (l : Categorical N n) (y : Fin N → Fin n) (x : E) (z : E → Batch N n)
    (z' : Fin N → Fin n → E →L[ℝ] ℝ) (h0 : z x = l.logits) (hz : ∀ b i, HasFDerivAt (fun t => z t b i) (z' b i) x) :
    HasFDerivAt (fun t => Categorical.evaluate ⟨z t⟩ y) (∑ b, ∑ i, l.score y b i • z' b i) x := by
  have h1 : ∀ b, HasFDerivAt (fun t => Real.log (softmax (z t b) (y b)))
      (∑ i, ((if y b = i then 1 else 0) - softmax (l.logits b) i) • z' b i) x := by
    intro b
    have hpos : 0 < ∑ j, Real.exp (z x b j) :=
      Finset.sum_pos (fun j _ => Real.exp_pos _) ⟨y b, Finset.mem_univ _⟩
    have h2 : HasFDerivAt (fun t => ∑ j, Real.exp (z t b j)) (∑ j, Real.exp (z x b j) • z' b j) x :=
      HasFDerivAt.fun_sum fun j _ => (hz b j).exp
    have h3 := (hz b (y b)).sub (h2.log hpos.ne')
    simp only [log_softmax]
    refine h3.congr_fderiv ?_
    ext u
    simp only [ContinuousLinearMap.sub_apply, ContinuousLinearMap.smul_apply, ContinuousLinearMap.sum_apply, smul_eq_mul,
      sub_mul, Finset.sum_sub_distrib, ite_mul, one_mul, zero_mul, Finset.sum_ite_eq, Finset.mem_univ, if_true]
    rw [Finset.mul_sum]
    congr 1
    refine Finset.sum_congr rfl fun i _ => ?_
    rw [softmax, h0]
    ring
  refine (hasFDerivAt_neg_sum h1).congr_fderiv ?_
  ext u
  simp [l.score_eq, ← neg_mul, ← Finset.sum_neg_distrib]

theorem normalMeanVar_chain (l : NormalMeanVar N n) (hv : ∀ b i, 0 < l.variance b i) (y : Fin N × Fin n → ℝ) (x : E)
    (z w : E → Batch N n) (z' w' : Fin N → Fin n → E →L[ℝ] ℝ) (h0 : z x = l.mean) (h0' : w x = l.variance)
    (hz : ∀ b i, HasFDerivAt (fun t => z t b i) (z' b i) x) (hw : ∀ b i, HasFDerivAt (fun t => w t b i) (w' b i) x) :
    HasFDerivAt (fun t => NormalMeanVar.evaluate ⟨z t, w t⟩ y)
      (∑ b, ∑ i, (l.scoreMean y b i • z' b i + l.scoreVar y b i • w' b i)) x := by
  have h1 : ∀ c : Fin N × Fin n, HasFDerivAt (fun t => normalLogProb (z t c.1 c.2) (Real.sqrt (w t c.1 c.2)) (y c))
      (((y c - l.mean c.1 c.2) / l.variance c.1 c.2) • z' c.1 c.2
        + ((y c - l.mean c.1 c.2) ^ 2 / (2 * l.variance c.1 c.2 ^ 2) - 1 / (2 * l.variance c.1 c.2)) • w' c.1 c.2) x := by
    intro c
    have hpos : 0 < w x c.1 c.2 := by rw [h0']; exact hv _ _
    -- near `x` the variance is positive and the log-density has a smooth form
    have e : (fun t => -(1 / 2) * ((y c - z t c.1 c.2) ^ 2 * (w t c.1 c.2)⁻¹)
          - (1 / 2 * Real.log (2 * Real.pi) + Real.log (w t c.1 c.2) / 2))
        =ᶠ[nhds x] fun t => normalLogProb (z t c.1 c.2) (Real.sqrt (w t c.1 c.2)) (y c) := by
      filter_upwards [(hw c.1 c.2).continuousAt.eventually (lt_mem_nhds hpos)] with t ht
      have ht' : 0 < w t c.1 c.2 := ht
      rw [normalLogProb, div_pow, Real.sq_sqrt ht'.le, Real.log_sqrt ht'.le]
      ring
    have hd := ((((hz c.1 c.2).const_sub (y c)).pow 2).mul
      ((hasDerivAt_inv hpos.ne').comp_hasFDerivAt x (hw c.1 c.2))).const_mul (-(1 / 2 : ℝ))
    have hl := (((hw c.1 c.2).log hpos.ne').mul_const (1 / 2 : ℝ)).const_add (1 / 2 * Real.log (2 * Real.pi))
    have h3 := (hd.sub hl)
    have h4 := (h3.congr_of_eventuallyEq (f₁ := fun t => -(1 / 2) * ((y c - z t c.1 c.2) ^ 2 * (w t c.1 c.2)⁻¹)
        - (1 / 2 * Real.log (2 * Real.pi) + Real.log (w t c.1 c.2) / 2))
      (Filter.Eventually.of_forall fun t => by simp [div_eq_mul_inv])).congr_of_eventuallyEq e.symm
    refine h4.congr_fderiv ?_
    ext u
    simp [h0, h0']
    have := (hv c.1 c.2).ne'
    field_simp
    ring
  refine (hasFDerivAt_neg_sum h1).congr_fderiv ?_
  rw [Fintype.sum_prod_type]
  ext u
  simp only [ContinuousLinearMap.add_apply, ContinuousLinearMap.neg_apply, ContinuousLinearMap.smul_apply,
    ContinuousLinearMap.sum_apply, smul_eq_mul, l.scoreMean_eq hv, l.scoreVar_eq hv]
  refine Finset.sum_congr rfl fun b _ => Finset.sum_congr rfl fun i _ => ?_
  ring

/-- The loss with other inputs. -/
def withInputs : AnyLoss N n → Val N n → AnyLoss N n
  | .normalMean l, .single x => .normalMean ⟨x, l.var⟩
  | .normalMeanVar _, .pair x y => .normalMeanVar ⟨x, y⟩
  | .categorical _, .single x => .categorical ⟨x⟩
  | .multiBernoulli _, .single x => .multiBernoulli ⟨x⟩
  | l, _ => l

/-- Targets do not depend on the inputs. -/
def sameTargets : (l : AnyLoss N n) → (v : Val N n) → Targets l → Targets (withInputs l v)
  | .normalMean _, .single _, y => y
  | .normalMean _, .pair _ _, y => y
  | .normalMeanVar _, .single _, y => y
  | .normalMeanVar _, .pair _ _, y => y
  | .categorical _, .single _, y => y
  | .categorical _, .pair _ _, y => y
  | .multiBernoulli _, .single _, y => y
  | .multiBernoulli _, .pair _ _, y => y

/-- The inputs of a loss. -/
def inputsOf : AnyLoss N n → Val N n
  | .normalMean l => .single l.mean
  | .normalMeanVar l => .pair l.mean l.variance
  | .categorical l => .single l.logits
  | .multiBernoulli l => .single l.logits

/-- The chain rule for every loss. -/
theorem loss_chain (l : AnyLoss N n) (hv : Valid l) (y : Targets l) (x : E) (z : E → Val N n)
    (z' : Fin N → Bool × Fin n → E →L[ℝ] ℝ) (h0 : z x = inputsOf l) (hf : ∀ t, ValFits l (z t))
    (hz : ∀ b a, HasFDerivAt (fun t => Val.at (z t) b a) (z' b a) x) :
    HasFDerivAt (fun t => evaluate (withInputs l (z t)) (sameTargets l (z t) y))
      (∑ b, ∑ a, Val.at (lossGrad l y) b a • z' b a) x := by
  have hsingle : (∀ t, ∃ u, z t = .single u) → ∃ u : E → Batch N n, z = fun t => .single (u t) := by
    intro h
    choose u hu using h
    exact ⟨u, funext hu⟩
  have hsum : ∀ (s : Batch N n), ∑ b, ∑ a, Val.at (.single s) b a • z' b a = ∑ b, ∑ i, s b i • z' b (false, i) := by
    intro s
    refine Finset.sum_congr rfl fun b _ => ?_
    rw [Fintype.sum_prod_type, Fintype.sum_bool]
    simp [Val.at]
  cases l with
  | normalMean l =>
    obtain ⟨u, rfl⟩ := hsingle fun t => by
      have := hf t
      cases h : z t with
      | single u => exact ⟨u, rfl⟩
      | pair u v => rw [h] at this; exact this.elim
    have := normalMean_chain l hv y x u (fun b i => z' b (false, i)) (by simpa [inputsOf] using h0)
      (fun b i => by simpa [Val.at] using hz b (false, i))
    rw [show lossGrad (.normalMean l) y = .single (l.score y) from rfl, hsum]
    exact this
  | categorical l =>
    obtain ⟨u, rfl⟩ := hsingle fun t => by
      have := hf t
      cases h : z t with
      | single u => exact ⟨u, rfl⟩
      | pair u v => rw [h] at this; exact this.elim
    have := categorical_chain l y x u (fun b i => z' b (false, i)) (by simpa [inputsOf] using h0)
      (fun b i => by simpa [Val.at] using hz b (false, i))
    rw [show lossGrad (.categorical l) y = .single (l.score y) from rfl, hsum]
    exact this
  | multiBernoulli l =>
    obtain ⟨u, rfl⟩ := hsingle fun t => by
      have := hf t
      cases h : z t with
      | single u => exact ⟨u, rfl⟩
      | pair u v => rw [h] at this; exact this.elim
    have := multiBernoulli_chain l y x u (fun b i => z' b (false, i)) (by simpa [inputsOf] using h0)
      (fun b i => by simpa [Val.at] using hz b (false, i))
    rw [show lossGrad (.multiBernoulli l) y = .single (l.score y) from rfl, hsum]
    exact this
  | normalMeanVar l =>
    have h1 : ∀ t, ∃ u v, z t = .pair u v := fun t => by
      have := hf t
      cases h : z t with
      | single u => rw [h] at this; exact this.elim
      | pair u v => exact ⟨u, v, rfl⟩
    choose u v huv using h1
    obtain rfl : z = fun t => .pair (u t) (v t) := funext huv
    simp only [inputsOf, Val.pair.injEq] at h0
    have := normalMeanVar_chain l hv y x u v (fun b i => z' b (false, i)) (fun b i => z' b (true, i)) h0.1 h0.2
      (fun b i => by simpa [Val.at] using hz b (false, i)) (fun b i => by simpa [Val.at] using hz b (true, i))
    refine HasFDerivAt.congr_fderiv (f' := ∑ b, ∑ i, (l.scoreMean y b i • z' b (false, i) + l.scoreVar y b i • z' b (true, i)))
      this ?_
    refine Finset.sum_congr rfl fun b _ => ?_
    rw [Fintype.sum_prod_type, Fintype.sum_bool, Finset.sum_add_distrib, add_comm]
    simp [lossGrad, Val.at]

end Chain

/-! ### `eval_losses` -/

/-- What the modes of `eval_losses` mean: one value per loss, in order; the targets of the data or sampled ones; the
coefficient, its square root or nothing as the multiplier. The totals add them up. -/
theorem C86_eval_losses (ls : Losses N q K) (hK : 0 < K) (data sample : (k : Fin K) → Targets (ls k).loss) :
    (∀ m f, (m, f) ∈ [("regular", fun c : ℝ => c), ("sqrt", fun c => Real.sqrt c), ("off", fun _ => 1)] →
      evalLosses "data" m ls data sample = .ok (List.ofFn fun k => f (ls k).coeff * evaluate (ls k).loss (data k)) ∧
      evalLosses "sample" m ls data sample = .ok (List.ofFn fun k => f (ls k).coeff * evaluate (ls k).loss (sample k)) ∧
      totalLoss m ls data sample = .ok (∑ k, f (ls k).coeff * evaluate (ls k).loss (data k)) ∧
      totalSampledLoss m ls data sample = .ok (∑ k, f (ls k).coeff * evaluate (ls k).loss (sample k))) ∧
    (∀ t m, t ∉ ["data", "sample"] ∨ m ∉ ["regular", "sqrt", "off"] →
      ∃ e, evalLosses t m ls data sample = .error e) := by
  have hmul : ∀ m (f : ℝ → ℝ), (m, f) ∈ [("regular", fun c : ℝ => c), ("sqrt", fun c => Real.sqrt c), ("off", fun _ => 1)] →
      ∀ c, multiplier m c = .ok (f c) := by
    intro m f h c
    simp only [List.mem_cons, Prod.mk.injEq, List.not_mem_nil, or_false] at h
    rcases h with ⟨rfl, rfl⟩ | ⟨rfl, rfl⟩ | ⟨rfl, rfl⟩ <;> simp [multiplier]
  have hev : ∀ m (f : ℝ → ℝ) t (y : (k : Fin K) → Targets (ls k).loss), (∀ c, multiplier m c = .ok (f c)) →
      (∀ k, chosenTargets t (data k) (sample k) = .ok (y k)) →
      evalLosses t m ls data sample = .ok (List.ofFn fun k => f (ls k).coeff * evaluate (ls k).loss (y k)) := by
    intro m f t y hm ht
    unfold evalLosses
    rw [mapM_ok (g := fun k => f (ls k).coeff * evaluate (ls k).loss (y k)), List.ofFn_eq_map]
    intro k _
    simp only [ht, hm, bind, Except.bind, pure, Except.pure]
  have hadd : ∀ x : Fin K → ℝ, addN (List.ofFn x) = .ok (∑ k, x k) := by
    intro x
    unfold addN
    rw [if_neg, List.sum_ofFn]
    simp
    omega
  refine ⟨fun m f h => ?_, ?_⟩
  · have h1 := hev m f "data" data (hmul m f h) fun k => by simp [chosenTargets]
    have h2 := hev m f "sample" sample (hmul m f h) fun k => by simp [chosenTargets]
    refine ⟨h1, h2, ?_, ?_⟩
    · unfold totalLoss
      rw [h1]
      exact hadd _
    · unfold totalSampledLoss
      rw [h2]
      exact hadd _
  · intro t m h
    unfold evalLosses
    refine mapM_error _ _ ⟨⟨0, hK⟩, List.mem_finRange _, ?_⟩
    rcases h with h | h
    · simp only [List.mem_cons, List.not_mem_nil, or_false, not_or] at h
      refine bind_error ⟨"target_mode must be in ['data', 'sample']", ?_⟩ _
      simp [chosenTargets, h]
    · simp only [List.mem_cons, List.not_mem_nil, or_false, not_or] at h
      cases ht : chosenTargets t (data ⟨0, hK⟩) (sample ⟨0, hK⟩) with
      | error e => exact ⟨e, by simp [bind, Except.bind]⟩
      | ok y => exact ⟨"coeff_mode must be in ['regular', 'sqrt', 'off']", by simp [bind, Except.bind, multiplier, h]⟩

/-! ### `params_stats` -/

/-- Statistics of the parameters need the batch size. -/
theorem C86_batch_size_required (computeParamsStats : Bool) (batchSize : Option ℕ) :
    (∃ e, checkStatsArgs computeParamsStats batchSize = .error e) ↔ computeParamsStats = true ∧ batchSize = none := by
  unfold checkStatsArgs
  split <;> simp_all

/-- For a list of variables, asking for the first-order statistics does not change which gradients the blocks get, and the
others are those of the variables, in the variables' order. -/
theorem C86_split_partial {V G : Type} (grad : V → G) (blockTensors vars : List V) :
    ∃ ts, gradTensors true blockTensors (.list vars) = .ok ts ∧
      splitGrads true blockTensors.length (ts.map grad) = (vars.map grad, blockTensors.map grad) ∧
      ∃ ts', gradTensors false blockTensors (.list vars) = .ok ts' ∧
        splitGrads false blockTensors.length (ts'.map grad) = ([], blockTensors.map grad) := by
  refine ⟨blockTensors ++ vars, rfl, ?_, blockTensors, rfl, rfl⟩
  simp [splitGrads, List.map_append]

/-- With a tuple of variables, which `KfacOptimizer` documents for `var_list`, the statistics cannot be computed. -/
theorem C86_tuple_counterexample {V : Type} (blockTensors vars : List V) :
    (∃ e, gradTensors true blockTensors (.tuple vars) = .error e) ∧
      gradTensors false blockTensors (.tuple vars) = .ok blockTensors :=
  ⟨⟨_, rfl⟩, rfl⟩

/-- How the inputs of the losses depend on a parameter (tensor `t`, the same for all examples) around the value `θ`: the
Jacobians in the model are the derivatives. -/
structure DependsOn (ls : Losses N q K) (t : Fin T) (θ : Fin (q t) → ℝ)
    (z : (k : Fin K) → (Fin (q t) → ℝ) → Val N (ls k).n) : Prop where
  inputs : ∀ k, z k θ = inputsOf (ls k).loss
  fits : ∀ k θ', ValFits (ls k).loss (z k θ')
  jac : ∀ k b a, HasFDerivAt (fun θ' => Val.at (z k θ') b a)
    (∑ p, Jac.at ((ls k).jac t) b a p • ContinuousLinearMap.proj (R := ℝ) (φ := fun _ : Fin (q t) => ℝ) p) θ

/-- The losses when the parameter has the value `θ`. -/
def lossesAt (ls : Losses N q K) (t : Fin T) (z : (k : Fin K) → (Fin (q t) → ℝ) → Val N (ls k).n) (θ : Fin (q t) → ℝ) :
    Losses N q K := fun k => { ls k with loss := withInputs (ls k).loss (z k θ) }

/-- The derivative of the total loss of one replica. -/
theorem total_grad (ls : Losses N q K) (h : Good ls) (t : Fin T) (θ : Fin (q t) → ℝ)
    (z : (k : Fin K) → (Fin (q t) → ℝ) → Val N (ls k).n) (hz : DependsOn ls t θ z) (y : (k : Fin K) → Targets (ls k).loss) :
    Grad.IsGrad (fun θ' => ∑ k, (ls k).coeff * evaluate (withInputs (ls k).loss (z k θ')) (sameTargets _ _ (y k))) θ
      fun p => ∑ b, ∑ k, (ls k).coeff * ∑ a, Jac.at ((ls k).jac t) b a p * Val.at (lossGrad (ls k).loss (y k)) b a := by
  unfold Grad.IsGrad
  have h1 := HasFDerivAt.fun_sum fun k (_ : k ∈ (Finset.univ : Finset (Fin K))) =>
    (loss_chain (ls k).loss (h.valid k) (y k) θ (z k) _ (hz.inputs k) (hz.fits k) (hz.jac k)).const_mul (ls k).coeff
  refine h1.congr_fderiv ?_
  ext u
  simp only [ContinuousLinearMap.smul_apply, ContinuousLinearMap.sum_apply, smul_eq_mul, ContinuousLinearMap.proj_apply]
  have h2 : ∀ k, (ls k).coeff * ∑ b, ∑ a, Val.at (lossGrad (ls k).loss (y k)) b a * ∑ p, Jac.at ((ls k).jac t) b a p * u p
      = ∑ p, (∑ b, (ls k).coeff * ∑ a, Jac.at ((ls k).jac t) b a p * Val.at (lossGrad (ls k).loss (y k)) b a) * u p := by
    intro k
    simp only [Finset.mul_sum, Finset.sum_mul]
    rw [eq_comm, Finset.sum_comm]
    refine Finset.sum_congr rfl fun b _ => ?_
    rw [Finset.sum_comm]
    refine Finset.sum_congr rfl fun a _ => Finset.sum_congr rfl fun p _ => ?_
    ring
  simp only [h2]
  rw [Finset.sum_comm]
  refine Finset.sum_congr rfl fun p _ => ?_
  rw [← Finset.sum_mul]
  congr 1
  rw [Finset.sum_comm]

/-- In the empirical mode `params_stats` is, on every replica, the gradient of the mean over all examples of all replicas of the
total loss on the data, `batch_size` being the number of examples of one replica. -/
theorem C86_empirical_gradient (c : Ctx) (hc : c.Wf)
    (hcross : c.replicator.isSome ∨ c.inReplicaContext = true ∨ c.shards.isSome ∨ c.strategy = none)
    (hK : 0 < K) (t : Fin T) (θ : Fin (q t) → ℝ) (ls : ℕ → Losses N q K) (h : ∀ r, Good (ls r))
    (hd : ∀ r, ∃ k, ((ls r k).jac t).isSome) (z : (r : ℕ) → (k : Fin K) → (Fin (q t) → ℝ) → Val N (ls r k).n)
    (hz : ∀ r, DependsOn (ls r) t θ (z r)) (y y' : (r : ℕ) → (k : Fin K) → Targets (ls r k).loss) :
    ∃ (g : ℕ → Batch N (q t)) (L : ℕ → (Fin (q t) → ℝ) → ℝ),
      (∀ r, (gradsEmpirical (ls r) (y r) t >>= noMissing) = .ok [g r]) ∧
      (∀ r θ', totalLoss "regular" (lossesAt (ls r) t (z r) θ') (fun k => sameTargets _ _ (y r k))
        (fun k => sameTargets _ _ (y' r k)) = .ok (L r θ')) ∧
      ∀ r < c.copies, Grad.IsGrad (fun θ' => (∑ r' ∈ Finset.range c.copies, L r' θ') / (c.copies * N : ℝ)) θ
        fun p => averagedStats c N (fun r' => [g r']) p r := by
  choose g hg1 hg2 hg3 using fun r => C79_empirical (ls r) (h r) t (hd r) (y r)
  refine ⟨g, fun r θ' => ∑ k, (ls r k).coeff * evaluate (withInputs (ls r k).loss (z r k θ')) (sameTargets _ _ (y r k)),
    hg1, ?_, ?_⟩
  · intro r θ'
    exact ((C86_eval_losses (lossesAt (ls r) t (z r) θ') hK _ _).1 "regular" (fun c => c) (by simp)).2.2.1
  · intro r hr
    have h1 := HasFDerivAt.fun_sum fun r' (_ : r' ∈ Finset.range c.copies) =>
      total_grad (ls r') (h r') t θ (z r') (hz r') (y r')
    have h2 := h1.mul_const ((c.copies * N : ℝ)⁻¹)
    unfold Grad.IsGrad
    simp only [div_eq_mul_inv]
    refine h2.congr_fderiv ?_
    ext u
    simp only [ContinuousLinearMap.smul_apply, ContinuousLinearMap.sum_apply, smul_eq_mul, ContinuousLinearMap.proj_apply]
    rw [Finset.sum_comm, Finset.mul_sum]
    refine Finset.sum_congr rfl fun p _ => ?_
    rw [averagedStats, C20_all_average_partial c hc hcross _ r hr, ← Finset.sum_mul, ← mul_assoc]
    congr 1
    simp only [paramsStats, List.map_cons, List.map_nil, List.sum_cons, List.sum_nil, add_zero, hg2]
    rw [← Finset.mul_sum]
    field_simp

/-- With sampled targets (`"gradients"`) the first-order statistics have mean zero, whatever the batch size. -/
theorem C86_sampled_mean (ls : Losses N q K) (h : Good ls) (t : Fin T) (hd : ∃ k, ((ls k).jac t).isSome) (batchSize : ℕ) :
    ∃ g : ((k : Fin K) → Targets (ls k).loss) → Batch N (q t),
      (∀ y, (gradsGradients ls y t >>= noMissing) = .ok [g y]) ∧
      ∀ p, Integrable (fun y => paramsStats batchSize [g y] p) (jointLaw ls) ∧
        ∫ y, paramsStats batchSize [g y] p ∂jointLaw ls = 0 := by
  have := fun k => law_prob (ls k).loss (h.valid k)
  let w : ((k : Fin K) → Targets (ls k).loss) → (k : Fin K) → Val N (ls k).n := fun y k =>
    scaled (Real.sqrt (ls k).coeff) (lossGrad (ls k).loss (y k))
  have key : ∀ (b : Fin N) (k : Fin K) (a : Bool × Fin (ls k).n) (p : Fin (q t)),
      Integrable (fun y => Jac.at ((ls k).jac t) b a p * Val.at (w y k) b a) (jointLaw ls) ∧
      ∫ y, Jac.at ((ls k).jac t) b a p * Val.at (w y k) b a ∂jointLaw ls = 0 := by
    intro b k a p
    have h1 := score_mean (ls k).loss (h.valid k) b a
    have h2 := pi_one (fun k => law (ls k).loss) k _ h1.1
    rw [h1.2] at h2
    simp only [w, scaled_at, ← mul_assoc]
    refine ⟨h2.1.const_mul _, ?_⟩
    rw [integral_const_mul]
    have h3 : ∫ y, Val.at (lossGrad (ls k).loss (y k)) b a ∂jointLaw ls = 0 := h2.2
    rw [h3, mul_zero]
  refine ⟨fun y b p => ∑ k, ∑ a, Jac.at ((ls k).jac t) b a p * Val.at (w y k) b a, ?_, ?_⟩
  · intro y
    have hg := gradientsAll_eq ls (fun k => .ok (w y k)) (w y) t (fun _ => rfl) (fun k => h.fits k t)
      (fun k => scaled_fits _ _ _) hd
    unfold gradsGradients
    rw [hg]
    rfl
  · intro p
    simp only [paramsStats, List.map_cons, List.map_nil, List.sum_cons, List.sum_nil, add_zero]
    have hk : ∀ b k, Integrable (fun y => ∑ a, Jac.at ((ls k).jac t) b a p * Val.at (w y k) b a) (jointLaw ls) :=
      fun b k => integrable_finsetSum _ fun a _ => (key b k a p).1
    have hb : ∀ b, Integrable (fun y => ∑ k, ∑ a, Jac.at ((ls k).jac t) b a p * Val.at (w y k) b a) (jointLaw ls) :=
      fun b => integrable_finsetSum _ fun k _ => hk b k
    refine ⟨(integrable_finsetSum _ fun b _ => hb b).const_mul _, ?_⟩
    rw [integral_const_mul, integral_finsetSum _ fun b _ => hb b, Finset.sum_eq_zero, mul_zero]
    intro b _
    rw [integral_finsetSum _ fun k _ => hk b k]
    refine Finset.sum_eq_zero fun k _ => ?_
    rw [integral_finsetSum _ fun a _ => (key b k a p).1]
    exact Finset.sum_eq_zero fun a _ => (key b k a p).2

theorem signAverage_one (ls : Losses N q K) (i : SignIndex ls) :
    signAverage ls (fun x => if x i then 1 else -1) = 0 := by
  have h : (∑ x : SignIndex ls → Bool, if x i then (1 : ℝ) else -1) = 0 := by
    have e : (∑ x : SignIndex ls → Bool, if x i then (1 : ℝ) else -1)
        = ∑ x : SignIndex ls → Bool, -(if x i then (1 : ℝ) else -1) := by
      refine Fintype.sum_equiv (Equiv.piCongrRight fun _ => ⟨not, not, Bool.not_not, Bool.not_not⟩) _ _ fun x => ?_
      cases hx : x i <;> simp [hx]
    rw [Finset.sum_neg_distrib] at e
    linarith
  rw [signAverage, h, zero_div]

/-- With random signs (`"curvature_prop"`) they have mean zero as well. *Partial*: this mode fails for Gaussians with mean and
variance (C79). -/
theorem C86_signs_mean_partial (mt : MatType) (ls : Losses N q K) (h : Good ls) (ho : ∀ k, OneInput (ls k).loss)
    (t : Fin T) (hd : ∃ k, ((ls k).jac t).isSome) (batchSize : ℕ) :
    ∃ g : (SignIndex ls → Bool) → Batch N (q t),
      (∀ x, (gradsCurvatureProp mt ls (signsOf ls x) t >>= noMissing) = .ok [g x]) ∧
      ∀ p, signAverage ls (fun x => paramsStats batchSize [g x] p) = 0 := by
  choose B hB1 hB2 hB3 using fun k => factor_spec (ls k).loss (ho k) (h.valid k)
  choose X hX1 hX2 using hB1
  let w : (SignIndex ls → Bool) → (k : Fin K) → Val N (ls k).n := fun x k =>
    .single fun b i => Real.sqrt (ls k).coeff * X k (signsOf ls x k) b i
  have hat : ∀ k b a, signAverage ls (fun x => Val.at (w x k) b a) = 0 := by
    rintro k b ⟨s, i⟩
    cases s
    · simp only [w, Val.at, Bool.false_eq_true, if_false, hX2, signsOf]
      rw [signAverage_const_mul, signAverage_sum]
      simp only [signAverage_const_mul, signAverage_one, mul_zero, Finset.sum_const_zero]
    · simp [w, Val.at, signAverage]
  refine ⟨fun x b p => ∑ k, ∑ a, Jac.at ((ls k).jac t) b a p * Val.at (w x k) b a, ?_, ?_⟩
  · intro x
    have hm : ∀ k v, multFactor mt (ls k).loss v = .ok (.single (X k v)) := by
      intro k v
      have h1 := hX1 k v
      have h2 := ho k
      cases mt
      · exact congrArg Except.ok h1
      · have hs : ggnSupported (ls k).loss = .ok () := by
          revert h2
          generalize (ls k).loss = l
          cases l <;> simp [OneInput, ggnSupported]
        simp only [multFactor, hs, bind, Except.bind, pure, Except.pure, h1]
    have hg := gradientsAll_eq ls (fun k => do
        let value ← multFactor mt (ls k).loss (signsOf ls x k)
        scaleVal (Real.sqrt (ls k).coeff) value) (w x) t
      (fun k => by simp only [hm, bind, Except.bind, scaleVal, w]) (fun k => h.fits k t)
      (fun k => single_fits _ (ho k) _) hd
    unfold gradsCurvatureProp
    rw [hg]
    rfl
  · intro p
    simp only [paramsStats, List.map_cons, List.map_nil, List.sum_cons, List.sum_nil, add_zero]
    rw [signAverage_const_mul, signAverage_sum]
    simp only [signAverage_sum, signAverage_const_mul, hat, mul_zero, Finset.sum_const_zero]

/-- A parameter that is the mean of the predictive distribution. -/
example : DependsOn meanModel 0 (fun _ => 0) fun _ θ => .single fun _ _ => θ 0 where
  inputs _ := rfl
  fits _ _ := trivial
  jac k b a := by
    obtain ⟨s, i⟩ := a
    cases s
    · refine HasFDerivAt.congr_fderiv (ContinuousLinearMap.proj (R := ℝ) (φ := fun _ : Fin 1 => ℝ) 0).hasFDerivAt ?_
      ext u
      simp [Jac.at, meanModel]
    · refine HasFDerivAt.congr_fderiv (hasFDerivAt_const (0 : ℝ) _) ?_
      ext u
      simp [Jac.at, meanModel]

end Kfac.Est
