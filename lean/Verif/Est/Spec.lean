import Verif.Est.Model

/-!
# Specification: the curvature matrices and the distributions the modes draw from

Independent of the products the code computes: closed forms of the Fisher information of each distribution by its parameters,
per example. A coordinate `(s, i)` of a loss is coordinate `i` of its first input (`s = false`) or of its second (`s = true`).
-/

namespace Kfac.Est
open Kfac.Loss MeasureTheory ProbabilityTheory

variable {N n T K : ℕ} {q : Fin T → ℕ}

/-- A coordinate of a value with the structure of the inputs. -/
def Val.at (v : Val N n) (b : Fin N) (a : Bool × Fin n) : ℝ :=
  match v with
  | .single x => if a.1 then 0 else x b a.2
  | .pair x y => if a.1 then y b a.2 else x b a.2

/-- The derivative of a coordinate of the inputs by coordinate `p` of row `b` of the tensor. -/
def Jac.at {P : ℕ} (j : Option (Jac P N n)) (b : Fin N) (a : Bool × Fin n) (p : Fin P) : ℝ :=
  match j with
  | none => 0
  | some (.single j) => if a.1 then 0 else j b a.2 p
  | some (.pair j1 j2) => if a.1 then j2 b a.2 p else j1 b a.2 p

/-- The Fisher information matrix of the distribution of one example. -/
noncomputable def fisherMatrix (l : AnyLoss N n) (b : Fin N) (a a' : Bool × Fin n) : ℝ :=
  match l with
  | .normalMean l => if a.1 = false ∧ a = a' then 1 / l.var else 0
  | .normalMeanVar l =>
    if a = a' then if a.1 then 1 / (2 * l.variance b a.2 ^ 2) else 1 / l.variance b a.2 else 0
  | .categorical l =>
    if a.1 = false ∧ a'.1 = false then
      (if a.2 = a'.2 then softmax (l.logits b) a.2 else 0) - softmax (l.logits b) a.2 * softmax (l.logits b) a'.2
    else 0
  | .multiBernoulli l =>
    if a.1 = false ∧ a = a' then sigmoid (l.logits b a.2) * (1 - sigmoid (l.logits b a.2)) else 0

/-- The curvature matrix of all losses by row `b` of tensor `t`: `Σ_k c_k J_kᵀ F_k J_k`. -/
noncomputable def curvature (ls : Losses N q K) (t : Fin T) (b : Fin N) (p p' : Fin (q t)) : ℝ :=
  ∑ k, (ls k).coeff * ∑ a, ∑ a', Jac.at ((ls k).jac t) b a p * fisherMatrix (ls k).loss b a a' * Jac.at ((ls k).jac t) b a' p'

/-- The parameters are those of a distribution: positive variances, at least one class. -/
def Valid : AnyLoss N n → Prop
  | .normalMean l => 0 < l.var
  | .normalMeanVar l => ∀ b i, 0 < l.variance b i
  | .categorical _ => 0 < n
  | .multiBernoulli _ => True

/-- The Jacobians of the inputs have the structure of the inputs. -/
def Fits (s : Source N q) (t : Fin T) : Prop :=
  match s.loss, s.jac t with
  | _, none => True
  | .normalMeanVar _, some (.pair _ _) => True
  | .normalMeanVar _, some (.single _) => False
  | _, some (.single _) => True
  | _, some (.pair _ _) => False

/-- The losses a user may register. -/
structure Good (ls : Losses N q K) : Prop where
  coeff : ∀ k, 0 ≤ (ls k).coeff
  valid : ∀ k, Valid (ls k).loss
  fits : ∀ k t, Fits (ls k) t

/-- Not the mean-variance Gaussian (the only loss with a tuple of inputs). -/
def OneInput : AnyLoss N n → Prop
  | .normalMeanVar _ => False
  | _ => True

instance (l : AnyLoss N n) : MeasurableSpace (Targets l) :=
  match l with
  | .normalMean _ => inferInstanceAs (MeasurableSpace (Fin N × Fin n → ℝ))
  | .normalMeanVar _ => inferInstanceAs (MeasurableSpace (Fin N × Fin n → ℝ))
  | .categorical _ => inferInstanceAs (MeasurableSpace (Fin N → Fin n))
  | .multiBernoulli _ => inferInstanceAs (MeasurableSpace (Fin N × Fin n → Bool))

/-- A finite distribution given by its probabilities. -/
noncomputable def discrete {α : Type} [Fintype α] [MeasurableSpace α] (w : α → ℝ) : Measure α :=
  ∑ y, ENNReal.ofReal (w y) • Measure.dirac y

/-- Targets drawn from the predictive distribution of a loss. -/
noncomputable def law (l : AnyLoss N n) : Measure (Targets l) :=
  match l with
  | .normalMean l => normalTargets l.mean fun _ _ => l.var
  | .normalMeanVar l => normalTargets l.mean l.variance
  | .categorical l => discrete (α := Fin N → Fin n) fun y => ∏ b, softmax (l.logits b) (y b)
  | .multiBernoulli l => discrete (α := Fin N × Fin n → Bool) fun y =>
      ∏ c, if y c then sigmoid (l.logits c.1 c.2) else 1 - sigmoid (l.logits c.1 c.2)

/-- The targets of all losses, drawn independently. -/
noncomputable def jointLaw (ls : Losses N q K) : Measure ((k : Fin K) → Targets (ls k).loss) :=
  Measure.pi fun k => law (ls k).loss

/-- The entries of the random signs of all losses. -/
abbrev SignIndex (ls : Losses N q K) := (k : Fin K) × (Fin N × Fin (width (ls k).loss))

/-- `2 x - 1` for bits `x` (utils.py 449-452). -/
def signsOf (ls : Losses N q K) (x : SignIndex ls → Bool) (k : Fin K) : Batch N (width (ls k).loss) :=
  fun b i => if x ⟨k, b, i⟩ then 1 else -1

/-- The average over all assignments of signs, i.e. the expectation for independent fair signs. -/
noncomputable def signAverage (ls : Losses N q K) (f : (SignIndex ls → Bool) → ℝ) : ℝ :=
  (∑ x, f x) / 2 ^ Fintype.card (SignIndex ls)

end Kfac.Est
