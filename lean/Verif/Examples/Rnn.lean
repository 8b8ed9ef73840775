import Mathlib.Data.Real.Basic
import Mathlib.Analysis.Complex.Trigonometric
import Mathlib.Algebra.BigOperators.Fin

/-! # The recurrent network of kfac/examples/rnn_mnist.py 166-249

One example (a row of the batch; rows do not interact in the network). Numbers are exact. -/

namespace Kfac.Examples

abbrev Vec (n : ℕ) := Fin n → ℝ

/-- The variables of the recurrent part (rnn_mnist.py 183-188); without `_INCLUDE_INPUT_BIAS` the input bias is zero and not a
variable. -/
structure Rnn (m h : ℕ) where
  wIn : Fin m → Vec h
  bIn : Vec h
  wRec : Fin h → Vec h
  bRec : Vec h

/-- `s_in` (rnn_mnist.py 202-204). -/
def Rnn.sIn {m h : ℕ} (p : Rnn m h) (x : Vec m) : Vec h := fun j => ∑ i, x i * p.wIn i j + p.bIn j

/-- `s_rec` (rnn_mnist.py 205). -/
def Rnn.sRec {m h : ℕ} (p : Rnn m h) (a : Vec h) : Vec h := fun j => ∑ i, a i * p.wRec i j + p.bRec j

/-- One step of the loop (rnn_mnist.py 198-213): the input and what is added to the tensors `s_in`, `s_rec` and `s` (zero in
the program; a derivative with respect to a tensor is the one with respect to such an addition). -/
structure Step (m h : ℕ) where
  x : Vec m
  dIn : Vec h
  dRec : Vec h
  dS : Vec h

/-- The tensor `s` of a step (rnn_mnist.py 202-207). -/
def Rnn.pre {m h : ℕ} (p : Rnn m h) (e : Step m h) (a : Vec h) : Vec h :=
  fun j => (p.sIn e.x j + e.dIn j) + (p.sRec a j + e.dRec j) + e.dS j

/-- The loop (rnn_mnist.py 198-215): `final_rnn_output` from the activations `a`. -/
noncomputable def Rnn.output {m h : ℕ} (p : Rnn m h) : List (Step m h) → Vec h → Vec h
  | [], a => a
  | e :: es, a => p.output es fun j => Real.tanh (p.pre e a j)

/-- `a_list` (rnn_mnist.py 200). -/
noncomputable def Rnn.activations {m h : ℕ} (p : Rnn m h) : List (Step m h) → Vec h → List (Vec h)
  | [], _ => []
  | e :: es, a => a :: p.activations es fun j => Real.tanh (p.pre e a j)

/-- The gradients of the three tensors of a step. -/
structure StepGrads (h : ℕ) where
  gIn : Vec h
  gRec : Vec h
  gS : Vec h

/-- `tf.gradients` through the loop, in reverse: the gradient of `tanh`, of the additions (which pass the gradient on to both
arguments) and of the product with `w_rec`. `gOut` is the gradient of what follows at `final_rnn_output`. Returns the gradient of
the incoming activations and of the three tensors of every step. -/
noncomputable def Rnn.backward {m h : ℕ} (p : Rnn m h) (gOut : Vec h → Vec h) :
    List (Step m h) → Vec h → Vec h × List (StepGrads h)
  | [], a => (gOut a, [])
  | e :: es, a =>
    let next := p.backward gOut es fun j => Real.tanh (p.pre e a j)
    let gS : Vec h := fun j => next.1 j * (1 - Real.tanh (p.pre e a j) ^ 2)
    let gIn := gS
    let gRec := gS
    (fun i => ∑ j, p.wRec i j * gRec j, ⟨gIn, gRec, gS⟩ :: next.2)

/-- The inputs and gradients a layer registered with `register_fully_connected_multi` has, one pair per use
(rnn_mnist.py 231-237): of the input layer and of the recurrent layer. -/
noncomputable def Rnn.registered {m h : ℕ} (p : Rnn m h) (gOut : Vec h → Vec h) (steps : List (Step m h)) (a : Vec h) :
    List (Vec m × Vec h) × List (Vec h × Vec h) :=
  let gs := (p.backward gOut steps a).2
  ((steps.map (·.x)).zip (gs.map (·.gIn)), (p.activations steps a).zip (gs.map (·.gRec)))

/-- The same with the two commented lines active (rnn_mnist.py 222-223). -/
noncomputable def Rnn.registeredS {m h : ℕ} (p : Rnn m h) (gOut : Vec h → Vec h) (steps : List (Step m h)) (a : Vec h) :
    List (Vec m × Vec h) × List (Vec h × Vec h) :=
  let gs := (p.backward gOut steps a).2
  ((steps.map (·.x)).zip (gs.map (·.gS)), (p.activations steps a).zip (gs.map (·.gS)))

end Kfac.Examples
