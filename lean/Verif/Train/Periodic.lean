import Verif.Train.Fit
import Verif.Opt.Model

/-! # Training a network with `PeriodicInvCovUpdateKfacOpt` -/

namespace Kfac.Train

/-- The arguments of the constructor (periodic_inv_cov_update_kfac_opt.py 51-55, optimizer.py 52-88) that matter without
adaptive damping; `covEmaDecay` is `none` if it is not passed. -/
structure Periodic where
  base : Config
  invertEvery : ℕ
  covUpdateEvery : ℕ
  numBurninSteps : ℕ
  covEmaDecay : Option ℝ
  damping : ℝ
  preconDampingMult : ℝ

/-- The data of one execution of the training op: a batch with the losses to train on and those with sampled targets. -/
structure BatchOf (n o : ℕ) where
  size : ℕ
  x : Fin (size + 1) → Fin n → ℝ
  loss : Fin (size + 1) → (Fin o → ℝ) → ℝ
  sampled : Fin (size + 1) → (Fin o → ℝ) → ℝ

/-- The network with its statistics, `counter` (optimizer.py 388-391) and `burnin_counter` (periodic 118-121). -/
structure PeriodicState (n o : ℕ) where
  net : Net n o
  counter : ℕ
  burnin : ℕ

/-- The op `minimize` returns (periodic 123-168): covariance updates without decay during the burn-in, afterwards
`apply_gradients` (170-175) behind `kfac_update_ops` (177-216). `tf.mod` by zero is an error. -/
noncomputable def Periodic.step {n o : ℕ} (p : Periodic) (b : BatchOf n o) (s : PeriodicState n o) :
    Except String (PeriodicState n o) :=
  if s.burnin < p.numBurninSteps then
    .ok { s with net := s.net.covUpdate 1 b.x b.sampled, burnin := s.burnin + 1 }
  else if p.covUpdateEvery = 0 ∨ p.invertEvery = 0 then .error "Integer division by zero"
  else
    let decay := Opt.effectiveDecay p.covEmaDecay p.covUpdateEvery
    let net := if s.counter % p.covUpdateEvery = 0 then s.net.covUpdate decay b.x b.sampled else s.net
    (if s.counter % p.invertEvery = 0 then net.invUpdate p.base.rule p.base.power (p.damping * p.preconDampingMult) else .ok net).bind
      fun net => (net.trainStep p.base b.x b.loss).map fun net => { s with net := net, counter := s.counter + 1 }

/-- Any number of executions of the op. -/
noncomputable def Periodic.run {n o : ℕ} (p : Periodic) (batch : ℕ → BatchOf n o) (net : Net n o) :
    ℕ → Except String (PeriodicState n o)
  | 0 => .ok ⟨net, 0, 0⟩
  | t + 1 => (p.run batch net t).bind (p.step (batch t))

end Kfac.Train
