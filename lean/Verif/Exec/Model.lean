import Mathlib.Algebra.BigOperators.Group.Finset.Basic
import Mathlib.Algebra.BigOperators.Group.Finset.Piecewise
import Mathlib.Data.Real.Basic

/-!
# Model of the scheduling and replication helpers
(`utils.py`, `placement.py`, `op_queue.py`)
-/

namespace Kfac.Exec

/-! ### `batch_execute` (utils.py 719-783) -/

/-- The condition under which thunk `j` of `n` runs at `globalStep` (utils.py 772-776). `tf.mod` is floor
modulo, as is `Int.emod` for a positive modulus. Integers are unbounded. -/
def batchCondition (globalStep batchSize n j : Nat) : Bool :=
  decide (((batchSize : Int) - 1 + globalStep * batchSize - j) % n < batchSize)

/-- The indices of the thunks executed at a step (utils.py 777-781). -/
def batchExecute (globalStep batchSize n : Nat) : List Nat :=
  (List.range n).filter fun j => batchCondition globalStep batchSize n j

/-! ### Replication contexts (utils.py 518-586)

Every replica runs the same program; a value that may differ between the replicas is a function of the
replica number. -/

/-- The parts of an external TF-Replicator that are used. `owner i` is the replica on which its `map_gather`
evaluates element `i`. -/
structure Replicator where
  num : Nat
  owner : Nat → Nat

/-- A `tf.distribute` strategy, and whether the code runs in its replica context. -/
structure Strategy where
  num : Nat
  tpu : Bool
  inReplica : Bool

/-- Everything the helpers ask about the execution context. -/
structure Ctx where
  /-- `get_tf_replicator()` -/
  replicator : Option Replicator
  /-- `tf.distribute.get_strategy()` when `has_strategy()` -/
  strategy : Option Strategy
  /-- `tpu_function.get_tpu_context().number_of_shards` -/
  shards : Option Nat

/-- `tf.distribute.has_strategy() and tf.distribute.get_replica_context()` -/
def Ctx.inReplicaContext (c : Ctx) : Bool :=
  match c.strategy with
  | some s => s.inReplica
  | none => false

/-- `is_tpu_replicated` (utils.py 522-528). -/
def Ctx.isTpuReplicated (c : Ctx) : Bool :=
  (match c.strategy with
   | some s => s.inReplica && s.tpu
   | none => false) || c.shards.isSome

/-- `is_replicated` (utils.py 531-535). -/
def Ctx.isReplicated (c : Ctx) : Bool :=
  match c.strategy with
  | some s => if s.inReplica then decide (s.num > 1) else c.replicator.isSome || c.isTpuReplicated
  | none => c.replicator.isSome || c.isTpuReplicated

/-- `get_num_replicas` (utils.py 538-558). -/
def Ctx.numReplicas (c : Ctx) : Nat :=
  match c.replicator with
  | some p => p.num
  | none =>
    match c.strategy with
    | some s => s.num
    | none =>
      match c.shards with
      | some k => if k ≠ 0 then k else 1
      | none => 1

/-! ### `all_sum` and `all_average` (utils.py 588-649)

The sum over a nest is the sum of each of its tensors, so a single element of an additive monoid stands for
the nest. The three external reductions sum over the copies that they know of. -/

variable {α : Type}

/-- A reduction over `n` copies of the program: every copy receives the sum. -/
def reduceSum [AddCommMonoid α] (n : Nat) (x : Nat → α) : Nat → α :=
  fun _ => ∑ r ∈ Finset.range n, x r

/-- `all_sum` (utils.py 588-621). -/
def allSum [AddCommMonoid α] (c : Ctx) (x : Nat → α) : Nat → α :=
  if c.numReplicas ≤ 1 then x
  else
    match c.replicator with
    | some p => reduceSum p.num x
    | none =>
      if c.inReplicaContext then reduceSum (match c.strategy with | some s => s.num | none => 1) x
      else if c.isTpuReplicated then reduceSum (c.shards.getD 1) x
      else x

/-- `all_average` (utils.py 624-649). -/
noncomputable def allAverage (c : Ctx) (x : Nat → ℝ) : Nat → ℝ :=
  if c.numReplicas ≤ 1 then x
  else if c.inReplicaContext && c.replicator.isNone then
    fun r => reduceSum (match c.strategy with | some s => s.num | none => 1) x r
      / (match c.strategy with | some s => (s.num : ℝ) | none => 1)
  else fun r => allSum c x r / c.numReplicas

/-! ### `map_gather` (utils.py 652-708)

A thunk is given by its value on each replica, an element of an additive monoid whose zero is
`zeros_like(example_structure)`. The example call outside the `tf.cond` only provides the static shape and is
not counted as an evaluation (see the comment in the code). -/

/-- The results on each replica, and on which replicas each thunk is evaluated. -/
structure Gathered (α : Type) where
  results : Nat → List α
  runs : Nat → Nat → Bool

/-- `map_gather` (utils.py 652-708). -/
def mapGather [AddCommMonoid α] (c : Ctx) (thunks : List (Nat → α)) : Gathered α :=
  let everywhere : Gathered α := ⟨fun r => thunks.map fun t => t r, fun _ _ => true⟩
  if c.numReplicas ≤ 1 then everywhere
  else
    match c.replicator with
    | some p => ⟨fun _ => thunks.mapIdx fun i t => t (p.owner i), fun i r => decide (r = p.owner i)⟩
    | none =>
      if c.isTpuReplicated then
        ⟨fun r => thunks.mapIdx fun i t =>
            allSum c (fun r' => if r' = i % c.numReplicas then t r' else 0) r,
         fun i r => decide (r = i % c.numReplicas)⟩
      else everywhere

/-! ### Round-robin placement (placement.py 39-166) -/

/-- What the user may pass as a device list: nothing, a sequence, or a one-shot iterator over the given
devices ("Iterable of device strings"). -/
inductive Devices (D : Type) where
  | none
  | list (l : List D)
  | iterator (rest : List D)

/-- Truth value of the Python object: a sequence is true when nonempty, an iterator always. -/
def Devices.truthy {D : Type} : Devices D → Bool
  | .none => false
  | .list l => !l.isEmpty
  | .iterator _ => true

/-- The elements that iterating over the object yields. -/
def Devices.elems {D : Type} : Devices D → List D
  | .none => []
  | .list l => l
  | .iterator l => l

/-- State of the object after `itertools.cycle` took `used` elements from it: only an iterator is consumed. -/
def Devices.consume {D : Type} (d : Devices D) (used : Nat) : Devices D :=
  match d with
  | .iterator l => .iterator (l.drop used)
  | d => d

/-- `zip(xs, itertools.cycle(devices))`: `saved` is the whole sequence, `rest` what is left of this round.
When a round ends the saved sequence is started over; with nothing saved the cycle is exhausted. -/
def zipCycle {X D : Type} (saved : List D) : List D → List X → List (X × D)
  | _, [] => []
  | d :: rest, x :: xs => (x, d) :: zipCycle saved rest xs
  | [], x :: xs =>
    match saved with
    | d :: rest => (x, d) :: zipCycle saved rest xs
    | [] => []

/-- A thunk and the device it is pinned to, if any. -/
structure Placed (D X : Type) where
  device : Option D
  thunk : X
deriving DecidableEq

/-- `_place_and_compute_transformation_thunks` (placement.py 62-88): the results in order, with the device
each was computed on, and the device object afterwards. -/
def placeTransformations {D X : Type} (transDevices : Devices D) (thunks : List X) :
    List (Placed D X) × Devices D :=
  if transDevices.truthy then
    ((zipCycle transDevices.elems transDevices.elems thunks).map fun p => ⟨some p.2, p.1⟩,
      -- `zip` asks the thunk list first, so one device is taken per thunk
      transDevices.consume thunks.length)
  else (thunks.map fun t => ⟨none, t⟩, transDevices)

/-- The four lists of thunks. -/
structure Thunks (D X : Type) where
  covVariables : List (Placed D X)
  covUpdates : List (Placed D X)
  invVariables : List (Placed D X)
  invUpdates : List (Placed D X)

/-- `RoundRobinPlacementMixin.create_ops_and_vars_thunks` (placement.py 93-166) on the raw thunks of the
estimator. -/
def createThunks {D X : Type} (covDevices invDevices : Devices D)
    (covVars covUps invVars invUps : List X) : Thunks D X :=
  let unplaced := fun xs : List X => xs.map fun t => (⟨none, t⟩ : Placed D X)
  let cov := zipCycle covDevices.elems covDevices.elems (covVars.zip covUps)
  { covVariables := if covDevices.truthy then cov.map fun p => ⟨some p.2, p.1.1⟩ else unplaced covVars
    covUpdates := if covDevices.truthy then cov.map fun p => ⟨some p.2, p.1.2⟩ else unplaced covUps
    invVariables := unplaced invVars
    invUpdates := if invDevices.truthy then
        (zipCycle invDevices.elems invDevices.elems invUps).map fun p => ⟨some p.2, p.1⟩
      else unplaced invUps }

/-! ### Replica round-robin placement (placement.py 169-317) -/

/-- `ReplicaRoundRobinPlacementMixin.__init__` (placement.py 184-201). -/
def Ctx.newRoundRobin (c : Ctx) : Except String Unit :=
  if !c.isReplicated then
    .error "ValueError: This placement mode should only be used with certain kinds of 'replicated' setups"
  else .ok ()

/-- Factor classes by how they keep their inverse variables. Variables are numbered. -/
inductive FactorKind where
  /-- `DiagonalFactor` and subclasses: no inverse variables (fisher_factors.py 1020-1030). -/
  | diagonal
  /-- `DenseSquareMatrixFactor`: matrix powers, Cholesky factors and their inverses (757-762). -/
  | dense (matpowers choleskys choleskyInverses : List Nat)
  /-- `ConvInputSUAKroneckerFactor`, per registered damping: the inverse, the damping variable and, unless
  activations are assumed to have zero mean, the product with the mean and the rank-one scale (2288-2333). -/
  | sua (inverses dampingVars covInvMus scales : List Nat)
  /-- `FullyConnectedMultiKF`: additionally the tuples of the two options (2547-2551, 2677-2732). -/
  | multi (matpowers choleskys choleskyInverses : List Nat) (option1 : List (Nat × Nat))
      (option2 : List (Nat × Nat × Nat))

/-- An entry of the list returned by `get_inv_vars()`: a variable or a tuple of variables. -/
inductive InvEntry where
  | var (v : Nat)
  | tuple (vs : List Nat)

/-- `get_inv_vars` (fisher_factors.py 624-625, 757-762, 2064-2067, 2547-2551). -/
def FactorKind.getInvVars : FactorKind → List InvEntry
  | .diagonal => []
  | .dense m c ci => (m ++ c ++ ci).map .var
  | .sua m _ _ _ => m.map .var
  | .multi m c ci o1 o2 => (m ++ c ++ ci).map .var ++ o1.map (fun p => .tuple [p.1, p.2])
      ++ o2.map (fun p => .tuple [p.1, p.2.1, p.2.2])

/-- The variables that the operations of `make_inverse_update_ops` assign (810-880, 2256-2286,
2734-2832). -/
def FactorKind.written : FactorKind → List Nat
  | .diagonal => []
  | .dense m c ci => m ++ c ++ ci
  | .sua m d cm s => m ++ d ++ cm ++ s
  | .multi m c ci o1 o2 => m ++ c ++ ci ++ o1.flatMap (fun p => [p.1, p.2])
      ++ o2.flatMap (fun p => [p.1, p.2.1, p.2.2])

/-- A factor: its kind and the value its inverse update computes for each written variable, from the
covariance statistics on the replica that executes the update. -/
structure RFactor (C α : Type) where
  kind : FactorKind
  value : C → Nat → α

/-- Values of the inverse variables on each replica. -/
abbrev RState (α : Type) := Nat → Nat → α

/-- Assignment of one variable. -/
def assign (s : Nat → α) (v : Nat) (x : α) : Nat → α := fun w => if w = v then x else s w

/-- Running a factor's own inverse update operations on one replica. -/
def RFactor.runUpdate {C : Type} (f : RFactor C α) (cov : C) (s : Nat → α) : Nat → α :=
  fun v => if v ∈ f.kind.written then f.value cov v else s v

/-- The inverse updates of all factors on a single machine. -/
def runAll {C : Type} (fs : List (RFactor C α)) (cov : C) (s : Nat → α) : Nat → α :=
  fs.foldl (fun s f => f.runUpdate cov s) s

/-- `smart_assign(var, val)` over `zip(result, factor.get_inv_vars())`; assigning to a tuple of variables
is a Python error. -/
def saveBack : List InvEntry → (Nat → α) → (Nat → α) → Except String (Nat → α)
  | [], _, s => .ok s
  | .var v :: es, vals, s => saveBack es vals (assign s v (vals v))
  | .tuple _ :: _, _, _ => .error "AttributeError: 'tuple' object has no attribute 'assign'"

/-- Saving the results of several factors back. -/
def saveAll {C : Type} : List (RFactor C α × (Nat → α)) → (Nat → α) → Except String (Nat → α)
  | [], s => .ok s
  | (f, vals) :: rest, s => do
    let s ← saveBack f.kind.getInvVars vals s
    saveAll rest s

/-- The single inverse update operation of the replica placement (placement.py 283-311). The thunk of a
factor runs its update on the replica that evaluates it and reads the reported variables (a result is
represented as a function from variable numbers to values); every replica then saves all gathered results to
its own copies. `zip(*())` cannot be unpacked into two lists when no factor reports a variable. -/
def replicaInvUpdate {C : Type} [AddCommMonoid α] (c : Ctx) (fs : List (RFactor C α)) (cov : Nat → C)
    (state : RState α) : Except String (RState α) :=
  let kept := fs.filter fun f => !f.kind.getInvVars.isEmpty
  if kept.isEmpty then .error "ValueError: not enough values to unpack (expected 2, got 0)"
  else
    let gathered := mapGather c (kept.map fun f => fun r => fun v => f.value (cov r) v)
    -- the updates of the evaluated thunks act on the variables of that replica
    let afterThunks : RState α := fun r =>
      (kept.zipIdx.filter fun p => gathered.runs p.2 r).foldl (fun s p => p.1.runUpdate (cov r) s) (state r)
    -- all replicas run the same saving operations, which fail while the graph is built
    match saveAll (kept.zip (gathered.results 0)) (afterThunks 0) with
    | .error e => .error e
    | .ok _ => .ok fun r =>
      match saveAll (kept.zip (gathered.results r)) (afterThunks r) with
      | .ok s => s
      | .error _ => afterThunks r

/-! ### `OpQueue` (op_queue.py 34-70) -/

/-- One pass of `Dataset.shuffle(buffer_size)`: `buffer` is the current buffer, `input` what has not been
read yet. Each step emits the buffer element selected by the random choice and refills from the input. -/
def shufflePass {X : Type} : Nat → List X → List X → (Nat → Nat) → List X
  | 0, _, _, _ => []
  | k + 1, buffer, input, choice =>
    if h : buffer = [] then []
    else
      let i : Fin buffer.length := ⟨choice 0 % buffer.length, Nat.mod_lt _ (List.length_pos_iff.2 h)⟩
      buffer.get i :: shufflePass k (buffer.eraseIdx i ++ input.take 1) (input.drop 1) fun n => choice (n + 1)

/-- A whole pass over `xs` with the given buffer size. -/
def shuffle {X : Type} (xs : List X) (bufferSize : Nat) (choice : Nat → Nat) : List X :=
  shufflePass xs.length (xs.take bufferSize) (xs.drop bufferSize) choice

/-- The names drawn: `from_tensor_slices(sorted(names)).shuffle(len(ops)).repeat()`; `choice e` is the
randomness of pass `e` (op_queue.py 45-52). -/
def queueNames (names : List String) (choice : Nat → Nat → Nat) (e : Nat) : List String :=
  shuffle (names.mergeSort fun a b => decide (a ≤ b)) names.length (choice e)

/-- `{op.name: op for op in ops}` then lookup of a name: the last operation with that name
(op_queue.py 43, 70). -/
def lookupOp {Op : Type} (name : Op → String) (ops : List Op) (nm : String) : Option Op :=
  ops.reverse.find? fun o => name o = nm

/-- The operation returned by the `t`-th call of `next_op` (op_queue.py 54-70). -/
def nextOp {Op : Type} (name : Op → String) (ops : List Op) (choice : Nat → Nat → Nat) (t : Nat) :
    Option Op :=
  ((queueNames (ops.map name) choice (t / ops.length))[t % ops.length]?).bind (lookupOp name ops)

/-! ### `SequenceDict` (utils.py 169-189) -/

/-- A key argument: a hashable object or a list/tuple of key arguments. -/
inductive Key (K : Type) where
  | atom (k : K)
  | seq (ks : List (Key K))

/-- A value argument: an object that is not iterable, or a sequence. -/
inductive Val (V : Type) where
  | leaf (v : V)
  | seq (vs : List (Val V))

/-- The wrapped dictionary. -/
abbrev Dict (K V : Type) := K → Option (Val V)

mutual
/-- `__getitem__` (utils.py 175-179). -/
def getItem {K V : Type} (d : Dict K V) : Key K → Except String (Val V)
  | .atom k =>
    match d k with
    | some v => .ok v
    | none => .error "KeyError"
  | .seq ks =>
    match getItems d ks with
    | .ok vs => .ok (.seq vs)
    | .error e => .error e
/-- `list(map(self.__getitem__, keys))` -/
def getItems {K V : Type} (d : Dict K V) : List (Key K) → Except String (List (Val V))
  | [] => .ok []
  | k :: ks =>
    match getItem d k with
    | .error e => .error e
    | .ok v =>
      match getItems d ks with
      | .ok vs => .ok (v :: vs)
      | .error e => .error e
end

mutual
/-- `__setitem__` (utils.py 181-186): the dictionary afterwards and the error raised, if any. `zip` stops at
the shorter sequence. -/
def setItem {K V : Type} [DecidableEq K] (d : Dict K V) : Key K → Val V → Dict K V × Option String
  | .atom k, v => (fun k' => if k' = k then some v else d k', none)
  | .seq ks, .seq vs => setItems d ks vs
  | .seq _, .leaf _ => (d, some "TypeError: zip argument is not iterable")
/-- The loop over the zipped keys and values. -/
def setItems {K V : Type} [DecidableEq K] (d : Dict K V) : List (Key K) → List (Val V) → Dict K V × Option String
  | k :: ks, v :: vs =>
    match setItem d k v with
    | (d', none) => setItems d' ks vs
    | (d', some e) => (d', some e)
  | _, _ => (d, none)
end

end Kfac.Exec
