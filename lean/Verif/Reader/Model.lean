import Mathlib.Data.List.Basic
import Mathlib.Data.List.Nodup
import Mathlib.Data.List.Perm.Basic
import Mathlib.Logic.Function.Basic

/-! # Cached data readers (kfac/python/ops/kfac_utils/data_reader.py, data_reader_alt.py)

A call of a reader adds ops to the graph; a `session.run` executes them in any order that respects the data and
control dependencies. Executions are therefore lists of ops in which every op comes after the ops it depends on, and
the statements quantify over all of them. Batch sizes are natural numbers. -/

namespace Kfac.Reader

/-- A list of operations, each preceded by those it depends on, none repeated. -/
inductive Schedule {Op : Type} (known : Op → Prop) (deps : Op → Op → Prop) : List Op → Prop
  | nil : Schedule known deps []
  | snoc {p : List Op} {o : Op} : Schedule known deps p → known o → o ∉ p →
      (∀ d, deps o d → d ∈ p) → Schedule known deps (p ++ [o])

variable {α : Type}

/-! ### data_reader.py -/

/-- The ops created for the `i`-th tensor of the dataset (data_reader.py 63-69, 101-102, 115-125). The reads of the two
variables in `_cached_batch` are separate ops. -/
inductive Op where
  /-- `tf.assert_less_equal(batch_size, max_batch_size)` (63-67) -/
  | check
  /-- `dataset[i][:batch_size]` (69) -/
  | slice (i : ℕ)
  | readSize (i : ℕ)
  | readStorage (i : ℕ)
  /-- `cached_batch_storage[i][:cached_batch_size]` (101-102) -/
  | sliceCached (i : ℕ)
  /-- `cached_batch_size.assign(batch_size)` (119) -/
  | assignSize
  /-- `cached_batch_storage[i][:batch_size].assign(sliced_data[i])` (120-123) -/
  | assignData (i : ℕ)
  /-- `tf.identity(sliced_data[i])` (125) -/
  | ret (i : ℕ)
deriving DecidableEq

/-- The ops of a reader with `m` tensors. -/
def Op.known (m : ℕ) : Op → Prop
  | .check => True
  | .slice i => i < m
  | .readSize i => i < m
  | .readStorage i => i < m
  | .sliceCached i => i < m
  | .assignSize => True
  | .assignData i => i < m
  | .ret i => i < m

/-- `Op.deps m o d`: `o` waits for `d`, as input or through `tf.control_dependencies` (data_reader.py 68, 118, 124). -/
def Op.deps (m : ℕ) : Op → Op → Prop
  | .check, _ => False
  | .slice _, d => d = .check
  | .readSize _, _ => False
  | .readStorage _, _ => False
  | .sliceCached i, d => d = .readSize i ∨ d = .readStorage i
  | .assignSize, d => ∃ j < m, d = .sliceCached j
  | .assignData i, d => d = .slice i ∨ ∃ j < m, d = .sliceCached j
  | .ret i, d => d = .slice i ∨ d = .assignSize ∨ ∃ j < m, d = .assignData j

/-- The variables of `CachedDataReader` (data_reader.py 88-99): one storage tensor per dataset tensor. -/
structure Cache (α : Type) where
  storage : ℕ → List α
  size : ℕ

/-- The property `cached_batch` in a run that starts with these variables (data_reader.py 101-102, 127-129). -/
def Cache.batch (c : Cache α) (i : ℕ) : List α := (c.storage i).take c.size

/-- State while a run is executed: the variables, the outputs of the ops executed so far, and whether a shape check
failed. -/
structure Run (α : Type) where
  cache : Cache α
  sliceV : ℕ → List α
  sizeV : ℕ → ℕ
  storageV : ℕ → List α
  cachedV : ℕ → List α
  retV : ℕ → List α
  shapeError : Bool

def Run.start (c : Cache α) : Run α := ⟨c, fun _ => [], fun _ => 0, fun _ => [], fun _ => [], fun _ => [], false⟩

/-- One op of the call with batch size `b` in a run where the dataset tensors evaluate to `data`. The sliced
assignment requires equal shapes. -/
def Run.step (b : ℕ) (data : ℕ → List α) (r : Run α) : Op → Run α
  | .check => r
  | .slice i => { r with sliceV := Function.update r.sliceV i ((data i).take b) }
  | .readSize i => { r with sizeV := Function.update r.sizeV i r.cache.size }
  | .readStorage i => { r with storageV := Function.update r.storageV i (r.cache.storage i) }
  | .sliceCached i => { r with cachedV := Function.update r.cachedV i ((r.storageV i).take (r.sizeV i)) }
  | .assignSize => { r with cache := { r.cache with size := b } }
  | .assignData i =>
    if ((r.cache.storage i).take b).length = (r.sliceV i).length then
      { r with cache := { r.cache with
          storage := Function.update r.cache.storage i (r.sliceV i ++ (r.cache.storage i).drop b) } }
    else { r with shapeError := true }
  | .ret i => { r with retV := Function.update r.retV i (r.sliceV i) }

def Run.exec (b : ℕ) (data : ℕ → List α) (c : Cache α) (sched : List Op) : Run α :=
  sched.foldl (Run.step b data) (Run.start c)

/-- What may happen in one `session.run` of a reader with `m` tensors and maximum `max`: with an acceptable size every
op runs; with a larger one the assertion fails, `session.run` raises, and some of the ops that do not depend on it
have run. -/
inductive Read (m max : ℕ) (c : Cache α) (b : ℕ) (data : ℕ → List α) : Option (Run α) → Cache α → Prop
  | ok {sched : List Op} : b ≤ max → Schedule (Op.known m) (Op.deps m) sched → (∀ o, Op.known m o → o ∈ sched) →
      Read m max c b data (some (Run.exec b data c sched)) (Run.exec b data c sched).cache
  | rejected {sched : List Op} : ¬ b ≤ max → Schedule (Op.known m) (Op.deps m) sched → Op.check ∉ sched →
      Read m max c b data none (Run.exec b data c sched).cache

/-! ### data_reader_alt.py -/

/-- The ops of the alternative reader (data_reader_alt.py 65-73, 101-103, 116-123). -/
inductive AOp where
  /-- `tf.assert_less_equal(batch_size, num_examples)` (65-69) -/
  | check
  /-- `self._indices = tf.random.shuffle(tf.range(num_examples))` (71-72) -/
  | shuffle
  /-- `tf.gather(dataset[i], indices[:batch_size])` (73) -/
  | gather (i : ℕ)
  | readSize
  | readIndices
  /-- `cached_batch_indices[:cached_batch_size]` (103) -/
  | sliceCached
  /-- gather of the cached indices (101-103) -/
  | gatherCached (i : ℕ)
  /-- `cached_batch_indices.assign(indices)` (119) -/
  | assignIndices
  /-- `tf.assign(cached_batch_size, batch_size)` (120) -/
  | assignSize
  | ret (i : ℕ)
deriving DecidableEq

def AOp.known (m : ℕ) : AOp → Prop
  | .gather i => i < m
  | .gatherCached i => i < m
  | .ret i => i < m
  | _ => True

def AOp.deps (m : ℕ) : AOp → AOp → Prop
  | .check, _ => False
  | .shuffle, d => d = .check
  | .gather _, d => d = .check ∨ d = .shuffle
  | .readSize, _ => False
  | .readIndices, _ => False
  | .sliceCached, d => d = .readSize ∨ d = .readIndices
  | .gatherCached _, d => d = .sliceCached
  | .assignIndices, d => d = .shuffle ∨ ∃ j < m, d = .gatherCached j
  | .assignSize, d => ∃ j < m, d = .gatherCached j
  | .ret i, d => d = .gather i ∨ d = .assignIndices ∨ d = .assignSize

/-- The variables (data_reader_alt.py 90-99). -/
structure ACache where
  indices : List ℕ
  size : ℕ

/-- `tf.gather(tensor, indices, axis=0)`; an index outside the tensor is an error (`none`). -/
def gather (t : List α) (indices : List ℕ) : Option (List α) := indices.mapM fun i => t[i]?

/-- `cached_batch` of the alternative reader. -/
def ACache.batch (c : ACache) (data : ℕ → List α) (i : ℕ) : Option (List α) := gather (data i) (c.indices.take c.size)

structure ARun (α : Type) where
  cache : ACache
  indices : List ℕ
  gatherV : ℕ → Option (List α)
  sizeV : ℕ
  indicesV : List ℕ
  sliceV : List ℕ
  cachedV : ℕ → Option (List α)
  retV : ℕ → Option (List α)

def ARun.start (c : ACache) : ARun α := ⟨c, [], fun _ => none, 0, [], [], fun _ => none, fun _ => none⟩

/-- One op; `perm` is the result of the shuffle in this run. -/
def ARun.step (b : ℕ) (data : ℕ → List α) (perm : List ℕ) (r : ARun α) : AOp → ARun α
  | .check => r
  | .shuffle => { r with indices := perm }
  | .gather i => { r with gatherV := Function.update r.gatherV i (Reader.gather (data i) (r.indices.take b)) }
  | .readSize => { r with sizeV := r.cache.size }
  | .readIndices => { r with indicesV := r.cache.indices }
  | .sliceCached => { r with sliceV := r.indicesV.take r.sizeV }
  | .gatherCached i => { r with cachedV := Function.update r.cachedV i (Reader.gather (data i) r.sliceV) }
  | .assignIndices => { r with cache := { r.cache with indices := r.indices } }
  | .assignSize => { r with cache := { r.cache with size := b } }
  | .ret i => { r with retV := Function.update r.retV i (r.gatherV i) }

def ARun.exec (b : ℕ) (data : ℕ → List α) (perm : List ℕ) (c : ACache) (sched : List AOp) : ARun α :=
  sched.foldl (ARun.step b data perm) (ARun.start c)

/-- One `session.run` of the alternative reader with `n` examples. -/
inductive ARead (m n : ℕ) (c : ACache) (b : ℕ) (data : ℕ → List α) : Option (ARun α) → ACache → Prop
  | ok {sched : List AOp} {perm : List ℕ} : b ≤ n → perm.Perm (List.range n) →
      Schedule (AOp.known m) (AOp.deps m) sched → (∀ o, AOp.known m o → o ∈ sched) →
      ARead m n c b data (some (ARun.exec b data perm c sched)) (ARun.exec b data perm c sched).cache
  | rejected {sched : List AOp} {perm : List ℕ} : ¬ b ≤ n → Schedule (AOp.known m) (AOp.deps m) sched →
      AOp.check ∉ sched → ARead m n c b data none (ARun.exec b data perm c sched).cache

end Kfac.Reader
