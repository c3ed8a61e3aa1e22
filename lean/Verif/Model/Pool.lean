import Verif.Model.Maps
import Mathlib.Data.Fintype.Basic
import Mathlib.Logic.Function.Basic

/-! # The job pool

Model of `/repo/src/list.cpp` and of the threads that use it
(`/repo/src/method_adjacency_decomposition_implementation.cpp:50-81, 125-161`,
`/repo/src/job_manager.cpp:45-87`), as a transition system.  A transition is one critical section (the
code between taking and releasing the mutex), or one of the steps outside any critical section.

* `ι` is the (finite, otherwise arbitrary) set of threads executing the loop `get` / `rotation` / `put`:
  the local worker threads and, with MPI, the request threads of the master (which run the same loop
  with `rotation` executed on another node).  A request thread may start before the initial rows have
  been put; a local thread is created afterwards.
* `Rot row m`: `rotation` applied to `row` may return `m`.
* Reading and writing outside a critical section (list.cpp:88) is modelled as one atomic step; that
  it is in fact a data race is what C29 is about.
* Not modelled: exceptions escaping from a thread, the progress messages on `std::cerr`. -/

namespace Panda

/-- where a thread of the worker loop is -/
inductive PC where
  /-- not yet running -/
  | idle
  /-- before `empty()` in `get` (list.cpp:86) -/
  | check
  /-- before the unlocked `rows.insert(Row{})` (list.cpp:88) -/
  | insertEmpty
  /-- before `iterators.push_back; notify_all` (list.cpp:89-91) -/
  | pushEmpty
  /-- before acquiring the mutex and evaluating the condition (list.cpp:93-94) -/
  | lock
  /-- blocked in `condition.wait` (list.cpp:94) -/
  | waiting
  /-- executing `rotation` on the row -/
  | working (row : Row)
  /-- in `put(matrix)` (list.cpp:38-58): `all` are the results of rotating `row`, `rest` those still to be put -/
  | putting (row : Row) (all rest : Matrix)
  /-- has left the loop -/
  | stopped
  deriving DecidableEq

/-- what does not change during a run -/
structure PoolConfig (ι : Type) where
  /-- the thread serves another node, hence may start early -/
  remote : ι → Prop
  /-- possible results of `rotation` -/
  Rot : Row → Matrix → Prop
  /-- the rows put by `initializationOnMaster` before the threads start -/
  initial : Matrix
  /-- the known rows put asynchronously -/
  known : Matrix

/-- the state; `submitted` and `handed` record what has happened and are not read by the program -/
structure Pool (ι : Type) where
  rows : List Row
  iterators : List Row
  workers : Nat
  pc : ι → PC
  /-- rest of the initial `put(matrix)`; `none` when it has returned -/
  master : Option Matrix
  /-- rest of the asynchronous loop -/
  async : Matrix
  printed : List Row
  submitted : List Row
  handed : List (ι × Row)

/-- the constructor of `List` (list.cpp:119-130) and the situation before any thread runs -/
def Pool.init {ι : Type} (c : PoolConfig ι) : Pool ι :=
  { rows := [], iterators := [], workers := 1, pc := fun _ => .idle, master := some c.initial, async := c.known,
    printed := [], submitted := [], handed := [] }

/-- `--workers` on `std::size_t` -/
def decrement (w : Nat) : Nat := if w = 0 then 2 ^ 64 - 1 else w - 1

section
variable {ι : Type} [DecidableEq ι]

/-- `condition.notify_one()`: wakes up one waiting thread, if there is one -/
def NotifyOne (pc pc' : ι → PC) : Prop :=
  ((∀ i, pc i ≠ .waiting) ∧ pc' = pc) ∨ ∃ i, pc i = .waiting ∧ pc' = Function.update pc i .lock

/-- `condition.notify_all()` -/
def notifyAll (pc : ι → PC) : ι → PC := fun i => if pc i = .waiting then .lock else pc i

/-- `put(row)` (list.cpp:60-81), a critical section -/
inductive PutRow (row : Row) : Pool ι → Pool ι → Prop where
  | present (s : Pool ι) : (setInsert row s.rows).2 = false →
      PutRow row s { s with submitted := s.submitted ++ [row] }
  | added (s : Pool ι) (pc' : ι → PC) : (setInsert row s.rows).2 = true → NotifyOne s.pc pc' →
      PutRow row s { s with rows := (setInsert row s.rows).1, printed := s.printed ++ [row], iterators := s.iterators ++ [row],
                            pc := pc', submitted := s.submitted ++ [row] }

/-- one step of one thread -/
inductive Progress (c : PoolConfig ι) : Pool ι → Pool ι → Prop where
  /-- the thread is created: method_adjacency_decomposition_implementation.cpp:64-79, job_manager.cpp:55-85 -/
  | start (s : Pool ι) (i : ι) : s.pc i = .idle → (c.remote i ∨ s.master = none) →
      Progress c s { s with pc := Function.update s.pc i .check }
  /-- `empty()` returns true (list.cpp:86, 132-137) -/
  | checkEmpty (s : Pool ι) (i : ι) : s.pc i = .check → s.workers = 0 → s.iterators = [] →
      Progress c s { s with pc := Function.update s.pc i .insertEmpty }
  /-- `empty()` returns false -/
  | checkBusy (s : Pool ι) (i : ι) : s.pc i = .check → ¬ (s.workers = 0 ∧ s.iterators = []) →
      Progress c s { s with pc := Function.update s.pc i .lock }
  /-- `rows.insert(Row{})`, without the lock (list.cpp:88) -/
  | insertEmpty (s : Pool ι) (i : ι) : s.pc i = .insertEmpty →
      Progress c s { s with rows := (setInsert [] s.rows).1, pc := Function.update s.pc i .pushEmpty }
  /-- list.cpp:89-91 -/
  | pushEmpty (s : Pool ι) (i : ι) : s.pc i = .pushEmpty →
      Progress c s { s with iterators := s.iterators ++ [[]], pc := Function.update (notifyAll s.pc) i .lock }
  /-- `condition.wait`: nothing to do (list.cpp:93-94) -/
  | wait (s : Pool ι) (i : ι) : s.pc i = .lock → s.iterators = [] →
      Progress c s { s with pc := Function.update s.pc i .waiting }
  /-- the rest of `get` with a job (list.cpp:95-100, 116) -/
  | take (s : Pool ι) (i : ι) (row : Row) (rest : List Row) : s.pc i = .lock → s.iterators = row :: rest → row ≠ [] →
      Progress c s { s with workers := s.workers + 1, iterators := rest, pc := Function.update s.pc i (.working row),
                            handed := s.handed ++ [(i, row)] }
  /-- the rest of `get` with the empty row, which stays in the list; the thread leaves the loop
  (method_adjacency_decomposition_implementation.cpp:71-74) -/
  | stop (s : Pool ι) (i : ι) (rest : List Row) : s.pc i = .lock → s.iterators = [] :: rest →
      Progress c s { s with workers := s.workers + 1, pc := Function.update s.pc i .stopped }
  /-- `rotation` returns (method_adjacency_decomposition_implementation.cpp:75) -/
  | rotate (s : Pool ι) (i : ι) (row : Row) (m : Matrix) : s.pc i = .working row → c.Rot row m →
      Progress c s { s with pc := Function.update s.pc i (.putting row m m) }
  /-- one iteration of the loop in `put(matrix)` (list.cpp:41-44) -/
  | put (s s' : Pool ι) (i : ι) (row : Row) (all : Matrix) (r : Row) (rest : Matrix) : s.pc i = .putting row all (r :: rest) →
      PutRow r { s with pc := Function.update s.pc i (.putting row all rest) } s' → Progress c s s'
  /-- the end of `put(matrix)` (list.cpp:45-46), back to `get` -/
  | done (s : Pool ι) (i : ι) (row : Row) (all : Matrix) : s.pc i = .putting row all [] →
      Progress c s { s with workers := decrement s.workers, pc := Function.update s.pc i .check }
  /-- initialisation by the main thread (method_adjacency_decomposition_implementation.cpp:135-149) -/
  | masterPut (s s' : Pool ι) (r : Row) (rest : Matrix) : s.master = some (r :: rest) →
      PutRow r { s with master := some rest } s' → Progress c s s'
  /-- end of the initial `put(matrix)` -/
  | masterDone (s : Pool ι) : s.master = some [] →
      Progress c s { s with workers := decrement s.workers, master := none }
  /-- the asynchronous loop (method_adjacency_decomposition_implementation.cpp:151-159) -/
  | asyncPut (s s' : Pool ι) (r : Row) (rest : Matrix) : s.master = none → s.async = r :: rest →
      PutRow r { s with async := rest } s' → Progress c s s'

/-- a spurious wake-up, permitted by the C++ standard at any time -/
inductive Spurious : Pool ι → Pool ι → Prop where
  | wake (s : Pool ι) (i : ι) : s.pc i = .waiting → Spurious s { s with pc := Function.update s.pc i .lock }

/-- one transition -/
def PoolStep (c : PoolConfig ι) (s s' : Pool ι) : Prop := Progress c s s' ∨ Spurious s s'

/-- the states that some interleaving reaches -/
def PoolReach (c : PoolConfig ι) : Pool ι → Prop := Relation.ReflTransGen (PoolStep c) (Pool.init c)

/-- nothing is left to do -/
def Pool.Finished (s : Pool ι) : Prop := s.master = none ∧ s.async = [] ∧ ∀ i, s.pc i = .stopped

end

end Panda
