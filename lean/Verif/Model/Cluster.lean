import Verif.Model.Adjacency

/-! # Several nodes (MPI)

Model of a distributed run: the master (`/repo/src/job_manager.cpp:45-87`,
`/repo/src/method_adjacency_decomposition_implementation.cpp:50-81`), its request threads, the messages under way
(`/repo/src/communication.cpp:77-164`) and the threads of the other nodes
(`/repo/src/job_manager_proxy.cpp:15-25`, with the same loop as on the master).

* `ι` are the threads of the master that use its pool: the local ones and the request threads; `κ` are the threads of the
  other nodes, `ν` these nodes.
* A transmission of a row or of a matrix is one message here: that the parts of a matrix are kept together is C50.
  Messages between two nodes are received in the order in which they were sent (MPI guarantees it for one communicator and tag).
* All nodes are started with the same input, so that `rotation` on another node returns what it would return on the master
  (`ClusterConfig.Rot`); the conversions from and to `int` (communication.cpp:51-73) are C50, C51.
* Simplified: waiting by polling (communication.cpp:110, 146, 200) is not a step; MPI start-up and shut-down are left out.
* Sending an empty matrix is undefined behaviour (`matrix.back()`, communication.cpp:91): in the model nothing happens any more. -/

namespace Panda

/-- where a request thread of the master is with the row it got last (job_manager.cpp:64-77) -/
inductive Phase where
  /-- the row has not been sent (before `toSlave`, job_manager.cpp:67) -/
  | fresh
  /-- in `toSlave`, waiting for completion (communication.cpp:141) -/
  | posted
  /-- after `toSlave`: in `fromSlave` (job_manager.cpp:75), or out of the loop if the row was empty (job_manager.cpp:68-71) -/
  | done
  deriving DecidableEq

/-- where a thread of another node is (method_adjacency_decomposition_implementation.cpp:66-77 with `JobManagerProxy`) -/
inductive SlavePC where
  /-- in `get`, that is `fromMaster` (job_manager_proxy.cpp:21-25) -/
  | idle
  /-- executing `rotation` -/
  | working (row : Row)
  /-- before the messages of the result are posted (communication.cpp:88-99); `row` is remembered for the proofs only -/
  | posting (row : Row) (m : Matrix)
  /-- waiting for completion (communication.cpp:100-104) -/
  | sending
  /-- has left the loop -/
  | stopped
  deriving DecidableEq

/-- what does not change during a run -/
structure ClusterConfig (ι κ ν : Type) where
  /-- the node that a request thread serves (job_manager.cpp:55-59); `none` for the local threads -/
  node : ι → Option ν
  /-- the node on which a thread runs -/
  home : κ → ν
  Rot : Row → Matrix → Prop
  initial : Matrix
  known : Matrix
  /-- `MPI_Isend` completes at once (otherwise when the message has been received) -/
  eager : Bool

/-- the pool of the master -/
def ClusterConfig.pool {ι κ ν : Type} (c : ClusterConfig ι κ ν) : PoolConfig ι :=
  { remote := fun i => c.node i ≠ none, Rot := c.Rot, initial := c.initial, known := c.known }

/-- the state -/
structure Cluster (ι κ ν : Type) where
  /-- the pool of the master and its threads; a request thread is `working` from the return of `get` until `fromSlave` returns -/
  pool : Pool ι
  phase : ι → Phase
  /-- the rows under way to a node, with the thread that sent them -/
  rows : ν → List (ι × Row)
  /-- the results under way to the master, with the thread that sent them and (for the proofs only) the row they belong to -/
  results : ν → List (κ × Row × Matrix)
  slave : κ → SlavePC

/-- the situation before any thread runs -/
def Cluster.init {ι κ ν : Type} (c : ClusterConfig ι κ ν) : Cluster ι κ ν :=
  { pool := Pool.init c.pool, phase := fun _ => .fresh, rows := fun _ => [], results := fun _ => [], slave := fun _ => .idle }

section
variable {ι κ ν : Type} [DecidableEq ι] [DecidableEq κ] [DecidableEq ν]

/-- one step of one thread -/
inductive ClusterStep (c : ClusterConfig ι κ ν) : Cluster ι κ ν → Cluster ι κ ν → Prop where
  /-- a step on the master; a request thread does not execute `rotation` itself -/
  | pool (s : Cluster ι κ ν) (p : Pool ι) : Progress c.pool s.pool p →
      (∀ i row, c.node i ≠ none → s.pool.pc i = .working row → p.pc i = .working row) → ClusterStep c s { s with pool := p }
  /-- `toSlave` posts the row (job_manager.cpp:67, communication.cpp:134-140); the empty row is sent, too -/
  | toSlave (s : Cluster ι κ ν) (i : ι) (n : ν) (row : Row) : c.node i = some n → s.phase i = .fresh →
      (s.pool.pc i = .working row ∨ (s.pool.pc i = .stopped ∧ row = [])) →
      ClusterStep c s { s with phase := Function.update s.phase i .posted, rows := Function.update s.rows n (s.rows n ++ [(i, row)]) }
  /-- `toSlave` returns (communication.cpp:141, 198-211) -/
  | toSlaveDone (s : Cluster ι κ ν) (i : ι) (n : ν) : c.node i = some n → s.phase i = .posted →
      (c.eager = true ∨ ∀ x ∈ s.rows n, x.1 ≠ i) → ClusterStep c s { s with phase := Function.update s.phase i .done }
  /-- `fromMaster` returns (communication.cpp:144-164, job_manager_proxy.cpp:21-25); the empty row ends the loop
  (method_adjacency_decomposition_implementation.cpp:71-74) -/
  | fromMaster (s : Cluster ι κ ν) (k : κ) (i : ι) (row : Row) (rest : List (ι × Row)) : s.slave k = .idle → s.rows (c.home k) = (i, row) :: rest →
      ClusterStep c s { s with rows := Function.update s.rows (c.home k) rest,
                               slave := Function.update s.slave k (if row = [] then .stopped else .working row) }
  /-- `rotation` on another node returns (method_adjacency_decomposition_implementation.cpp:75) -/
  | rotate (s : Cluster ι κ ν) (k : κ) (row : Row) (m : Matrix) : s.slave k = .working row → c.Rot row m →
      ClusterStep c s { s with slave := Function.update s.slave k (.posting row m) }
  /-- `toMaster` posts the result (job_manager_proxy.cpp:15-19, communication.cpp:86-99) -/
  | toMaster (s : Cluster ι κ ν) (k : κ) (row : Row) (m : Matrix) : s.slave k = .posting row m → m ≠ [] →
      ClusterStep c s { s with results := Function.update s.results (c.home k) (s.results (c.home k) ++ [(k, row, m)]),
                               slave := Function.update s.slave k .sending }
  /-- `toMaster` returns (communication.cpp:100-104, 198-211) -/
  | toMasterDone (s : Cluster ι κ ν) (k : κ) : s.slave k = .sending → (c.eager = true ∨ ∀ x ∈ s.results (c.home k), x.1 ≠ k) →
      ClusterStep c s { s with slave := Function.update s.slave k .idle }
  /-- `fromSlave` returns the oldest result from the node (job_manager.cpp:75-76, communication.cpp:107-129): it need not belong
  to the row that this thread has sent -/
  | fromSlave (s : Cluster ι κ ν) (i : ι) (n : ν) (row row' : Row) (k : κ) (m : Matrix) (rest : List (κ × Row × Matrix)) :
      c.node i = some n → s.pool.pc i = .working row → s.phase i = .done → s.results n = (k, row', m) :: rest →
      ClusterStep c s { s with pool := { s.pool with pc := Function.update s.pool.pc i (.putting row m m) },
                               phase := Function.update s.phase i .fresh, results := Function.update s.results n rest }

/-- a spurious wake-up on the master -/
def ClusterSpurious (s s' : Cluster ι κ ν) : Prop := ∃ p, Spurious s.pool p ∧ s' = { s with pool := p }

/-- the states that some interleaving reaches -/
def ClusterReach (c : ClusterConfig ι κ ν) : Cluster ι κ ν → Prop :=
  Relation.ReflTransGen (fun s s' => ClusterStep c s s' ∨ ClusterSpurious s s') (Cluster.init c)

/-- all threads of the master have ended -/
def Cluster.MasterFinished (c : ClusterConfig ι κ ν) (s : Cluster ι κ ν) : Prop :=
  s.pool.Finished ∧ ∀ i, c.node i ≠ none → s.phase i = .done

/-- all threads of the node have ended -/
def Cluster.NodeFinished (c : ClusterConfig ι κ ν) (s : Cluster ι κ ν) (n : ν) : Prop := ∀ k, c.home k = n → s.slave k = .stopped

end

/-- adjacency decomposition on several nodes (method_adjacency_decomposition_implementation.cpp:50-81): as `adConfig`, with the nodes
`node` that the request threads serve and the nodes `home` of the other threads -/
def adCluster {ι κ ν : Type} (node : ι → Option ν) (home : κ → ν) (eager : Bool) (matrix : Matrix) (tag : Tag) (a : ADStart) : ClusterConfig ι κ ν :=
  { node := node, home := home, Rot := fun row m => ∃ fuel, rotation fuel matrix row a.maps tag = some (.ok m),
    initial := a.initial, known := a.known, eager := eager }

end Panda
