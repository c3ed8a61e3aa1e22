import Verif.Model.Method
import Verif.Model.Rotation
import Verif.Model.Pool

/-! # Adjacency decomposition

Model of `/repo/src/method_adjacency_decomposition_implementation.cpp` on the data read from the
input: what happens before the threads start, and the pool of `Model/Pool.lean` working with `rotation`.

Simplification: the rows added asynchronously (lines 151-159) are computed here before the threads
start; the computation reads nothing that changes.  (In the vertex case the lambda captures a reference
to the temporary `{}` of line 172, which no longer exists when it runs; here this is the empty list of
equations that was meant, the undefined behaviour is in `Verif.Model.AdjacencyTyped`.) -/

namespace Panda

/-- `reduce` for facets (method_adjacency_decomposition_implementation.cpp:85-99): maps are normalised
only if there are equations -/
def reduceFacet (vertices : Matrix) (maps : Maps) : Outcome (Matrix × Maps) :=
  (extractEquations vertices).bind fun equations =>
    if equations = [] then .ok (equations, maps)
    else (normalizeMaps maps equations).bind fun maps' => .ok (equations, maps')

/-- `classRepresentative` of every row (method_adjacency_decomposition_implementation.cpp:144-147) -/
def representatives (fuel : Nat) (maps : Maps) (tag : Tag) : Matrix → Run Matrix
  | [] => some (.ok [])
  | r :: rs => Run.bind (classRepresentative fuel r maps tag) fun r' =>
      Run.bind (representatives fuel maps tag rs) fun rs' => some (.ok (r' :: rs'))

/-- `normalize` and `classRepresentative` of every known row
(method_adjacency_decomposition_implementation.cpp:153-158) -/
def knownRows (fuel : Nat) (equations : Matrix) (maps : Maps) (tag : Tag) : Matrix → Run Matrix
  | [] => some (.ok [])
  | r :: rs => Run.bind (some (normalize r equations)) fun r0 =>
      Run.bind (classRepresentative fuel r0 maps tag) fun r' =>
      Run.bind (knownRows fuel equations maps tag rs) fun rs' => some (.ok (r' :: rs'))

/-- the rows of the first `put` (method_adjacency_decomposition_implementation.cpp:135-149) -/
def initialRows (fuel : Nat) (matrix : Matrix) (maps : Maps) (known equations : Matrix) (tag : Tag) : Run Matrix :=
  match known with
  | [] => Run.bind (some (fourierMotzkinEliminationHeuristic matrix)) fun facets => representatives fuel maps tag facets
  | k :: _ => Run.bind (some (normalize k equations)) fun k0 =>
      Run.bind (classRepresentative fuel k0 maps tag) fun r => some (.ok [r])

/-- everything that is fixed before the worker threads start -/
structure ADStart where
  equations : Matrix
  maps : Maps
  initial : Matrix
  known : Matrix
  deriving DecidableEq, Repr

/-- `initializePool` (method_adjacency_decomposition_implementation.cpp:125-173) -/
def initializePool (fuel : Nat) (matrix : Matrix) (equations : Matrix) (maps : Maps) (known : Matrix) (tag : Tag) : Run ADStart :=
  Run.bind (initialRows fuel matrix maps known equations tag) fun initial =>
    Run.bind (knownRows fuel equations maps tag known) fun known' => some (.ok ⟨equations, maps, initial, known'⟩)

/-- `adjacencyDecomposition` for facets up to the start of the threads
(method_adjacency_decomposition_implementation.cpp:51-63) -/
def adStartFacets (fuel : Nat) (vertices : Matrix) (maps : Maps) (known : Matrix) : Run ADStart :=
  Run.bind (some (reduceFacet vertices maps)) fun p => initializePool fuel vertices p.1 p.2 known .facet

/-- `adjacencyDecomposition` for vertices up to the start of the threads: no equations, maps as given
(method_adjacency_decomposition_implementation.cpp:51-63, 118-123) -/
def adStartVertices (fuel : Nat) (inequalities : Matrix) (maps : Maps) (known : Matrix) : Run ADStart :=
  initializePool fuel inequalities [] maps known .vertex

/-- the pool and its threads (method_adjacency_decomposition_implementation.cpp:64-79): a row is processed
by `rotation` -/
def adConfig {ι : Type} (remote : ι → Prop) (matrix : Matrix) (tag : Tag) (a : ADStart) : PoolConfig ι :=
  { remote := remote, Rot := fun row m => ∃ fuel, rotation fuel matrix row a.maps tag = some (.ok m),
    initial := a.initial, known := a.known }

end Panda
