import Verif.Model.Main
import Verif.Model.Adjacency

/-! # Adjacency decomposition for a given integer type, and as part of the whole program

The functions of `Verif.Model.Rotation` and `Verif.Model.Adjacency` with the operations of the selected integer type (see
`Verif.Model.Typed`), and the run of the threads with everything that may go wrong: from the command line and the files to
the text on the standard output. -/

namespace Panda

namespace Typed

variable (A : Arith)

/-! ## algorithm_inequality_operations.cpp, algorithm_rotation.cpp -/

/-- `algorithm::distance` (algorithm_inequality_operations.cpp:32-36, 74-79) -/
def distance (inequality vertex : Row) : Outcome Int := (dot A vertex inequality).bind A.neg

/-- loop of `extremalVertex` (algorithm_inequality_operations.cpp:46-55) -/
def extremalLoop (better : Int → Int → Bool) (inequality : Row) : Matrix → Int → Row → Outcome Row
  | [], _, best => .ok best
  | v :: vs, extremum, best =>
    (distance A inequality v).bind fun d =>
      if better d extremum then extremalLoop better inequality vs d v else extremalLoop better inequality vs extremum best

/-- `extremalVertex` (algorithm_inequality_operations.cpp:40-57) -/
def extremalVertex (better : Int → Int → Bool) (vertices : Matrix) (inequality : Row) : Outcome Row :=
  match vertices with
  | [] => .ub
  | v :: vs => (distance A inequality v).bind fun d => extremalLoop A better inequality vs d v

/-- `algorithm::furthestVertex` (algorithm_inequality_operations.cpp:60-64) -/
def furthestVertex (vertices : Matrix) (inequality : Row) : Outcome Row :=
  extremalVertex A (fun a b => decide (a > b)) vertices inequality

/-- `algorithm::nearestVertex` (algorithm_inequality_operations.cpp:66-70) -/
def nearestVertex (vertices : Matrix) (inequality : Row) : Outcome Row :=
  extremalVertex A (fun a b => decide (a < b)) vertices inequality

/-- the update of the row in the loop of `rotate` (algorithm_rotation.cpp:64-76) -/
def rotateRow (facet ridge : Row) (d_f d_r : Int) : Outcome Row :=
  (gcd A d_f d_r).bind fun g =>
  (if g > 1 then A.div d_f g else .ok d_f).bind fun d_f' =>
  (if g > 1 then A.div d_r g else .ok d_r).bind fun d_r' =>
  (rowScale A ridge d_f').bind fun x => (rowScale A facet d_r').bind fun y => (rowSub A x y).bind fun d => makePrimitive A d

/-- the loop of `rotate` (algorithm_rotation.cpp:62-81) -/
def rotateLoop (vertices : Matrix) (facet : Row) : Nat → Row → Int → Int → Run Row
  | 0, _, _, _ => none
  | fuel + 1, ridge, d_f, d_r =>
    Run.bind (some (rotateRow A facet ridge d_f d_r)) fun new =>
    Run.bind (some (nearestVertex A vertices new)) fun v =>
    Run.bind (some (distance A facet v)) fun f =>
    Run.bind (some (distance A new v)) fun r =>
      if r = 0 then some (.ok new) else rotateLoop vertices facet fuel new f r

/-- `rotate` (algorithm_rotation.cpp:56-83) -/
def rotate (fuel : Nat) (vertices : Matrix) (vertex facet ridge : Row) : Run Row :=
  Run.bind (some (distance A facet vertex)) fun f => Run.bind (some (distance A ridge vertex)) fun r =>
    rotateLoop A vertices facet fuel ridge f r

/-- `verticesWithZeroDistance` (algorithm_rotation.cpp:93-102) -/
def verticesWithZeroDistance (facet : Row) : Matrix → Outcome Matrix
  | [] => .ok []
  | v :: vs => (distance A facet v).bind fun d => (verticesWithZeroDistance facet vs).bind fun ws =>
      .ok (if d = 0 then v :: ws else ws)

/-- `getRidges` (algorithm_rotation.cpp:85-91) -/
def getRidges (vertices : Matrix) (facet : Row) : Outcome Matrix :=
  (verticesWithZeroDistance A facet vertices).bind fun vs => fourierMotzkinElimination A vs

/-- the loop of `rotation` over the ridges (algorithm_rotation.cpp:46-50) -/
def rotateAll (fuel : Nat) (vertices : Matrix) (vertex facet : Row) : Matrix → Run Matrix
  | [] => some (.ok [])
  | ridge :: ridges =>
    Run.bind (rotate A fuel vertices vertex facet ridge) fun row =>
      Run.bind (rotateAll fuel vertices vertex facet ridges) fun rows => some (.ok (row :: rows))

/-- `algorithm::rotation` (algorithm_rotation.cpp:35-52) -/
def rotation (fuel : Nat) (matrix : Matrix) (input : Row) (maps : Maps) (tag : Tag) : Run Matrix :=
  Run.bind (some (furthestVertex A matrix input)) fun vertex =>
  Run.bind (some (getRidges A matrix input)) fun ridges =>
  Run.bind (rotateAll A fuel matrix vertex input ridges) fun rows =>
  classes A fuel rows maps tag

/-! ## algorithm_row_operations.cpp, algorithm_classes.cpp -/

/-- one iteration of the loop of `normalize(row, equations)` (algorithm_row_operations.cpp:225-236) -/
def normalizeStep (row eq : Row) : Outcome Row :=
  match row[firstNonzero eq]?, eq[firstNonzero eq]? with
  | some a, some b =>
    if a ≠ 0 then (rowScale A row b).bind fun x => (rowScale A eq a).bind fun y => rowSub A x y else .ok row
  | _, _ => .ub

/-- loop of `normalize(row, equations)` (algorithm_row_operations.cpp:225-236) -/
def normalizeLoop : Row → Matrix → Outcome Row
  | row, [] => .ok row
  | row, eq :: eqs => (normalizeStep A row eq).bind fun r => normalizeLoop r eqs

/-- `algorithm::normalize(row, equations)` (algorithm_row_operations.cpp:222-243) -/
def normalize (row : Row) (equations : Matrix) : Outcome Row := (normalizeLoop A row equations).bind (makePrimitive A)

/-- `algorithm::classRepresentative` (algorithm_classes.cpp:23-30) -/
def classRepresentative (fuel : Nat) (row : Row) (maps : Maps) (tag : Tag) : Run Row :=
  Run.bind (getClass A fuel row maps tag) fun s => some (.ok (setLast s))

/-! ## algorithm_fourier_motzkin_elimination.cpp -/

/-- `std::all_of` in `extractFacets` (algorithm_fourier_motzkin_elimination.cpp:233): it stops at the first vertex that
violates the inequality -/
def validFor (row : Row) : Matrix → Outcome Bool
  | [] => .ok true
  | v :: vs => (dot A row v).bind fun s => if s ≤ 0 then validFor row vs else .ok false

/-- `extractFacets` (algorithm_fourier_motzkin_elimination.cpp:226-239) -/
def extractFacets (vs : Matrix) : Matrix → Outcome Matrix
  | [] => .ok []
  | r :: m => (validFor A r vs).bind fun b => (extractFacets vs m).bind fun rest => .ok (if b then r :: rest else rest)

section
variable {B : Type} (ops : BitsetOps B)

/-- loop of `phaseTwoHeuristic` (algorithm_fourier_motzkin_elimination.cpp:360-370) -/
def heuristicLoop (dflt : B) : Nat → Matrix → Matrix × List B → Outcome Matrix
  | _, [], mR => .ok mR.1
  | i, v :: vs, mR =>
    (extractFacets A (v :: vs) mR.1).bind fun fs =>
      if detectBadRow fs ≠ [] then .ok (detectBadRow fs)
      else (projection A ops mR dflt v i).bind fun mR' => heuristicLoop dflt (i + 1) vs mR'

/-- `phaseTwoHeuristic` (algorithm_fourier_motzkin_elimination.cpp:354-371) -/
def phaseTwoHeuristic (m vs : Matrix) : Outcome Matrix :=
  (initializeR A ops m vs).bind fun R => heuristicLoop A ops (ops.new vs.length) m.length (vs.drop m.length) (m, R)

end

/-- `fourierMotzkinEliminationHeuristic` (algorithm_fourier_motzkin_elimination.cpp:103-131) -/
def fourierMotzkinEliminationHeuristic (input : Matrix) : Outcome Matrix :=
  if validInput input then
    (gaussSplit A input).bind fun gs =>
    let ez := eliminateZeroColumns gs.2.1 input
    let vs := reorder ez.2.1 gs.2.2
    (phaseTwoHeuristic A variableOps ez.1 vs).bind fun m => .ok (reinsertZeroColumns m ez.2.2)
  else .ub

/-! ## method_adjacency_decomposition_implementation.cpp -/

/-- `classRepresentative` of every row (method_adjacency_decomposition_implementation.cpp:144-147) -/
def representatives (fuel : Nat) (maps : Maps) (tag : Tag) : Matrix → Run Matrix
  | [] => some (.ok [])
  | r :: rs => Run.bind (classRepresentative A fuel r maps tag) fun r' =>
      Run.bind (representatives fuel maps tag rs) fun rs' => some (.ok (r' :: rs'))

/-- `normalize` and `classRepresentative` of one known row (method_adjacency_decomposition_implementation.cpp:137-138, 155-156) -/
def knownRow (fuel : Nat) (equations : Matrix) (maps : Maps) (tag : Tag) (r : Row) : Run Row :=
  Run.bind (some (normalize A r equations)) fun r0 => classRepresentative A fuel r0 maps tag

/-- the rows that the asynchronous loop computes before it ends or fails, and how it ends
(method_adjacency_decomposition_implementation.cpp:153-158).  An exception ends the loop; it is stored in the future and
never looked at, because `future.wait()` (line 80) does not throw it again. -/
def knownRows (fuel : Nat) (equations : Matrix) (maps : Maps) (tag : Tag) : Matrix → Option (Matrix × Outcome Unit)
  | [] => some ([], .ok ())
  | r :: rs =>
    match knownRow A fuel equations maps tag r with
    | none => none
    | some .thrown => some ([], .thrown)
    | some .ub => some ([], .ub)
    | some (.ok r') =>
      match knownRows fuel equations maps tag rs with
      | none => none
      | some p => some (r' :: p.1, p.2)

/-- the rows of the first `put` (method_adjacency_decomposition_implementation.cpp:135-149) -/
def initialRows (fuel : Nat) (matrix : Matrix) (maps : Maps) (known equations : Matrix) (tag : Tag) : Run Matrix :=
  match known with
  | [] => Run.bind (some (fourierMotzkinEliminationHeuristic A matrix)) fun facets => representatives A fuel maps tag facets
  | k :: _ => Run.bind (knownRow A fuel equations maps tag k) fun r => some (.ok [r])

/-- `reduce` for facets (method_adjacency_decomposition_implementation.cpp:85-99) -/
def reduceFacet (vertices : Matrix) (maps : Maps) : Outcome (Matrix × Maps) :=
  (extractEquations A vertices).bind fun equations =>
    if equations = [] then .ok (equations, maps)
    else (normalizeMaps A maps equations).bind fun maps' => .ok (equations, maps')

end Typed

/-! ## the program up to the start of the threads -/

/-- what is fixed before the threads start, and what has been printed by then: the equations and the head line -/
structure ADProgram where
  matrix : Matrix
  names : Names
  tag : Tag
  threads : Nat
  head : List Char
  maps : Maps
  initial : Matrix
  known : Matrix
  /-- how the computation of the known rows ends -/
  knownEnd : Outcome Unit
  /-- the asynchronous loop refers to equations that no longer exist -/
  dangling : Bool
  deriving DecidableEq

/-- `FacetEnumerationAdjacencyDecomposition::call` on the only node up to the first `put`
(method_adjacency_decomposition.cpp:40-50, 66-76, method_adjacency_decomposition_implementation.cpp:50-63, 85-149).
Simplifications: the equations are printed in between, the rest of the head line before the initial rows are computed; an
exception or undefined behaviour ends the run in any case.  The known rows are computed here, as in
`Verif.Model.Adjacency`. -/
def adProgramFacets (hardware fuel : Nat) (files : Files) (args : List Arg) : Run ADProgram :=
  Run.bind (.lift (integerType args)) fun ty =>
  let A := selectArith ty
  Run.bind (inputVertices fuel files args) fun data =>
  Run.bind (.lift (Typed.traverse (Typed.traverse A.ofInt) data.1)) fun matrix =>
  Run.bind (.lift (Typed.traverse (Typed.traverse A.ofInt) data.2.2.2)) fun known =>
  Run.bind (.lift (numberOfThreads hardware args)) fun threads =>
  Run.bind (.lift (Typed.reduceFacet A matrix data.2.2.1)) fun p =>
  Run.bind (.lift (Typed.traverse (Typed.traverse A.toInt) p.1)) fun equations =>
  Run.bind (.lift (prettyPrintMatrix equations data.2.1 "=".toList)) fun te =>
  Run.bind (Typed.initialRows A fuel matrix p.2 known p.1 .facet) fun initial =>
  match Typed.knownRows A fuel p.1 p.2 .facet known with
  | none => none
  | some k => some (.ok
    { matrix := matrix, names := data.2.1, tag := .facet, threads := threads.toNat
      head := (if p.1 ≠ [] then "Equations:\n".toList ++ te ++ ['\n'] else []) ++ (if p.2 ≠ [] then "Reduced ".toList else []) ++
        "Inequalities:\n".toList
      maps := p.2, initial := initial, known := k.1, knownEnd := k.2, dangling := false })

/-- `VertexEnumerationAdjacencyDecomposition::call` on the only node up to the first `put`
(method_adjacency_decomposition.cpp:52-62, 94-104, method_adjacency_decomposition_implementation.cpp:50-63, 118-149, 169-173).
`initializePool` passes a temporary list of equations (line 172), which is destroyed when it returns; the asynchronous loop
(lines 151-159) holds a reference to it and reads it for every known row. -/
def adProgramVertices (hardware fuel : Nat) (files : Files) (args : List Arg) : Run ADProgram :=
  Run.bind (.lift (integerType args)) fun ty =>
  let A := selectArith ty
  Run.bind (inputInequalities fuel files args) fun data =>
  Run.bind (.lift (Typed.traverse (Typed.traverse A.ofInt) data.1)) fun matrix =>
  Run.bind (.lift (Typed.traverse (Typed.traverse A.ofInt) data.2.2.2)) fun known =>
  Run.bind (.lift (numberOfThreads hardware args)) fun threads =>
  Run.bind (Typed.initialRows A fuel matrix data.2.2.1 known [] .vertex) fun initial =>
  match Typed.knownRows A fuel [] data.2.2.1 .vertex known with
  | none => none
  | some k => some (.ok
    { matrix := matrix, names := data.2.1, tag := .vertex, threads := threads.toNat
      head := (if data.2.2.1 ≠ [] then "Reduced ".toList else []) ++ "Vertices / Rays:\n".toList
      maps := data.2.2.1, initial := initial, known := k.1, knownEnd := k.2, dangling := decide (known ≠ []) })

/-! ## the threads -/

/-- the line that `put(row)` prints (list.cpp:69-77): `prettyPrintln` for an inequality, `<<` for a vertex or a ray -/
def printLine (A : Arith) (names : Names) (tag : Tag) (row : Row) : Outcome (List Char) :=
  (Typed.traverse A.toInt row).bind fun r =>
    match tag with
    | .facet => (prettyPrint r names "<=".toList).bind fun t => .ok (t ++ ['\n'])
    | .vertex => .ok (printRow r ++ ['\n'])

/-- the pool and its threads (method_adjacency_decomposition_implementation.cpp:62-79): threads of the only node, `rotation`
with the operations of the type -/
def adProgramConfig (A : Arith) (a : ADProgram) : PoolConfig (Fin a.threads) :=
  { remote := fun _ => False, Rot := fun row m => ∃ fuel, Typed.rotation A fuel a.matrix row a.maps a.tag = some (.ok m),
    initial := a.initial, known := a.known }

/-- a moment of the run: the pool and the text printed so far, or the end -/
inductive ADState (ι : Type) where
  | running (s : Pool ι) (out : List Char)
  | failed
  | undefined

/-- one step.  `put(row)` prints a row that is new (list.cpp:66-80); an exception there or in `rotation` leaves a thread and
ends the program (`std::terminate`), or leaves `adjacencyDecomposition` while the first rows are put, which ends it with exit
code 1 (method_adjacency_decomposition.cpp:83-92); in the asynchronous loop it ends just this loop (see `Typed.knownRows`),
after the row has been inserted into the set. -/
inductive ADStep (A : Arith) (a : ADProgram) : ADState (Fin a.threads) → ADState (Fin a.threads) → Prop where
  /-- a step that prints nothing -/
  | quiet (s s' : Pool (Fin a.threads)) (out : List Char) : PoolStep (adProgramConfig A a) s s' → s'.printed = s.printed →
      ADStep A a (.running s out) (.running s' out)
  /-- a step that prints a row -/
  | print (s s' : Pool (Fin a.threads)) (out : List Char) (r : Row) (t : List Char) : PoolStep (adProgramConfig A a) s s' →
      s'.printed = s.printed ++ [r] → printLine A a.names a.tag r = .ok t → ADStep A a (.running s out) (.running s' (out ++ t))
  /-- printing throws in a thread or during the initialisation -/
  | printThrows (s s' : Pool (Fin a.threads)) (out : List Char) (r : Row) : PoolStep (adProgramConfig A a) s s' →
      s'.async = s.async → s'.printed = s.printed ++ [r] → printLine A a.names a.tag r = .thrown → ADStep A a (.running s out) .failed
  /-- printing throws in the asynchronous loop -/
  | printThrowsAsync (s s' : Pool (Fin a.threads)) (out : List Char) (r : Row) (rest : Matrix) :
      PoolStep (adProgramConfig A a) s s' → s.async = r :: rest → s'.async = rest → s'.printed = s.printed ++ [r] →
      printLine A a.names a.tag r = .thrown →
      ADStep A a (.running s out) (.running { s with rows := (setInsert r s.rows).1, async := [] } out)
  /-- printing is undefined -/
  | printUndefined (s s' : Pool (Fin a.threads)) (out : List Char) (r : Row) : PoolStep (adProgramConfig A a) s s' →
      s'.printed = s.printed ++ [r] → printLine A a.names a.tag r = .ub → ADStep A a (.running s out) .undefined
  /-- `rotation` throws -/
  | rotationThrows (s : Pool (Fin a.threads)) (out : List Char) (i : Fin a.threads) (row : Row) (fuel : Nat) : s.pc i = .working row →
      Typed.rotation A fuel a.matrix row a.maps a.tag = some .thrown → ADStep A a (.running s out) .failed
  /-- `rotation` is undefined -/
  | rotationUndefined (s : Pool (Fin a.threads)) (out : List Char) (i : Fin a.threads) (row : Row) (fuel : Nat) : s.pc i = .working row →
      Typed.rotation A fuel a.matrix row a.maps a.tag = some .ub → ADStep A a (.running s out) .undefined
  /-- the computation of a known row is undefined -/
  | knownUndefined (s : Pool (Fin a.threads)) (out : List Char) : a.knownEnd = .ub → s.master = none → s.async = [] →
      ADStep A a (.running s out) .undefined
  /-- the asynchronous loop, which is not at its end, reads the equations after they have been destroyed -/
  | knownDangling (s : Pool (Fin a.threads)) (out : List Char) : a.dangling = true → s.master = none →
      (s.async ≠ [] ∨ a.knownEnd ≠ .ok ()) → ADStep A a (.running s out) .undefined

/-- the situation before the first `put` -/
def ADState.init (A : Arith) (a : ADProgram) : ADState (Fin a.threads) := .running (Pool.init (adProgramConfig A a)) a.head

/-- the states that some interleaving reaches -/
def ADReach (A : Arith) (a : ADProgram) : ADState (Fin a.threads) → Prop := Relation.ReflTransGen (ADStep A a) (ADState.init A a)

/-- how the threads may end -/
def ADEnd (A : Arith) (a : ADProgram) : ProgramResult → Prop
  | .finished code out => code = 0 ∧ ∃ s, s.Finished ∧ ADReach A a (.running s out)
  | .failed => ADReach A a .failed
  | .undefined => ADReach A a .undefined

/-- the possible ends of `adjacencyDecomposition<…>` (method_adjacency_decomposition.cpp:40-62); the computations before the
threads start get as many iterations as they need -/
def ADResult (hardware : Nat) (files : Files) (args : List Arg) (facets : Bool) (r : ProgramResult) : Prop :=
  ∃ N, ∀ fuel ≥ N, match (if facets then adProgramFacets hardware fuel files args else adProgramVertices hardware fuel files args) with
    | none => False
    | some .thrown => r = .failed
    | some .ub => r = .undefined
    | some (.ok a) => ∃ ty, integerType args = .ok ty ∧ ADEnd (selectArith ty) a r

/-- the possible ends of the program on one node, with adjacency decomposition; `help` as in `program` -/
def ProgramEnds (hardware : Nat) (help : Option ProgramResult) (files : Files) (args : List Arg) (r : ProgramResult) : Prop :=
  ∃ fuel ad, (∀ facets x, ad facets = some x → ADResult hardware files args facets x) ∧ program ad help fuel files args = some r

end Panda
