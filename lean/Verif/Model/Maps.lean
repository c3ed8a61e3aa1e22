import Verif.Model.Basic

/-! # Maps (symmetries) and symmetry classes

Model of `/repo/src/maps.h`, `/repo/src/algorithm_map_operations.cpp`,
`/repo/src/algorithm_classes.cpp` and of `expandVertices` / `expandInequalities` in
`/repo/src/input.cpp`, over exact integers (the `int` factors of a map are modelled as exact
integers: overflow of `Factor` is not modelled). -/

namespace Panda

/-- `Term` (maps.h:16-20): index and factor. -/
abbrev Term := Nat × Int
/-- `Image` (maps.h:22). -/
abbrev Image := List Term
/-- `Map` (maps.h:24); called `SymMap` here. -/
abbrev SymMap := List Image
/-- `Maps` (maps.h:26). -/
abbrev Maps := List SymMap

/-- `tag::facet`, `tag::vertex` (tags.h). -/
inductive Tag where
  | facet
  | vertex
  deriving DecidableEq, Repr

/-- `applyTerm` (algorithm_map_operations.cpp:42-56), both overloads.  Indices out of range are only
asserted in the code, hence undefined behaviour here. -/
def applyTerm (tag : Tag) (input : Row) (index : Nat) (result : Row) (term : Term) : Outcome Row :=
  match tag with
  | .facet =>
    match input[index]?, result[term.1]? with
    | some x, some y => .ok (result.set term.1 (y + term.2 * x))
    | _, _ => .ub
  | .vertex =>
    match input[term.1]?, result[index]? with
    | some x, some y => .ok (result.set index (y + term.2 * x))
    | _, _ => .ub

/-- inner loop of `apply` over the terms of one image (algorithm_map_operations.cpp:67-70) -/
def applyImage (tag : Tag) (input : Row) (index : Nat) : Row → Image → Outcome Row
  | result, [] => .ok result
  | result, t :: ts => (applyTerm tag input index result t).bind fun r => applyImage tag input index r ts

/-- outer loop of `apply` over the images (algorithm_map_operations.cpp:64-71) -/
def applyLoop (tag : Tag) (input : Row) : Nat → Row → SymMap → Outcome Row
  | _, result, [] => .ok result
  | i, result, im :: ims => (applyImage tag input i result im).bind fun r => applyLoop tag input (i + 1) r ims

/-- `algorithm::apply` (algorithm_map_operations.cpp:59-78). -/
def applyMap (map : SymMap) (row : Row) (tag : Tag) : Outcome Row :=
  (applyLoop tag row 0 (List.replicate row.length 0) map).bind fun r => .ok (makePrimitive r)

/-! ## `std::set<Row>`: a strictly increasing list -/

/-- `operator<` on `std::vector`: lexicographic. -/
def rowLt : Row → Row → Bool
  | _, [] => false
  | [], _ :: _ => true
  | a :: as, b :: bs => decide (a < b) || (decide (a = b) && rowLt as bs)

/-- `std::set::insert`: the new set and whether the row was inserted. -/
def setInsert (x : Row) : List Row → List Row × Bool
  | [] => ([x], true)
  | y :: ys =>
    if rowLt x y then (x :: y :: ys, true)
    else if rowLt y x then (y :: (setInsert x ys).1, (setInsert x ys).2)
    else (y :: ys, false)

/-- construction of a set from a range -/
def setOf (rows : List Row) : List Row := rows.foldl (fun s r => (setInsert r s).1) []

/-- `*crbegin()` of a non-empty set -/
def setLast (s : List Row) : Row := s.getLastD []

/-! ## algorithm_classes.cpp -/

/-- Result of running a possibly non-terminating loop for a given number of iterations: `none` means
that it has not finished yet. -/
abbrev Run (α : Type) := Option (Outcome α)

/-- sequencing of `Run` -/
def Run.bind {α β : Type} : Run α → (α → Run β) → Run β
  | none, _ => none
  | some (.ok a), f => f a
  | some .thrown, _ => some .thrown
  | some .ub, _ => some .ub

/-- inner loop of `getClass` over the maps (algorithm_classes.cpp:45-55).  The state is the set of rows
and the stack of iterators; an iterator is represented by the row it refers to, the head of the
list is the back of the vector. -/
def classInner (tag : Tag) (current : Row) : Maps → List Row → List Row → Outcome (List Row × List Row)
  | [], rows, stack => .ok (rows, stack)
  | m :: ms, rows, stack =>
    (applyMap m current tag).bind fun new =>
      if (setInsert new rows).2 then classInner tag current ms (setInsert new rows).1 (new :: stack)
      else classInner tag current ms (setInsert new rows).1 stack

/-- outer loop of `getClass` (algorithm_classes.cpp:41-56) -/
def getClassLoop (maps : Maps) (tag : Tag) : Nat → List Row → List Row → Run (List Row)
  | _, rows, [] => some (.ok rows)
  | 0, _, _ :: _ => none
  | fuel + 1, rows, cur :: stack =>
    match classInner tag cur maps rows stack with
    | .ok (rows', stack') => getClassLoop maps tag fuel rows' stack'
    | .thrown => some .thrown
    | .ub => some .ub

/-- `algorithm::getClass` (algorithm_classes.cpp:32-58), run for at most `fuel` iterations of the outer
loop. -/
def getClass (fuel : Nat) (row : Row) (maps : Maps) (tag : Tag) : Run (List Row) :=
  getClassLoop maps tag fuel [row] [row]

/-- `algorithm::classRepresentative` (algorithm_classes.cpp:23-30). -/
def classRepresentative (fuel : Nat) (row : Row) (maps : Maps) (tag : Tag) : Run Row :=
  Run.bind (getClass fuel row maps tag) fun s => some (.ok (setLast s))

/-- loop of `classes(set)` (algorithm_classes.cpp:70-84); both this loop and the one of `getClass` are
run for at most `fuel` iterations -/
def classesLoop (maps : Maps) (tag : Tag) (fuel : Nat) : Nat → List Row → Matrix → Run Matrix
  | _, [], acc => some (.ok acc)
  | 0, _ :: _, _ => none
  | k + 1, r :: rs, acc =>
    Run.bind (getClass fuel r maps tag) fun cls =>
      classesLoop maps tag fuel k ((r :: rs).filter fun x => !(cls.elem x)) (acc ++ [setLast cls])

/-- `algorithm::classes(matrix)` (algorithm_classes.cpp:60-86). -/
def classes (fuel : Nat) (input : Matrix) (maps : Maps) (tag : Tag) : Run Matrix :=
  classesLoop maps tag fuel fuel (setOf input) []

/-! ## input.cpp -/

/-- loop of `expandInequalities` / `expandVertices` (input.cpp:443-448, 459-464) -/
def expandLoop (fuel : Nat) (maps : Maps) (tag : Tag) : Matrix → Run Matrix
  | [] => some (.ok [])
  | r :: rs =>
    Run.bind (getClass fuel r maps tag) fun cls =>
      Run.bind (expandLoop fuel maps tag rs) fun rest => some (.ok (cls ++ rest))

/-- `expandInequalities` (tag facet, input.cpp:436-450) and `expandVertices` (tag vertex,
input.cpp:452-466). -/
def expand (fuel : Nat) (matrix : Matrix) (maps : Maps) (tag : Tag) : Run Matrix :=
  if maps = [] then some .thrown else expandLoop fuel maps tag matrix

/-! ## normalisation of maps -/

/-- `indices` (algorithm_map_operations.cpp:96-109) -/
def eliminatedIndices (equations : Matrix) : List Nat := equations.map firstNonzero

/-- `eliminateZeroCoefficients` (algorithm_map_operations.cpp:113-119); an index out of range is
undefined behaviour. -/
def eliminateZeroCoefficients : SymMap → List Nat → Outcome SymMap
  | map, [] => .ok map
  | map, i :: is => if i < map.length then eliminateZeroCoefficients (map.set i []) is else .ub

/-- the replacement of one term by the equation (algorithm_map_operations.cpp:130-144): `j` runs over
`index + 1 .. equation.size() - 1` -/
def replaceTerm (index : Nat) (equation : Row) (term : Term) : Image :=
  if term.1 = index then
    ((List.range equation.length).filter fun j => decide (index < j) && decide (equation.getD j 0 ≠ 0)).map
      fun j => (j, -term.2 * equation.getD j 0)
  else [term]

/-- body of the loop of `subtractEquation` for one image (algorithm_map_operations.cpp:126-146).  The
assignment `image = new_image` stands inside the loop over `image`: with two or more terms the loop goes
on reading through iterators into a vector that has been assigned to, which is undefined behaviour.
With at most one term only the final comparison of the iterators is left. -/
def subtractEquationImage (index : Nat) (equation : Row) : Image → Outcome Image
  | [] => .ok []
  | [t] => .ok (replaceTerm index equation t)
  | _ :: _ :: _ => .ub

/-- `subtractEquation` (algorithm_map_operations.cpp:122-148) -/
def subtractEquation (index : Nat) (equation : Row) : SymMap → Outcome SymMap
  | [] => .ok []
  | im :: ims => (subtractEquationImage index equation im).bind fun im' =>
      (subtractEquation index equation ims).bind fun ims' => .ok (im' :: ims')

/-- `subtractEquations` (algorithm_map_operations.cpp:151-161); `indices` and `equations` have the same
size -/
def subtractEquations : SymMap → List Row → Outcome SymMap
  | map, [] => .ok map
  | map, e :: es => (subtractEquation (firstNonzero e) e map).bind fun m => subtractEquations m es

/-- `operator<=` on `std::pair<Index, Factor>` -/
def termLe (a b : Term) : Bool := decide (a.1 < b.1) || (decide (a.1 = b.1) && decide (a.2 ≤ b.2))

/-- insertion into a sorted image -/
def insertTerm (t : Term) : Image → Image
  | [] => [t]
  | u :: us => if termLe t u then t :: u :: us else u :: insertTerm t us

/-- `std::sort` on an image (algorithm_map_operations.cpp:169); the result of sorting by a total order
does not depend on the algorithm -/
def sortImage : Image → Image
  | [] => []
  | t :: ts => insertTerm t (sortImage ts)

/-- The loop of `simplify` on one image (algorithm_map_operations.cpp:170-183), as a zipper: `done` are the
terms before position `i` (reversed), the list is the rest starting at position `i`.  The two decrements
of the unsigned `i` after a cancellation at `i = 0` leave `i = SIZE_MAX` after the increment of the loop:
the loop condition `i + 1 < size` then holds for every non-empty image and `image[SIZE_MAX]` is read, which
is undefined behaviour. -/
def simplifyLoop : Nat → List Term → Image → Outcome Image
  | 0, done, rest => .ok (done.reverse ++ rest)
  | _ + 1, done, [] => .ok done.reverse
  | _ + 1, done, [a] => .ok (done.reverse ++ [a])
  | fuel + 1, done, a :: b :: rest =>
    if a.1 = b.1 then
      if a.2 + b.2 = 0 then
        if done = [] then (if rest = [] then .ok [] else .ub)
        else simplifyLoop fuel done.tail (done.headD (0, 0) :: rest)
      else simplifyLoop fuel done ((a.1, a.2 + b.2) :: rest)
    else simplifyLoop fuel (a :: done) (b :: rest)

/-- `simplify` on one image (algorithm_map_operations.cpp:165-185); the number of iterations is at most
twice the size (`simplifyLoop_fuel`). -/
def simplifyImage (im : Image) : Outcome Image := simplifyLoop (2 * im.length) [] (sortImage im)

/-- `simplify` (algorithm_map_operations.cpp:165-185) -/
def simplifyMap : SymMap → Outcome SymMap
  | [] => .ok []
  | im :: ims => (simplifyImage im).bind fun im' => (simplifyMap ims).bind fun ims' => .ok (im' :: ims')

/-- `normalizeMap` (algorithm_map_operations.cpp:190-197) -/
def normalizeMap (map : SymMap) (equations : Matrix) : Outcome SymMap :=
  (eliminateZeroCoefficients map (eliminatedIndices equations)).bind fun m =>
    (subtractEquations m equations).bind simplifyMap

/-- `algorithm::normalize(maps, equations)` (algorithm_map_operations.cpp:30-38) -/
def normalizeMaps : Maps → Matrix → Outcome Maps
  | [], _ => .ok []
  | m :: ms, E => (normalizeMap m E).bind fun m' => (normalizeMaps ms E).bind fun ms' => .ok (m' :: ms')

end Panda
