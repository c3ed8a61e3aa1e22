import Verif.Model.Rotation
import Verif.Model.Gauss
import Mathlib.Data.List.Sort

/-! # Validation of the input (options `-c` / `--check`, and the filter functions)

Model of `/repo/src/input_validity.cpp`.  The code works on `int`; the model works on exact integers, so overflow
of `int` (undefined behaviour in the code) is not modelled here; `Verif.Model.ValidityTyped` has the same functions with `int`, used where whole
files are read.  All rows have the same size, which is asserted by
`scalarProduct` (algorithm_inequality_operations.cpp:73). -/

namespace Panda

/-- the rows at distance zero, or `none` if some row has a negative distance: the loops of `inequalityIsValid`
(input_validity.cpp:135-147), `checkValidityOfInequality` (156-170) and `checkValidityOfVertex` (187-201);
`dist row` is the distance computed there -/
def activeRows (dist : Row → Int) : Matrix → Matrix → Option Matrix
  | active, [] => some active
  | active, row :: rest =>
    if dist row < 0 then none
    else if dist row = 0 then activeRows dist (active ++ [row]) rest
    else activeRows dist active rest

/-- `inequalityIsValid` (input_validity.cpp:131-150) -/
def inequalityIsValid (matrix : Matrix) (inequality : Row) (dim : Nat) : Bool :=
  match activeRows (distance inequality) [] matrix with
  | none => false
  | some active => !active.isEmpty && decide (dimension active + 1 = dim)

/-- `checkValidityOfInequality` (input_validity.cpp:152-183) -/
def checkValidityOfInequality (matrix : Matrix) (inequality : Row) (dim : Nat) : Outcome Unit :=
  match activeRows (distance inequality) [] matrix with
  | none => .thrown
  | some active =>
    if active.isEmpty then .thrown
    else if dimension active + 1 ≠ dim then .thrown
    else .ok ()

/-- `checkValidityOfVertex` (input_validity.cpp:185-214) -/
def checkValidityOfVertex (matrix : Matrix) (vertex : Row) (dim : Nat) : Outcome Unit :=
  match activeRows (fun row => distance row vertex) [] matrix with
  | none => .thrown
  | some active =>
    if active.isEmpty then .thrown
    else if dimension active + 1 ≠ dim then .thrown
    else .ok ()

/-- the loops over the rows to check in `checkValidityOfInequalities` and `checkValidityOfVertices`
(input_validity.cpp:39-42, 53-56), and over the maps (62-65, 71-74) -/
def checkEach {α : Type} (check : α → Outcome Unit) : List α → Outcome Unit
  | [] => .ok ()
  | a :: as => (check a).bind fun _ => checkEach check as

/-- `checkValidityOfInequalities` (input_validity.cpp:32-43) -/
def checkValidityOfInequalities (matrix inequalities : Matrix) : Outcome Unit :=
  if inequalities.isEmpty then .ok ()
  else checkEach (fun inequality => checkValidityOfInequality matrix inequality (dimension matrix)) inequalities

/-- `checkValidityOfVertices` (input_validity.cpp:46-57) -/
def checkValidityOfVertices (matrix vertices : Matrix) : Outcome Unit :=
  if vertices.isEmpty then .ok ()
  else checkEach (fun vertex => checkValidityOfVertex matrix vertex (dimension matrix)) vertices

/-- loop of `filterInvalidInequalities` (input_validity.cpp:85-96): an iterator that either advances or erases -/
def filterLoop (valid : Row → Bool) : Matrix → Matrix → Matrix
  | kept, [] => kept
  | kept, row :: rest => if valid row then filterLoop valid (kept ++ [row]) rest else filterLoop valid kept rest

/-- `filterInvalidInequalities` (input_validity.cpp:78-97) -/
def filterInvalidInequalities (matrix inequalities : Matrix) : Matrix :=
  if inequalities.isEmpty then inequalities
  else filterLoop (fun inequality => inequalityIsValid matrix inequality (dimension matrix)) [] inequalities

/-- `filterInvalidVertices` (input_validity.cpp:100-103) -/
def filterInvalidVertices (matrix vertices : Matrix) : Matrix := filterInvalidInequalities matrix vertices

/-- `std::find(...) - cbegin` (input_validity.cpp:223, 251): the first position of a row, or the size -/
def findRow : Matrix → Row → Nat
  | [], _ => 0
  | r :: rs, x => if r = x then 0 else findRow rs x + 1

/-- first loop of `checkValidityInequalities` / `checkValidityVertices` (input_validity.cpp:219-231, 247-259) -/
def mapIndices (matrix : Matrix) (map : SymMap) (tag : Tag) : Matrix → List Nat → Outcome (List Nat)
  | [], indices => .ok indices
  | row :: rest, indices =>
    (applyMap map row tag).bind fun mapped =>
      if findRow matrix mapped ≥ matrix.length then .thrown
      else mapIndices matrix map tag rest (indices ++ [findRow matrix mapped])

/-- second loop (input_validity.cpp:233-241, 261-269): the sorted indices have to be `i, i + 1, ...` -/
def indicesConsecutive : Nat → List Nat → Outcome Unit
  | _, [] => .ok ()
  | i, x :: xs => if x ≠ i then .thrown else indicesConsecutive (i + 1) xs

/-- `checkValidityInequalities` (input_validity.cpp:216-242, tag `facet`) and `checkValidityVertices` (244-270, tag
`vertex`); `std::sort` on numbers is modelled by insertion sort (the sorted list is unique) -/
def checkValidityMap (matrix : Matrix) (map : SymMap) (tag : Tag) : Outcome Unit :=
  (mapIndices matrix map tag matrix []).bind fun indices =>
    indicesConsecutive 0 (indices.insertionSort (· ≤ ·))

/-- `checkValidityOfInequalityClasses` (input_validity.cpp:60-66) and `checkValidityOfVertexClasses` (69-75) -/
def checkValidityOfClasses (matrix : Matrix) (maps : Maps) (tag : Tag) : Outcome Unit :=
  checkEach (fun map => checkValidityMap matrix map tag) maps

end Panda
