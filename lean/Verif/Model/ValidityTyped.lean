import Verif.Model.Validity
import Verif.Model.Typed

/-! # Validation of the input with `int`

The functions of `/repo/src/input_validity.cpp` as in `Verif.Model.Validity`, but with the operations of an integer type (`int` in
the program, whatever type is selected for the computation): overflow is undefined behaviour.  Rows of a matrix have the same
size (asserted, and checked by `checkConsistency` before the functions for known facets and vertices are called). -/

namespace Panda.Typed

variable (A : Arith)

/-- one row `j` used to eliminate in row `i` (algorithm_matrix_operations.cpp:87-101) -/
def dimReduceStep (row : Row) (pr : Row × Nat) : Outcome Row :=
  if row.getD pr.2 0 ≠ 0 then
    (A.neg (pr.1.getD pr.2 0)).bind fun g => (rowScale A row g).bind fun a =>
      (rowScale A pr.1 (row.getD pr.2 0)).bind fun b => (rowAdd A a b).bind fun c => makePrimitive A c
  else .ok row

/-- the outer loop of `dimension` (algorithm_matrix_operations.cpp:83-112), as `Panda.dimLoop` -/
def dimLoop : List (Row × Nat) → Matrix → Outcome (List (Row × Nat))
  | done, [] => .ok done
  | done, row :: rest =>
    (foldM (dimReduceStep A) row done).bind fun row' =>
      if firstNonzero row' = row'.length then dimLoop done rest
      else dimLoop (done ++ [(row', firstNonzero row')]) rest

/-- `algorithm::dimension` (algorithm_matrix_operations.cpp:78-114) -/
def dimension (m : Matrix) : Outcome Nat := (dimLoop A [] m).bind fun done => .ok done.length

/-- `algorithm::distance` and `scalarProduct` (algorithm_inequality_operations.cpp:32-36, 74-79): as many entries of the inequality
are read as the vertex has; reading past its end is undefined -/
def checkedDistance (inequality vertex : Row) : Outcome Int :=
  if inequality.length < vertex.length then .ub else (dot A vertex inequality).bind fun s => A.neg s

/-- the loops of `checkValidityOfInequality` (input_validity.cpp:157-170) and `checkValidityOfVertex` (188-201) -/
def activeRows (dist : Row → Outcome Int) : Matrix → Matrix → Outcome Matrix
  | active, [] => .ok active
  | active, row :: rest =>
    (dist row).bind fun x =>
      if x < 0 then .thrown else if x = 0 then activeRows dist (active ++ [row]) rest else activeRows dist active rest

/-- the end of `checkValidityOfInequality` (input_validity.cpp:171-182) and `checkValidityOfVertex` (202-213) -/
def checkActive (active : Matrix) (dim : Nat) : Outcome Unit :=
  if active.isEmpty then .thrown else (dimension A active).bind fun k => if k + 1 ≠ dim then .thrown else .ok ()

/-- `checkValidityOfInequality` (input_validity.cpp:152-183) -/
def checkValidityOfInequality (matrix : Matrix) (inequality : Row) (dim : Nat) : Outcome Unit :=
  (activeRows (fun row => checkedDistance A inequality row) [] matrix).bind fun active => checkActive A active dim

/-- `checkValidityOfVertex` (input_validity.cpp:185-214) -/
def checkValidityOfVertex (matrix : Matrix) (vertex : Row) (dim : Nat) : Outcome Unit :=
  (activeRows (fun row => checkedDistance A row vertex) [] matrix).bind fun active => checkActive A active dim

/-- `checkValidityOfInequalities` (input_validity.cpp:32-43) -/
def checkValidityOfInequalities (matrix inequalities : Matrix) : Outcome Unit :=
  if inequalities.isEmpty then .ok ()
  else (dimension A matrix).bind fun dim => checkEach (fun inequality => checkValidityOfInequality A matrix inequality dim) inequalities

/-- `checkValidityOfVertices` (input_validity.cpp:46-57) -/
def checkValidityOfVertices (matrix vertices : Matrix) : Outcome Unit :=
  if vertices.isEmpty then .ok ()
  else (dimension A matrix).bind fun dim => checkEach (fun vertex => checkValidityOfVertex A matrix vertex dim) vertices

/-- first loop of `checkValidityInequalities` / `checkValidityVertices` (input_validity.cpp:219-231, 247-259) -/
def mapIndices (matrix : Matrix) (map : SymMap) (tag : Tag) : Matrix → List Nat → Outcome (List Nat)
  | [], indices => .ok indices
  | row :: rest, indices =>
    (applyMap A map row tag).bind fun mapped =>
      if findRow matrix mapped ≥ matrix.length then .thrown
      else mapIndices matrix map tag rest (indices ++ [findRow matrix mapped])

/-- `checkValidityInequalities` (input_validity.cpp:216-242, tag `facet`) and `checkValidityVertices` (244-270, tag
`vertex`), as `Panda.checkValidityMap` -/
def checkValidityMap (matrix : Matrix) (map : SymMap) (tag : Tag) : Outcome Unit :=
  (mapIndices A matrix map tag matrix []).bind fun indices =>
    indicesConsecutive 0 (indices.insertionSort (· ≤ ·))

/-- `checkValidityOfInequalityClasses` (input_validity.cpp:60-66) and `checkValidityOfVertexClasses` (69-75) -/
def checkValidityOfClasses (matrix : Matrix) (maps : Maps) (tag : Tag) : Outcome Unit :=
  checkEach (fun map => checkValidityMap A matrix map tag) maps

end Panda.Typed
