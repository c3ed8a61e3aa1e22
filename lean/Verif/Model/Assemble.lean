import Verif.Model.Options
import Verif.Model.Maps
import Verif.Model.Print
import Mathlib.Data.List.Sort

/-! # Sorting, assembling and checking the input

Model of `sort` and of the end of `inequalities` in `/repo/src/input.cpp`, and of `/repo/src/input_consistency.cpp`. -/

namespace Panda

/-- `std::count(row.cbegin(), row.cend(), 0)` (input.cpp:400-401, 414-415) -/
def zeroEntries (row : Row) : Nat := row.countP (· = 0)

/-- the comparison of `NonZeroEntriesAscending` (input.cpp:398-407) -/
def nonZeroAscLt (a b : Row) : Bool :=
  if zeroEntries a ≠ zeroEntries b then decide (zeroEntries a > zeroEntries b) else rowLt a b

/-- the comparison of `NonZeroEntriesDescending` (input.cpp:412-421) -/
def nonZeroDescLt (a b : Row) : Bool :=
  if zeroEntries a ≠ zeroEntries b then decide (zeroEntries a < zeroEntries b) else rowLt a b

/-- `std::sort` with the comparison `lt`, modelled by insertion sort.  The standard leaves the algorithm open; for the
comparisons used here the result is unique (`C45_unique`). -/
def stdSort (lt : Row → Row → Bool) (m : Matrix) : Matrix := m.insertionSort fun a b => lt b a = false

/-- `sort` (input.cpp:381-434) after the option has been read; sorting from `rbegin` to `rend` makes the reversed
sequence ascending -/
def sortRows (order : InputOrder) (m : Matrix) : Matrix :=
  match order with
  | .lexAsc => stdSort rowLt m
  | .lexDesc => (stdSort rowLt m.reverse).reverse
  | .nonZeroAsc => stdSort nonZeroAscLt m
  | .nonZeroDesc => stdSort nonZeroDescLt m
  | .reverse => m.reverse
  | .noSorting => m

/-- `sort` (input.cpp:381-434) -/
def sort (args : List Arg) (m : Matrix) : Outcome Matrix := (getInputOrder args).bind fun order => .ok (sortRows order m)

/-! ## consistency (input_consistency.cpp) -/

/-- `rangeDimensionCheck` (input_consistency.cpp:80-90), for the sizes of the entries of the range -/
def rangeDimensionCheck (sizes : List Nat) (dim : Nat) : Outcome Unit :=
  if sizes.all (· = dim) then .ok () else .thrown

/-- the checks of the names and of the declared dimension (input_consistency.cpp:47-54, 68-75).  The largest `std::size_t`
stands for an absent declaration, so a declared dimension of that value (`DIM=-1` is read as such) is not checked. -/
def checkNamesAndDimension (dim : Nat) (names : Names) (dimension : Option Nat) : Outcome Unit :=
  if names ≠ [] ∧ names.length + 1 ≠ dim then .thrown
  else
    match dimension with
    | none => .ok ()
    | some d => if d ≠ 2 ^ 64 - 1 ∧ dim ≠ d + 1 then .thrown else .ok ()

/-- `checkConsistency` for vertices and rays (input_consistency.cpp:34-37, 57-76); the range of inequalities is empty -/
def checkConsistencyVertices (conv cone : Matrix) (names : Names) (maps : Maps) (dimension : Option Nat) : Outcome Unit :=
  if conv = [] ∧ cone = [] then .thrown
  else
    let dim := if conv ≠ [] then (conv.headD []).length else (cone.headD []).length
    (rangeDimensionCheck (conv.map List.length) dim).bind fun _ =>
      (rangeDimensionCheck (cone.map List.length) dim).bind fun _ =>
        (rangeDimensionCheck (maps.map List.length) dim).bind fun _ => checkNamesAndDimension dim names dimension

/-- `checkConsistency` for inequalities (input_consistency.cpp:39-55) -/
def checkConsistencyInequalities (inequalities : Matrix) (names : Names) (dimension : Option Nat) : Outcome Unit :=
  if inequalities = [] then .thrown
  else
    let dim := (inequalities.headD []).length
    (rangeDimensionCheck (inequalities.map List.length) dim).bind fun _ => checkNamesAndDimension dim names dimension

/-! ## the system of inequalities -/

/-- both sides of the equations (input.cpp:233-237): `-1 * equation` is computed on `int` -/
def addEquations : Matrix → Matrix → Outcome Matrix
  | inequalities, [] => .ok inequalities
  | inequalities, e :: rest => (negRow e).bind fun e' => addEquations (inequalities ++ [e, e']) rest

/-- the end of `inequalities` (input.cpp:231-240): checks, equations, sorting, and the row `0 ≤ 1`.  Its size is that of
the last row; `back()` of an empty matrix, and `back()` of an empty row, would be undefined. -/
def assembleInequalities (args : List Arg) (inequalities equations : Matrix) (names : Names) (dimension : Option Nat) :
    Outcome Matrix :=
  (checkConsistencyInequalities inequalities names dimension).bind fun _ =>
    (addEquations inequalities equations).bind fun all =>
      (sort args all).bind fun sorted =>
        if sorted = [] ∨ sorted.getLastD [] = [] then .ub
        else .ok (sorted ++ [List.replicate ((sorted.getLastD []).length - 1) 0 ++ [-1]])

/-- the middle of `vertices` (input.cpp:167-173): checks, sorting, and rays before vertices -/
def assembleVertices (args : List Arg) (conv cone : Matrix) (names : Names) (maps : Maps) (dimension : Option Nat) :
    Outcome Matrix :=
  (checkConsistencyVertices conv cone names maps dimension).bind fun _ =>
    (sort args cone).bind fun cone' => (sort args conv).bind fun conv' => .ok (cone' ++ conv')

end Panda
