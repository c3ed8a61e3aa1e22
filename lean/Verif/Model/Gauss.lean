import Verif.Model.Basic

/-! # Matrices: rank, Gaussian elimination, equations

Model of `/repo/src/algorithm_matrix_operations.cpp`. -/

namespace Panda

/-- `matrix[j][k]`.  The functions below only read entries inside the (rectangular) matrix; the
default value is never used then. -/
def entry (m : Matrix) (j k : Nat) : Int := (m.getD j []).getD k 0

/-- `matrix.back().size()` (0 for the empty matrix, where the C++ has undefined behaviour; the
public functions below check for it first) -/
def colSize (m : Matrix) : Nat := (m.getLastD []).length

/-- `matrix * vector` (algorithm_matrix_operations.cpp:40-50) -/
def matVec (m : Matrix) (v : Row) : Row := m.map fun r => dot r v

/-- `transpose` (algorithm_matrix_operations.cpp:52-65) -/
def transpose (m : Matrix) : Matrix :=
  (List.range (colSize m)).map fun i => (List.range m.length).map fun j => entry m j i

/-! ## dimension -/

/-- one row `j` used to eliminate in row `i` (algorithm_matrix_operations.cpp:87-101) -/
def dimReduceStep (row : Row) (pr : Row × Nat) : Row :=
  if row.getD pr.2 0 ≠ 0 then
    let factor := row.getD pr.2 0
    makePrimitive (rowAdd (rowScale row (-(pr.1.getD pr.2 0))) (rowScale pr.1 factor))
  else row

/-- the outer loop (algorithm_matrix_operations.cpp:83-113).  `done` are the rows already in echelon
form together with their pivot columns (`matrix[0..i)` and `pivot_columns`), in order; a row that
became zero is erased and `i` stays. -/
def dimLoop : List (Row × Nat) → Matrix → List (Row × Nat)
  | done, [] => done
  | done, row :: rest =>
    let row' := done.foldl dimReduceStep row
    if firstNonzero row' = row'.length then dimLoop done rest
    else dimLoop (done ++ [(row', firstNonzero row')]) rest

/-- `algorithm::dimension` (algorithm_matrix_operations.cpp:78-114) -/
def dimension (m : Matrix) : Nat := (dimLoop [] m).length

/-! ## Gaussian elimination by column operations -/

/-- `normalizeColumn` (algorithm_matrix_operations.cpp:206-222) -/
def normalizeColumn (m : Matrix) (column : Nat) : Matrix :=
  let g := (m.map fun r => r.getD column 0).foldl gcd 0
  if g > 1 then m.map fun r => r.set column ((r.getD column 0).tdiv g) else m

/-- `eliminateColumn` (algorithm_matrix_operations.cpp:224-235) -/
def eliminateColumn (m : Matrix) (row col ecol : Nat) : Matrix :=
  let a := -(entry m row col)
  let b := entry m row ecol
  m.map fun r => r.set ecol (r.getD ecol 0 * a + r.getD col 0 * b)

/-- one iteration of the loop of `eliminateColumns` (algorithm_matrix_operations.cpp:247-253) -/
def eliminateColumnsStep (row col : Nat) (m : Matrix) (i : Nat) : Matrix :=
  if i ≠ col ∧ entry m row i ≠ 0 then normalizeColumn (eliminateColumn m row col i) i else m

/-- `eliminateColumns` (algorithm_matrix_operations.cpp:238-254) -/
def eliminateColumns (m : Matrix) (row col : Nat) : Matrix :=
  (List.range (colSize m)).foldl (eliminateColumnsStep row col) m

/-- inner loop of `pivot` (algorithm_matrix_operations.cpp:269-275): the first unused column with a
non-zero entry. `used_columns` is kept sorted there, so `binary_search` is membership. -/
def findCol (r : Row) (used : List Nat) : Option Nat :=
  (List.range r.length).find? fun c => decide (r.getD c 0 ≠ 0 ∧ c ∉ used)

/-- outer loop of `pivot` (algorithm_matrix_operations.cpp:267-281); the fuel is the number of rows
left -/
def pivotLoop (m : Matrix) (used : List Nat) : Nat → Nat → Nat × Nat
  | 0, row => (row, colSize m)
  | fuel + 1, row =>
    match findCol (m.getD row []) used with
    | some c => (row, c)
    | none => pivotLoop m used fuel (row + 1)

/-- `pivot` (algorithm_matrix_operations.cpp:256-285), without the update of `used_columns` -/
def pivot (m : Matrix) (iteration : Nat) (used : List Nat) : Nat × Nat :=
  pivotLoop m used (m.length - iteration) iteration

/-- state of the elimination loop: matrix, `used_columns`, `L`, `T`
(algorithm_matrix_operations.cpp:120-126) -/
structure GaussState where
  m : Matrix
  used : List Nat
  L : List Nat
  T : List Nat

/-- the loop of `gaussianElimination` (algorithm_matrix_operations.cpp:127-144); `t` is rows minus
columns; fuel is the number of rows left.  (After the loop ends by `break`, `used_columns` holds one
more entry, which is not read any more.) -/
def gaussLoop (t : Nat) : Nat → Nat → GaussState → GaussState
  | 0, _, s => s
  | fuel + 1, row, s =>
    if row < s.m.length then
      let pc := pivot s.m row s.used
      if pc.1 = s.m.length then s
      else
        gaussLoop t fuel (pc.1 + 1)
          { m := eliminateColumns s.m pc.1 pc.2
            used := s.used ++ [pc.2]
            L := if pc.1 ≥ t then s.L ++ [pc.2] else s.L
            T := if pc.1 ≥ t then s.T else s.T ++ [pc.1] }
    else s

/-- sign fix of one column (algorithm_matrix_operations.cpp:145-157): the first non-zero entry is
made positive.  (Dereferencing `cend()` for an all-zero column would be undefined; `gauss_col_ne`
shows that no column is zero.) -/
def fixSign (m : Matrix) (col : Nat) : Matrix :=
  match m.find? fun r => decide (r.getD col 0 ≠ 0) with
  | some r => if r.getD col 0 < 0 then m.map fun r => r.set col (r.getD col 0 * (-1)) else m
  | none => m

/-- `gaussianElimination` (algorithm_matrix_operations.cpp:116-159): the transformed matrix and
the index lists `L`, `T`. -/
def gaussianElimination (m : Matrix) : Matrix × List Nat × List Nat :=
  let s := gaussLoop (m.length - colSize m) m.length 0 { m := m, used := [], L := [], T := [] }
  ((List.range (colSize m)).foldl fixSign s.m, s.L, s.T)

/-- `appendNegativeIdentityMatrix` (algorithm_matrix_operations.cpp:161-172) -/
def appendNegativeIdentityMatrix (m : Matrix) : Matrix :=
  let dim := colSize m
  m ++ (List.range dim).map fun i => (List.replicate dim (0 : Int)).set i (-1)

/-- `std::sort(rbegin, rend)`: descending (algorithm_matrix_operations.cpp:186) -/
def insertDesc (x : Nat) : List Nat → List Nat
  | [] => [x]
  | y :: ys => if y ≤ x then x :: y :: ys else y :: insertDesc x ys

def sortDesc : List Nat → List Nat
  | [] => []
  | x :: xs => insertDesc x (sortDesc xs)

/-- `std::swap(matrix[i], matrix[j])` -/
def swapRows (m : Matrix) (i j : Nat) : Matrix :=
  (m.set i (m.getD j [])).set j (m.getD i [])

/-- the swap loop of `extractEquations(matrix, indices)` (algorithm_matrix_operations.cpp:195-198);
`i` counts the indices already handled -/
def swapToBack : Nat → List Nat → Matrix → Matrix
  | _, [], m => m
  | i, idx :: rest, m => swapToBack (i + 1) rest (swapRows m idx (m.length - 1 - i))

/-- `extractEquations(matrix, indices)` (algorithm_matrix_operations.cpp:190-202): the equations
(last rows in reverse order) and the remaining matrix. -/
def splitEquations (m : Matrix) (indices : List Nat) : Matrix × Matrix :=
  let m' := swapToBack 0 indices m
  (m'.reverse.take indices.length, m'.take (m'.length - indices.length))

/-- the part shared by `extractEquations` and both eliminations
(algorithm_matrix_operations.cpp:177-187, algorithm_fourier_motzkin_elimination.cpp:76-87,
106-117): equations, remaining rows, used input indices. -/
def gaussSplit (input : Matrix) : Matrix × Matrix × List Nat :=
  let res := gaussianElimination (appendNegativeIdentityMatrix input)
  let bottom := res.1.drop input.length
  let sp := splitEquations (transpose bottom) (sortDesc res.2.1)
  (sp.1, sp.2, res.2.2)

/-- `algorithm::extractEquations(matrix)` (algorithm_matrix_operations.cpp:174-188).  The empty
matrix, and a matrix without columns, are undefined behaviour (`back()` of an empty vector). -/
def extractEquations (input : Matrix) : Outcome Matrix :=
  if input = [] ∨ colSize input = 0 then .ub else .ok (gaussSplit input).1

end Panda
