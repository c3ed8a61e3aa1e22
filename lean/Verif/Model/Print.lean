import Verif.Model.Text
import Verif.Model.Method

/-! # Printing rows

Model of the output functions of `/repo/src/algorithm_row_operations.cpp`,
`/repo/src/algorithm_matrix_operations.cpp` and `/repo/src/method_double_description.cpp`: the text written to the
standard output.  All printed values have been cast to `int` before (`cast`, modelled in `Verif.Model.Cast`). -/

namespace Panda

/-- names of the variables (names.h) -/
abbrev Names := List (List Char)

/-- decimal digits of a number below ten -/
def digitChar (n : Nat) : Char := Char.ofNat (48 + n % 10)

/-- decimal representation without leading zeros; `fuel` larger than the number suffices -/
def natDigits : Nat → Nat → List Char
  | 0, _ => []
  | fuel + 1, n => if n < 10 then [digitChar n] else natDigits fuel (n / 10) ++ [digitChar n]

/-- `stream << z` for an `int` (default flags, C locale) -/
def printInt (z : Int) : List Char :=
  if z < 0 then '-' :: natDigits (z.natAbs + 1) z.natAbs else natDigits (z.natAbs + 1) z.natAbs

/-- `operator<<` for a row of `int` (algorithm_row_operations.cpp:30-42) -/
def printRow (row : Row) : List Char :=
  row.flatMap fun e => (if e ≥ 0 then [' '] else []) ++ ' ' :: printInt e

/-- the loop of `prettyPrint` (algorithm_row_operations.cpp:60-90); `printed` is `printed_something`.  The row has one
entry more than there are names; stopping when the names are used up is the condition `i + 1 < row.size()`. -/
def prettyTerms : Bool → Row → Names → List Char
  | printed, a :: row, x :: names =>
    if a = 0 then prettyTerms printed row names
    else (if printed then [' '] else []) ++
      (if a = 1 then (if printed then ['+'] else [])
       else if a = -1 then ['-']
       else (if a > 1 ∧ printed = true then ['+'] else []) ++ printInt a) ++
      x ++ prettyTerms true row names
  | _, _, _ => []

/-- `prettyPrint` (algorithm_row_operations.cpp:50-92); `rhs` (algorithm_inequality_operations.cpp:25-30) is
the negated last entry -/
def prettyPrint (row : Row) (names : Names) (relation : List Char) : Outcome (List Char) :=
  if names = [] then .ok (printRow row)
  else if row.length ≠ names.length + 1 then .ub
  else (negInt (row.getLastD 0)).bind fun b => .ok (prettyTerms false row names ++ ' ' :: (relation ++ ' ' :: printInt b))

/-- `prettyPrint` of a matrix (algorithm_matrix_operations.cpp:31-38), with `prettyPrintln`
(algorithm_row_operations.cpp:100-105) -/
def prettyPrintMatrix : Matrix → Names → List Char → Outcome (List Char)
  | [], _, _ => .ok []
  | r :: m, names, relation =>
    (prettyPrint r names relation).bind fun t => (prettyPrintMatrix m names relation).bind fun ts => .ok (t ++ '\n' :: ts)

/-- one coordinate of `printFractional` (algorithm_row_operations.cpp:122-129); the absolute value of the smallest
`int` is undefined -/
def printQuotient (negative : Bool) (den x : Int) : Outcome (List Char) :=
  if x = intMin ∨ den = intMin then .ub
  else
    let g := gcd x den
    if g = 0 then .ub
    else .ok (printInt (((if negative then -1 else 1) * x).tdiv g) ++
      (if den.tdiv g ≠ 1 then '/' :: printInt (den.tdiv g) else []) ++ [' '])

/-- the loop of `printFractional` (algorithm_row_operations.cpp:120-130) -/
def printQuotients (negative : Bool) (den : Int) : Row → Outcome (List Char)
  | [] => .ok []
  | x :: xs => (printQuotient negative den x).bind fun t => (printQuotients negative den xs).bind fun ts => .ok (t ++ ts)

/-- `printFractional` (algorithm_row_operations.cpp:113-131) -/
def printFractional (vertex : Row) : Outcome (List Char) :=
  let back := vertex.getLastD 0
  if back = intMin then .ub
  else printQuotients (decide (back < 0)) ((if back < 0 then -1 else 1) * back) vertex.dropLast

/-- the lines of the vertices (method_double_description.cpp:94-98) -/
def printVertexLines : Matrix → Outcome (List Char)
  | [] => .ok []
  | v :: m => (printFractional v).bind fun t => (printVertexLines m).bind fun ts => .ok (t ++ '\n' :: ts)

/-- the lines of the rays (method_double_description.cpp:107-111), the last entries being removed already -/
def printRayLines (m : Matrix) : List Char := m.flatMap fun r => printRow r ++ ['\n']

/-- `print` for vertices and rays (method_double_description.cpp:82-113) -/
def printVertexOutput (o : VertexOutput) : Outcome (List Char) :=
  (printVertexLines o.vertices).bind fun vs =>
    .ok ((if o.vertices ≠ [] then (if o.reduced then "Reduced ".toList else []) ++ "Vertices:\n".toList ++ vs else []) ++
      (if o.rays ≠ [] then (if o.reduced then "Reduced ".toList else []) ++ "Rays:\n".toList ++ printRayLines o.rays else []))

/-- output of facet enumeration (method_double_description.cpp:116-125, 136-149) -/
def printFacetOutput (o : FacetOutput) (names : Names) : Outcome (List Char) :=
  (prettyPrintMatrix o.equations names "=".toList).bind fun eqs =>
  (prettyPrintMatrix o.inequalities names "<=".toList).bind fun ineqs =>
    .ok ((if o.equations ≠ [] then "Equations:\n".toList ++ eqs ++ ['\n'] else []) ++
      (if o.reduced then "Reduced ".toList else []) ++ "Inequalities:\n".toList ++ ineqs)

end Panda
