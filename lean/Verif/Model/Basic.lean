/-! # Integers, rows, matrices

Model of `/repo/src/algorithm_integer_operations.cpp` and of the arithmetic part of
`/repo/src/algorithm_row_operations.cpp`, over exact integers. -/

namespace Panda

/-- Result of running a piece of the C++ code: a value, an exception, or undefined behaviour. -/
inductive Outcome (α : Type) where
  | ok (a : α)
  | thrown
  | ub
  deriving DecidableEq, Repr

namespace Outcome
/-- sequencing: exceptions and undefined behaviour propagate -/
def bind {α β : Type} : Outcome α → (α → Outcome β) → Outcome β
  | ok a, f => f a
  | thrown, _ => thrown
  | ub, _ => ub

instance : Monad Outcome where
  pure := ok
  bind := bind
end Outcome

/-- `Row<Integer>` (row.h:15): a vector of integers. -/
abbrev Row := List Int

/-- `Matrix<Integer>` (matrix.h:17): a vector of rows. -/
abbrev Matrix := List Row

/-! ## algorithm_integer_operations.cpp -/

/-- The loop of `unsigned_gcd` (algorithm_integer_operations.cpp:50-60) on non-negative operands.
`fuel` bounds the iterations; `gcdLoop_eq` shows that `a + b` is always enough. -/
def gcdLoop : Nat → Nat → Nat → Nat
  | 0, a, b => if a = 0 then b else a
  | fuel + 1, a, b =>
    if a ≠ 0 ∧ b ≠ 0 then
      if a > b then gcdLoop fuel (a % b) b else gcdLoop fuel a (b % a)
    else if a = 0 then b else a

/-- `unsigned_gcd` (algorithm_integer_operations.cpp:46-62). -/
def unsignedGcd (a b : Nat) : Nat := gcdLoop (a + b) a b

/-- `algorithm::gcd(a, b)` (algorithm_integer_operations.cpp:24-29). -/
def gcd (a b : Int) : Int := (unsignedGcd a.natAbs b.natAbs : Nat)

/-- `algorithm::lcm(a, b)` (algorithm_integer_operations.cpp:31-37): `|a| * (|b| / gcd)`;
both zero is an integer division by zero, which is undefined behaviour. -/
def lcm (a b : Int) : Outcome Int :=
  let g := gcd a b
  if g = 0 then .ub else .ok ((a.natAbs : Int) * ((b.natAbs : Int).tdiv g))

/-! ## algorithm_row_operations.cpp -/

/-- `row += row` (algorithm_row_operations.cpp:133-147); sizes agree (asserted there). -/
def rowAdd (a b : Row) : Row := List.zipWith (· + ·) a b

/-- `row -= row` (algorithm_row_operations.cpp:149-163). -/
def rowSub (a b : Row) : Row := List.zipWith (· - ·) a b

/-- `row *= factor` (algorithm_row_operations.cpp:165-189); factor 1 is skipped. -/
def rowScale (r : Row) (f : Int) : Row := if f ≠ 1 then r.map (· * f) else r

/-- `row /= divisor` for a non-zero divisor (algorithm_row_operations.cpp:198-206);
C++ integer division truncates towards zero; divisor 1 is skipped. -/
def rowQuot (r : Row) (d : Int) : Row := if d ≠ 1 then r.map (fun x => x.tdiv d) else r

/-- `row /= divisor` (algorithm_row_operations.cpp:191-213): throws on 0. -/
def rowDiv (r : Row) (d : Int) : Outcome Row := if d = 0 then .thrown else .ok (rowQuot r d)

/-- `row * row` (algorithm_row_operations.cpp:215-220): `std::inner_product`, a left fold. -/
def dot (a b : Row) : Int := (List.zipWith (· * ·) a b).foldl (· + ·) 0

/-- second loop of `gcd(row)` (algorithm_row_operations.cpp:260-263): stops once the value is ≤ 1 -/
def rowGcdLoop : Int → Row → Int
  | v, [] => v
  | v, x :: xs => if v > 1 then rowGcdLoop (gcd x v) xs else v

/-- `algorithm::gcd(row)` (algorithm_row_operations.cpp:245-265): skip leading zeros, then fold. -/
def rowGcd : Row → Int
  | [] => 0
  | x :: xs => if x = 0 then rowGcd xs else rowGcdLoop (x.natAbs : Int) xs

/-- second loop of `lcm(row)` (algorithm_row_operations.cpp:282-285) -/
def rowLcmLoop : Int → Row → Outcome Int
  | v, [] => .ok v
  | v, x :: xs => (lcm x v).bind fun v' => rowLcmLoop v' xs

/-- `algorithm::lcm(row)` (algorithm_row_operations.cpp:267-287): skip leading ones, then fold. -/
def rowLcm : Row → Outcome Int
  | [] => .ok 1
  | x :: xs => if x = 1 then rowLcm xs else rowLcmLoop (x.natAbs : Int) xs

/-- The pattern `g = gcd(row); if (g > 1) row /= g;` used throughout
(e.g. algorithm_row_operations.cpp:237-241, algorithm_fourier_motzkin_elimination.cpp:438-442). -/
def makePrimitive (r : Row) : Row :=
  let g := rowGcd r
  if g > 1 then rowQuot r g else r

/-- position of the first non-zero entry, the size of the row if there is none
(`std::find_if(...) - cbegin()`, algorithm_row_operations.cpp:227-228) -/
def firstNonzero : Row → Nat
  | [] => 0
  | x :: xs => if x ≠ 0 then 0 else firstNonzero xs + 1

/-- One iteration of the loop of `normalize(row, equations)`
(algorithm_row_operations.cpp:225-236).  Reading `row[index]` past the end (an all-zero equation)
is undefined behaviour. -/
def normalizeStep (row eq : Row) : Outcome Row :=
  let index := firstNonzero eq
  match row[index]?, eq[index]? with
  | some a, some b =>
    if a ≠ 0 then .ok (rowSub (rowScale row b) (rowScale eq a)) else .ok row
  | _, _ => .ub

/-- loop of `normalize(row, equations)` (algorithm_row_operations.cpp:225-236) -/
def normalizeLoop : Row → Matrix → Outcome Row
  | row, [] => .ok row
  | row, eq :: eqs => (normalizeStep row eq).bind fun r => normalizeLoop r eqs

/-- `algorithm::normalize(row, equations)` (algorithm_row_operations.cpp:222-243). -/
def normalize (row : Row) (equations : Matrix) : Outcome Row :=
  (normalizeLoop row equations).bind fun r => .ok (makePrimitive r)

end Panda
