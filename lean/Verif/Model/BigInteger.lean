import Verif.Model.Basic

/-! # BigInteger

Model of `/repo/src/big_integer*.cpp`.  A number is a sign and a little endian list of blocks.  `DataType` is
`uint_fast32_t`, whose number of bits `w` is a parameter (64 with glibc on x86-64, at least 32 everywhere).
Blocks are natural numbers; every operation on them is reduced modulo `2 ^ w`.

`int` has 32 bits.  `wrap` says what the implementation does with the conversion of the magnitude `2^31` to
`int` followed by a negation (big_integer_constructors.cpp:148): `false` is the language's reading (the negation
of `INT_MIN` is undefined behaviour), `true` is a compiler on which both wrap around.

A failing `assert` is modelled as undefined behaviour (`.ub`). -/

namespace Panda

/-- `BigInteger` (big_integer.h:101-111); `neg` is `sign == Sign::Negative` -/
structure Big where
  neg : Bool
  data : List Nat
deriving DecidableEq, Repr

namespace Big

/-- a value of type `int`, or undefined behaviour on overflow -/
def intMachine (x : Int) : Outcome Int := if -2 ^ 31 ≤ x ∧ x ≤ 2 ^ 31 - 1 then .ok x else .ub

/-- `int` division, truncating -/
def intDiv (a b : Int) : Outcome Int := if b = 0 then .ub else intMachine (a.tdiv b)

/-- `isZero` (big_integer.cpp:201-204) -/
def isZero (x : Big) : Bool := decide (x.data = [0])

/-- `isPositive` (big_integer.cpp:196-199) -/
def isPositive (x : Big) : Bool := !x.neg && !x.isZero

/-- `flipSign` (big_integer.cpp:226-232) -/
def flipSign (x : Big) : Big := if x.isZero then x else { x with neg := !x.neg }

/-- `operator-` (big_integer.cpp:76-81) -/
def negate (x : Big) : Big := x.flipSign

/-- `abs` (big_integer.cpp:83-87) -/
def abs (x : Big) : Big := { x with neg := false }

/-- `setZero` (big_integer.cpp:246-250) and the default constructor (big_integer_constructors.cpp:17-22) -/
def zero : Big := { neg := false, data := [0] }

/-- the loop of `shrinkToFit` (big_integer.cpp:236-239) on the reversed list of blocks -/
def popZeros : List Nat → List Nat
  | [] => []
  | [x] => [x]
  | x :: y :: l => if x = 0 then popZeros (y :: l) else x :: y :: l

/-- `shrinkToFit` (big_integer.cpp:234-244) -/
def shrinkToFit (x : Big) : Big :=
  let d := (popZeros x.data.reverse).reverse
  { neg := if d = [0] then false else x.neg, data := d }

/-- first differing position of the reversed blocks, big_integer.cpp:212-213 (`std::mismatch`) -/
def revLess : List Nat → List Nat → Bool
  | x :: xs, y :: ys => if x = y then revLess xs ys else decide (x < y)
  | _, _ => false

/-- `isMagnitudeSmallerThan` (big_integer.cpp:206-214) -/
def magLess (x y : Big) : Bool :=
  if x.data.length ≠ y.data.length then decide (x.data.length < y.data.length)
  else revLess x.data.reverse y.data.reverse

/-- as `revLess`, big_integer.cpp:222-223 -/
def revGreater : List Nat → List Nat → Bool
  | x :: xs, y :: ys => if x = y then revGreater xs ys else decide (x > y)
  | _, _ => false

/-- `isMagnitudeGreaterThan` (big_integer.cpp:216-224) -/
def magGreater (x y : Big) : Bool :=
  if x.data.length ≠ y.data.length then decide (x.data.length > y.data.length)
  else revGreater x.data.reverse y.data.reverse

/-- `operator==(const BigInteger&)` (big_integer_comparisons.cpp:76-83) -/
def eq (x y : Big) : Bool :=
  if x.neg ≠ y.neg ∨ x.data.length ≠ y.data.length then false else decide (x.data = y.data)

/-- `operator!=` (big_integer_comparisons.cpp:85-88) -/
def ne (x y : Big) : Bool := !x.eq y

/-- `operator<` (big_integer_comparisons.cpp:90-104) -/
def lt (x y : Big) : Bool :=
  if x.neg ≠ y.neg then x.neg else if x.neg = false then x.magLess y else x.magGreater y

/-- `operator>` (big_integer_comparisons.cpp:106-109) -/
def gt (x y : Big) : Bool := y.lt x
/-- `operator<=` (big_integer_comparisons.cpp:111-114) -/
def le (x y : Big) : Bool := !x.gt y
/-- `operator>=` (big_integer_comparisons.cpp:116-119) -/
def ge (x y : Big) : Bool := !x.lt y

/-- `std::abs(int)`; undefined for the smallest value -/
def intAbs (v : Int) : Outcome Nat := if v = -2 ^ 31 then .ub else .ok v.natAbs

/-- `operator==(const int)` (big_integer_comparisons.cpp:14-25) -/
def eqInt (w : Nat) (x : Big) (v : Int) : Outcome Bool :=
  match x.data with
  | [] => .ub
  | d :: rest =>
    if rest ≠ [] then .ok false
    else if decide (v ≥ 0) ≠ !x.neg then .ok false
    else (intAbs v).bind fun a => .ok (decide (d = a % 2 ^ w))

/-- `operator<(const int)` (big_integer_comparisons.cpp:32-47) -/
def ltInt (w : Nat) (x : Big) (v : Int) : Outcome Bool :=
  match x.data with
  | [] => .ub
  | d :: rest =>
    if rest ≠ [] then .ok x.neg
    else if (!x.neg) ≠ decide (v ≥ 0) then .ok x.neg
    else if x.neg then (intAbs v).bind fun a => .ok (decide (d > a % 2 ^ w))
    else .ok (decide (d < v.toNat % 2 ^ w))

/-- `operator>(const int)` (big_integer_comparisons.cpp:49-64) -/
def gtInt (w : Nat) (x : Big) (v : Int) : Outcome Bool :=
  match x.data with
  | [] => .ub
  | d :: rest =>
    if rest ≠ [] then .ok (!x.neg)
    else if (!x.neg) ≠ decide (v ≥ 0) then .ok (!x.neg)
    else if x.neg then (intAbs v).bind fun a => .ok (decide (d < a % 2 ^ w))
    else .ok (decide (d > v.toNat % 2 ^ w))

/-- construction from a signed machine integer (big_integer_constructors.cpp:24-82) -/
def ofSigned (w : Nat) (v : Int) : Big :=
  if v ≥ 0 then { neg := false, data := [v.toNat % 2 ^ w] }
  else { neg := true, data := [((-(1 + v)).toNat % 2 ^ w + 1) % 2 ^ w] }

/-- construction from an unsigned machine integer (big_integer_constructors.cpp:84-109) -/
def ofUnsigned (w : Nat) (v : Nat) : Big := { neg := false, data := [v % 2 ^ w] }

/-- `operator int` (big_integer_constructors.cpp:111-150), the range of `int` not being symmetric -/
def toInt (w : Nat) (wrap : Bool) (x : Big) : Outcome Int :=
  match x.data with
  | [] => .ub
  | d :: rest =>
    if rest ≠ [] then .thrown
    else if x.neg = false then if d > 2 ^ 31 - 1 then .thrown else .ok d
    else if (d + 2 ^ w - 1) % 2 ^ w > 2 ^ 31 - 1 then .thrown
    else if d = 2 ^ 31 then if wrap then .ok (-2 ^ 31) else .ub
    else .ok (-d)

/-- the loops of `addMagnitude` (big_integer.cpp:139-160); the data has been resized before.  The third
case never happens after the resizing. -/
def addLoop (w : Nat) : List Nat → List Nat → Bool → List Nat
  | d :: ds, s :: ss, c =>
    if c ∧ (s + 1) % 2 ^ w = 0 then d :: addLoop w ds ss true
    else
      let d' := (d + (s + if c then 1 else 0) % 2 ^ w) % 2 ^ w
      d' :: addLoop w ds ss (decide (d' < d))
  | d :: ds, [], c =>
    if c then ((d + 1) % 2 ^ w) :: addLoop w ds [] (decide ((d + 1) % 2 ^ w = 0)) else d :: ds
  | [], _, c => if c then [1] else []

/-- `addMagnitude` (big_integer.cpp:132-162) -/
def addMagnitude (w : Nat) (x : Big) (s : List Nat) : Big :=
  { x with data := addLoop w (x.data ++ List.replicate (s.length - x.data.length) 0) s false }

/-- the loops of `subtractMagnitude` (big_integer.cpp:168-186); `assert( !carry )` at the end -/
def subLoop (w : Nat) : List Nat → List Nat → Bool → Outcome (List Nat)
  | d :: ds, s :: ss, c =>
    if c ∧ (s + 1) % 2 ^ w = 0 then (subLoop w ds ss true).bind fun r => .ok (d :: r)
    else
      let d' := (d + 2 ^ w - (s + if c then 1 else 0) % 2 ^ w) % 2 ^ w
      (subLoop w ds ss (decide (d' > d))).bind fun r => .ok (d' :: r)
  | d :: ds, [], c =>
    if c then (subLoop w ds [] (decide (d = 0))).bind fun r => .ok (((d + 2 ^ w - 1) % 2 ^ w) :: r)
    else .ok (d :: ds)
  | [], _ :: _, _ => .ub
  | [], [], c => if c then .ub else .ok []

/-- `subtractMagnitude` (big_integer.cpp:164-189) -/
def subtractMagnitude (w : Nat) (x : Big) (s : List Nat) : Outcome Big :=
  if x.data.length < s.length then .ub
  else (subLoop w x.data s false).bind fun d => .ok (shrinkToFit { x with data := d })

/-- the loop of `operator<<=` for distance one, from the highest block down (big_integer.cpp:33-41); the
second argument are the blocks above -/
def shiftLoop (w : Nat) : List Nat → List Nat → List Nat
  | [], above => above
  | d :: ds, above =>
    let r := shiftLoop w ds above
    (2 * d % 2 ^ w) ::
      (if d &&& 2 ^ (w - 1) ≠ 0 then
        match r with
        | [] => []
        | y :: ys => ((y + d / 2 ^ (w - 1)) % 2 ^ w) :: ys
      else r)

/-- `operator<<=` (big_integer.cpp:17-48), which the program only uses with distance one.  (For other distances
the mask tests one bit only.) -/
def shiftLeft (w : Nat) (x : Big) : Big :=
  if x.isZero then x
  else { x with data := shiftLoop w x.data (if x.data.getLastD 0 &&& 2 ^ (w - 1) ≠ 0 then [0] else []) }

/-- `fallbackAddAssign` (big_integer_arithmetics.cpp:247-257) -/
def fallbackAdd (w : Nat) (wrap : Bool) (x y : Big) : Outcome Big :=
  (toInt w wrap x).bind fun a => (toInt w wrap y).bind fun b =>
  (if a > 0 ∧ b > 0 then (intMachine (2 ^ 31 - 1 - a)).bind fun l => .ok (decide (b > l)) else .ok false).bind fun c1 =>
  (if c1 then .ok true else
    if a < 0 ∧ b < 0 then (intMachine (-2 ^ 31 - a)).bind fun l => .ok (decide (b < l)) else .ok false).bind fun c2 =>
  if c2 then .thrown else (intMachine (a + b)).bind fun r => .ok (ofSigned w r)

/-- `fallbackSubtractAssign` (big_integer_arithmetics.cpp:259-269) -/
def fallbackSub (w : Nat) (wrap : Bool) (x y : Big) : Outcome Big :=
  (toInt w wrap x).bind fun a => (toInt w wrap y).bind fun b =>
  (if b < 0 then (intMachine (2 ^ 31 - 1 + b)).bind fun l => .ok (decide (a > l)) else .ok false).bind fun c1 =>
  (if c1 then .ok true else
    if b > 0 then (intMachine (-2 ^ 31 + b)).bind fun l => .ok (decide (a < l)) else .ok false).bind fun c2 =>
  if c2 then .thrown else (intMachine (a - b)).bind fun r => .ok (ofSigned w r)

/-- `fallbackMultiplyAssign` (big_integer_arithmetics.cpp:221-232) -/
def fallbackMul (w : Nat) (wrap : Bool) (x y : Big) : Outcome Big :=
  (toInt w wrap x).bind fun a => (toInt w wrap y).bind fun b =>
  let limit : Int := if decide (a > 0) = decide (b > 0) then 2 ^ 31 - 1 else -2 ^ 31
  (if a > 0 then (intDiv limit b).bind fun l => .ok (decide (l < a)) else .ok false).bind fun c1 =>
  (if c1 then .ok true else
    if a < 0 then (intDiv limit b).bind fun l => .ok (decide (l > a)) else .ok false).bind fun c2 =>
  if c2 then .thrown else (intMachine (a * b)).bind fun r => .ok (ofSigned w r)

/-- `fallbackDivideAssign` (big_integer_arithmetics.cpp:234-245); `assert( b != 0 )` -/
def fallbackDiv (w : Nat) (wrap : Bool) (x y : Big) : Outcome Big :=
  (toInt w wrap x).bind fun a => (toInt w wrap y).bind fun b =>
  if b = 0 then .ub
  else if b = -1 ∧ ((a < 0 ∧ 2 ^ 31 - 1 + a < 0) ∨ (a > 0 ∧ a + -2 ^ 31 > 0)) then .thrown
  else (intDiv a b).bind fun r => .ok (ofSigned w r)

/-- `fallbackModuloAssign` (big_integer_arithmetics.cpp:271-278); `assert( b > 0 )` -/
def fallbackMod (w : Nat) (wrap : Bool) (x y : Big) : Outcome Big :=
  (toInt w wrap x).bind fun a => (toInt w wrap y).bind fun b =>
  if b ≤ 0 then .ub
  else (intMachine ((if a < 0 then b else 0) + a.tmod b)).bind fun r => .ok (ofSigned w r)

/-- `try { return fallback } catch ( ... ) { big path }` -/
def orElse (o : Outcome Big) (f : Outcome Big) : Outcome Big :=
  match o with
  | .thrown => f
  | o => o

/-- `operator+=` (big_integer_arithmetics.cpp:102-134) -/
def add (w : Nat) (wrap : Bool) (x y : Big) : Outcome Big :=
  if y.isZero then .ok x
  else orElse (fallbackAdd w wrap x y) <|
    if x.neg = y.neg then .ok (addMagnitude w x y.data)
    else
      let x' : Big := { x with neg := y.neg }
      if x'.eq y then .ok zero
      else if (!y.neg) = x'.gt y then subtractMagnitude w x y.data
      else subtractMagnitude w { x' with data := y.data } x.data

/-- `operator-=` (big_integer_arithmetics.cpp:136-161) -/
def sub (w : Nat) (wrap : Bool) (x y : Big) : Outcome Big :=
  if y.isZero then .ok x
  else orElse (fallbackSub w wrap x y) <|
    if x.neg ≠ y.neg then .ok (addMagnitude w x y.data)
    else if x.neg = x.gt y then subtractMagnitude w (flipSign { x with data := y.data }) x.data
    else subtractMagnitude w x y.data

/-- the inner loop of `operator*=` over the bits of one block (big_integer_arithmetics.cpp:55-62), from bit `j`
on, with `n` bits left -/
def mulBits (w : Nat) (wrap : Bool) (entry : Nat) : Nat → Nat → Big × Big → Outcome (Big × Big)
  | 0, _, s => .ok s
  | n + 1, j, (acc, copy) =>
    (if entry &&& 2 ^ j ≠ 0 then add w wrap acc copy else .ok acc).bind fun acc' =>
    mulBits w wrap entry n (j + 1) (acc', shiftLeft w copy)

/-- the outer loop of `operator*=` (big_integer_arithmetics.cpp:53-63) -/
def mulBlocks (w : Nat) (wrap : Bool) : List Nat → Big × Big → Outcome (Big × Big)
  | [], s => .ok s
  | e :: es, s => (mulBits w wrap e w 0 s).bind fun s' => mulBlocks w wrap es s'

/-- `second == 1 || second == -1` -/
def isUnit (w : Nat) (y : Big) : Outcome Bool :=
  (eqInt w y 1).bind fun c => if c then .ok true else eqInt w y (-1)

/-- `operator*=` (big_integer_arithmetics.cpp:30-70) for two different objects (`operator*` copies the first
one, :180-185) -/
def mul (w : Nat) (wrap : Bool) (x y : Big) : Outcome Big :=
  if x.isZero ∨ y.isZero then .ok zero
  else (isUnit w y).bind fun u =>
    if u then .ok (if y.neg then x.flipSign else x)
    else orElse (fallbackMul w wrap x y) <|
      (mulBlocks w wrap y.data ({ x with data := [0] }, x)).bind fun s =>
      .ok (if y.neg then s.1.flipSign else s.1)

/-- `x *= x` (big_integer_arithmetics.cpp:30-70 with `second` the same object): `data = {0}` also replaces the
blocks that are iterated over, and the sign is that of the result -/
def mulSelf (w : Nat) (wrap : Bool) (x : Big) : Outcome Big :=
  if x.isZero then .ok zero
  else (isUnit w x).bind fun u =>
    if u then .ok (if x.neg then x.flipSign else x)
    else orElse (fallbackMul w wrap x x) <|
      (mulBlocks w wrap [0] ({ x with data := [0] }, x)).bind fun s =>
      .ok (if s.1.neg then s.1.flipSign else s.1)

/-- `data.front() |= b` -/
def orFront (x : Big) (b : Nat) : Big :=
  match x.data with
  | [] => x
  | d :: ds => { x with data := (d ||| b) :: ds }

/-- the loop of `divideMagnitudesWithRemainder` (big_integer.cpp:109-121); the first argument is `it` -/
def divLoop (w : Nat) (data : List Nat) (y : Big) : Nat → Big × Big → Outcome (Big × Big)
  | 0, s => .ok s
  | k + 1, (remainder, result) =>
    let bit := k % w
    let block := data.getD (k / w) 0
    let remainder := orFront (shiftLeft w remainder) ((block / 2 ^ bit) % 2)
    let result := shiftLeft w result
    if !(remainder.magLess y) then
      (subtractMagnitude w remainder y.data).bind fun r => divLoop w data y k (r, orFront result 1)
    else divLoop w data y k (remainder, result)

/-- `divideMagnitudesWithRemainder` (big_integer.cpp:89-130): quotient and remainder -/
def divideMagnitudes (w : Nat) (wrap : Bool) (x y : Big) : Outcome (Big × Big) :=
  if x.magLess y then .ok (ofSigned w 0, x)
  else if x.eq y then .ok (ofSigned w 1, ofSigned w 0)
  else
    let isNegative := x.neg
    let x' := if isNegative then x.flipSign else x
    (divLoop w x'.data y (w * x'.data.length) (ofSigned w 0, ofSigned w 0)).bind fun s =>
    if isNegative then
      (add w wrap s.1.flipSign y).bind fun r => .ok (s.2.flipSign, r)
    else .ok (s.2, s.1)

/-- `operator/=` (big_integer_arithmetics.cpp:72-100) -/
def div (w : Nat) (wrap : Bool) (x y : Big) : Outcome Big :=
  if y.isZero then .thrown
  else
    (if x.isZero then .ok true else isUnit w y).bind fun u =>
    if u then .ok (if y.neg then x.flipSign else x)
    else orElse (fallbackDiv w wrap x y) <|
      (divideMagnitudes w wrap x y).bind fun s =>
      .ok (if y.neg ≠ x.neg then s.1.flipSign else s.1)

/-- `operator%=` (big_integer_arithmetics.cpp:163-178) -/
def mod (w : Nat) (wrap : Bool) (x y : Big) : Outcome Big :=
  if !y.isPositive then .thrown
  else orElse (fallbackMod w wrap x y) <|
    (divideMagnitudes w wrap x y).bind fun s => .ok s.2

end Big

end Panda
