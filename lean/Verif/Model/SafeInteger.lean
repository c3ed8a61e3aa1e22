import Verif.Model.Basic

/-! # SafeInteger

Model of `/repo/src/safe_integer*.tpp`.  The value (`data`, an `int64_t`) is an `Int`; every machine
operation goes through `machine`, which is undefined behaviour unless the exact result fits. -/

namespace Panda.Safe

/-- `DataLimits::max()` for `int64_t` -/
def maxValue : Int := 2 ^ 63 - 1
/-- `DataLimits::min()` for `int64_t` -/
def minValue : Int := -2 ^ 63

/-- the result of a signed 64-bit machine operation whose exact result is `x` (C++: overflow is undefined) -/
def machine (x : Int) : Outcome Int := if minValue ≤ x ∧ x ≤ maxValue then .ok x else .ub

/-- machine division, truncating; by zero is undefined, and so is `min / -1` -/
def machineDiv (a b : Int) : Outcome Int := if b = 0 then .ub else machine (a.tdiv b)

/-- machine remainder (sign of the dividend); undefined when the quotient is -/
def machineMod (a b : Int) : Outcome Int := (machineDiv a b).bind fun _ => machine (a.tmod b)

/-- `operator-` (safe_integer.tpp:26-36); the range is not symmetric -/
def neg (a : Int) : Outcome Int := if a = minValue then .thrown else machine (a * -1)

/-- `abs` (safe_integer.tpp:38-41) -/
def abs (a : Int) : Outcome Int := if a < 0 then neg a else .ok a

/-- `operator*=` (safe_integer_arithmetics.tpp:7-27) -/
def mul (a b : Int) : Outcome Int :=
  if a = 0 ∨ b = 0 then .ok 0
  else if b = -1 then neg a
  else (machineDiv (if decide (a > 0) = decide (b > 0) then maxValue else minValue) b).bind fun limit =>
    if (a > 0 ∧ limit < a) ∨ (a < 0 ∧ limit > a) then .thrown else machine (a * b)

/-- `operator/=` (safe_integer_arithmetics.tpp:29-42) -/
def div (a b : Int) : Outcome Int :=
  if b = 0 then .thrown else if b = -1 then neg a else machineDiv a b

/-- `operator+=` (safe_integer_arithmetics.tpp:44-53); `&&` and `||` evaluate from left to right and only as
far as needed -/
def add (a b : Int) : Outcome Int :=
  (if a > 0 ∧ b > 0 then (machine (maxValue - a)).bind fun l => .ok (decide (b > l)) else .ok false).bind fun c1 =>
  (if c1 then .ok true else if a < 0 ∧ b < 0 then (machine (minValue - a)).bind fun l => .ok (decide (b < l)) else .ok false).bind fun c2 =>
  if c2 then .thrown else machine (a + b)

/-- `operator-=` (safe_integer_arithmetics.tpp:55-67) -/
def sub (a b : Int) : Outcome Int :=
  (if b < 0 then (machine (maxValue + b)).bind fun l => .ok (decide (a > l)) else .ok false).bind fun c1 =>
  if c1 then .thrown else
  (if b > 0 then (machine (minValue + b)).bind fun l => .ok (decide (a < l)) else .ok false).bind fun c2 =>
  if c2 then .thrown else machine (a - b)

/-- `operator%=` (safe_integer_arithmetics.tpp:69-85) -/
def mod (a b : Int) : Outcome Int :=
  if b = 0 then .thrown else if b < 0 then .thrown
  else (machineMod a b).bind fun r => if r < 0 then machine (r + b) else .ok r

/-- construction from a signed integer of at most 64 bits (safe_integer_constructors.tpp:9-46) -/
def ofSigned (v : Int) : Outcome Int := if v > maxValue ∨ v < minValue then .thrown else .ok v

/-- construction from an unsigned integer of at most 64 bits (safe_integer_constructors.tpp:48-85); both sides
of the comparison are converted to `uint64_t` -/
def ofUnsigned (v : Nat) : Outcome Int := if v % 2 ^ 64 > (maxValue.toNat) % 2 ^ 64 then .thrown else .ok v

/-- conversion to `int` (safe_integer_constructors.tpp:87-94), `int` having 32 bits -/
def toInt (a : Int) : Outcome Int := if a > 2 ^ 31 - 1 ∨ a < -2 ^ 31 then .thrown else .ok a

/-- comparisons with a SafeInteger or `int` (safe_integer_comparisons.tpp:7-65) -/
def eq (a b : Int) : Bool := decide (a = b)
/-- safe_integer_comparisons.tpp:12-15, 42-45 -/
def ne (a b : Int) : Bool := !(eq a b)
/-- safe_integer_comparisons.tpp:17-20, 47-50 -/
def lt (a b : Int) : Bool := decide (a < b)
/-- safe_integer_comparisons.tpp:22-25, 52-55 -/
def gt (a b : Int) : Bool := lt b a
/-- safe_integer_comparisons.tpp:27-30, 57-60 -/
def le (a b : Int) : Bool := !(gt a b)
/-- safe_integer_comparisons.tpp:32-35, 62-65 -/
def ge (a b : Int) : Bool := !(lt a b)

end Panda.Safe
