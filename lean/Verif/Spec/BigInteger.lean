import Verif.Model.BigInteger

/-! # What a BigInteger stands for -/

namespace Panda.Big

/-- the natural number a little endian list of blocks stands for -/
def magnitude (w : Nat) : List Nat → Nat
  | [] => 0
  | d :: ds => d + 2 ^ w * magnitude w ds

/-- blocks fit and there is no leading zero block -/
structure Norm (w : Nat) (l : List Nat) : Prop where
  nonempty : l ≠ []
  digits : ∀ d ∈ l, d < 2 ^ w
  lead : 1 < l.length → l.getLast? ≠ some 0

/-- the integer a BigInteger stands for -/
def value (w : Nat) (x : Big) : Int := if x.neg then -(magnitude w x.data : Int) else magnitude w x.data

/-- the invariant of the class: blocks fit, no leading zero block, zero is not negative -/
structure Valid (w : Nat) (x : Big) : Prop where
  norm : Norm w x.data
  sign : x.data = [0] → x.neg = false

/-- the values of a 32-bit `int` -/
abbrev InInt (x : Int) : Prop := -2147483648 ≤ x ∧ x ≤ 2147483647

/-- an outcome holding exactly the integer `v` (in a well formed object) -/
def Holds (w : Nat) (o : Outcome Big) (v : Int) : Prop := ∃ r, o = .ok r ∧ Valid w r ∧ value w r = v

end Panda.Big
