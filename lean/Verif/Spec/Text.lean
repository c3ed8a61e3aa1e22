import Verif.Spec.Rows

/-! # Specification: the textual format of numbers and vertices (independent of the model) -/

namespace Panda.Spec

/-- blanks: spaces, tabs, carriage returns -/
def Blanks (t : List Char) : Prop := ∀ c ∈ t, c = ' ' ∨ c = '\t' ∨ c = '\r'

/-- a decimal digit -/
def Digit (c : Char) : Prop := c ∈ ['0', '1', '2', '3', '4', '5', '6', '7', '8', '9']

/-- value of a string of decimal digits -/
def decimal : List Char → Nat
  | [] => 0
  | c :: cs => (c.toNat - '0'.toNat) * 10 ^ cs.length + decimal cs

/-- decimal integers with an optional sign -/
inductive Numeral : List Char → Int → Prop
  | plain (ds : List Char) : ds ≠ [] → (∀ c ∈ ds, Digit c) → Numeral ds (decimal ds)
  | plus (ds : List Char) : ds ≠ [] → (∀ c ∈ ds, Digit c) → Numeral ('+' :: ds) (decimal ds)
  | minus (ds : List Char) : ds ≠ [] → (∀ c ∈ ds, Digit c) → Numeral ('-' :: ds) (-(decimal ds))

/-- a coordinate: an integer, or a fraction `n/d` with optional blanks around the slash -/
inductive Fraction : List Char → Int → Int → Prop
  | whole {t : List Char} {n : Int} : Numeral t n → Fraction t n 1
  | quotient {t t' b b' : List Char} {n d : Int} : Numeral t n → Blanks b → Blanks b' → Numeral t' d →
      Fraction (t ++ b ++ '/' :: (b' ++ t')) n d

/-- coordinates separated by blanks -/
inductive Coordinates : List Char → List (Int × Int) → Prop
  | last {t b : List Char} {n d : Int} : Fraction t n d → Blanks b → Coordinates (t ++ b) [(n, d)]
  | cons {t b ts : List Char} {n d : Int} {cs : List (Int × Int)} : Fraction t n d → Blanks b → b ≠ [] →
      Coordinates ts cs → Coordinates (t ++ b ++ ts) ((n, d) :: cs)

/-- an optional label in parentheses, with blanks around it -/
inductive Label : List Char → Prop
  | none {b : List Char} : Blanks b → Label b
  | some {b b' l : List Char} : Blanks b → Blanks b' → (∀ c ∈ l, c ≠ ')' ∧ c ≠ '\r' ∧ c ≠ '\n') →
      Label (b ++ '(' :: (l ++ ')' :: b'))

/-- the line (without its end) of a vertex or ray with the coordinates `n/d` -/
def VertexLine (t : List Char) (cs : List (Int × Int)) : Prop :=
  ∃ l c, Label l ∧ Coordinates c cs ∧ t = l ++ c

/-- range of a 32-bit `int` -/
def IsInt (z : Int) : Prop := -2147483648 ≤ z ∧ z ≤ 2147483647

/-- the coordinates are read without leaving the range of `int`: numerators, denominators (not the smallest `int`,
whose absolute value does not fit), and the numerators over the least common denominator -/
def Fits (cs : List (Int × Int)) : Prop :=
  (∀ q ∈ cs, IsInt q.1 ∧ IsInt q.2 ∧ q.2 ≠ -2147483648) ∧
    ∃ L, IsLcm (cs.map (·.2)) L ∧ IsInt L ∧ ∀ q ∈ cs, IsInt (q.1 * (L / q.2))

/-- the row represents the point with the given coordinates: last entry positive, quotients equal to the fractions -/
def PointRow (cs : List (Int × Int)) (row : List Int) : Prop :=
  row.length = cs.length + 1 ∧ 0 < row.getD cs.length 0 ∧
    ∀ i (h : i < cs.length), (row.getD i 0 : ℚ) / (row.getD cs.length 0 : ℚ) = (cs[i].1 : ℚ) / (cs[i].2 : ℚ)

/-- the row represents the direction with the given coordinates: last entry zero, a positive multiple -/
def RayRow (cs : List (Int × Int)) (row : List Int) : Prop :=
  row.length = cs.length + 1 ∧ row.getD cs.length 0 = 0 ∧
    ∃ s : ℚ, 0 < s ∧ ∀ i (h : i < cs.length), (row.getD i 0 : ℚ) = s * ((cs[i].1 : ℚ) / (cs[i].2 : ℚ))

/-- the row of the point with the given coordinates over the least common denominator -/
def LeastPoint (cs : List (Int × Int)) (row : List Int) : Prop :=
  ∃ L, IsLcm (cs.map (·.2)) L ∧ row = cs.map (fun q => q.1 * (L / q.2)) ++ [L]

/-- the row of the direction with the given coordinates, multiplied by the least common denominator -/
def LeastRay (cs : List (Int × Int)) (row : List Int) : Prop :=
  ∃ L, IsLcm (cs.map (·.2)) L ∧ row = cs.map (fun q => q.1 * (L / q.2)) ++ [0]

/-- lines of a section of vertices or rays (blank lines are allowed) and the coordinates listed there -/
inductive VertexLines : List Char → List (List (Int × Int)) → Prop
  | nil : VertexLines [] []
  | blank {b t : List Char} {vs : List (List (Int × Int))} : Blanks b → VertexLines t vs → VertexLines (b ++ '\n' :: t) vs
  | vertex {l t : List Char} {cs : List (Int × Int)} {vs : List (List (Int × Int))} : VertexLine l cs →
      VertexLines t vs → VertexLines (l ++ '\n' :: t) (cs :: vs)

/-- `l` is the first line of `w` (without its end), and `r` is the text after it; the last line need not have an end -/
def FirstLine (w l r : List Char) : Prop := '\n' ∉ l ∧ (w = l ++ '\n' :: r ∨ (w = l ∧ l ≠ [] ∧ r = []))

/-- the stream (unread characters, end-of-file bit, failure bit) after a section that is followed by `w`: at the end of
the file it has failed; otherwise it is at the start of `w`, or, if the first line of `w` is an `END` line, after that
line -/
def AfterSection (w rest : List Char) (eof fail : Bool) (isEnd : List Char → Bool) : Prop :=
  (w = [] ∧ fail = true) ∨
    ∃ k r, FirstLine w k r ∧ rest = (if isEnd k then r else w) ∧ (eof = true → rest = []) ∧ fail = false

/-- two rows represent the same point, the second with a positive last entry -/
def SamePoint (r r' : List Int) : Prop :=
  r'.length = r.length ∧ 0 < r'.getLastD 0 ∧ ∀ i, i + 1 < r.length →
    (r'.getD i 0 : ℚ) / (r'.getLastD 0 : ℚ) = (r.getD i 0 : ℚ) / (r.getLastD 0 : ℚ)

/-- the second row represents the direction given by the entries of the first -/
def SameDirection (r r' : List Int) : Prop :=
  r'.length = r.length + 1 ∧ r'.getLastD 1 = 0 ∧ ∃ s : ℚ, 0 < s ∧ ∀ i < r.length, (r'.getD i 0 : ℚ) = s * (r.getD i 0 : ℚ)

end Panda.Spec
