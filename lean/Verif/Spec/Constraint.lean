import Verif.Spec.Text
import Mathlib.Algebra.BigOperators.Group.Finset.Defs
import Mathlib.Algebra.BigOperators.Fin

/-! # Specification: the textual format of inequalities and equations (independent of the model) -/

namespace Panda.Spec

/-- white space -/
def Space (c : Char) : Prop := c ∈ [' ', '\t', '\n', Char.ofNat 11, Char.ofNat 12, '\r']

/-- a name of a variable: not empty, no white space, not starting with a digit, a sign, a parenthesis or a character
of a relation operator -/
def Name (x : List Char) : Prop :=
  ∃ c r, x = c :: r ∧ (∀ a ∈ x, ¬ Space a) ∧ ¬ Digit c ∧ c ∉ ['+', '-', '(', '<', '=', '>']

/-- admissible lists of names -/
def AdmissibleNames (names : List (List Char)) : Prop := names.Nodup ∧ ∀ x ∈ names, Name x

/-- range of an `int` whose negative is an `int`, too -/
def Symmetric (z : Int) : Prop := -2147483647 ≤ z ∧ z ≤ 2147483647

/-- a term: a factor (optional; a sign alone means ±1) and a name -/
inductive Term : List Char → List Char → Int → Prop
  | bare (x : List Char) : Term x x 1
  | plus (x : List Char) : Term ('+' :: x) x 1
  | minus (x : List Char) : Term ('-' :: x) x (-1)
  | factor {t : List Char} {z : Int} (x : List Char) : Numeral t z → Term (t ++ x) x z

/-- a term that may be preceded by a separate sign -/
inductive SignedTerm : List Char → List Char → Int → Prop
  | token {t x : List Char} {c : Int} : Term t x c → SignedTerm t x c
  | plus {b t x : List Char} {c : Int} : Blanks b → b ≠ [] → Term t x c → 0 ≤ c → SignedTerm ('+' :: (b ++ t)) x c
  | minus {b t x : List Char} {c : Int} : Blanks b → b ≠ [] → Term t x c → 0 ≤ c → SignedTerm ('-' :: (b ++ t)) x (-c)

/-- a sum of terms, each of them followed by blanks -/
inductive Sum : List Char → List (List Char × Int) → Prop
  | nil : Sum [] []
  | cons {t b ts x : List Char} {c : Int} {l : List (List Char × Int)} : SignedTerm t x c → Name x → Blanks b → b ≠ [] →
      Sum ts l → Sum (t ++ b ++ ts) ((x, c) :: l)

/-- the relations -/
inductive Rel where
  | le
  | eq
  | ge
  deriving DecidableEq

/-- a relation operator and the blanks after it -/
inductive RelText : List Char → Rel → Prop
  | le {b : List Char} : Blanks b → RelText ('<' :: '=' :: b) .le
  | ge {b : List Char} : Blanks b → RelText ('>' :: '=' :: b) .ge
  | eqeq {b : List Char} : Blanks b → RelText ('=' :: '=' :: b) .eq
  | eq {b : List Char} : Blanks b → b ≠ [] → RelText ('=' :: b) .eq

/-- a line (without its end) `terms rel rhs` over named variables -/
def ConstraintLine (t : List Char) (terms : List (List Char × Int)) (rel : Rel) (rhs : Int) : Prop :=
  ∃ l s r n b, Label l ∧ Sum s terms ∧ RelText r rel ∧ Numeral n rhs ∧ Blanks b ∧ t = l ++ (s ++ (r ++ (n ++ b)))

/-- total coefficient of a variable -/
def coefficient (terms : List (List Char × Int)) (x : List Char) : Int :=
  ((terms.filter fun q => decide (q.1 = x)).map (·.2)).sum

/-- some variable occurs again after a term with a non-zero coefficient -/
def Repeated : List (List Char × Int) → Prop
  | [] => False
  | (x, c) :: l => (c ≠ 0 ∧ ∃ q ∈ l, q.1 = x) ∨ Repeated l

/-- `1`, or `-1` for `≥` (the row is to represent `row·(x,1) ≤ 0`) -/
def Rel.sign : Rel → Int
  | .le => 1
  | .eq => 1
  | .ge => -1

/-- the row of the constraint `terms rel rhs` over the given variables -/
def ConstraintRow (names : List (List Char)) (terms : List (List Char × Int)) (rel : Rel) (rhs : Int) (row : List Int) : Prop :=
  row.length = names.length + 1 ∧
    (∀ j (h : j < names.length), row.getD j 0 = rel.sign * coefficient terms names[j]) ∧
    row.getD names.length 0 = rel.sign * (-rhs)

/-- value of a sum of terms under an assignment -/
def sumValue (terms : List (List Char × Int)) (v : List Char → ℚ) : ℚ := (terms.map fun q => (q.2 : ℚ) * v q.1).sum

/-- meaning of a constraint -/
def Rel.holds : Rel → ℚ → ℚ → Prop
  | .le, a, b => a ≤ b
  | .eq, a, b => a = b
  | .ge, a, b => a ≥ b

/-- meaning of a row: an inequality `row·(x,1) ≤ 0` or an equation `row·(x,1) = 0` -/
def rowHolds (equation : Bool) (names : List (List Char)) (row : List Int) (v : List Char → ℚ) : Prop :=
  if equation then ∑ j : Fin names.length, (row.getD j 0 : ℚ) * v names[j] + (row.getD names.length 0 : ℚ) = 0
  else ∑ j : Fin names.length, (row.getD j 0 : ℚ) * v names[j] + (row.getD names.length 0 : ℚ) ≤ 0

/-- numbers separated by blanks -/
inductive Numbers : List Char → List Int → Prop
  | nil : Numbers [] []
  | cons {t b ts : List Char} {z : Int} {l : List Int} : Numeral t z → Blanks b → b ≠ [] → Numbers ts l →
      Numbers (t ++ b ++ ts) (z :: l)

/-- a raw line: the entries of the row -/
def RawLine (t : List Char) (row : List Int) : Prop :=
  ∃ l s n b xs z, Label l ∧ Numbers s xs ∧ Numeral n z ∧ Blanks b ∧ t = l ++ (s ++ (n ++ b)) ∧ row = xs ++ [z]

/-- a line `coefficients rel rhs` without names -/
def UnnamedLine (t : List Char) (xs : List Int) (rel : Rel) (rhs : Int) : Prop :=
  ∃ l s r n b, Label l ∧ Numbers s xs ∧ RelText r rel ∧ Numeral n rhs ∧ Blanks b ∧ t = l ++ (s ++ (r ++ (n ++ b)))

/-- a name of the list occurs within the first 2000 characters: after blanks, signs and digits at the start of the line
or after a blank -/
def NameAt (names : List (List Char)) (t : List Char) : Prop :=
  ∃ p q x r, t = p ++ (q ++ (x ++ r)) ∧ x ∈ names ∧ (p = [] ∨ ∃ p' c, p = p' ++ [c] ∧ (c = ' ' ∨ c = '\t' ∨ c = '\r')) ∧
    (∀ c ∈ q, (c = ' ' ∨ c = '\t' ∨ c = '\r') ∨ c = '+' ∨ c = '-' ∨ Digit c) ∧ p.length + q.length < 2000

/-- no name is a prefix of an earlier name -/
def NoPrefix (names : List (List Char)) : Prop := names.Pairwise fun earlier later => ¬ later <+: earlier

/-- lines of a section: blank lines and lines described by `P` -/
inductive Lines {α : Type} (P : List Char → α → Prop) : List Char → List α → Prop
  | nil : Lines P [] []
  | blank {b t : List Char} {l : List α} : Blanks b → Lines P t l → Lines P (b ++ '\n' :: t) l
  | line {t ts : List Char} {a : α} {l : List α} : P t a → '\n' ∉ t → t.head? ≠ some '\r' → Lines P ts l →
      Lines P (t ++ '\n' :: ts) (a :: l)

end Panda.Spec
