import Verif.Spec.Constraint
import Verif.Spec.Maps

/-! # Specification: the textual format of maps (independent of the model) -/

namespace Panda.Spec

/-- a name that can be used in a map: signs separate the terms there -/
def MapName (x : List Char) : Prop := Name x ∧ '+' ∉ x ∧ '-' ∉ x

/-- a term of an image: a factor times a variable, or a constant -/
inductive ImageTerm : List Char → Option (List Char) × Int → Prop
  | var {t x : List Char} {c : Int} : Term t x c → MapName x → ImageTerm t (some x, c)
  | constant {t : List Char} {c : Int} : Numeral t c → ImageTerm t (none, c)

/-- an image: a sum of terms without blanks; every term but the first starts with a sign -/
inductive ImageText : List Char → List (Option (List Char) × Int) → Prop
  | last {t : List Char} {q : Option (List Char) × Int} : ImageTerm t q → ImageText t [q]
  | more {t t' : List Char} {q : Option (List Char) × Int} {l : List (Option (List Char) × Int)} : ImageTerm t q →
      t'.head? = some '+' ∨ t'.head? = some '-' → ImageText t' l → ImageText (t ++ t') (q :: l)

/-- images separated by blanks (a carriage return ends the line) -/
inductive Images : List Char → List (List (Option (List Char) × Int)) → Prop
  | last {t b : List Char} {l : List (Option (List Char) × Int)} : ImageText t l → Blanks b → Images (t ++ b) [l]
  | cons {t b ts : List Char} {l : List (Option (List Char) × Int)} {ls : List (List (Option (List Char) × Int))} :
      ImageText t l → Blanks b → b.head? = some ' ' ∨ b.head? = some '\t' → Images ts ls → Images (t ++ (b ++ ts)) (l :: ls)

/-- the images use known variables, and the factors fit -/
def ImagesFit (names : List (List Char)) (ls : List (List (Option (List Char) × Int))) : Prop :=
  ∀ l ∈ ls, ∀ q ∈ l, IsInt q.2 ∧ ∀ x ∈ q.1, x ∈ names

/-- a line of the section of maps: one image for every variable -/
def MapLine (names : List (List Char)) (t : List Char) (ls : List (List (Option (List Char) × Int))) : Prop :=
  (∃ b s, Blanks b ∧ Images s ls ∧ t = b ++ s) ∧ ls.length = names.length ∧ ImagesFit names ls

/-- value of an image under an assignment -/
def imageValue (l : List (Option (List Char) × Int)) (v : List Char → ℚ) : ℚ :=
  (l.map fun q => (q.2 : ℚ) * (q.1.elim 1 v)).sum

/-- the map does what the line says: applied to the homogenised point with coordinates `v name`, it gives the values of
the images, and it keeps the homogenising coordinate; its factors are in the range of `int`, and if no image mentions a variable
twice (nor has two constants), no image of the map has two terms for one coordinate -/
def DoesImages (names : List (List Char)) (ls : List (List (Option (List Char) × Int))) (m : List (List (Nat × Int))) : Prop :=
  IsMap (names.length + 1) m ∧ (∀ (v : List Char → ℚ) (x : Fin (names.length + 1) → ℚ),
    (∀ j (h : j < names.length), x ⟨j, by omega⟩ = v names[j]) → x ⟨names.length, by omega⟩ = 1 →
    (∀ i (h : i < names.length) (h' : i < ls.length), pushed (names.length + 1) m x ⟨i, by omega⟩ = imageValue ls[i] v) ∧
      pushed (names.length + 1) m x ⟨names.length, by omega⟩ = 1) ∧
    (∀ im ∈ m, ∀ t ∈ im, IsInt t.2) ∧ ((∀ l ∈ ls, (l.map Prod.fst).Nodup) → ∀ im ∈ m, (im.map Prod.fst).Nodup)

end Panda.Spec
