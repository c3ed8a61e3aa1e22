import Verif.Spec.Polyhedron

/-! # Specification: orders of rows and consistent inputs (independent of the model) -/

namespace Panda.Spec

/-- lexicographic order: at the first difference the entry is smaller, or the row is a prefix -/
def LexLe (a b : List Int) : Prop :=
  a <+: b ∨ ∃ c x y a' b', a = c ++ x :: a' ∧ b = c ++ y :: b' ∧ x < y

/-- number of non-zero entries -/
def nonZeros (r : List Int) : Nat := (r.filter fun x => decide (x ≠ 0)).length

/-- fewer non-zero entries first, then lexicographic -/
def NonZeroAscLe (a b : List Int) : Prop := nonZeros a < nonZeros b ∨ nonZeros a = nonZeros b ∧ LexLe a b

/-- more non-zero entries first, then lexicographic -/
def NonZeroDescLe (a b : List Int) : Prop := nonZeros b < nonZeros a ∨ nonZeros a = nonZeros b ∧ LexLe a b

/-- vertices, rays and maps fit together: something is given, all of the same size, and the names and the declared
dimension (if given) agree with it -/
def ConsistentVertices (conv cone : List (List Int)) (names : List (List Char)) (mapSizes : List Nat) (dimension : Option Nat) : Prop :=
  (conv ≠ [] ∨ cone ≠ []) ∧ ∃ n : Nat, (∀ v ∈ conv, v.length = n) ∧ (∀ v ∈ cone, v.length = n) ∧ (∀ k ∈ mapSizes, k = n) ∧
    (names ≠ [] → names.length + 1 = n) ∧ ∀ d ∈ dimension, d + 1 = n

/-- inequalities fit together -/
def ConsistentInequalities (rows : List (List Int)) (names : List (List Char)) (dimension : Option Nat) : Prop :=
  rows ≠ [] ∧ ∃ n : Nat, (∀ v ∈ rows, v.length = n) ∧ (names ≠ [] → names.length + 1 = n) ∧ ∀ d ∈ dimension, d + 1 = n

end Panda.Spec
