import Verif.Spec.File
import Mathlib.LinearAlgebra.AffineSpace.AffineSubspace.Defs

/-! # Specification: known facets (independent of the model) -/

namespace Panda.Spec

/-- a command line for the file `f`, without the options `-c` / `--check`, with the file `g` of known facets -/
def KnownCommand (args : List (List Char)) (f g : List Char) : Prop :=
  CommandLine args [f] ∧ "-c".toList ∉ args ∧ "--check".toList ∉ args ∧ KnownGiven "--known-facets=".toList args g ∧ g ≠ []

/-- the two sides of the constraint are equal at the point -/
def Constraint.TightAt (names : List (List Char)) {d : Nat} (p : Fin d → ℚ) : Constraint → Prop
  | .named terms _ rhs => sumValue terms (valuation names p) = rhs
  | .unnamed xs _ rhs => ∑ j : Fin d, (xs.getD j 0 : ℚ) * p j = rhs
  | .raw row => value d row p = 0

/-- the inequality defines a facet of the set: it holds on the set, not always with equality, and the points of the set where it
holds with equality span the affine hull of the set together with one further point -/
def Constraint.FacetOf (names : List (List Char)) {d : Nat} (S : (Fin d → ℚ) → Prop) (a : Constraint) : Prop :=
  (∀ p, S p → a.HoldsAt false names p) ∧
    ∃ p0, S p0 ∧ ¬ a.TightAt names p0 ∧ ∀ p, S p → p ∈ affineSpan ℚ (insert p0 {q | S q ∧ a.TightAt names q})

end Panda.Spec
