import Mathlib.LinearAlgebra.AffineSpace.AffineSubspace.Defs
import Mathlib.Data.Rat.Defs
import Mathlib.Algebra.Module.Pi
import Mathlib.Algebra.Order.Field.Rat

/-! # Specification: facets of a set of points (independent of the model) -/

namespace Panda.Spec

/-- An inequality, given by the points where it holds and those where it holds with equality, defines a facet of the set: it holds on
the set, with equality at some points but not at all of them, and the points of equality span the affine hull of the set together with
one further point. -/
def DefinesFacet {d : Nat} (S holds tight : (Fin d → ℚ) → Prop) : Prop :=
  (∀ p, S p → holds p) ∧ (∃ p, S p ∧ tight p) ∧
    ∃ p0, S p0 ∧ ¬ tight p0 ∧ ∀ p, S p → p ∈ affineSpan ℚ (insert p0 {q | S q ∧ tight q})

end Panda.Spec
