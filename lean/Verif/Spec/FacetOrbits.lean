import Verif.Spec.Symmetric
import Verif.Spec.Facet
import Verif.Spec.Known

/-! # Specification: one inequality for every orbit of facets (independent of the model) -/

namespace Panda.Spec

/-- apply the maps of the list one after the other -/
def moveAlong (names : List (List Char)) {d : Nat} (ms : List (List (List (Option (List Char) × Int)))) (p : Fin d → ℚ) : Fin d → ℚ :=
  ms.foldl (fun q m => mapPoint names m q) p

/-- exactly one of the inequalities is an image of a given facet: for every inequality `g p ≤ b` which defines a facet of the set there is
exactly one inequality in the list that becomes `g p ≤ b` if some of the maps, one after the other, are applied to its variables -/
def OnePerFacetOrbit (names : List (List Char)) {d : Nat} (maps : List (List (List (Option (List Char) × Int)))) (S : (Fin d → ℚ) → Prop)
    (inequalities : List Constraint) : Prop :=
  ∀ (g : Fin d → ℚ) (b : ℚ), DefinesFacet S (fun p => ∑ i, g i * p i ≤ b) (fun p => ∑ i, g i * p i = b) →
    ∃! a, a ∈ inequalities ∧ ∃ ms, (∀ m ∈ ms, m ∈ maps) ∧ ∀ p : Fin d → ℚ, a.HoldsAt false names (moveAlong names ms p) ↔ ∑ i, g i * p i ≤ b

end Panda.Spec
