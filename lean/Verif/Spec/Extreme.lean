import Verif.Spec.Polyhedron

/-! # Specification: vertices, extreme directions and edges of a set of points (independent of the model) -/

namespace Panda.Spec

variable {d : Nat}

/-- `p` is a vertex: a point of the set that lies strictly between no two others -/
def Vertex (S : (Fin d → ℚ) → Prop) (p : Fin d → ℚ) : Prop :=
  S p ∧ ∀ x y (t : ℚ), S x → S y → 0 < t → t < 1 → p = t • x + (1 - t) • y → x = p ∧ y = p

/-- one can move from every point of the set in direction `q` as far as one likes -/
def Recession (S : (Fin d → ℚ) → Prop) (q : Fin d → ℚ) : Prop := ∀ p, S p → ∀ t : ℚ, 0 ≤ t → S (p + t • q)

/-- `q` is an extreme direction: such a direction, not zero, that is not a sum of two others -/
def ExtremeDirection (S : (Fin d → ℚ) → Prop) (q : Fin d → ℚ) : Prop :=
  q ≠ 0 ∧ Recession S q ∧ ∀ x y, Recession S x → Recession S y → q = x + y →
    (∃ t : ℚ, 0 ≤ t ∧ x = t • q) ∧ ∃ t : ℚ, 0 ≤ t ∧ y = t • q

/-- the points `p` and `p + u` are different and both on one edge: points of the set that average to a
point of the line through them are on that line -/
def Edge (S : (Fin d → ℚ) → Prop) (p u : Fin d → ℚ) : Prop :=
  u ≠ 0 ∧ S p ∧ S (p + u) ∧ ∀ x y (t : ℚ), S x → S y → 0 < t → t < 1 →
    (∃ s : ℚ, t • x + (1 - t) • y = p + s • u) → (∃ s : ℚ, x = p + s • u) ∧ ∃ s : ℚ, y = p + s • u

/-- the direction away from the origin; at the origin, that of decreasing last coordinate -/
noncomputable def outward (p : Fin d → ℚ) : Fin d → ℚ :=
  haveI := Classical.dec (p = 0); if p = 0 then fun i => if i.val + 1 = d then -1 else 0 else p

end Panda.Spec
