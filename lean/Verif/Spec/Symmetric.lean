import Verif.Spec.Output
import Verif.Spec.Extreme

/-! # Specification: symmetries given in a file, and reduced output (independent of the model) -/

namespace Panda.Spec

/-- the image of a point under the map of a line of the section of maps: every coordinate gets the value of its image -/
def mapPoint (names : List (List Char)) {d : Nat} (m : List (List (Option (List Char) × Int))) (p : Fin d → ℚ) : Fin d → ℚ :=
  fun i => imageValue (m.getD i []) (valuation names p)

/-- the image of a direction -/
def mapDirection (names : List (List Char)) {d : Nat} (m : List (List (Option (List Char) × Int))) (r : Fin d → ℚ) : Fin d → ℚ :=
  mapPoint names m r - mapPoint names m 0

/-- the map is a symmetry of the set of points: it maps the set onto itself -/
def MapsOnto (names : List (List Char)) {d : Nat} (m : List (List (Option (List Char) × Int))) (S : (Fin d → ℚ) → Prop) : Prop :=
  (∀ p, S p → S (mapPoint names m p)) ∧ ∀ p, S p → ∃ q, S q ∧ mapPoint names m q = p

/-- `p'` is the image of `p` under a product of the maps -/
def Moved (names : List (List Char)) {d : Nat} (maps : List (List (List (Option (List Char) × Int)))) : (Fin d → ℚ) → (Fin d → ℚ) → Prop :=
  Relation.ReflTransGen fun p p' => ∃ m ∈ maps, p' = mapPoint names m p

/-- the set is not contained in a hyperplane -/
def Solid {d : Nat} (S : (Fin d → ℚ) → Prop) : Prop := ∀ (a : Fin d → ℚ) (b : ℚ), (∀ p, S p → ∑ i, a i * p i = b) → a = 0

/-- no image mentions a variable twice or has two constants -/
def PlainImages (m : List (List (Option (List Char) × Int))) : Prop := ∀ l ∈ m, (l.map Prod.fst).Nodup

/-- the output with maps, if there are no equations: representatives of the inequalities -/
def PrintedReduced (names : List (List Char)) (text : List Char) (inequalities : List Constraint) : Prop :=
  ∃ ti, Lines (PrintedConstraint false names) ti inequalities ∧ text = "Reduced Inequalities:\n".toList ++ ti

/-- `q'` is the image of the direction `q` under a product of the maps -/
def MovedDirection (names : List (List Char)) {d : Nat} (maps : List (List (List (Option (List Char) × Int)))) :
    (Fin d → ℚ) → (Fin d → ℚ) → Prop :=
  Relation.ReflTransGen fun q q' => ∃ m ∈ maps, q' = mapDirection names m q

/-- the lists contain exactly one vertex and one extreme direction of every orbit -/
structure OnePerOrbit (names : List (List Char)) {d : Nat} (maps : List (List (List (Option (List Char) × Int)))) (S : (Fin d → ℚ) → Prop)
    (points rays : List (Fin d → ℚ)) : Prop where
  nodup : points.Nodup ∧ rays.Nodup
  isVertex : ∀ p ∈ points, Vertex S p
  isDirection : ∀ q ∈ rays, ExtremeDirection S q
  vertex : ∀ v, Vertex S v → ∃! p, p ∈ points ∧ Moved names maps p v
  direction : ∀ q, ExtremeDirection S q → ∃! r, r ∈ rays ∧ ∃ s : ℚ, 0 < s ∧ MovedDirection names maps r (s • q)

/-- the points among rows of integers: those with a denominator -/
def pointsOf (d : Nat) (rows : List (List Int)) : List (Fin d → ℚ) := (rows.filter fun r => decide (r.getD d 0 ≠ 0)).map (coord d)

/-- the directions among rows of integers: those with last entry 0 -/
def directionsOf (d : Nat) (rows : List (List Int)) : List (Fin d → ℚ) := (rows.filter fun r => decide (r.getD d 0 = 0)).map (coord d)

/-- images of the points in the list -/
def ImageOf (names : List (List Char)) {d : Nat} (maps : List (List (List (Option (List Char) × Int)))) (l : List (Fin d → ℚ)) (x : Fin d → ℚ) : Prop :=
  ∃ q ∈ l, Moved names maps q x

/-- images of the directions in the list -/
def DirectionImageOf (names : List (List Char)) {d : Nat} (maps : List (List (List (Option (List Char) × Int)))) (l : List (Fin d → ℚ))
    (x : Fin d → ℚ) : Prop :=
  ∃ q ∈ l, MovedDirection names maps q x

/-- convex combinations of points in `X` plus conic combinations of directions in `D` -/
def HullOf {d : Nat} (X D : (Fin d → ℚ) → Prop) (p : Fin d → ℚ) : Prop :=
  ∃ (k l : Nat) (a : Fin k → ℚ) (x : Fin k → Fin d → ℚ) (b : Fin l → ℚ) (y : Fin l → Fin d → ℚ),
    (∀ i, 0 ≤ a i ∧ X (x i)) ∧ (∀ j, 0 ≤ b j ∧ D (y j)) ∧ ∑ i, a i = 1 ∧ p = ∑ i, a i • x i + ∑ j, b j • y j

/-- the output of vertex enumeration with maps by double description -/
def PrintedReducedPoints (text : List Char) (points rays : List (List (Int × Int))) : Prop :=
  ∃ tp tr, VertexLines tp points ∧ VertexLines tr rays ∧
    text = (if points = [] then [] else "Reduced Vertices:\n".toList ++ tp) ++ (if rays = [] then [] else "Reduced Rays:\n".toList ++ tr)

/-- the output of vertex enumeration with maps by adjacency decomposition: one line of integers for every vertex and every direction;
the last number of a line is the denominator of the coordinates, or 0 for a direction -/
def PrintedReducedRows (text : List Char) (rows : List (List Int)) : Prop :=
  ∃ t, Lines RawLine t rows ∧ text = "Reduced Vertices / Rays:\n".toList ++ t

end Panda.Spec
