import Verif.Spec.Symmetric

/-! # Specification: files that list one point, ray or inequality of every orbit (independent of the model) -/

namespace Panda.Spec

/-- what a file with points and rays, or with representatives of them, says -/
structure HullContent (d : Nat) where
  names : List (List Char) := []
  maps : List (List (List (Option (List Char) × Int))) := []
  /-- the points -/
  points : (Fin d → ℚ) → Prop := fun _ => False
  /-- the rays -/
  rays : (Fin d → ℚ) → Prop := fun _ => False
  dimension : Option Nat := none

/-- the maps can be applied: there are maps, and names, all different, for all coordinates -/
def HullContent.Expandable {d : Nat} (c : HullContent d) : Prop := c.maps ≠ [] ∧ c.names.Nodup ∧ c.names.length = d

/-- The rest of a file with points and rays in `d` dimensions, and how it changes the content: sections in any order (names before
maps, maps before representatives); a later section replaces an earlier one of the same kind; all other lines are ignored.  A
section of representatives stands for all images under products of the maps given so far.  `Q` is a condition on the maps and
the coordinates of the representatives in such sections. -/
inductive HullFile {d : Nat} (Q : List (List (List (Option (List Char) × Int))) → List (List (Int × Int)) → Prop) :
    HullContent d → List Char → HullContent d → Prop
  | nil {c : HullContent d} : HullFile Q c [] c
  | other {c c' : HullContent d} {w l r : List Char} : FirstLine w l r → ¬ Header vertexFileWords l → HullFile Q c r c' →
      HullFile Q c w c'
  | names {c c' : HullContent d} {k t w : List Char} {names : List (List Char)} : '\n' ∉ k → Header nameWords k →
      NamesBody t names → SectionRest w → c.maps = [] → HullFile Q { c with names := names } w c' →
      HullFile Q c (k ++ '\n' :: (t ++ w)) c'
  | maps {c c' : HullContent d} {k t w : List Char} {maps : List (List (List (Option (List Char) × Int)))} : '\n' ∉ k →
      Header mapWords k → Lines (MapLine c.names) t maps → SectionRest w → HullFile Q { c with maps := maps } w c' →
      HullFile Q c (k ++ '\n' :: (t ++ w)) c'
  | points {c c' : HullContent d} {k t w : List Char} {vs : List (List (Int × Int))} : '\n' ∉ k → Header pointWords k →
      PointLines t vs → (∀ v ∈ vs, v.length = d) → SectionRest w →
      HullFile Q { c with points := fun x => ∃ v ∈ vs, x = point d v } w c' → HullFile Q c (k ++ '\n' :: (t ++ w)) c'
  | reducedPoints {c c' : HullContent d} {k t w : List Char} {vs : List (List (Int × Int))} : '\n' ∉ k → Header reducedPointWords k →
      PointLines t vs → (∀ v ∈ vs, v.length = d) → SectionRest w → c.Expandable → Q c.maps vs →
      HullFile Q { c with points := fun x => ∃ v ∈ vs, Moved c.names c.maps (point d v) x } w c' → HullFile Q c (k ++ '\n' :: (t ++ w)) c'
  | rays {c c' : HullContent d} {k t w : List Char} {vs : List (List (Int × Int))} : '\n' ∉ k → Header rayWords k →
      PointLines t vs → (∀ v ∈ vs, v.length = d) → SectionRest w →
      HullFile Q { c with rays := fun x => ∃ v ∈ vs, x = point d v } w c' → HullFile Q c (k ++ '\n' :: (t ++ w)) c'
  | reducedRays {c c' : HullContent d} {k t w : List Char} {vs : List (List (Int × Int))} : '\n' ∉ k → Header reducedRayWords k →
      PointLines t vs → (∀ v ∈ vs, v.length = d) → SectionRest w → c.Expandable → Q c.maps vs →
      HullFile Q { c with rays := fun x => ∃ v ∈ vs, MovedDirection c.names c.maps (point d v) x } w c' →
      HullFile Q c (k ++ '\n' :: (t ++ w)) c'
  | dimension {c c' : HullContent d} {k b n b' w : List Char} : '\n' ∉ k → Header dimensionEqWords k → Blanks b → Blanks b' →
      n ≠ [] → (∀ d ∈ n, Digit d) → decimal n < 2 ^ 64 → HullFile Q { c with dimension := some (decimal n) } w c' →
      HullFile Q c (k ++ '\n' :: (b ++ (n ++ (b' ++ '\n' :: w)))) c'

/-- there is a point or a ray; names, maps and the declared dimension fit -/
def HullContent.Consistent {d : Nat} (c : HullContent d) : Prop :=
  ((∃ x, c.points x) ∨ ∃ x, c.rays x) ∧ (c.names ≠ [] ∨ c.maps ≠ [] → c.names.length = d) ∧ ∀ n ∈ c.dimension, n = d

/-- every image is a variable with factor 1 or -1 -/
def SignedVariables (m : List (List (Option (List Char) × Int))) : Prop := ∀ l ∈ m, ∃ x s, l = [(some x, s)] ∧ (s = 1 ∨ s = -1)

/-- the map exchanges the coordinates and changes signs -/
def SignedPermutation (m : List (List (Option (List Char) × Int))) : Prop := SignedVariables m ∧ (m.map fun l => l.map Prod.fst).Nodup

/-- every coordinate of the image is a coordinate or its negative; no numerator over the least common denominator is the smallest
`int` -/
def HarmlessExpansion (maps : List (List (List (Option (List Char) × Int)))) (vs : List (List (Int × Int))) : Prop :=
  (∀ m ∈ maps, SignedVariables m) ∧
    ∀ v ∈ vs, ∀ L, IsLcm (v.map (·.2)) L → ∀ q ∈ v, q.1 * (L / q.2) ≠ -2147483648

/-- the images of points are points, and the images of rays are rays, up to their length -/
def HullContent.ClosedUnder {d : Nat} (c : HullContent d) (m : List (List (Option (List Char) × Int))) : Prop :=
  (∀ x, c.points x → c.points (mapPoint c.names m x)) ∧ ∀ x, c.rays x → ∃ s : ℚ, 0 < s ∧ c.rays (s • mapDirection c.names m x)

/-- the map is a symmetry of the hull: it maps the hull onto itself; this is so if it is invertible and maps the points and rays to
points and rays -/
def HullContent.Symmetry {d : Nat} (c : HullContent d) (m : List (List (Option (List Char) × Int))) : Prop :=
  MapsOnto c.names m (HullOf c.points c.rays) ∨ (Function.Injective (mapPoint c.names m : (Fin d → ℚ) → Fin d → ℚ) ∧ c.ClosedUnder m)

/-! ## inequalities -/

/-- what a file with equations and inequalities, or with representatives of inequalities, says -/
structure SystemContent (d : Nat) where
  names : List (List Char) := []
  maps : List (List (List (Option (List Char) × Int))) := []
  /-- inequalities are given -/
  given : Prop := False
  /-- the points that satisfy them -/
  inequalities : (Fin d → ℚ) → Prop := fun _ => True
  equations : List Constraint := []
  dimension : Option Nat := none

/-- The rest of a file with inequalities and equations in `d` dimensions, and how it changes the content: sections in any order (names
before maps and equations, maps before representatives); a later section replaces an earlier one of the same kind; all other
lines are ignored.  A section of representatives stands for what the inequalities say about all images of a point under
products of the maps given so far; no equations have been given before it, and no image of a map mentions a variable twice.
`Q` is a condition on the maps in such sections. -/
inductive SystemFile {d : Nat} (Q : List (List (List (Option (List Char) × Int))) → Prop) :
    SystemContent d → List Char → SystemContent d → Prop
  | nil {c : SystemContent d} : SystemFile Q c [] c
  | other {c c' : SystemContent d} {w l r : List Char} : FirstLine w l r → ¬ Header inequalityFileWords l → SystemFile Q c r c' →
      SystemFile Q c w c'
  | names {c c' : SystemContent d} {k t w : List Char} {names : List (List Char)} : '\n' ∉ k → Header nameWords k →
      NamesBody t names → SectionRest w → c.maps = [] → c.equations = [] → SystemFile Q { c with names := names } w c' →
      SystemFile Q c (k ++ '\n' :: (t ++ w)) c'
  | maps {c c' : SystemContent d} {k t w : List Char} {maps : List (List (List (Option (List Char) × Int)))} : '\n' ∉ k →
      Header mapWords k → Lines (MapLine c.names) t maps → SectionRest w → SystemFile Q { c with maps := maps } w c' →
      SystemFile Q c (k ++ '\n' :: (t ++ w)) c'
  | equations {c c' : SystemContent d} {k t w : List Char} {cs : List Constraint} : '\n' ∉ k →
      Header equationWords k → Lines (ConstraintText true c.names) t cs → (∀ a ∈ cs, a.HasSize c.names d) → SectionRest w →
      SystemFile Q { c with equations := cs } w c' → SystemFile Q c (k ++ '\n' :: (t ++ w)) c'
  | inequalities {c c' : SystemContent d} {k t w : List Char} {cs : List Constraint} : '\n' ∉ k →
      Header allInequalityWords k → Lines (ConstraintText false c.names) t cs → (∀ a ∈ cs, a.HasSize c.names d) → SectionRest w →
      SystemFile Q { c with given := (cs ≠ []), inequalities := fun p => ∀ a ∈ cs, a.HoldsAt false c.names p } w c' →
      SystemFile Q c (k ++ '\n' :: (t ++ w)) c'
  | reducedInequalities {c c' : SystemContent d} {k t w : List Char} {cs : List Constraint} : '\n' ∉ k →
      Header reducedInequalityWords k → Lines (ConstraintText false c.names) t cs → SectionRest w →
      c.maps ≠ [] → c.names ≠ [] → c.names.Nodup → c.names.length = d → c.equations = [] → (∀ m ∈ c.maps, PlainImages m) → Q c.maps →
      SystemFile Q
        { c with given := (cs ≠ []), inequalities := fun p => ∀ p', Moved c.names c.maps p p' → ∀ a ∈ cs, a.HoldsAt false c.names p' } w c' →
      SystemFile Q c (k ++ '\n' :: (t ++ w)) c'
  | dimension {c c' : SystemContent d} {k b n b' w : List Char} : '\n' ∉ k → Header dimensionEqWords k → Blanks b → Blanks b' →
      n ≠ [] → (∀ d ∈ n, Digit d) → decimal n < 2 ^ 64 → SystemFile Q { c with dimension := some (decimal n) } w c' →
      SystemFile Q c (k ++ '\n' :: (b ++ (n ++ (b' ++ '\n' :: w)))) c'

/-- there is an inequality; names and the declared dimension fit; rows of equations do not contain the smallest `int` -/
def SystemContent.Consistent {d : Nat} (c : SystemContent d) : Prop :=
  c.given ∧ (c.names ≠ [] → c.names.length = d) ∧ (∀ n ∈ c.dimension, n = d) ∧
    ∀ row, .raw row ∈ c.equations → (-2147483648 : Int) ∉ row

/-- the points that satisfy everything -/
def SystemContent.Solution {d : Nat} (c : SystemContent d) (p : Fin d → ℚ) : Prop :=
  c.inequalities p ∧ ∀ a ∈ c.equations, a.HoldsAt true c.names p

end Panda.Spec
