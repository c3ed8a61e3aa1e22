import Verif.Spec.MapText
import Verif.Spec.Options
import Verif.Spec.Polyhedron

/-! # Specification: whole input files (independent of the model) -/

namespace Panda.Spec

/-- every word, also with a colon -/
def withColon (ws : List String) : List String := ws.flatMap fun w => [w, w ++ ":"]

/-- words that start the list of names -/
def nameWords : List String := withColon
  ["INDEX", "INDICES", "INDEX_SECTION", "INDICES_SECTION", "NAMES", "NAME_SECTION", "NAMES_SECTION", "Indices", "Names"]
/-- words that start the list of maps -/
def mapWords : List String := withColon ["MAPS", "MAP_SECTION", "MAPS_SECTION", "Maps"]
/-- words that start the list of points -/
def pointWords : List String := withColon ["CONVEX_HULL", "CONVEX_HULL_SECTION", "CONV_SECTION", "Vertices"]
/-- words that start the list of representatives of points -/
def reducedPointWords : List String :=
  withColon ["REDUCED_CONVEX_HULL", "REDUCED_CONVEX_HULL_SECTION", "REDUCED_CONV_SECTION", "Reduced Vertices"]
/-- words that start the list of rays -/
def rayWords : List String := withColon ["CONICAL_HULL", "CONICAL_HULL_SECTION", "CONE_SECTION", "Rays"]
/-- words that start the list of representatives of rays -/
def reducedRayWords : List String :=
  withColon ["REDUCED_CONICAL_HULL", "REDUCED_CONICAL_HULL_SECTION", "REDUCED_CONE_SECTION", "Reduced Rays"]
/-- words that start the list of equations -/
def equationWords : List String := withColon ["EQUATIONS", "EQUATION_SECTION", "EQUATIONS_SECTION", "Equations"]
/-- words that start the list of inequalities -/
def allInequalityWords : List String := withColon ["INEQUALITIES", "INEQUALITY_SECTION", "INEQUALITIES_SECTION", "Inequalities"]
/-- words that start the list of representatives of inequalities -/
def reducedInequalityWords : List String :=
  withColon ["REDUCED_INEQUALITIES", "REDUCED_INEQUALITY_SECTION", "REDUCED_INEQUALITIES_SECTION", "Reduced Inequalities"]
/-- words that announce the dimension, with the equality sign -/
def dimensionEqWords : List String := ["DIM=", "DIMENSION=", "Dim=", "Dimension="]
/-- words that announce the dimension -/
def dimensionWords : List String := dimensionEqWords ++ ["DIM", "DIMENSION", "Dim", "Dimension"]
/-- all words with a meaning -/
def headerWords : List String :=
  nameWords ++ mapWords ++ pointWords ++ reducedPointWords ++ rayWords ++ reducedRayWords ++ equationWords ++
    allInequalityWords ++ reducedInequalityWords ++ dimensionWords ++ ["END", "End", "Reduced"]

/-- the line consists of one of the words, up to blanks -/
def Header (words : List String) (l : List Char) : Prop :=
  ∃ b b' : List Char, ∃ k ∈ words, Blanks b ∧ Blanks b' ∧ l = b ++ (k.toList ++ b')

/-- what may follow a section: nothing, or a line with a header -/
def SectionRest (w : List Char) : Prop :=
  w = [] ∨ ∃ k r, FirstLine w k r ∧ k.head? ≠ some '\r' ∧ Header headerWords k

/-- words separated by white space -/
inductive Words : List Char → List (List Char) → Prop
  | nil {s : List Char} : (∀ c ∈ s, Space c) → Words s []
  | cons {s x t : List Char} {xs : List (List Char)} : (∀ c ∈ s, Space c) → x ≠ [] → (∀ c ∈ x, ¬ Space c) →
      (∃ c ∈ t.head?, Space c) → Words t xs → Words (s ++ (x ++ t)) (x :: xs)

/-- the body of a section of names: lines with words that are not headers -/
def NamesBody (t : List Char) (names : List (List Char)) : Prop :=
  Words t names ∧ (t = [] ∨ t.getLast? = some '\n') ∧ ∀ x ∈ names, ∀ k ∈ headerWords, x ≠ k.toList

/-- the content of a file with points and rays -/
structure VertexContent where
  names : List (List Char) := []
  maps : List (List (List (Option (List Char) × Int))) := []
  points : List (List (Int × Int)) := []
  rays : List (List (Int × Int)) := []
  dimension : Option Nat := none

/-- words with an effect in a file with points and rays -/
def vertexFileWords : List String :=
  nameWords ++ mapWords ++ pointWords ++ reducedPointWords ++ rayWords ++ reducedRayWords ++ dimensionWords

/-- the lines of a section of points or rays: coordinates that fit, no zero denominators -/
def PointLines (t : List Char) (vs : List (List (Int × Int))) : Prop :=
  VertexLines t vs ∧ ∀ cs ∈ vs, Fits cs ∧ ¬ ∃ q ∈ cs, q.2 = 0

/-- the rest of a file with points and rays, and how it changes the content: sections in any order (names before maps); a
later section replaces an earlier one of the same kind; all other lines are ignored -/
inductive VertexFile : VertexContent → List Char → VertexContent → Prop
  | nil {c : VertexContent} : VertexFile c [] c
  | other {c c' : VertexContent} {w l r : List Char} : FirstLine w l r → ¬ Header vertexFileWords l → VertexFile c r c' →
      VertexFile c w c'
  | names {c c' : VertexContent} {k t w : List Char} {names : List (List Char)} : '\n' ∉ k → Header nameWords k →
      NamesBody t names → SectionRest w → c.maps = [] → VertexFile { c with names := names } w c' →
      VertexFile c (k ++ '\n' :: (t ++ w)) c'
  | maps {c c' : VertexContent} {k t w : List Char} {maps : List (List (List (Option (List Char) × Int)))} : '\n' ∉ k →
      Header mapWords k → Lines (MapLine c.names) t maps → SectionRest w → VertexFile { c with maps := maps } w c' →
      VertexFile c (k ++ '\n' :: (t ++ w)) c'
  | points {c c' : VertexContent} {k t w : List Char} {vs : List (List (Int × Int))} : '\n' ∉ k → Header pointWords k →
      PointLines t vs → SectionRest w → VertexFile { c with points := vs } w c' → VertexFile c (k ++ '\n' :: (t ++ w)) c'
  | rays {c c' : VertexContent} {k t w : List Char} {vs : List (List (Int × Int))} : '\n' ∉ k → Header rayWords k →
      PointLines t vs → SectionRest w → VertexFile { c with rays := vs } w c' → VertexFile c (k ++ '\n' :: (t ++ w)) c'
  | dimension {c c' : VertexContent} {k b n b' w : List Char} : '\n' ∉ k → Header dimensionEqWords k → Blanks b → Blanks b' →
      n ≠ [] → (∀ d ∈ n, Digit d) → decimal n < 2 ^ 64 → VertexFile { c with dimension := some (decimal n) } w c' →
      VertexFile c (k ++ '\n' :: (b ++ (n ++ (b' ++ '\n' :: w)))) c'

/-- an inequality or equation as written: over named variables, by coefficients, or as a row -/
inductive Constraint where
  | named (terms : List (List Char × Int)) (rel : Rel) (rhs : Int)
  | unnamed (coefficients : List Int) (rel : Rel) (rhs : Int)
  | raw (row : List Int)

/-- the content of a file with inequalities and equations -/
structure InequalityContent where
  names : List (List Char) := []
  maps : List (List (List (Option (List Char) × Int))) := []
  inequalities : List Constraint := []
  equations : List Constraint := []
  dimension : Option Nat := none

/-- words with an effect in a file with inequalities -/
def inequalityFileWords : List String :=
  nameWords ++ mapWords ++ equationWords ++ allInequalityWords ++ reducedInequalityWords ++ dimensionWords

/-- names that can be used in constraints: no repetition, no name is a prefix of an earlier one -/
def UsableNames (names : List (List Char)) : Prop := AdmissibleNames names ∧ NoPrefix names

/-- a line with an inequality or equation.  Over named variables some name is at the start, the factors fit, no variable is
repeated.  The relation is `=` for equations and an inequality otherwise. -/
def ConstraintText (equation : Bool) (names : List (List Char)) (t : List Char) : Constraint → Prop
  | .named terms rel rhs => UsableNames names ∧ ConstraintLine t terms rel rhs ∧ NameAt names t ∧
      (∀ q ∈ terms, q.1 ∈ names ∧ Symmetric q.2) ∧ Symmetric rhs ∧ ¬ Repeated terms ∧ (equation = true ↔ rel = .eq)
  | .unnamed xs rel rhs => names = [] ∧ UnnamedLine t xs rel rhs ∧ (∀ x ∈ xs, Symmetric x) ∧ Symmetric rhs ∧
      (equation = true ↔ rel = .eq)
  | .raw row => names = [] ∧ RawLine t row ∧ ∀ x ∈ row, IsInt x

/-- the row represents the constraint -/
def Constraint.HasRow (names : List (List Char)) : Constraint → List Int → Prop
  | .named terms rel rhs, row => ConstraintRow names terms rel rhs row
  | .unnamed xs rel rhs, row => row = xs.map (rel.sign * ·) ++ [rel.sign * (-rhs)]
  | .raw r, row => row = r

/-- the rest of a file with inequalities and equations and how it changes the content -/
inductive InequalityFile : InequalityContent → List Char → InequalityContent → Prop
  | nil {c : InequalityContent} : InequalityFile c [] c
  | other {c c' : InequalityContent} {w l r : List Char} : FirstLine w l r → ¬ Header inequalityFileWords l → InequalityFile c r c' →
      InequalityFile c w c'
  | names {c c' : InequalityContent} {k t w : List Char} {names : List (List Char)} : '\n' ∉ k → Header nameWords k →
      NamesBody t names → SectionRest w → c.maps = [] → c.inequalities = [] → c.equations = [] →
      InequalityFile { c with names := names } w c' → InequalityFile c (k ++ '\n' :: (t ++ w)) c'
  | maps {c c' : InequalityContent} {k t w : List Char} {maps : List (List (List (Option (List Char) × Int)))} : '\n' ∉ k →
      Header mapWords k → Lines (MapLine c.names) t maps → SectionRest w → InequalityFile { c with maps := maps } w c' →
      InequalityFile c (k ++ '\n' :: (t ++ w)) c'
  | equations {c c' : InequalityContent} {k t w : List Char} {cs : List Constraint} : '\n' ∉ k →
      Header equationWords k → Lines (ConstraintText true c.names) t cs → SectionRest w →
      InequalityFile { c with equations := cs } w c' → InequalityFile c (k ++ '\n' :: (t ++ w)) c'
  | inequalities {c c' : InequalityContent} {k t w : List Char} {cs : List Constraint} : '\n' ∉ k →
      Header allInequalityWords k → Lines (ConstraintText false c.names) t cs → SectionRest w →
      InequalityFile { c with inequalities := cs } w c' → InequalityFile c (k ++ '\n' :: (t ++ w)) c'
  | dimension {c c' : InequalityContent} {k b n b' w : List Char} : '\n' ∉ k → Header dimensionEqWords k → Blanks b → Blanks b' →
      n ≠ [] → (∀ d ∈ n, Digit d) → decimal n < 2 ^ 64 → InequalityFile { c with dimension := some (decimal n) } w c' →
      InequalityFile c (k ++ '\n' :: (b ++ (n ++ (b' ++ '\n' :: w)))) c'

/-- a file with known facets: lines without headers, then the inequalities (what follows is ignored) -/
inductive KnownFacetFile (names : List (List Char)) : List Char → List Constraint → Prop
  | other {w l r : List Char} {cs : List Constraint} : FirstLine w l r → ¬ Header headerWords l → KnownFacetFile names r cs →
      KnownFacetFile names w cs
  | inequalities {k t w : List Char} {cs : List Constraint} : '\n' ∉ k → Header allInequalityWords k →
      Lines (ConstraintText false names) t cs → SectionRest w → KnownFacetFile names (k ++ '\n' :: (t ++ w)) cs

/-- the rest of a file with known points and rays: sections of points and of rays count, the last of each kind; all other lines
are ignored -/
inductive KnownVertexFile : List (List (Int × Int)) × List (List (Int × Int)) → List Char →
    List (List (Int × Int)) × List (List (Int × Int)) → Prop
  | nil {c : List (List (Int × Int)) × List (List (Int × Int))} : KnownVertexFile c [] c
  | other {c c' : List (List (Int × Int)) × List (List (Int × Int))} {w l r : List Char} : FirstLine w l r →
      ¬ Header (pointWords ++ rayWords) l → KnownVertexFile c r c' → KnownVertexFile c w c'
  | points {c c' : List (List (Int × Int)) × List (List (Int × Int))} {k t w : List Char} {vs : List (List (Int × Int))} :
      '\n' ∉ k → Header pointWords k → PointLines t vs → SectionRest w → KnownVertexFile (vs, c.2) w c' →
      KnownVertexFile c (k ++ '\n' :: (t ++ w)) c'
  | rays {c c' : List (List (Int × Int)) × List (List (Int × Int))} {k t w : List Char} {vs : List (List (Int × Int))} :
      '\n' ∉ k → Header rayWords k → PointLines t vs → SectionRest w → KnownVertexFile (c.1, vs) w c' →
      KnownVertexFile c (k ++ '\n' :: (t ++ w)) c'

/-- one of the first `n` lines of the text is a header -/
inductive EarlyHeader : Nat → List Char → Prop
  | here {n : Nat} {w l r : List Char} : FirstLine w l r → Header headerWords l → EarlyHeader (n + 1) w
  | later {n : Nat} {w l r : List Char} : FirstLine w l r → EarlyHeader n r → EarlyHeader (n + 1) w

/-- a command line for the file `f` without the options `-c` / `--check` and `-k` / `--known-…` -/
def PlainCommand (args : List (List Char)) (f : List Char) : Prop :=
  CommandLine args [f] ∧ "-c".toList ∉ args ∧ "--check".toList ∉ args ∧ Absent 'k' args

/-- points and rays have `n` coordinates, and so have the names, the maps and the declared dimension -/
def VertexContent.Consistent (c : VertexContent) (n : Nat) : Prop :=
  (c.points ≠ [] ∨ c.rays ≠ []) ∧ (∀ p ∈ c.points, p.length = n) ∧ (∀ r ∈ c.rays, r.length = n) ∧
    (c.names ≠ [] ∨ c.maps ≠ [] → c.names.length = n) ∧ ∀ d ∈ c.dimension, d = n

/-- the point with the given coordinates -/
def point (d : Nat) (cs : List (Int × Int)) : Fin d → ℚ := fun i => ((cs.getD i (0, 1)).1 : ℚ) / ((cs.getD i (0, 1)).2 : ℚ)

/-- convex combination of the points plus conic combination of the rays -/
def InHull (d : Nat) (points rays : List (List (Int × Int))) (p : Fin d → ℚ) : Prop :=
  ∃ (a : Fin points.length → ℚ) (b : Fin rays.length → ℚ), (∀ j, 0 ≤ a j) ∧ (∀ j, 0 ≤ b j) ∧ ∑ j, a j = 1 ∧
    p = ∑ j, a j • point d points[j] + ∑ j, b j • point d rays[j]

/-- the value of every variable at a point -/
def valuation (names : List (List Char)) {d : Nat} (p : Fin d → ℚ) (x : List Char) : ℚ :=
  if h : names.idxOf x < d then p ⟨names.idxOf x, h⟩ else 0

/-- number of coordinates of a constraint -/
def Constraint.HasSize (names : List (List Char)) (d : Nat) : Constraint → Prop
  | .named _ _ _ => names.length = d
  | .unnamed xs _ _ => xs.length = d
  | .raw row => row.length = d + 1

/-- the constraint holds at the point; a row `(a, -b)` means `a·p ≤ b` or `a·p = b` -/
def Constraint.HoldsAt (equation : Bool) (names : List (List Char)) {d : Nat} (p : Fin d → ℚ) : Constraint → Prop
  | .named terms rel rhs => rel.holds (sumValue terms (valuation names p)) rhs
  | .unnamed xs rel rhs => rel.holds (∑ j : Fin d, (xs.getD j 0 : ℚ) * p j) rhs
  | .raw row => if equation then value d row p = 0 else value d row p ≤ 0

/-- the constraints have `n` coordinates, and so have the names and the declared dimension; there is an inequality; rows of
equations do not contain the smallest `int` -/
def InequalityContent.Consistent (c : InequalityContent) (n : Nat) : Prop :=
  c.inequalities ≠ [] ∧ (∀ a ∈ c.inequalities, a.HasSize c.names n) ∧ (∀ a ∈ c.equations, a.HasSize c.names n) ∧
    (c.names ≠ [] → c.names.length = n) ∧ (∀ d ∈ c.dimension, d = n) ∧
    ∀ row, .raw row ∈ c.equations → (-2147483648 : Int) ∉ row

end Panda.Spec
