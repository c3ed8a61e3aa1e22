import Verif.Spec.Symmetric

/-! # Specification: the option `-c` (independent of the model) -/

namespace Panda.Spec

/-- a command line for the file `f` with the option `-c` / `--check` and without `-k` / `--known-…` -/
def CheckedCommand (args : List (List Char)) (f : List Char) : Prop :=
  CommandLine args [f] ∧ ("-c".toList ∈ args ∨ "--check".toList ∈ args) ∧ Absent 'k' args

/-- as `VertexFile`, but maps come before points and rays, and there is at most one section of points and one of rays that is not
empty -/
inductive OrderedVertexFile : VertexContent → List Char → VertexContent → Prop
  | nil {c : VertexContent} : OrderedVertexFile c [] c
  | other {c c' : VertexContent} {w l r : List Char} : FirstLine w l r → ¬ Header vertexFileWords l → OrderedVertexFile c r c' →
      OrderedVertexFile c w c'
  | names {c c' : VertexContent} {k t w : List Char} {names : List (List Char)} : '\n' ∉ k → Header nameWords k →
      NamesBody t names → SectionRest w → c.maps = [] → OrderedVertexFile { c with names := names } w c' →
      OrderedVertexFile c (k ++ '\n' :: (t ++ w)) c'
  | maps {c c' : VertexContent} {k t w : List Char} {maps : List (List (List (Option (List Char) × Int)))} : '\n' ∉ k →
      Header mapWords k → Lines (MapLine c.names) t maps → SectionRest w → c.points = [] → c.rays = [] →
      OrderedVertexFile { c with maps := maps } w c' → OrderedVertexFile c (k ++ '\n' :: (t ++ w)) c'
  | points {c c' : VertexContent} {k t w : List Char} {vs : List (List (Int × Int))} : '\n' ∉ k → Header pointWords k →
      PointLines t vs → SectionRest w → c.points = [] → OrderedVertexFile { c with points := vs } w c' →
      OrderedVertexFile c (k ++ '\n' :: (t ++ w)) c'
  | rays {c c' : VertexContent} {k t w : List Char} {vs : List (List (Int × Int))} : '\n' ∉ k → Header rayWords k →
      PointLines t vs → SectionRest w → c.rays = [] → OrderedVertexFile { c with rays := vs } w c' →
      OrderedVertexFile c (k ++ '\n' :: (t ++ w)) c'
  | dimension {c c' : VertexContent} {k b n b' w : List Char} : '\n' ∉ k → Header dimensionEqWords k → Blanks b → Blanks b' →
      n ≠ [] → (∀ d ∈ n, Digit d) → decimal n < 2 ^ 64 → OrderedVertexFile { c with dimension := some (decimal n) } w c' →
      OrderedVertexFile c (k ++ '\n' :: (b ++ (n ++ (b' ++ '\n' :: w)))) c'

/-- as `InequalityFile`, but maps come before inequalities, and there is at most one section of inequalities that is not empty -/
inductive OrderedInequalityFile : InequalityContent → List Char → InequalityContent → Prop
  | nil {c : InequalityContent} : OrderedInequalityFile c [] c
  | other {c c' : InequalityContent} {w l r : List Char} : FirstLine w l r → ¬ Header inequalityFileWords l → OrderedInequalityFile c r c' →
      OrderedInequalityFile c w c'
  | names {c c' : InequalityContent} {k t w : List Char} {names : List (List Char)} : '\n' ∉ k → Header nameWords k →
      NamesBody t names → SectionRest w → c.maps = [] → c.inequalities = [] → c.equations = [] →
      OrderedInequalityFile { c with names := names } w c' → OrderedInequalityFile c (k ++ '\n' :: (t ++ w)) c'
  | maps {c c' : InequalityContent} {k t w : List Char} {maps : List (List (List (Option (List Char) × Int)))} : '\n' ∉ k →
      Header mapWords k → Lines (MapLine c.names) t maps → SectionRest w → c.inequalities = [] →
      OrderedInequalityFile { c with maps := maps } w c' → OrderedInequalityFile c (k ++ '\n' :: (t ++ w)) c'
  | equations {c c' : InequalityContent} {k t w : List Char} {cs : List Constraint} : '\n' ∉ k →
      Header equationWords k → Lines (ConstraintText true c.names) t cs → SectionRest w →
      OrderedInequalityFile { c with equations := cs } w c' → OrderedInequalityFile c (k ++ '\n' :: (t ++ w)) c'
  | inequalities {c c' : InequalityContent} {k t w : List Char} {cs : List Constraint} : '\n' ∉ k →
      Header allInequalityWords k → Lines (ConstraintText false c.names) t cs → SectionRest w → c.inequalities = [] →
      OrderedInequalityFile { c with inequalities := cs } w c' → OrderedInequalityFile c (k ++ '\n' :: (t ++ w)) c'
  | dimension {c c' : InequalityContent} {k b n b' w : List Char} : '\n' ∉ k → Header dimensionEqWords k → Blanks b → Blanks b' →
      n ≠ [] → (∀ d ∈ n, Digit d) → decimal n < 2 ^ 64 → OrderedInequalityFile { c with dimension := some (decimal n) } w c' →
      OrderedInequalityFile c (k ++ '\n' :: (b ++ (n ++ (b' ++ '\n' :: w)))) c'

/-- the map permutes the points -/
def PermutesPoints (names : List (List Char)) {d : Nat} (m : List (List (Option (List Char) × Int))) (ps : List (Fin d → ℚ)) : Prop :=
  (∀ p ∈ ps, mapPoint names m p ∈ ps) ∧ ∀ p ∈ ps, ∃ q ∈ ps, mapPoint names m q = p

/-- the map permutes the directions, up to positive factors -/
def PermutesRays (names : List (List Char)) {d : Nat} (m : List (List (Option (List Char) × Int))) (rs : List (Fin d → ℚ)) : Prop :=
  (∀ r ∈ rs, ∃ r' ∈ rs, ∃ s : ℚ, 0 < s ∧ mapDirection names m r = s • r') ∧
    ∀ r' ∈ rs, ∃ r ∈ rs, ∃ s : ℚ, 0 < s ∧ mapDirection names m r = s • r'

/-- the rows are different and in lowest terms -/
def CanonicalRows (rows : List (List Int)) : Prop := rows.Nodup ∧ ∀ r ∈ rows, LowestTerms r

/-- all maps of a file permute its points and its rays -/
def VertexContent.MapsPermute (c : VertexContent) (d : Nat) : Prop :=
  ∀ m ∈ c.maps, PermutesPoints c.names m (c.points.map (point d)) ∧ PermutesRays c.names m (c.rays.map (point d))

/-- the checks accept the content of a file: without maps always; with maps if and only if the maps permute the points and the rays,
and the given rows of points and of rays are different and in lowest terms -/
def VertexContent.Accepted (c : VertexContent) (n : Nat) (points rays : List (List Int)) : Prop :=
  c.maps ≠ [] → c.MapsPermute n ∧ CanonicalRows points ∧ CanonicalRows rays

/-- the map permutes inequalities given as rows `(a, -b)` for `a·p ≤ b`, up to positive factors: the inequality at the image of a point says
the same as another one at the point itself -/
def PermutesInequalities (names : List (List Char)) (d : Nat) (m : List (List (Option (List Char) × Int))) (rows : List (List Int)) : Prop :=
  (∀ a ∈ rows, ∃ b ∈ rows, ∃ s : ℚ, 0 < s ∧ ∀ p : Fin d → ℚ, value d a (mapPoint names m p) = s * value d b p) ∧
    ∀ b ∈ rows, ∃ a ∈ rows, ∃ s : ℚ, 0 < s ∧ ∀ p : Fin d → ℚ, value d a (mapPoint names m p) = s * value d b p

/-- the checks accept a list of inequalities, given as rows: without maps always; with maps if and only if the maps permute the
inequalities, and the rows are different and in lowest terms -/
def InequalityContent.Accepted (c : InequalityContent) (n : Nat) (rows : List (List Int)) : Prop :=
  c.maps ≠ [] → (∀ m ∈ c.maps, PermutesInequalities c.names n m rows) ∧ CanonicalRows rows

end Panda.Spec
