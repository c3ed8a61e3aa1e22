import Verif.Props.InputFile
import Verif.Props.Known
import Verif.Proofs.Hull

/-! # C57: meaning of the rows, examples and limits -/

namespace Panda

/-- the hull of the rows of points and rays -/
theorem rows_hull {points rays : List (List (Int × Int))} {P R : Matrix} {n : Nat} (order : InputOrder)
    (h1 : List.Forall₂ Spec.PointRow points P) (h2 : List.Forall₂ Spec.RayRow rays R) (hint : ∀ r ∈ P ++ R, ∀ x ∈ r, Spec.IsInt x)
    (c2 : ∀ p ∈ points, p.length = n) (c3 : ∀ r ∈ rays, r.length = n) :
    (∀ v ∈ sortRows order R ++ sortRows order P, v.length = n + 1) ∧ (∀ v ∈ sortRows order R ++ sortRows order P, ∀ x ∈ v, Spec.IsInt x) ∧
      (∀ v ∈ sortRows order R ++ sortRows order P, 0 ≤ v.getD n 0) ∧ (sortRows order R ++ sortRows order P).length = points.length + rays.length ∧
      (∀ p, Spec.InPolyhedron n (sortRows order R ++ sortRows order P) p ↔ Spec.InHull n points rays p) ∧
      (points ≠ [] → Spec.IsVInput n (sortRows order R ++ sortRows order P)) := by
  have lP := forall₂_length (n := n) List.length List.length h1 c2 (fun a _ b hb hn => by rw [hb.1, hn])
  have lR := forall₂_length (n := n) List.length List.length h2 c3 (fun a _ b hb hn => by rw [hb.1, hn])
  have hmem : ∀ v ∈ sortRows order R ++ sortRows order P, v ∈ R ∨ v ∈ P := by
    intro v hv
    rw [List.mem_append, (sortRows_perm order R).mem_iff, (sortRows_perm order P).mem_iff] at hv
    exact hv
  have hsize : ∀ v ∈ sortRows order R ++ sortRows order P, v.length = n + 1 := by
    intro v hv
    rcases hmem v hv with hv | hv
    · exact lR v hv
    · exact lP v hv
  have pos : ∀ v ∈ P, 0 < v.getD n 0 := by
    intro v hv
    obtain ⟨a, ha, hl, hb⟩ := forall₂_right h1 c2 v hv
    rw [← hl]; exact hb.2.1
  have hlast : ∀ v ∈ sortRows order R ++ sortRows order P, 0 ≤ v.getD n 0 := by
    intro v hv
    rcases hmem v hv with hv | hv
    · obtain ⟨a, ha, hl, hb⟩ := forall₂_right h2 c3 v hv
      rw [← hl, hb.2.1]
    · exact (pos v hv).le
  refine ⟨hsize, fun v hv => hint v (List.mem_append.2 (hmem v hv).symm), hlast, ?_, ?_, ?_⟩
  · rw [List.length_append, (sortRows_perm order R).length_eq, (sortRows_perm order P).length_eq, h1.length_eq, h2.length_eq,
      Nat.add_comm]
  · intro p
    rw [inPolyhedron_sorted, inPolyhedron_hull h1 h2 c2 c3]
  · intro hne
    obtain ⟨a, r, e⟩ := List.exists_cons_of_ne_nil hne
    obtain ⟨v, hv, -⟩ := forall₂_left h1 a (by rw [e]; simp)
    exact ⟨hsize, hlast, v, by rw [List.mem_append, (sortRows_perm order P).mem_iff]; exact Or.inr hv, pos v hv⟩

/-- the rows for a file with points and rays depend only on its text and the requested sorting -/
theorem hull_read_all {text : List Char} (order : InputOrder) {c : Spec.VertexContent} {n : Nat}
    (h20 : Spec.EarlyHeader 20 text) (h : Spec.VertexFile {} text c) (hc : c.Consistent n) :
    ∃ (V : Matrix) (maps : Maps), List.Forall₂ (Spec.DoesImages c.names) c.maps maps ∧
      (∀ v ∈ V, v.length = n + 1) ∧ (∀ v ∈ V, ∀ x ∈ v, Spec.IsInt x) ∧ (∀ v ∈ V, 0 ≤ v.getD n 0) ∧ V.length = c.points.length + c.rays.length ∧
      (∀ p, Spec.InPolyhedron n V p ↔ Spec.InHull n c.points c.rays p) ∧
      (c.points ≠ [] → Spec.IsVInput n V) ∧
      ∀ (args : List Arg) (files : Files) (f : List Char) (known : Matrix), Spec.CommandLine args [f] →
        "-c".toList ∉ args → "--check".toList ∉ args → files f = some text → getInputOrder args = .ok order →
        (∃ M, ∀ fuel ≥ M, knownFacets fuel files args c.names = some (.ok known)) →
        ∃ N, ∀ fuel ≥ N, inputVertices fuel files args = some (.ok (V, c.names, maps, known)) := by
  obtain ⟨P, R, maps, h1, h2, h3, hint, h4⟩ := vertices_read_all h20 h hc
  obtain ⟨g1, g2, g3, g4, g5, g6⟩ := rows_hull order h1 h2 hint hc.2.1 hc.2.2.1
  exact ⟨sortRows order R ++ sortRows order P, maps, h3, g1, g2, g3, g4, g5, g6, fun args files f known => h4 args files f order known⟩

/-- **C57** The polyhedron handed to the algorithms is the convex hull of the points of the file plus the cone of its rays; there
are as many rows as points and rays. -/
theorem C57_hull {args : List Arg} {f text : List Char} {files : Files} {order : InputOrder} {c : Spec.VertexContent} {n : Nat}
    (ha : Spec.PlainCommand args f) (hf : files f = some text) (ho : getInputOrder args = .ok order)
    (h20 : Spec.EarlyHeader 20 text) (h : Spec.VertexFile {} text c) (hc : c.Consistent n) :
    ∃ (V : Matrix) (maps : Maps), List.Forall₂ (Spec.DoesImages c.names) c.maps maps ∧
      (∀ v ∈ V, v.length = n + 1) ∧ (∀ v ∈ V, ∀ x ∈ v, Spec.IsInt x) ∧ (∀ v ∈ V, 0 ≤ v.getD n 0) ∧ V.length = c.points.length + c.rays.length ∧
      (∀ p, Spec.InPolyhedron n V p ↔ Spec.InHull n c.points c.rays p) ∧
      (c.points ≠ [] → Spec.IsVInput n V) ∧
      ∃ N, ∀ fuel ≥ N, inputVertices fuel files args = some (.ok (V, c.names, maps, [])) := by
  obtain ⟨V, maps, h1, h2, h3, h4, h5, h6, h7, h8⟩ := hull_read_all order h20 h hc
  exact ⟨V, maps, h1, h2, h3, h4, h5, h6, h7, h8 args files f [] ha.1 ha.2.1 ha.2.2.1 hf ho ⟨0, fun fuel _ => by
    unfold knownFacets
    rw [known_absent true args ha.2.2.2]
    simp [Run.bind]⟩⟩

/-! ## examples -/

theorem blanks_example : Spec.Blanks [] ∧ Spec.Blanks " ".toList :=
  ⟨by intro c hc; simp at hc, by intro c hc; simp at hc; simp [hc]⟩

theorem header_example (ws : List String) (k : String) (h : k ∈ ws) : Spec.Header ws k.toList :=
  ⟨[], [], k, h, blanks_example.1, blanks_example.1, by simp⟩

/-- the content of the file of the example -/
def exampleContent : Spec.VertexContent :=
  { names := ["x".toList, "y".toList], points := [[(1, 2), (-3, 1)]], rays := [[(2, 1), (5, 1)]], dimension := some 2 }

def exampleText : List Char :=
  "a comment\nDIM=\n2\nNames:\nx y\nVertices:\n1/2 -3\nRays:\n2 5\n".toList

theorem exampleFile : Spec.VertexFile {} exampleText exampleContent := by
  obtain ⟨b0, b1⟩ := blanks_example
  obtain ⟨h1, h2, h3, h5⟩ := numeral_example
  have h5' : Spec.Numeral "5".toList 5 := Spec.Numeral.plain "5".toList (by decide) (by simp [Spec.Digit])
  have sp : ∀ c : Char, c = ' ' ∨ c = '\n' → Spec.Space c := by rintro c (rfl | rfl) <;> unfold Spec.Space <;> decide
  refine .other (l := "a comment".toList) (r := "DIM=\n2\nNames:\nx y\nVertices:\n1/2 -3\nRays:\n2 5\n".toList)
    ⟨by decide +kernel, Or.inl (by decide +kernel)⟩ ?_ ?_
  · intro h
    have := (header_keyword _).2 (h.mono (vs := Spec.headerWords) (by decide +kernel))
    revert this; decide +kernel
  refine Spec.VertexFile.dimension (k := "DIM=".toList) (b := []) (n := "2".toList) (b' := [])
    (w := "Names:\nx y\nVertices:\n1/2 -3\nRays:\n2 5\n".toList) (by decide +kernel) (header_example _ "DIM=" (by decide +kernel)) b0 b0
    (by decide +kernel) (by simp [Spec.Digit]) (by decide +kernel) ?_
  refine Spec.VertexFile.names (k := "Names:".toList) (t := "x y\n".toList) (w := "Vertices:\n1/2 -3\nRays:\n2 5\n".toList)
    (names := ["x".toList, "y".toList]) (by decide +kernel) (header_example _ "Names:" (by decide +kernel)) ⟨?_, Or.inr (by decide +kernel), by decide +kernel⟩
    (Or.inr ⟨"Vertices:".toList, "1/2 -3\nRays:\n2 5\n".toList, ⟨by decide +kernel, Or.inl (by decide +kernel)⟩, by decide +kernel,
      header_example _ "Vertices:" (by decide +kernel)⟩) rfl ?_
  · refine .cons (s := []) (x := "x".toList) (t := " y\n".toList) (by simp) (by decide) (by unfold Spec.Space; decide) ⟨' ', by decide, sp _ (Or.inl rfl)⟩ ?_
    refine .cons (s := " ".toList) (x := "y".toList) (t := "\n".toList) (fun c hc => sp _ (Or.inl (by simpa using hc))) (by decide)
      (by unfold Spec.Space; decide) ⟨'\n', by decide, sp _ (Or.inr rfl)⟩ ?_
    exact .nil (fun c hc => sp _ (Or.inr (by simpa using hc)))
  refine Spec.VertexFile.points (k := "Vertices:".toList) (t := "1/2 -3\n".toList) (w := "Rays:\n2 5\n".toList)
    (vs := [[(1, 2), (-3, 1)]]) (by decide +kernel) (header_example _ "Vertices:" (by decide +kernel)) ⟨?_, ?_⟩
    (Or.inr ⟨"Rays:".toList, "2 5\n".toList, ⟨by decide +kernel, Or.inl (by decide +kernel)⟩, by decide +kernel,
      header_example _ "Rays:" (by decide +kernel)⟩) ?_
  · refine Spec.VertexLines.vertex (l := "1/2 -3".toList) (t := []) ⟨[], "1/2 -3".toList, .none b0, ?_, rfl⟩ .nil
    exact Spec.Coordinates.cons (t := "1/2".toList) (b := " ".toList) (ts := "-3".toList)
        (Spec.Fraction.quotient (t := "1".toList) (t' := "2".toList) (b := []) (b' := []) h1 b0 b0 h2) b1 (by decide)
        (Spec.Coordinates.last (t := "-3".toList) (b := []) (Spec.Fraction.whole h3) b0)
  · intro cs hcs
    rw [List.mem_singleton.1 hcs]
    refine ⟨⟨?_, 2, ⟨by decide, by decide, fun m hm => hm 2 (by decide)⟩, by unfold Spec.IsInt; decide, ?_⟩, by decide⟩ <;>
    · unfold Spec.IsInt; decide
  refine Spec.VertexFile.rays (k := "Rays:".toList) (t := "2 5\n".toList) (w := [])
    (vs := [[(2, 1), (5, 1)]]) (by decide +kernel) (header_example _ "Rays:" (by decide +kernel)) ⟨?_, ?_⟩ (Or.inl rfl) .nil
  · refine Spec.VertexLines.vertex (l := "2 5".toList) (t := []) ⟨[], "2 5".toList, .none b0, ?_, rfl⟩ .nil
    exact Spec.Coordinates.cons (t := "2".toList) (b := " ".toList) (ts := "5".toList) (Spec.Fraction.whole h2) b1 (by decide)
        (Spec.Coordinates.last (t := "5".toList) (b := []) (Spec.Fraction.whole h5') b0)
  · intro cs hcs
    rw [List.mem_singleton.1 hcs]
    refine ⟨⟨?_, 1, ⟨by decide, by decide, fun m hm => by omega⟩, by unfold Spec.IsInt; decide, ?_⟩, by decide⟩ <;>
    · unfold Spec.IsInt; decide

theorem exampleCommand : Spec.PlainCommand ["-m".toList, "dd".toList, "file".toList] "file".toList := by
  refine ⟨?_, by decide +kernel, by decide +kernel, ?_⟩
  · exact .short (a := "-m".toList) (p := "dd".toList) (by decide +kernel) (by decide +kernel) (by decide +kernel) (by decide +kernel)
      (.file (by decide +kernel) (by decide +kernel) .nil)
  · intro a ha
    unfold Spec.LooksLike
    revert a
    decide +kernel

/-- the hypotheses of C57 can be met -/
example : Spec.PlainCommand ["-m".toList, "dd".toList, "file".toList] "file".toList ∧ Spec.EarlyHeader 20 exampleText ∧
    Spec.VertexFile {} exampleText exampleContent ∧ exampleContent.Consistent 2 :=
  ⟨exampleCommand, containsKeywords_early.2 (by decide +kernel), exampleFile, by
    refine ⟨Or.inl (by decide), ?_, ?_, fun _ => rfl, ?_⟩ <;> simp [exampleContent]⟩

/-- the model run on that file -/
example : (inputVertices 20 (fun _ => some exampleText) ["-m".toList, "dd".toList, "file".toList]).map
    (fun o => match o with | .ok r => some (r.1, r.2.1) | _ => none) =
    some (some ([[2, 5, 0], [1, -6, 2]], ["x".toList, "y".toList])) := by decide +kernel

theorem exampleConstraints : Spec.Lines (Spec.ConstraintText false []) "1 2 <= 5\n-3 5 1\n".toList
    [.unnamed [1, 2] .le 5, .raw [-3, 5, 1]] := by
  obtain ⟨b0, b1⟩ := blanks_example
  obtain ⟨h1, h2, h3, h5⟩ := numeral_example
  have h5' : Spec.Numeral "5".toList 5 := Spec.Numeral.plain "5".toList (by decide) (by simp [Spec.Digit])
  refine .line (t := "1 2 <= 5".toList) (ts := "-3 5 1\n".toList) ?_ (by decide +kernel) (by decide +kernel)
    (.line (t := "-3 5 1".toList) (ts := []) ?_ (by decide +kernel) (by decide +kernel) .nil)
  · refine ⟨rfl, ⟨[], "1 2 ".toList, "<= ".toList, "5".toList, [], .none b0, ?_, .le b1, h5', b0, by decide +kernel⟩, ?_, ?_, by decide⟩
    · exact .cons (t := "1".toList) (b := " ".toList) (ts := "2 ".toList) h1 b1 (by decide)
        (.cons (t := "2".toList) (b := " ".toList) (ts := []) h2 b1 (by decide) .nil)
    · unfold Spec.Symmetric; decide
    · unfold Spec.Symmetric; decide
  · refine ⟨rfl, ⟨[], "-3 5 ".toList, "1".toList, [], [-3, 5], 1, .none b0, ?_, h1, b0, by decide +kernel, rfl⟩, ?_⟩
    · exact .cons (t := "-3".toList) (b := " ".toList) (ts := "5 ".toList) h3 b1 (by decide)
        (.cons (t := "5".toList) (b := " ".toList) (ts := []) h5' b1 (by decide) .nil)
    · unfold Spec.IsInt; decide

/-- the content of the second example -/
def exampleContent' : Spec.InequalityContent := { inequalities := [.unnamed [1, 2] .le 5, .raw [-3, 5, 1]] }

theorem exampleFile' : Spec.InequalityFile {} "Inequalities:\n1 2 <= 5\n-3 5 1\nEND\n".toList exampleContent' := by
  have he : Spec.FirstLine "END\n".toList "END".toList [] := ⟨by decide +kernel, Or.inl (by decide +kernel)⟩
  refine Spec.InequalityFile.inequalities (k := "Inequalities:".toList) (t := "1 2 <= 5\n-3 5 1\n".toList) (w := "END\n".toList)
    (by decide +kernel) (header_example _ "Inequalities:" (by decide +kernel)) exampleConstraints
    (Or.inr ⟨_, _, he, by decide +kernel, header_example _ "END" (by decide +kernel)⟩) (.other he ?_ .nil)
  intro h
  unfold Spec.inequalityFileWords at h
  have hm : ∀ ws : List String, (∀ k ∈ ws, (∀ c ∈ k.toList.head?, isBlank c = false) ∧ (∀ c ∈ k.toList.getLast?, isBlank c = false) ∧
      k.toList ≠ [] ∧ k.toList ≠ "END".toList) → ¬ Spec.Header ws "END".toList := by
    rintro ws hw ⟨b, b', k, hk, hb, hb', e⟩
    obtain ⟨h1, h2, h3, h4⟩ := hw k hk
    exact h4 (((trim_eq_iff h1 h2 h3).2 ⟨b, b', hb, hb', e⟩).symm.trans (by decide +kernel))
  exact hm _ (by decide +kernel) h

example : exampleContent'.Consistent 2 := by
  refine ⟨by decide, ?_, by simp [exampleContent'], by simp [exampleContent'], by simp [exampleContent'], by simp [exampleContent']⟩
  simp [exampleContent', Spec.Constraint.HasSize]

/-- the hypotheses of C59 can be met -/
example : Spec.KnownGiven "--known-facets=".toList ["file".toList, "-k=g".toList] "g".toList ∧
    Spec.KnownFacetFile [] "Inequalities:\n1 2 <= 5\n-3 5 1\n".toList [.unnamed [1, 2] .le 5, .raw [-3, 5, 1]] := by
  refine ⟨⟨["file".toList], [], ?_, Or.inr ⟨"-k=".toList, by simp, by decide +kernel⟩⟩, ?_⟩
  · unfold Spec.LooksLike; decide +kernel
  · exact Spec.KnownFacetFile.inequalities (k := "Inequalities:".toList) (t := "1 2 <= 5\n-3 5 1\n".toList) (w := [])
      (by decide +kernel) (header_example _ "Inequalities:" (by decide +kernel)) exampleConstraints (Or.inl rfl)

example : knownFacets 20 (fun _ => some "Inequalities:\n1 2 <= 5\n-3 5 1\n".toList) ["file".toList, "-k=g".toList] [] =
    some (.ok [[1, 2, -5], [-3, 5, 1]]) := by decide +kernel

/-! ## limits -/

/-- **C57** is limited to files with a header among the first twenty lines: any other file is rejected. -/
theorem C57_late_header_false {args : List Arg} {f text : List Char} {files : Files} (ha : Spec.CommandLine args [f])
    (hf : files f = some text) (h : ¬ Spec.EarlyHeader 20 text) (fuel : Nat) :
    inputVertices fuel files args = some .thrown ∧ inputInequalities fuel files args = some .thrown := by
  have hk : containsKeywords text = false := Bool.eq_false_iff.2 (mt containsKeywords_early.2 h)
  constructor
  · unfold inputVertices
    rw [(C55_filename ha).1 f rfl]
    simp only [Run.bind, hf, hk, if_true]
  · unfold inputInequalities
    rw [(C55_filename ha).1 f rfl]
    simp only [Run.bind, hf, hk, if_true]

/-- twenty lines of comments -/
def longComment : List Char := (List.replicate 20 "comment\n".toList).flatten

/-- such a file exists: a valid file after twenty lines of comments -/
example : ¬ Spec.EarlyHeader 20 (longComment ++ exampleText) := by
  rw [containsKeywords_early]; decide +kernel

/-- **C57**: a declared dimension on the same line as the word `DIM` is ignored, even if it is wrong. -/
theorem C57_dimension_line_false : (inputVertices 20 (fun _ => some "DIM=7\nVertices:\n1 2\n".toList) ["file".toList]).map
    (fun o => match o with | .ok r => some r.1 | _ => none) = some (some [[1, 2, 1]]) := by decide +kernel

/-- **C57**: after the word `DIM` alone everything up to the next `=` is skipped: here all vertices, and an equality sign in a
comment decides the dimension. -/
theorem C57_dimension_skip_false : (inputVertices 20 (fun _ => some "DIM\nVertices:\n1 2\nRays:\n3\n# n = 1\nVertices:\n5\n".toList)
    ["file".toList]).map (fun o => match o with | .ok r => some r.1 | _ => none) = some (some [[5, 1]]) := by decide +kernel

end Panda
