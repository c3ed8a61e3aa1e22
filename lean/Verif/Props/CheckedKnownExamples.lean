import Verif.Props.CheckedKnown
import Mathlib.LinearAlgebra.AffineSpace.AffineSubspace.Basic

/-! # C70: examples and limits -/

namespace Panda

theorem one_digit (c : Char) (z : Int) (hc : c ∈ ['0', '1', '2', '3']) (hz : z = (c.toNat : Int) - 48) : Spec.Numeral [c] z := by
  have := Spec.Numeral.plain [c] (by simp) (by
    intro x hx
    rw [List.mem_singleton.1 hx]
    simp only [List.mem_cons, List.not_mem_nil, or_false] at hc
    rcases hc with rfl | rfl | rfl | rfl <;> unfold Spec.Digit <;> decide)
  simp only [List.mem_cons, List.not_mem_nil, or_false] at hc
  rcases hc with rfl | rfl | rfl | rfl <;> (subst hz; exact this)

theorem two_digits (a b : Char) (x y : Int) (ha : a ∈ ['0', '1', '2', '3']) (hb : b ∈ ['0', '1', '2', '3']) (hx : x = (a.toNat : Int) - 48)
    (hy : y = (b.toNat : Int) - 48) : Spec.VertexLine [a, ' ', b] [(x, 1), (y, 1)] := by
  obtain ⟨b0, b1⟩ := blanks_example
  exact ⟨[], [a, ' ', b], .none b0, Spec.Coordinates.cons (t := [a]) (b := " ".toList) (ts := [b]) (.whole (one_digit a x ha hx)) b1 (by decide)
    (Spec.Coordinates.last (t := [b]) (b := []) (.whole (one_digit b y hb hy)) b0), rfl⟩

theorem triangleOrdered : Spec.OrderedVertexFile {} triangleText triangleContent := by
  refine Spec.OrderedVertexFile.points (k := "Vertices:".toList) (t := "0 0\n3 0\n1 2\n".toList) (w := [])
    (vs := [[(0, 1), (0, 1)], [(3, 1), (0, 1)], [(1, 1), (2, 1)]]) (by decide +kernel) (header_example _ "Vertices:" (by decide +kernel))
    ⟨?_, ?_⟩ (Or.inl rfl) rfl .nil
  · refine Spec.VertexLines.vertex (l := "0 0".toList) (t := "3 0\n1 2\n".toList) (two_digits '0' '0' 0 0 (by decide) (by decide) rfl rfl) ?_
    refine Spec.VertexLines.vertex (l := "3 0".toList) (t := "1 2\n".toList) (two_digits '3' '0' 3 0 (by decide) (by decide) rfl rfl) ?_
    exact Spec.VertexLines.vertex (l := "1 2".toList) (t := []) (two_digits '1' '2' 1 2 (by decide) (by decide) rfl rfl) .nil
  · intro cs hcs
    simp only [List.mem_cons, List.not_mem_nil, or_false] at hcs
    rcases hcs with rfl | rfl | rfl <;>
    · refine ⟨⟨?_, 1, ⟨by decide, by decide, fun m hm => by omega⟩, by unfold Spec.IsInt; decide, ?_⟩, by decide⟩ <;>
      · unfold Spec.IsInt; decide

def checkedKnownArgs (m : String) : List Arg := ["-c".toList, "-m".toList, m.toList, "-k".toList, "known".toList, "file".toList]

theorem checkedKnownCommand (m : String) (hm : m = "dd" ∨ m = "ad") :
    Spec.CheckedKnownCommand (checkedKnownArgs m) "file".toList "known".toList ∧ getInputOrder (checkedKnownArgs m) = .ok .noSorting ∧
    Spec.UsesInt (checkedKnownArgs m) ∧ Spec.ThreadsOk (checkedKnownArgs m) ∧ Spec.NoHelp (checkedKnownArgs m) := by
  rcases hm with rfl | rfl <;>
  · refine ⟨⟨?_, by decide +kernel, ⟨["-c".toList, "-m".toList, _], ["file".toList], ?_, Or.inl rfl⟩, by decide⟩, by decide +kernel, Or.inl ?_, Or.inl ?_, ?_⟩
    · refine .flag (a := "-c".toList) (Or.inl rfl) ?_
      refine .short (a := "-m".toList) (by decide +kernel) (by decide +kernel) (by decide +kernel) (by decide +kernel) ?_
      exact .short (a := "-k".toList) (p := "known".toList) (by decide +kernel) (by decide +kernel) (by decide +kernel) (by decide +kernel)
        (.file (by decide +kernel) (by decide +kernel) .nil)
    · unfold Spec.LooksLike; decide +kernel
    · unfold Spec.Absent Spec.LooksLike; decide +kernel
    · unfold Spec.Absent Spec.LooksLike; decide +kernel
    · unfold Spec.NoHelp Spec.ModeArgument Spec.HelpAbout Spec.HelpWord Spec.VersionWord; decide +kernel


/-- a file with one known inequality, given as a row with three numbers -/
theorem known_row {a b c : List Char} {x y z : Int} (ha : Spec.Numeral a x) (hb : Spec.Numeral b y) (hc : Spec.Numeral c z)
    (hi : ∀ t ∈ [x, y, z], Spec.IsInt t) (hn : '\n' ∉ a ++ ' ' :: (b ++ ' ' :: c))
    (hr : (a ++ ' ' :: (b ++ ' ' :: c)).head? ≠ some '\r') :
    Spec.KnownFacetFile [] ("Inequalities:".toList ++ '\n' :: ((a ++ ' ' :: (b ++ ' ' :: c)) ++ ['\n'])) [.raw [x, y, z]] := by
  obtain ⟨b0, b1⟩ := blanks_example
  have h := Spec.KnownFacetFile.inequalities (names := []) (k := "Inequalities:".toList) (t := (a ++ ' ' :: (b ++ ' ' :: c)) ++ ['\n']) (w := [])
    (cs := [.raw [x, y, z]]) (by decide +kernel) (header_example _ "Inequalities:" (by decide +kernel)) ?_ (Or.inl rfl)
  · rw [List.append_nil] at h
    exact h
  refine .line (ts := []) ⟨rfl, ⟨[], a ++ " ".toList ++ (b ++ " ".toList ++ []), c, [], [x, y], z, .none b0, ?_, hc, b0, ?_, rfl⟩, ?_⟩ hn hr .nil
  · exact .cons ha b1 (by decide) (.cons hb b1 (by decide) .nil)
  · simp
  · exact hi


def knownText (row : String) : List Char := "Inequalities:".toList ++ '\n' :: (row.toList ++ ['\n'])

def checkedFiles (text : List Char) (row : String) : Files := fun f =>
  if f = "file".toList then some text else if f = "known".toList then some (knownText row) else none

theorem triangle_plane : Spec.Plane (Spec.InHull 2 triangleContent.points triangleContent.rays) := by
  refine ⟨_, _, _, triangle_point ⟨0, by decide⟩, triangle_point ⟨1, by decide⟩, triangle_point ⟨2, by decide⟩, fun a b h => ?_⟩
  have h0 := congrFun h 0
  have h1 := congrFun h 1
  simp [Spec.point, triangleContent] at h0 h1
  subst h1
  simpa using h0

theorem triangle_line : ¬ Spec.Line (Spec.InHull 2 triangleContent.points triangleContent.rays) := by
  rintro ⟨p, q, hq, h⟩
  apply hq
  funext i
  fin_cases i
  · exact slope_zero (u := p 0) (w := q 0) (b := 3) fun t => (triangle_hull (h t)).2.1
  · exact slope_zero (u := p 1) (w := q 1) (b := 2) fun t => (triangle_hull (h t)).2.2.2

/-- the hypotheses of C70 can be met: the triangle with the facet `y ≥ 0`, and with the inequality `y ≤ 3`, which is not a facet -/
theorem triangle_checked (m : String) (hm : m = "dd" ∨ m = "ad") :
    (Spec.CheckedKnownCommand (checkedKnownArgs m) "file".toList "known".toList ∧ getInputOrder (checkedKnownArgs m) = .ok .noSorting ∧
      Spec.UsesInt (checkedKnownArgs m) ∧ Spec.ThreadsOk (checkedKnownArgs m) ∧ Spec.NoHelp (checkedKnownArgs m)) ∧
    (∀ row : String, checkedFiles triangleText row "file".toList = some triangleText ∧
      checkedFiles triangleText row "known".toList = some (knownText row)) ∧
    Spec.KnownFacetFile [] (knownText "0 -1 0") [.raw [0, -1, 0]] ∧ Spec.KnownFacetFile [] (knownText "0 1 -3") [.raw [0, 1, -3]] ∧
    (Spec.Constraint.raw [0, -1, 0]).HasSize [] 2 ∧ (Spec.Constraint.raw [0, 1, -3]).HasSize [] 2 ∧
    ¬ Spec.HasWordLine Spec.inequalityWords triangleText ∧
    Spec.EarlyHeader 20 triangleText ∧ Spec.OrderedVertexFile {} triangleText triangleContent ∧ triangleContent.Consistent 2 ∧
    triangleContent.points ≠ [] ∧ triangleContent.maps = [] ∧ triangleContent.names = [] ∧
    Spec.Plane (Spec.InHull 2 triangleContent.points triangleContent.rays) ∧
    ¬ Spec.Line (Spec.InHull 2 triangleContent.points triangleContent.rays) := by
  have n0 := one_digit '0' 0 (by decide) rfl
  have n1 := one_digit '1' 1 (by decide) rfl
  have m1 : Spec.Numeral "-1".toList (-1) := Spec.Numeral.minus "1".toList (by decide) (by simp [Spec.Digit])
  have m3 : Spec.Numeral "-3".toList (-3) := Spec.Numeral.minus "3".toList (by decide) (by simp [Spec.Digit])
  refine ⟨checkedKnownCommand m hm, fun row => ⟨by simp [checkedFiles], ?_⟩, ?_, ?_, rfl, rfl, ?_, containsKeywords_early.2 (by decide +kernel), triangleOrdered,
    ?_, by decide, rfl, rfl, triangle_plane, triangle_line⟩
  · unfold checkedFiles
    rw [if_neg (by decide +kernel), if_pos rfl]
  · exact known_row n0 m1 n0 (by unfold Spec.IsInt; decide) (by decide +kernel) (by decide +kernel)
  · exact known_row n0 n1 m3 (by unfold Spec.IsInt; decide) (by decide +kernel) (by decide +kernel)
  · rw [← hasInequalitiesKeyword_iff]; decide +kernel
  · refine ⟨Or.inl (by decide), ?_, ?_, fun h => ?_, ?_⟩ <;> simp [triangleContent] at *

theorem checkedKnown_dd : Spec.UsesDD (checkedKnownArgs "dd") :=
  ⟨"dd".toList, by simp, ["-c".toList], ["-k".toList, "known".toList, "file".toList], by unfold Spec.LooksLike; decide +kernel, Or.inl rfl⟩

/-- with the facet, the program finishes -/
example : program (fun _ => none) none 20 (checkedFiles triangleText "0 -1 0") (checkedKnownArgs "dd") =
    some (.finished 0 "Inequalities:\n -2  1  0\n  0 -1  0\n  1  1 -3\n".toList) := by decide +kernel

/-- with the other inequality, it reports an error -/
example : program (fun _ => none) none 20 (checkedFiles triangleText "0 1 -3") (checkedKnownArgs "dd") = some .failed := by decide +kernel

/-! ## the check accepts the inequality `0 ≤ 1` for cones -/

def coneText : List Char := "Vertices:\n0 0\nRays:\n1 0\n0 1\n".toList

def coneContent : Spec.VertexContent := { points := [[(0, 1), (0, 1)]], rays := [[(1, 1), (0, 1)], [(0, 1), (1, 1)]] }

theorem coneOrdered : Spec.OrderedVertexFile {} coneText coneContent := by
  refine Spec.OrderedVertexFile.points (k := "Vertices:".toList) (t := "0 0\n".toList) (w := "Rays:\n1 0\n0 1\n".toList)
    (vs := [[(0, 1), (0, 1)]]) (by decide +kernel) (header_example _ "Vertices:" (by decide +kernel))
    ⟨.vertex (l := "0 0".toList) (t := []) (two_digits '0' '0' 0 0 (by decide) (by decide) rfl rfl) .nil, ?_⟩
    (Or.inr ⟨"Rays:".toList, "1 0\n0 1\n".toList, ⟨by decide +kernel, Or.inl (by decide +kernel)⟩, by decide +kernel,
      header_example _ "Rays:" (by decide +kernel)⟩) rfl ?_
  · intro cs hcs
    simp only [List.mem_cons, List.not_mem_nil, or_false] at hcs
    subst hcs
    refine ⟨⟨?_, 1, ⟨by decide, by decide, fun m hm => by omega⟩, by unfold Spec.IsInt; decide, ?_⟩, by decide⟩ <;>
    · unfold Spec.IsInt; decide
  refine Spec.OrderedVertexFile.rays (k := "Rays:".toList) (t := "1 0\n0 1\n".toList) (w := [])
    (vs := [[(1, 1), (0, 1)], [(0, 1), (1, 1)]]) (by decide +kernel) (header_example _ "Rays:" (by decide +kernel))
    ⟨.vertex (l := "1 0".toList) (t := "0 1\n".toList) (two_digits '1' '0' 1 0 (by decide) (by decide) rfl rfl)
      (.vertex (l := "0 1".toList) (t := []) (two_digits '0' '1' 0 1 (by decide) (by decide) rfl rfl) .nil), ?_⟩ (Or.inl rfl) rfl .nil
  intro cs hcs
  simp only [List.mem_cons, List.not_mem_nil, or_false] at hcs
  rcases hcs with rfl | rfl <;>
  · refine ⟨⟨?_, 1, ⟨by decide, by decide, fun m hm => by omega⟩, by unfold Spec.IsInt; decide, ?_⟩, by decide⟩ <;>
    · unfold Spec.IsInt; decide

/-- **C70** The check does not reject every inequality that is not a facet: with `-c`, the known inequality `0 ≤ 1` is accepted for a
cone (in the situation of `C70_dd`), and the program finishes. -/
theorem C70_infinity_false :
    (Spec.CheckedKnownCommand (checkedKnownArgs "dd") "file".toList "known".toList ∧
      checkedFiles coneText "0 0 -1" "file".toList = some coneText ∧ checkedFiles coneText "0 0 -1" "known".toList = some (knownText "0 0 -1") ∧
      Spec.KnownFacetFile [] (knownText "0 0 -1") [.raw [0, 0, -1]] ∧ Spec.UsesDD (checkedKnownArgs "dd") ∧ Spec.UsesInt (checkedKnownArgs "dd") ∧
      Spec.OrderedVertexFile {} coneText coneContent ∧ coneContent.Consistent 2 ∧
      ∃ p q, Spec.InHull 2 coneContent.points coneContent.rays p ∧ Spec.InHull 2 coneContent.points coneContent.rays q ∧ p ≠ q) ∧
    (∀ ad help, ∃ N, ∀ fuel ≥ N, program ad help fuel (checkedFiles coneText "0 0 -1") (checkedKnownArgs "dd") =
      some (.finished 0 "Inequalities:\n -1  0  0\n  0 -1  0\n".toList)) ∧
    ¬ (Spec.Constraint.raw [0, 0, -1]).FacetOf [] (Spec.InHull 2 coneContent.points coneContent.rays) := by
  have n0 := one_digit '0' 0 (by decide) rfl
  have m1 : Spec.Numeral "-1".toList (-1) := Spec.Numeral.minus "1".toList (by decide) (by simp [Spec.Digit])
  obtain ⟨c1, c2, c3, c4, c5⟩ := checkedKnownCommand "dd" (Or.inl rfl)
  have two : ∃ p q, Spec.InHull 2 coneContent.points coneContent.rays p ∧ Spec.InHull 2 coneContent.points coneContent.rays q ∧ p ≠ q := by
    refine ⟨Spec.point 2 [(0, 1), (0, 1)], Spec.point 2 [(0, 1), (0, 1)] + Spec.point 2 [(1, 1), (0, 1)],
      inHull_hullOf.2 ⟨1, 0, fun _ => 1, fun _ => Spec.point 2 [(0, 1), (0, 1)], fun _ => 0, fun _ => 0,
        fun _ => ⟨by norm_num, by simp [coneContent]⟩, fun j => j.elim0, by simp, by simp⟩,
      inHull_hullOf.2 ⟨1, 1, fun _ => 1, fun _ => Spec.point 2 [(0, 1), (0, 1)], fun _ => 1, fun _ => Spec.point 2 [(1, 1), (0, 1)],
        fun _ => ⟨by norm_num, by simp [coneContent]⟩, fun _ => ⟨by norm_num, by simp [coneContent]⟩, by simp, by simp⟩, ?_⟩
    · intro h
      have := congrFun h 0
      simp [Spec.point] at this
  refine ⟨⟨c1, by decide +kernel, by decide +kernel, known_row n0 n0 m1 (by unfold Spec.IsInt; decide) (by decide +kernel) (by decide +kernel),
    checkedKnown_dd, c3, coneOrdered, ?_, two⟩, fun ad help => ⟨20, fun fuel hf => ?_⟩, ?_⟩
  · refine ⟨Or.inl (by decide), ?_, ?_, fun h => ?_, ?_⟩ <;> simp [coneContent] at *
  · refine program_mono ad help _ _ hf ?_
    have e : program ad help 20 (checkedFiles coneText "0 0 -1") (checkedKnownArgs "dd") =
        program (fun _ => none) none 20 (checkedFiles coneText "0 0 -1") (checkedKnownArgs "dd") := by
      unfold program
      rw [detect_facets c1.1 (text := coneText) (by decide +kernel) c5 (by rw [← hasInequalitiesKeyword_iff]; decide +kernel)]
      simp only [enumeration, usesDD_method checkedKnown_dd, if_true]
    rw [e]
    decide +kernel
  · rintro ⟨-, p0, hp0, -, h⟩
    obtain ⟨p, q, hp, hq, hne⟩ := two
    have e : {q : Fin 2 → ℚ | Spec.InHull 2 coneContent.points coneContent.rays q ∧ (Spec.Constraint.raw [0, 0, -1]).TightAt [] q} = ∅ := by
      ext q
      simp only [Set.mem_ofPred_eq, Set.mem_empty_iff_false, iff_false, not_and]
      intro _ h0
      have h0 : Spec.value 2 [0, 0, -1] q = 0 := h0
      unfold Spec.value at h0
      simp [Fin.sum_univ_two] at h0
    have key : ∀ x, Spec.InHull 2 coneContent.points coneContent.rays x → x = p0 := by
      intro x hx
      have := h x hx
      rw [e, insert_empty_eq] at this
      exact (AffineSubspace.mem_affineSpan_singleton ℚ _).1 this
    exact hne ((key p hp).trans (key q hq).symm)

end Panda
