import Verif.Props.CheckedSystem
import Verif.Props.VertexMapsExamples

/-! # C69: examples and limits -/

namespace Panda

/-! ## facets: a triangle with a map of order three -/

def turnedText : List Char := "Names:\nx y\nMaps:\n3-x-y x\nVertices:\n0 0\n3 0\n0 3\n".toList

def turnedContent : Spec.VertexContent :=
  { names := ["x".toList, "y".toList]
    maps := [[[(none, 3), (some "x".toList, -1), (some "y".toList, -1)], [(some "x".toList, 1)]]]
    points := [[(0, 1), (0, 1)], [(3, 1), (0, 1)], [(0, 1), (3, 1)]] }

theorem turnedOrdered : Spec.OrderedVertexFile {} turnedText turnedContent := by
  obtain ⟨b0, b1⟩ := blanks_example
  have sp : ∀ c : Char, c = ' ' ∨ c = '\n' → Spec.Space c := by rintro c (rfl | rfl) <;> unfold Spec.Space <;> decide
  have n0 : Spec.Fraction "0".toList 0 1 := .whole (Spec.Numeral.plain "0".toList (by decide) (by simp [Spec.Digit]))
  have n3' : Spec.Numeral "3".toList 3 := Spec.Numeral.plain "3".toList (by decide) (by simp [Spec.Digit])
  have n3 : Spec.Fraction "3".toList 3 1 := .whole n3'
  have hx : Spec.MapName ['x'] := ⟨⟨'x', [], rfl, by unfold Spec.Space; decide, by unfold Spec.Digit; decide, by decide⟩, by decide, by decide⟩
  have hy : Spec.MapName ['y'] := ⟨⟨'y', [], rfl, by unfold Spec.Space; decide, by unfold Spec.Digit; decide, by decide⟩, by decide, by decide⟩
  refine Spec.OrderedVertexFile.names (k := "Names:".toList) (t := "x y\n".toList) (w := "Maps:\n3-x-y x\nVertices:\n0 0\n3 0\n0 3\n".toList)
    (names := ["x".toList, "y".toList]) (by decide +kernel) (header_example _ "Names:" (by decide +kernel)) ⟨?_, Or.inr (by decide +kernel), by decide +kernel⟩
    (Or.inr ⟨"Maps:".toList, "3-x-y x\nVertices:\n0 0\n3 0\n0 3\n".toList, ⟨by decide +kernel, Or.inl (by decide +kernel)⟩, by decide +kernel,
      header_example _ "Maps:" (by decide +kernel)⟩) rfl ?_
  · refine .cons (s := []) (x := "x".toList) (t := " y\n".toList) (by simp) (by decide) (by unfold Spec.Space; decide) ⟨' ', by decide, sp _ (Or.inl rfl)⟩ ?_
    refine .cons (s := " ".toList) (x := "y".toList) (t := "\n".toList) (fun c hc => sp _ (Or.inl (by simpa using hc))) (by decide)
      (by unfold Spec.Space; decide) ⟨'\n', by decide, sp _ (Or.inr rfl)⟩ ?_
    exact .nil (fun c hc => sp _ (Or.inr (by simpa using hc)))
  refine Spec.OrderedVertexFile.maps (k := "Maps:".toList) (t := "3-x-y x\n".toList) (w := "Vertices:\n0 0\n3 0\n0 3\n".toList)
    (maps := [[[(none, 3), (some "x".toList, -1), (some "y".toList, -1)], [(some "x".toList, 1)]]]) (by decide +kernel)
    (header_example _ "Maps:" (by decide +kernel)) ?_
    (Or.inr ⟨"Vertices:".toList, "0 0\n3 0\n0 3\n".toList, ⟨by decide +kernel, Or.inl (by decide +kernel)⟩, by decide +kernel,
      header_example _ "Vertices:" (by decide +kernel)⟩) rfl rfl ?_
  · refine .line (t := "3-x-y x".toList) (ts := []) ⟨⟨[], "3-x-y x".toList, b0, ?_, rfl⟩, rfl, ?_⟩ (by decide +kernel) (by decide +kernel) .nil
    · exact .cons (t := ['3', '-', 'x', '-', 'y']) (b := [' ']) (.more (t := ['3']) (.constant n3') (Or.inr rfl)
        (.more (t := ['-', 'x']) (.var (.minus ['x']) hx) (Or.inr rfl) (.last (.var (.minus ['y']) hy)))) b1 (Or.inl rfl)
        (.last (t := ['x']) (b := []) (.last (.var (.bare ['x']) hx)) b0)
    · unfold Spec.ImagesFit Spec.IsInt; decide
  refine Spec.OrderedVertexFile.points (k := "Vertices:".toList) (t := "0 0\n3 0\n0 3\n".toList) (w := [])
    (vs := [[(0, 1), (0, 1)], [(3, 1), (0, 1)], [(0, 1), (3, 1)]]) (by decide +kernel) (header_example _ "Vertices:" (by decide +kernel))
    ⟨?_, ?_⟩ (Or.inl rfl) rfl .nil
  · refine Spec.VertexLines.vertex (l := "0 0".toList) (t := "3 0\n0 3\n".toList) ⟨[], "0 0".toList, .none b0,
      Spec.Coordinates.cons (t := "0".toList) (b := " ".toList) (ts := "0".toList) n0 b1 (by decide) (.last (t := "0".toList) (b := []) n0 b0), rfl⟩ ?_
    refine Spec.VertexLines.vertex (l := "3 0".toList) (t := "0 3\n".toList) ⟨[], "3 0".toList, .none b0,
      Spec.Coordinates.cons (t := "3".toList) (b := " ".toList) (ts := "0".toList) n3 b1 (by decide) (.last (t := "0".toList) (b := []) n0 b0), rfl⟩ ?_
    exact Spec.VertexLines.vertex (l := "0 3".toList) (t := []) ⟨[], "0 3".toList, .none b0,
      Spec.Coordinates.cons (t := "0".toList) (b := " ".toList) (ts := "3".toList) n0 b1 (by decide) (.last (t := "3".toList) (b := []) n3 b0), rfl⟩ .nil
  · intro cs hcs
    simp only [List.mem_cons, List.not_mem_nil, or_false] at hcs
    rcases hcs with rfl | rfl | rfl <;>
    · refine ⟨⟨?_, 1, ⟨by decide, by decide, fun m hm => by omega⟩, by unfold Spec.IsInt; decide, ?_⟩, by decide⟩ <;>
      · unfold Spec.IsInt; decide
theorem rotatedOrdered : Spec.OrderedVertexFile {} rotatedText rotatedContent := by
  obtain ⟨b0, b1⟩ := blanks_example
  have sp : ∀ c : Char, c = ' ' ∨ c = '\n' → Spec.Space c := by rintro c (rfl | rfl) <;> unfold Spec.Space <;> decide
  have n0 : Spec.Fraction "0".toList 0 1 := .whole (Spec.Numeral.plain "0".toList (by decide) (by simp [Spec.Digit]))
  have n1 : Spec.Fraction "1".toList 1 1 := .whole (Spec.Numeral.plain "1".toList (by decide) (by simp [Spec.Digit]))
  have n3' : Spec.Numeral "3".toList 3 := Spec.Numeral.plain "3".toList (by decide) (by simp [Spec.Digit])
  have n3 : Spec.Fraction "3".toList 3 1 := .whole n3'
  have hx : Spec.MapName ['x'] := ⟨⟨'x', [], rfl, by unfold Spec.Space; decide, by unfold Spec.Digit; decide, by decide⟩, by decide, by decide⟩
  have hy : Spec.MapName ['y'] := ⟨⟨'y', [], rfl, by unfold Spec.Space; decide, by unfold Spec.Digit; decide, by decide⟩, by decide, by decide⟩
  refine Spec.OrderedVertexFile.names (k := "Names:".toList) (t := "x y\n".toList) (w := "Maps:\n3-x-y x\nVertices:\n0 0\n3 0\n0 3\n1 0\n".toList)
    (names := ["x".toList, "y".toList]) (by decide +kernel) (header_example _ "Names:" (by decide +kernel)) ⟨?_, Or.inr (by decide +kernel), by decide +kernel⟩
    (Or.inr ⟨"Maps:".toList, "3-x-y x\nVertices:\n0 0\n3 0\n0 3\n1 0\n".toList, ⟨by decide +kernel, Or.inl (by decide +kernel)⟩, by decide +kernel,
      header_example _ "Maps:" (by decide +kernel)⟩) rfl ?_
  · refine .cons (s := []) (x := "x".toList) (t := " y\n".toList) (by simp) (by decide) (by unfold Spec.Space; decide) ⟨' ', by decide, sp _ (Or.inl rfl)⟩ ?_
    refine .cons (s := " ".toList) (x := "y".toList) (t := "\n".toList) (fun c hc => sp _ (Or.inl (by simpa using hc))) (by decide)
      (by unfold Spec.Space; decide) ⟨'\n', by decide, sp _ (Or.inr rfl)⟩ ?_
    exact .nil (fun c hc => sp _ (Or.inr (by simpa using hc)))
  refine Spec.OrderedVertexFile.maps (k := "Maps:".toList) (t := "3-x-y x\n".toList) (w := "Vertices:\n0 0\n3 0\n0 3\n1 0\n".toList)
    (maps := [[[(none, 3), (some "x".toList, -1), (some "y".toList, -1)], [(some "x".toList, 1)]]]) (by decide +kernel)
    (header_example _ "Maps:" (by decide +kernel)) ?_
    (Or.inr ⟨"Vertices:".toList, "0 0\n3 0\n0 3\n1 0\n".toList, ⟨by decide +kernel, Or.inl (by decide +kernel)⟩, by decide +kernel,
      header_example _ "Vertices:" (by decide +kernel)⟩) rfl rfl ?_
  · refine .line (t := "3-x-y x".toList) (ts := []) ⟨⟨[], "3-x-y x".toList, b0, ?_, rfl⟩, rfl, ?_⟩ (by decide +kernel) (by decide +kernel) .nil
    · exact .cons (t := ['3', '-', 'x', '-', 'y']) (b := [' ']) (.more (t := ['3']) (.constant n3') (Or.inr rfl)
        (.more (t := ['-', 'x']) (.var (.minus ['x']) hx) (Or.inr rfl) (.last (.var (.minus ['y']) hy)))) b1 (Or.inl rfl)
        (.last (t := ['x']) (b := []) (.last (.var (.bare ['x']) hx)) b0)
    · unfold Spec.ImagesFit Spec.IsInt; decide
  refine Spec.OrderedVertexFile.points (k := "Vertices:".toList) (t := "0 0\n3 0\n0 3\n1 0\n".toList) (w := [])
    (vs := [[(0, 1), (0, 1)], [(3, 1), (0, 1)], [(0, 1), (3, 1)], [(1, 1), (0, 1)]]) (by decide +kernel) (header_example _ "Vertices:" (by decide +kernel))
    ⟨?_, ?_⟩ (Or.inl rfl) rfl .nil
  · refine Spec.VertexLines.vertex (l := "0 0".toList) (t := "3 0\n0 3\n1 0\n".toList) ⟨[], "0 0".toList, .none b0,
      Spec.Coordinates.cons (t := "0".toList) (b := " ".toList) (ts := "0".toList) n0 b1 (by decide) (.last (t := "0".toList) (b := []) n0 b0), rfl⟩ ?_
    refine Spec.VertexLines.vertex (l := "3 0".toList) (t := "0 3\n1 0\n".toList) ⟨[], "3 0".toList, .none b0,
      Spec.Coordinates.cons (t := "3".toList) (b := " ".toList) (ts := "0".toList) n3 b1 (by decide) (.last (t := "0".toList) (b := []) n0 b0), rfl⟩ ?_
    refine Spec.VertexLines.vertex (l := "0 3".toList) (t := "1 0\n".toList) ⟨[], "0 3".toList, .none b0,
      Spec.Coordinates.cons (t := "0".toList) (b := " ".toList) (ts := "3".toList) n0 b1 (by decide) (.last (t := "3".toList) (b := []) n3 b0), rfl⟩ ?_
    exact Spec.VertexLines.vertex (l := "1 0".toList) (t := []) ⟨[], "1 0".toList, .none b0,
      Spec.Coordinates.cons (t := "1".toList) (b := " ".toList) (ts := "0".toList) n1 b1 (by decide) (.last (t := "0".toList) (b := []) n0 b0), rfl⟩ .nil
  · intro cs hcs
    simp only [List.mem_cons, List.not_mem_nil, or_false] at hcs
    rcases hcs with rfl | rfl | rfl | rfl <;>
    · refine ⟨⟨?_, 1, ⟨by decide, by decide, fun m hm => by omega⟩, by unfold Spec.IsInt; decide, ?_⟩, by decide⟩ <;>
      · unfold Spec.IsInt; decide
theorem swapOrdered {r n : List Char} {rel : Spec.Rel} {rhs : Int} (hr : Spec.RelText r rel) (hn : Spec.Numeral n rhs) (hrel : rel ≠ .eq)
    (hb : Spec.Symmetric rhs) (hl : '\n' ∉ r ++ n) : Spec.OrderedInequalityFile {} (swapText (r ++ n)) (swapContent rel rhs) := by
  obtain ⟨b0, b1⟩ := blanks_example
  have sp : ∀ c : Char, c = ' ' ∨ c = '\n' → Spec.Space c := by rintro c (rfl | rfl) <;> unfold Spec.Space <;> decide
  have n0 : Spec.Numeral "0".toList 0 := Spec.Numeral.plain "0".toList (by decide) (by simp [Spec.Digit])
  have nx : Spec.Name ['x'] := ⟨'x', [], rfl, by unfold Spec.Space; decide, by unfold Spec.Digit; decide, by decide⟩
  have ny : Spec.Name ['y'] := ⟨'y', [], rfl, by unfold Spec.Space; decide, by unfold Spec.Digit; decide, by decide⟩
  have hx : Spec.MapName ['x'] := ⟨nx, by decide, by decide⟩
  have hy : Spec.MapName ['y'] := ⟨ny, by decide, by decide⟩
  have adm : Spec.UsableNames ["x".toList, "y".toList] := by
    refine ⟨⟨by decide, fun x hx => ?_⟩, by unfold Spec.NoPrefix; decide⟩
    simp only [List.mem_cons, List.not_mem_nil, or_false] at hx
    rcases hx with rfl | rfl
    · exact nx
    · exact ny
  have hle : Spec.RelText ['<', '=', ' '] .le := .le b1
  have e : swapText (r ++ n) = "Names:".toList ++ '\n' :: ("x y\n".toList ++
      ("Maps:".toList ++ '\n' :: ("y x\n".toList ++ ("Inequalities:".toList ++ '\n' ::
        (("-x <= 0".toList ++ '\n' :: ("-y <= 0".toList ++ '\n' :: (("x + y ".toList ++ (r ++ n)) ++ '\n' :: []))) ++ []))))) := by
    unfold swapText
    rw [List.append_nil, show "\n".toList = ['\n'] from rfl]
    generalize r ++ n = z
    simp only [List.append_assoc, ← List.cons_append]
    rfl
  rw [e]
  refine Spec.OrderedInequalityFile.names (names := ["x".toList, "y".toList]) (by decide +kernel) (header_example _ "Names:" (by decide +kernel))
    ⟨?_, Or.inr (by decide +kernel), by decide +kernel⟩
    (Or.inr ⟨"Maps:".toList, _, ⟨by decide +kernel, Or.inl rfl⟩, by decide +kernel, header_example _ "Maps:" (by decide +kernel)⟩) rfl rfl rfl ?_
  · refine .cons (s := []) (x := "x".toList) (t := " y\n".toList) (by simp) (by decide) (by unfold Spec.Space; decide) ⟨' ', by decide, sp _ (Or.inl rfl)⟩ ?_
    refine .cons (s := " ".toList) (x := "y".toList) (t := "\n".toList) (fun c hc => sp _ (Or.inl (by simpa using hc))) (by decide)
      (by unfold Spec.Space; decide) ⟨'\n', by decide, sp _ (Or.inr rfl)⟩ ?_
    exact .nil (fun c hc => sp _ (Or.inr (by simpa using hc)))
  refine Spec.OrderedInequalityFile.maps (maps := [[[(some "y".toList, 1)], [(some "x".toList, 1)]]]) (by decide +kernel)
    (header_example _ "Maps:" (by decide +kernel)) ?_
    (Or.inr ⟨"Inequalities:".toList, _, ⟨by decide +kernel, Or.inl rfl⟩, by decide +kernel,
      header_example _ "Inequalities:" (by decide +kernel)⟩) rfl ?_
  · refine .line (t := "y x".toList) (ts := []) ⟨⟨[], "y x".toList, b0, ?_, rfl⟩, rfl, ?_⟩ (by decide +kernel) (by decide +kernel) .nil
    · exact .cons (t := ['y']) (b := [' ']) (.last (.var (.bare ['y']) hy)) b1 (Or.inl rfl)
        (.last (t := ['x']) (b := []) (.last (.var (.bare ['x']) hx)) b0)
    · unfold Spec.ImagesFit Spec.IsInt; decide
  refine Spec.OrderedInequalityFile.inequalities (cs := (swapContent rel rhs).inequalities) (by decide +kernel)
    (header_example _ "Inequalities:" (by decide +kernel)) ?_ (Or.inl rfl) rfl .nil
  have hq : ∀ c ∈ ['-'], (c = ' ' ∨ c = '\t' ∨ c = '\r') ∨ c = '+' ∨ c = '-' ∨ Spec.Digit c :=
    fun c hc => Or.inr (Or.inr (Or.inl (List.mem_singleton.1 hc)))
  have s0 : Spec.Symmetric 0 := by unfold Spec.Symmetric; decide
  have s1 : Spec.Symmetric 1 := by unfold Spec.Symmetric; decide
  have s2 : Spec.Symmetric (-1) := by unfold Spec.Symmetric; decide
  refine .line ⟨adm, ⟨[], "-x ".toList, ['<', '=', ' '], ['0'], [], .none b0, ?_, hle, n0, b0, rfl⟩,
      ⟨[], ['-'], ['x'], " <= 0".toList, rfl, .head _, Or.inl rfl, hq, by decide⟩, ?_, s0, ?_, by decide⟩ (by decide +kernel) (by decide +kernel) ?_
  · exact .cons (t := ['-', 'x']) (b := [' ']) (.token (.minus ['x'])) nx b1 (by decide) .nil
  · intro q hq
    rw [List.mem_singleton.1 hq]; exact ⟨.head _, s2⟩
  · unfold Spec.Repeated Spec.Repeated; simp
  refine .line ⟨adm, ⟨[], "-y ".toList, ['<', '=', ' '], ['0'], [], .none b0, ?_, hle, n0, b0, rfl⟩,
      ⟨[], ['-'], ['y'], " <= 0".toList, rfl, .tail _ (.head _), Or.inl rfl, hq, by decide⟩, ?_, s0, ?_, by decide⟩ (by decide +kernel) (by decide +kernel) ?_
  · exact .cons (t := ['-', 'y']) (b := [' ']) (.token (.minus ['y'])) ny b1 (by decide) .nil
  · intro q hq
    rw [List.mem_singleton.1 hq]; exact ⟨.tail _ (.head _), s2⟩
  · unfold Spec.Repeated Spec.Repeated; simp
  refine .line ⟨adm, ⟨[], "x + y ".toList, r, n, [], .none b0, ?_, hr, hn, b0, by rw [List.append_nil]; rfl⟩,
      ⟨[], [], ['x'], " + y ".toList ++ (r ++ n), rfl, .head _, Or.inl rfl, by simp, by decide⟩, ?_, hb, ?_, fun h => (by cases h), fun h => absurd h hrel⟩ ?_ ?_ .nil
  · exact .cons (t := ['x']) (b := [' ']) (.token (.bare ['x'])) nx b1 (by decide)
      (.cons (t := ['+', ' ', 'y']) (b := [' ']) (.plus b1 (by decide) (.bare ['y']) (by decide)) ny b1 (by decide) .nil)
  · intro q hq
    simp only [List.mem_cons, List.not_mem_nil, or_false] at hq
    rcases hq with rfl | rfl
    · exact ⟨.head _, s1⟩
    · exact ⟨.tail _ (.head _), s1⟩
  · unfold Spec.Repeated Spec.Repeated Spec.Repeated
    simp
  · rw [List.mem_append, not_or]; exact ⟨by decide +kernel, hl⟩
  · rw [show "x + y ".toList = 'x' :: " + y ".toList from rfl]; simp


def checkedArgs : List Arg := ["-c".toList, "-m".toList, "dd".toList, "file".toList]
def checkedAD : List Arg := ["-t".toList, "2".toList, "--check".toList, "file".toList]

theorem checkedArgs_ok : Spec.CheckedCommand checkedArgs "file".toList ∧ getInputOrder checkedArgs = .ok .noSorting ∧ Spec.UsesDD checkedArgs ∧
    Spec.UsesInt checkedArgs ∧ Spec.NoHelp checkedArgs := by
  refine ⟨⟨?_, Or.inl (.head _), ?_⟩, by decide +kernel, ⟨"dd".toList, .head _, ["-c".toList], ["file".toList], by unfold Spec.LooksLike; decide +kernel, Or.inl rfl⟩, Or.inl ?_, ?_⟩
  · exact .flag (Or.inl rfl) (.short (a := "-m".toList) (p := "dd".toList) (by decide +kernel) (by decide +kernel) (by decide +kernel) (by decide +kernel)
      (.file (by decide +kernel) (by decide +kernel) .nil))
  · unfold Spec.Absent Spec.LooksLike; decide +kernel
  · unfold Spec.Absent Spec.LooksLike; decide +kernel
  · unfold Spec.NoHelp Spec.ModeArgument Spec.HelpAbout Spec.HelpWord Spec.VersionWord; decide +kernel

theorem checkedAD_ok : Spec.CheckedCommand checkedAD "file".toList ∧ getInputOrder checkedAD = .ok .noSorting ∧ Spec.UsesAD checkedAD ∧
    Spec.UsesInt checkedAD ∧ Spec.ThreadsOk checkedAD ∧ Spec.NoHelp checkedAD := by
  refine ⟨⟨?_, Or.inr (by simp [checkedAD]), ?_⟩, by decide +kernel, Or.inl ?_, Or.inl ?_, Or.inr ⟨"2".toList, 2, ?_, ?_, by decide, by decide⟩, ?_⟩
  · exact .short (a := "-t".toList) (p := "2".toList) (by decide +kernel) (by decide +kernel) (by decide +kernel) (by decide +kernel)
      (.long (by decide +kernel) (.file (by decide +kernel) (by decide +kernel) .nil))
  · unfold Spec.Absent Spec.LooksLike; decide +kernel
  · unfold Spec.Absent Spec.LooksLike; decide +kernel
  · unfold Spec.Absent Spec.LooksLike; decide +kernel
  · exact ⟨[], ["--check".toList, "file".toList], by simp, Or.inl rfl⟩
  · exact ⟨[], "2".toList, [], by simp, Spec.Numeral.plain "2".toList (by decide) (by simp [Spec.Digit]), by simp, rfl⟩
  · unfold Spec.NoHelp Spec.ModeArgument Spec.HelpAbout Spec.HelpWord Spec.VersionWord; decide +kernel

theorem turned_hull {p : Fin 2 → ℚ} (h : Spec.InHull 2 turnedContent.points turnedContent.rays p) : 0 ≤ p 0 ∧ 0 ≤ p 1 ∧ p 0 + p 1 ≤ 3 := by
  rw [← rotated_hull, inHull_hullOf]
  rw [inHull_hullOf] at h
  obtain ⟨k, l, a, x, b, y, h1, h2, h3, h4⟩ := h
  refine ⟨k, l, a, x, b, y, fun i => ⟨(h1 i).1, ?_⟩, h2, h3, h4⟩
  have := (h1 i).2
  simp only [turnedContent, rotatedContent, List.map_cons, List.map_nil, List.mem_cons, List.not_mem_nil, or_false] at this ⊢
  tauto

/-- the hypotheses of `C69_facets_dd` and `C69_facets_ad` can be met, by content that is accepted -/
example : ((Spec.CheckedCommand checkedArgs "file".toList ∧ getInputOrder checkedArgs = .ok .noSorting ∧ Spec.UsesDD checkedArgs ∧
      Spec.UsesInt checkedArgs ∧ Spec.NoHelp checkedArgs) ∧
    Spec.CheckedCommand checkedAD "file".toList ∧ getInputOrder checkedAD = .ok .noSorting ∧ Spec.UsesAD checkedAD ∧
      Spec.UsesInt checkedAD ∧ Spec.ThreadsOk checkedAD ∧ Spec.NoHelp checkedAD) ∧ ¬ Spec.HasWordLine Spec.inequalityWords turnedText ∧
    Spec.EarlyHeader 20 turnedText ∧ Spec.OrderedVertexFile {} turnedText turnedContent ∧ turnedContent.Consistent 2 ∧
    turnedContent.points ≠ [] ∧ turnedContent.maps ≠ [] ∧ Spec.AdmissibleNames turnedContent.names ∧
    (∀ m ∈ turnedContent.maps, Spec.PlainImages m) ∧
    Spec.Solid (Spec.InHull 2 turnedContent.points turnedContent.rays) ∧
    Spec.Plane (Spec.InHull 2 turnedContent.points turnedContent.rays) ∧
    ¬ Spec.Line (Spec.InHull 2 turnedContent.points turnedContent.rays) := by
  have hpt := fun i => hull_point (n := 2) (points := turnedContent.points) (rays := turnedContent.rays) i
  refine ⟨⟨checkedArgs_ok, checkedAD_ok⟩, ?_, containsKeywords_early.2 (by decide +kernel), turnedOrdered, ?_, by decide, by decide, ?_, ?_, ?_, ?_, ?_⟩
  · rw [← hasInequalitiesKeyword_iff]; decide +kernel
  · refine ⟨Or.inl (by decide), ?_, ?_, fun _ => rfl, ?_⟩ <;> simp [turnedContent]
  · refine ⟨by decide +kernel, fun x hx => ?_⟩
    have : x = ['x'] ∨ x = ['y'] := by simpa [turnedContent] using hx
    rcases this with rfl | rfl
    · exact ⟨'x', [], rfl, by unfold Spec.Space; decide, by unfold Spec.Digit; decide, by decide⟩
    · exact ⟨'y', [], rfl, by unfold Spec.Space; decide, by unfold Spec.Digit; decide, by decide⟩
  · intro m hm
    rw [List.mem_singleton.1 hm]
    unfold Spec.PlainImages; decide +kernel
  · intro a b h
    have h0 := h _ (hpt ⟨0, by decide⟩)
    have h1 := h _ (hpt ⟨1, by decide⟩)
    have h2 := h _ (hpt ⟨2, by decide⟩)
    simp [Fin.sum_univ_two, Spec.point, turnedContent] at h0 h1 h2
    funext i
    fin_cases i
    · show a 0 = 0
      linarith
    · show a 1 = 0
      linarith
  · refine ⟨_, _, _, hpt ⟨0, by decide⟩, hpt ⟨1, by decide⟩, hpt ⟨2, by decide⟩, fun a b h => ?_⟩
    have h0 := congrFun h 0
    have h1 := congrFun h 1
    simp [Spec.point, turnedContent] at h0 h1
    exact ⟨h0, h1⟩
  · rintro ⟨p, q, hq, h⟩
    apply hq
    funext i
    fin_cases i
    · exact slope_zero (u := p 0) (w := q 0) (b := 3) fun t => by have := turned_hull (h t); simp only [Pi.add_apply, Pi.smul_apply, smul_eq_mul] at this; linarith [this.2.1, this.2.2]
    · exact slope_zero (u := p 1) (w := q 1) (b := 3) fun t => by have := turned_hull (h t); simp only [Pi.add_apply, Pi.smul_apply, smul_eq_mul] at this; linarith [this.1, this.2.2]

/-- accepted -/
example : program (fun _ => none) none 30 (fun _ => some turnedText) checkedArgs =
    some (.finished 0 "Reduced Inequalities:\nx +y <= 3\n".toList) := by decide +kernel

/-- rejected: the map is a symmetry of the hull, but does not permute the points, one of which is not a vertex -/
example : program (fun _ => none) none 30 (fun _ => some rotatedText) checkedArgs = some .failed := by decide +kernel

theorem rotated_rejected : rotatedContent.Rejected 2 := by
  obtain ⟨P, R, maps, o, h1, h2, -, -, -, -, ⟨N, hN⟩, hcase, -⟩ := C69_vertices (files := fun _ => some rotatedText) (n := 2) checkedArgs_ok.1 rfl
    checkedArgs_ok.2.1 (containsKeywords_early.2 (by decide +kernel)) rotatedOrdered
    ⟨Or.inl (by decide), by simp [rotatedContent], by simp [rotatedContent], fun _ => rfl, by simp [rotatedContent]⟩ (by decide)
  have e0 : inputVertices 30 (fun _ => some rotatedText) checkedArgs = some .thrown := by decide +kernel
  have e := inputVertices_mono (fun _ => some rotatedText) checkedArgs 30 (30 + N) _ (by omega) e0
  dsimp only at e
  rw [hN (30 + N) (by omega)] at e
  cases e
  rcases hcase with h | ⟨-, h⟩ | ⟨h, -⟩
  · cases h
  · exact ⟨P, R, h1, h2, h⟩
  · cases h

/-! ## vertices -/

theorem cornerOrdered : Spec.OrderedInequalityFile {} (swapText ">= 1".toList) (swapContent .ge 1) :=
  swapOrdered (r := ['>', '=', ' ']) (n := ['1']) (.ge blanks_example.2) (Spec.Numeral.plain "1".toList (by decide) (by simp [Spec.Digit])) (by decide)
    (by unfold Spec.Symmetric; decide) (by decide)

/-- the hypotheses of `C69_vertices_dd` and `C69_vertices_ad` can be met -/
example : Spec.HasWordLine Spec.inequalityWords (swapText ">= 1".toList) ∧ ¬ Spec.HasWordLine Spec.hullWords (swapText ">= 1".toList) ∧
    Spec.EarlyHeader 20 (swapText ">= 1".toList) ∧ Spec.OrderedInequalityFile {} (swapText ">= 1".toList) (swapContent .ge 1) ∧
    ((swapContent .ge 1).Consistent 2 ∧ (swapContent .ge 1).maps ≠ [] ∧ Spec.AdmissibleNames (swapContent .ge 1).names ∧ (swapContent .ge 1).names ≠ []) ∧
    (swapContent .ge 1).equations = [] ∧
    (∃ p : Fin 2 → ℚ, (swapContent .ge 1).Solution p) ∧ ¬ Spec.Line (d := 2) (swapContent .ge 1).Solution := by
  refine ⟨?_, ?_, containsKeywords_early.2 (by decide +kernel), cornerOrdered, swap_consistent, rfl, ⟨![1, 0], ?_⟩, swap_no_line⟩
  · rw [← hasInequalitiesKeyword_iff]; decide +kernel
  · rw [← hasHullKeyword_iff]; decide +kernel
  · rw [swap_solution]; norm_num [Spec.Rel.holds]

/-- accepted -/
example : program (fun _ => none) none 20 (fun _ => some (swapText ">= 1".toList)) checkedArgs =
    some (.finished 0 "Reduced Vertices:\n1 0 \nReduced Rays:\n  1  0\n".toList) := by decide +kernel

/-- rejected: the same system with a row that is not in lowest terms -/
example : program (fun _ => none) none 20
    (fun _ => some "Names:\nx y\nMaps:\ny x\nInequalities:\n-x <= 0\n-2y <= 0\nx + y >= 1\n".toList) checkedArgs = some .failed := by decide +kernel

/-! ## what `-c` does not check -/

/-- **C69** The checks use the maps read so far: the map that swaps the variables is no symmetry of the triangle `(0,0)`, `(1,0)`, `(0,2)`.
With maps before the points, it is rejected; with maps after the points, it is accepted, and the printed inequalities do not describe the
triangle: `(0, 2)`, a point of the list, does not satisfy `2x + y ≤ 2` after the swap. -/
theorem C69_late_maps_false :
    program (fun _ => none) none 40 (fun _ => some "Names:\nx y\nMaps:\ny x\nVertices:\n0 0\n1 0\n0 2\n".toList) checkedArgs = some .failed ∧
    program (fun _ => none) none 40 (fun _ => some "Names:\nx y\nVertices:\n0 0\n1 0\n0 2\nMaps:\ny x\n".toList) checkedArgs =
      some (.finished 0 "Reduced Inequalities:\n-y <= 0\n2x +y <= 2\n".toList) := by
  constructor <;> decide +kernel

/-- **C69** Equations are not checked: the map that swaps the variables permutes the inequalities, but not the solutions of `x = 1`.  It is
accepted, and `(2, 1)` is printed as a vertex, which is not a solution. -/
theorem C69_equations_false :
    program (fun _ => none) none 40 (fun _ => some
      "Names:\nx y\nMaps:\ny x\nEquations:\nx = 1\nInequalities:\n-x <= 0\n-y <= 0\nx <= 2\ny <= 2\n".toList) checkedArgs =
      some (.finished 0 "Reduced Vertices:\n1 0 \n2 1 \n".toList) := by decide +kernel

end Panda
