import Verif.Props.MainVertexMaps

/-! # C66: examples -/

namespace Panda

open _root_.Relation

/-- inequalities in two variables with the map that swaps the variables -/
def swapText (last : List Char) : List Char := "Names:\nx y\nMaps:\ny x\nInequalities:\n-x <= 0\n-y <= 0\nx + y ".toList ++ (last ++ "\n".toList)

def swapContent (rel : Spec.Rel) (rhs : Int) : Spec.InequalityContent :=
  { names := ["x".toList, "y".toList]
    maps := [[[(some "y".toList, 1)], [(some "x".toList, 1)]]]
    inequalities := [.named [("x".toList, -1)] .le 0, .named [("y".toList, -1)] .le 0, .named [("x".toList, 1), ("y".toList, 1)] rel rhs] }

theorem swapFile {r n : List Char} {rel : Spec.Rel} {rhs : Int} (hr : Spec.RelText r rel) (hn : Spec.Numeral n rhs) (hrel : rel ≠ .eq)
    (hb : Spec.Symmetric rhs) (hl : '\n' ∉ r ++ n) : Spec.InequalityFile {} (swapText (r ++ n)) (swapContent rel rhs) := by
  obtain ⟨b0, b1⟩ := blanks_example
  have sp : ∀ c : Char, c = ' ' ∨ c = '\n' → Spec.Space c := by rintro c (rfl | rfl) <;> unfold Spec.Space <;> decide
  have n0 : Spec.Numeral "0".toList 0 := Spec.Numeral.plain "0".toList (by decide) (by simp [Spec.Digit])
  have nx : Spec.Name ['x'] := ⟨'x', [], rfl, by unfold Spec.Space; decide, by unfold Spec.Digit; decide, by decide⟩
  have ny : Spec.Name ['y'] := ⟨'y', [], rfl, by unfold Spec.Space; decide, by unfold Spec.Digit; decide, by decide⟩
  have hx : Spec.MapName ['x'] := ⟨nx, by decide, by decide⟩
  have hy : Spec.MapName ['y'] := ⟨ny, by decide, by decide⟩
  have adm : Spec.UsableNames ["x".toList, "y".toList] := by
    refine ⟨⟨by decide, fun x hx => ?_⟩, by unfold Spec.NoPrefix; decide⟩
    simp only [List.mem_cons, List.not_mem_nil, or_false] at hx
    rcases hx with rfl | rfl
    · exact nx
    · exact ny
  have hle : Spec.RelText ['<', '=', ' '] .le := .le b1
  have e : swapText (r ++ n) = "Names:".toList ++ '\n' :: ("x y\n".toList ++
      ("Maps:".toList ++ '\n' :: ("y x\n".toList ++ ("Inequalities:".toList ++ '\n' ::
        (("-x <= 0".toList ++ '\n' :: ("-y <= 0".toList ++ '\n' :: (("x + y ".toList ++ (r ++ n)) ++ '\n' :: []))) ++ []))))) := by
    unfold swapText
    rw [List.append_nil, show "\n".toList = ['\n'] from rfl]
    generalize r ++ n = z
    simp only [List.append_assoc, ← List.cons_append]
    rfl
  rw [e]
  refine Spec.InequalityFile.names (names := ["x".toList, "y".toList]) (by decide +kernel) (header_example _ "Names:" (by decide +kernel))
    ⟨?_, Or.inr (by decide +kernel), by decide +kernel⟩
    (Or.inr ⟨"Maps:".toList, _, ⟨by decide +kernel, Or.inl rfl⟩, by decide +kernel, header_example _ "Maps:" (by decide +kernel)⟩) rfl rfl rfl ?_
  · refine .cons (s := []) (x := "x".toList) (t := " y\n".toList) (by simp) (by decide) (by unfold Spec.Space; decide) ⟨' ', by decide, sp _ (Or.inl rfl)⟩ ?_
    refine .cons (s := " ".toList) (x := "y".toList) (t := "\n".toList) (fun c hc => sp _ (Or.inl (by simpa using hc))) (by decide)
      (by unfold Spec.Space; decide) ⟨'\n', by decide, sp _ (Or.inr rfl)⟩ ?_
    exact .nil (fun c hc => sp _ (Or.inr (by simpa using hc)))
  refine Spec.InequalityFile.maps (maps := [[[(some "y".toList, 1)], [(some "x".toList, 1)]]]) (by decide +kernel)
    (header_example _ "Maps:" (by decide +kernel)) ?_
    (Or.inr ⟨"Inequalities:".toList, _, ⟨by decide +kernel, Or.inl rfl⟩, by decide +kernel,
      header_example _ "Inequalities:" (by decide +kernel)⟩) ?_
  · refine .line (t := "y x".toList) (ts := []) ⟨⟨[], "y x".toList, b0, ?_, rfl⟩, rfl, ?_⟩ (by decide +kernel) (by decide +kernel) .nil
    · exact .cons (t := ['y']) (b := [' ']) (.last (.var (.bare ['y']) hy)) b1 (Or.inl rfl)
        (.last (t := ['x']) (b := []) (.last (.var (.bare ['x']) hx)) b0)
    · unfold Spec.ImagesFit Spec.IsInt; decide
  refine Spec.InequalityFile.inequalities (cs := (swapContent rel rhs).inequalities) (by decide +kernel)
    (header_example _ "Inequalities:" (by decide +kernel)) ?_ (Or.inl rfl) .nil
  have hq : ∀ c ∈ ['-'], (c = ' ' ∨ c = '\t' ∨ c = '\r') ∨ c = '+' ∨ c = '-' ∨ Spec.Digit c :=
    fun c hc => Or.inr (Or.inr (Or.inl (List.mem_singleton.1 hc)))
  have s0 : Spec.Symmetric 0 := by unfold Spec.Symmetric; decide
  have s1 : Spec.Symmetric 1 := by unfold Spec.Symmetric; decide
  have s2 : Spec.Symmetric (-1) := by unfold Spec.Symmetric; decide
  refine .line ⟨adm, ⟨[], "-x ".toList, ['<', '=', ' '], ['0'], [], .none b0, ?_, hle, n0, b0, rfl⟩,
      ⟨[], ['-'], ['x'], " <= 0".toList, rfl, .head _, Or.inl rfl, hq, by decide⟩, ?_, s0, ?_, by decide⟩ (by decide +kernel) (by decide +kernel) ?_
  · exact .cons (t := ['-', 'x']) (b := [' ']) (.token (.minus ['x'])) nx b1 (by decide) .nil
  · intro q hq
    rw [List.mem_singleton.1 hq]; exact ⟨.head _, s2⟩
  · unfold Spec.Repeated Spec.Repeated; simp
  refine .line ⟨adm, ⟨[], "-y ".toList, ['<', '=', ' '], ['0'], [], .none b0, ?_, hle, n0, b0, rfl⟩,
      ⟨[], ['-'], ['y'], " <= 0".toList, rfl, .tail _ (.head _), Or.inl rfl, hq, by decide⟩, ?_, s0, ?_, by decide⟩ (by decide +kernel) (by decide +kernel) ?_
  · exact .cons (t := ['-', 'y']) (b := [' ']) (.token (.minus ['y'])) ny b1 (by decide) .nil
  · intro q hq
    rw [List.mem_singleton.1 hq]; exact ⟨.tail _ (.head _), s2⟩
  · unfold Spec.Repeated Spec.Repeated; simp
  refine .line ⟨adm, ⟨[], "x + y ".toList, r, n, [], .none b0, ?_, hr, hn, b0, by rw [List.append_nil]; rfl⟩,
      ⟨[], [], ['x'], " + y ".toList ++ (r ++ n), rfl, .head _, Or.inl rfl, by simp, by decide⟩, ?_, hb, ?_, fun h => (by cases h), fun h => absurd h hrel⟩ ?_ ?_ .nil
  · exact .cons (t := ['x']) (b := [' ']) (.token (.bare ['x'])) nx b1 (by decide)
      (.cons (t := ['+', ' ', 'y']) (b := [' ']) (.plus b1 (by decide) (.bare ['y']) (by decide)) ny b1 (by decide) .nil)
  · intro q hq
    simp only [List.mem_cons, List.not_mem_nil, or_false] at hq
    rcases hq with rfl | rfl
    · exact ⟨.head _, s1⟩
    · exact ⟨.tail _ (.head _), s1⟩
  · unfold Spec.Repeated Spec.Repeated Spec.Repeated
    simp
  · rw [List.mem_append, not_or]; exact ⟨by decide +kernel, hl⟩
  · rw [show "x + y ".toList = 'x' :: " + y ".toList from rfl]; simp

theorem swap_solution {rel : Spec.Rel} {rhs : Int} (p : Fin 2 → ℚ) :
    (swapContent rel rhs).Solution p ↔ 0 ≤ p 0 ∧ 0 ≤ p 1 ∧ rel.holds (p 0 + p 1) rhs := by
  have hx : Spec.valuation ["x".toList, "y".toList] p "x".toList = p 0 :=
    valuation_name (names := ["x".toList, "y".toList]) (n := 2) (by decide) rfl p (j := 0) (by decide)
  have hy : Spec.valuation ["x".toList, "y".toList] p "y".toList = p 1 :=
    valuation_name (names := ["x".toList, "y".toList]) (n := 2) (by decide) rfl p (j := 1) (by decide)
  unfold Spec.InequalityContent.Solution swapContent
  simp only [List.mem_cons, List.not_mem_nil, or_false, forall_eq_or_imp, forall_eq, false_imp_iff, implies_true, and_true,
    Spec.Constraint.HoldsAt, Spec.sumValue, List.map_cons, List.map_nil, List.sum_cons, List.sum_nil, hx, hy]
  have h1 : Spec.Rel.le.holds (((-1 : Int) : ℚ) * p 0 + 0) ((0 : Int) : ℚ) ↔ 0 ≤ p 0 := by
    unfold Spec.Rel.holds; push_cast; constructor <;> intro h <;> linarith
  have h2 : Spec.Rel.le.holds (((-1 : Int) : ℚ) * p 1 + 0) ((0 : Int) : ℚ) ↔ 0 ≤ p 1 := by
    unfold Spec.Rel.holds; push_cast; constructor <;> intro h <;> linarith
  have h3 : ((1 : Int) : ℚ) * p 0 + (((1 : Int) : ℚ) * p 1 + 0) = p 0 + p 1 := by push_cast; ring
  rw [h1, h2, h3]

theorem swap_map {rel : Spec.Rel} {rhs : Int} (p : Fin 2 → ℚ) (m : List (List (Option (List Char) × Int))) (hm : m ∈ (swapContent rel rhs).maps) :
    Spec.mapPoint (swapContent rel rhs).names m p = ![p 1, p 0] := by
  have hx : Spec.valuation (swapContent rel rhs).names p "x".toList = p 0 :=
    valuation_name (names := (swapContent rel rhs).names) (n := 2) (by show List.Nodup ["x".toList, "y".toList]; decide) rfl p (j := 0) (by show 0 < 2; decide)
  have hy : Spec.valuation (swapContent rel rhs).names p "y".toList = p 1 :=
    valuation_name (names := (swapContent rel rhs).names) (n := 2) (by show List.Nodup ["x".toList, "y".toList]; decide) rfl p (j := 1) (by show 1 < 2; decide)
  rw [List.mem_singleton.1 hm]
  funext i
  fin_cases i
  · show ((1 : Int) : ℚ) * Spec.valuation (swapContent rel rhs).names p "y".toList + 0 = p 1
    rw [hy]; push_cast; ring
  · show ((1 : Int) : ℚ) * Spec.valuation (swapContent rel rhs).names p "x".toList + 0 = p 0
    rw [hx]; push_cast; ring

theorem swap_onto {rel : Spec.Rel} {rhs : Int} : ∀ m ∈ (swapContent rel rhs).maps,
    Spec.MapsOnto (d := 2) (swapContent rel rhs).names m (swapContent rel rhs).Solution := by
  intro m hm
  have key : ∀ p : Fin 2 → ℚ, (swapContent rel rhs).Solution p → (swapContent rel rhs).Solution ![p 1, p 0] := by
    intro p hp
    obtain ⟨h0, h1, h2⟩ := (swap_solution p).1 hp
    rw [swap_solution]
    exact ⟨h1, h0, by show rel.holds (p 1 + p 0) rhs; rwa [add_comm]⟩
  refine ⟨fun p hp => ?_, fun p hp => ⟨![p 1, p 0], key p hp, ?_⟩⟩
  · rw [swap_map p m hm]; exact key p hp
  · rw [swap_map _ m hm]
    funext i
    fin_cases i <;> rfl

theorem swap_no_line {rel : Spec.Rel} {rhs : Int} : ¬ Spec.Line (d := 2) (swapContent rel rhs).Solution := by
  rintro ⟨p, q, hq, h⟩
  simp only [swap_solution, Pi.add_apply, Pi.smul_apply, smul_eq_mul] at h
  have h1 := slope_zero (u := -p 0) (w := -q 0) (b := 0) fun t => by have := (h t).1; linarith
  have h2 := slope_zero (u := -p 1) (w := -q 1) (b := 0) fun t => by have := (h t).2.1; linarith
  apply hq
  funext i
  fin_cases i
  · show q 0 = 0; linarith
  · show q 1 = 0; linarith

theorem swap_consistent {rel : Spec.Rel} {rhs : Int} : (swapContent rel rhs).Consistent 2 ∧ (swapContent rel rhs).maps ≠ [] ∧
    Spec.AdmissibleNames (swapContent rel rhs).names ∧ (swapContent rel rhs).names ≠ [] := by
  refine ⟨⟨by simp [swapContent], ?_, by simp [swapContent], by intro _; rfl, by simp [swapContent], by simp [swapContent]⟩, by simp [swapContent],
    ⟨by show List.Nodup ["x".toList, "y".toList]; decide, ?_⟩, by simp [swapContent]⟩
  · intro a ha
    simp only [swapContent, List.mem_cons, List.not_mem_nil, or_false] at ha
    rcases ha with rfl | rfl | rfl <;> trivial
  · intro x hx
    simp only [swapContent, List.mem_cons, List.not_mem_nil, or_false] at hx
    rcases hx with rfl | rfl
    · exact ⟨'x', [], rfl, by unfold Spec.Space; decide, by unfold Spec.Digit; decide, by decide⟩
    · exact ⟨'y', [], rfl, by unfold Spec.Space; decide, by unfold Spec.Digit; decide, by decide⟩

/-- `x, y ≥ 0`, `x + y ≥ 1`: two vertices and two directions -/
theorem cornerFile : Spec.InequalityFile {} (swapText ">= 1".toList) (swapContent .ge 1) :=
  swapFile (r := ['>', '=', ' ']) (n := ['1']) (.ge blanks_example.2) (Spec.Numeral.plain "1".toList (by decide) (by simp [Spec.Digit])) (by decide)
    (by unfold Spec.Symmetric; decide) (by decide)

/-- `x, y ≥ 0`, `x + y ≤ 2` -/
theorem swapTriangleFile : Spec.InequalityFile {} (swapText "<= 2".toList) (swapContent .le 2) :=
  swapFile (r := ['<', '=', ' ']) (n := ['2']) (.le blanks_example.2) (Spec.Numeral.plain "2".toList (by decide) (by simp [Spec.Digit])) (by decide)
    (by unfold Spec.Symmetric; decide) (by decide)

/-- the hypotheses of `C66_vertices_dd` can be met -/
example : Spec.PlainCommand exampleArgs "file".toList ∧ getInputOrder exampleArgs = .ok .noSorting ∧ Spec.UsesDD exampleArgs ∧
    Spec.UsesChecked exampleArgs ∧ Spec.NoHelp exampleArgs ∧
    Spec.HasWordLine Spec.inequalityWords (swapText ">= 1".toList) ∧ ¬ Spec.HasWordLine Spec.hullWords (swapText ">= 1".toList) ∧
    Spec.EarlyHeader 20 (swapText ">= 1".toList) ∧ Spec.InequalityFile {} (swapText ">= 1".toList) (swapContent .ge 1) ∧
    ((swapContent .ge 1).Consistent 2 ∧ (swapContent .ge 1).maps ≠ [] ∧ Spec.AdmissibleNames (swapContent .ge 1).names ∧ (swapContent .ge 1).names ≠ []) ∧
    (∃ p : Fin 2 → ℚ, (swapContent .ge 1).Solution p) ∧ ¬ Spec.Line (d := 2) (swapContent .ge 1).Solution ∧
    ∀ m ∈ (swapContent .ge 1).maps, Spec.MapsOnto (d := 2) (swapContent .ge 1).names m (swapContent .ge 1).Solution := by
  refine ⟨exampleArgs_plain, exampleArgs_options.1, exampleArgs_options.2.1, exampleArgs_options.2.2.1, exampleArgs_options.2.2.2, ?_, ?_,
    containsKeywords_early.2 (by decide +kernel), cornerFile, swap_consistent, ⟨![1, 0], ?_⟩, swap_no_line, swap_onto⟩
  · rw [← hasInequalitiesKeyword_iff]; decide +kernel
  · rw [← hasHullKeyword_iff]; decide +kernel
  · rw [swap_solution]; norm_num [Spec.Rel.holds]

example : program (fun _ => none) none 20 (fun _ => some (swapText ">= 1".toList)) exampleArgs =
    some (.finished 0 "Reduced Vertices:\n1 0 \nReduced Rays:\n  1  0\n".toList) := by decide +kernel

/-- the hypotheses of `C66_vertices_ad` can be met, including that for completeness -/
example : (Spec.PlainCommand oneArgs "file".toList ∧ getInputOrder oneArgs = .ok .noSorting ∧ Spec.UsesAD oneArgs ∧
      Spec.UsesInt oneArgs ∧ Spec.ThreadsOk oneArgs ∧ Spec.NoHelp oneArgs) ∧
    Spec.HasWordLine Spec.inequalityWords (swapText "<= 2".toList) ∧ ¬ Spec.HasWordLine Spec.hullWords (swapText "<= 2".toList) ∧
    Spec.EarlyHeader 20 (swapText "<= 2".toList) ∧ Spec.InequalityFile {} (swapText "<= 2".toList) (swapContent .le 2) ∧
    ((swapContent .le 2).Consistent 2 ∧ (swapContent .le 2).maps ≠ [] ∧ Spec.AdmissibleNames (swapContent .le 2).names ∧ (swapContent .le 2).names ≠ []) ∧
    (∃ p : Fin 2 → ℚ, (swapContent .le 2).Solution p) ∧ ¬ Spec.Line (d := 2) (swapContent .le 2).Solution ∧
    (∀ m ∈ (swapContent .le 2).maps, Spec.MapsOnto (d := 2) (swapContent .le 2).names m (swapContent .le 2).Solution) ∧
    ∀ v : Fin 2 → ℚ, Spec.Vertex (swapContent .le 2).Solution v → ∀ t : ℚ, 0 < t → ¬ Spec.Edge (swapContent .le 2).Solution v (t • Spec.outward v) := by
  have hS : (swapContent .le 2).Solution = Spec.Solves 2 triangle := funext fun p => propext (by
    rw [swap_solution, triangle_iff]; simp [Spec.Rel.holds])
  refine ⟨oneArgs_ok, ?_, ?_, containsKeywords_early.2 (by decide +kernel), swapTriangleFile, swap_consistent, ⟨0, ?_⟩, swap_no_line, swap_onto, ?_⟩
  · rw [← hasInequalitiesKeyword_iff]; decide +kernel
  · rw [← hasHullKeyword_iff]; decide +kernel
  · rw [swap_solution]; norm_num [Spec.Rel.holds]
  · rw [hS]; exact triangle_no_edge

/-- the program up to the start of the threads on that file -/
example : adProgramVertices 8 20 (fun _ => some (swapText "<= 2".toList)) oneArgs =
    some (.ok { matrix := [[-1, 0, 0], [0, -1, 0], [1, 1, -2], [0, 0, -1]], names := ["x".toList, "y".toList], tag := .vertex, threads := 1
                head := "Reduced Vertices / Rays:\n".toList, maps := [[[(1, 1)], [(0, 1)], [(2, 1)]]], initial := [[2, 0, 1], [2, 0, 1], [0, 0, 1]], known := []
                knownEnd := .ok (), dangling := false }) := by decide +kernel

end Panda
