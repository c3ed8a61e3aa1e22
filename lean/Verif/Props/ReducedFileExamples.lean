import Verif.Props.ReducedFile

/-! # C67: an example

A square given by one vertex and the rotation by a quarter turn. -/

namespace Panda

def squareText : List Char := "Names:\nx y\nMaps:\ny -x\nReduced Vertices:\n1 1\n".toList

def squareMap : List (List (Option (List Char) × Int)) := [[(some "y".toList, 1)], [(some "x".toList, -1)]]

def squareContent : Spec.HullContent 2 :=
  { names := ["x".toList, "y".toList]
    maps := [squareMap]
    points := fun x => ∃ v ∈ ([[(1, 1), (1, 1)]] : List (List (Int × Int))), Spec.Moved ["x".toList, "y".toList] [squareMap] (Spec.point 2 v) x }

theorem squareFile : Spec.HullFile Spec.HarmlessExpansion {} squareText squareContent := by
  obtain ⟨b0, b1⟩ := blanks_example
  have sp : ∀ c : Char, c = ' ' ∨ c = '\n' → Spec.Space c := by rintro c (rfl | rfl) <;> unfold Spec.Space <;> decide
  have n1 : Spec.Fraction "1".toList 1 1 := .whole (Spec.Numeral.plain "1".toList (by decide) (by simp [Spec.Digit]))
  have hx : Spec.MapName ['x'] := ⟨⟨'x', [], rfl, by unfold Spec.Space; decide, by unfold Spec.Digit; decide, by decide⟩, by decide, by decide⟩
  have hy : Spec.MapName ['y'] := ⟨⟨'y', [], rfl, by unfold Spec.Space; decide, by unfold Spec.Digit; decide, by decide⟩, by decide, by decide⟩
  refine Spec.HullFile.names (k := "Names:".toList) (t := "x y\n".toList) (w := "Maps:\ny -x\nReduced Vertices:\n1 1\n".toList)
    (names := ["x".toList, "y".toList]) (by decide +kernel) (header_example _ "Names:" (by decide +kernel)) ⟨?_, Or.inr (by decide +kernel), by decide +kernel⟩
    (Or.inr ⟨"Maps:".toList, "y -x\nReduced Vertices:\n1 1\n".toList, ⟨by decide +kernel, Or.inl (by decide +kernel)⟩, by decide +kernel,
      header_example _ "Maps:" (by decide +kernel)⟩) rfl ?_
  · refine .cons (s := []) (x := "x".toList) (t := " y\n".toList) (by simp) (by decide) (by unfold Spec.Space; decide) ⟨' ', by decide, sp _ (Or.inl rfl)⟩ ?_
    refine .cons (s := " ".toList) (x := "y".toList) (t := "\n".toList) (fun c hc => sp _ (Or.inl (by simpa using hc))) (by decide)
      (by unfold Spec.Space; decide) ⟨'\n', by decide, sp _ (Or.inr rfl)⟩ ?_
    exact .nil (fun c hc => sp _ (Or.inr (by simpa using hc)))
  refine Spec.HullFile.maps (k := "Maps:".toList) (t := "y -x\n".toList) (w := "Reduced Vertices:\n1 1\n".toList)
    (maps := [squareMap]) (by decide +kernel)
    (header_example _ "Maps:" (by decide +kernel)) ?_
    (Or.inr ⟨"Reduced Vertices:".toList, "1 1\n".toList, ⟨by decide +kernel, Or.inl (by decide +kernel)⟩, by decide +kernel,
      header_example _ "Reduced Vertices:" (by decide +kernel)⟩) ?_
  · refine .line (t := "y -x".toList) (ts := []) ⟨⟨[], "y -x".toList, b0, ?_, rfl⟩, rfl, ?_⟩ (by decide +kernel) (by decide +kernel) .nil
    · exact .cons (t := ['y']) (b := [' ']) (.last (.var (.bare ['y']) hy)) b1 (Or.inl rfl)
        (.last (t := ['-', 'x']) (b := []) (.last (.var (.minus ['x']) hx)) b0)
    · unfold Spec.ImagesFit Spec.IsInt; decide
  refine Spec.HullFile.reducedPoints (k := "Reduced Vertices:".toList) (t := "1 1\n".toList) (w := [])
    (vs := [[(1, 1), (1, 1)]]) (by decide +kernel) (header_example _ "Reduced Vertices:" (by decide +kernel))
    ⟨?_, ?_⟩ (by decide) (Or.inl rfl) ⟨by decide, by decide, rfl⟩ ⟨?_, ?_⟩ .nil
  · exact Spec.VertexLines.vertex (l := "1 1".toList) (t := []) ⟨[], "1 1".toList, .none b0,
      Spec.Coordinates.cons (t := "1".toList) (b := " ".toList) (ts := "1".toList) n1 b1 (by decide) (.last (t := "1".toList) (b := []) n1 b0), rfl⟩ .nil
  · intro cs hcs
    rw [List.mem_singleton.1 hcs]
    refine ⟨⟨?_, 1, ⟨by decide, by decide, fun m hm => by omega⟩, by unfold Spec.IsInt; decide, ?_⟩, by decide⟩ <;>
      · unfold Spec.IsInt; decide
  · intro m hm l hl
    rw [List.mem_singleton.1 hm] at hl
    simp only [squareMap, List.mem_cons, List.not_mem_nil, or_false] at hl
    rcases hl with rfl | rfl
    · exact ⟨_, _, rfl, Or.inl rfl⟩
    · exact ⟨_, _, rfl, Or.inr rfl⟩
  · intro v hv L hL q hq
    rw [List.mem_singleton.1 hv] at hL hq
    have h1 : L ∣ 1 := hL.2.2 1 (by decide)
    have h2 : L = 1 := Int.eq_one_of_dvd_one (by have := hL.1; omega) h1
    subst h2
    simp only [List.mem_cons, List.not_mem_nil, or_false, or_self] at hq
    subst hq
    decide

/-- a file with condition is a file -/
theorem HullFile.mono {d : Nat} {Q Q' : List (List (List (Option (List Char) × Int))) → List (List (Int × Int)) → Prop} (hQ : ∀ a b, Q a b → Q' a b)
    {c c' : Spec.HullContent d} {text : List Char} (h : Spec.HullFile Q c text c') : Spec.HullFile Q' c text c' := by
  induction h with
  | nil => exact .nil
  | other a b _ ih => exact .other a b ih
  | names a b e f g _ ih => exact .names a b e f g ih
  | maps a b e f _ ih => exact .maps a b e f ih
  | points a b e f g _ ih => exact .points a b e f g ih
  | reducedPoints a b e f g i j _ ih => exact .reducedPoints a b e f g i (hQ _ _ j) ih
  | rays a b e f g _ ih => exact .rays a b e f g ih
  | reducedRays a b e f g i j _ ih => exact .reducedRays a b e f g i (hQ _ _ j) ih
  | dimension a b e f g i j _ ih => exact .dimension a b e f g i j ih

theorem square_map (p : Fin 2 → ℚ) : Spec.mapPoint squareContent.names squareMap p = ![p 1, -p 0] := by
  have hx : Spec.valuation squareContent.names p "x".toList = p 0 :=
    valuation_name (names := squareContent.names) (n := 2) (by decide) rfl p (j := 0) (by decide)
  have hy : Spec.valuation squareContent.names p "y".toList = p 1 :=
    valuation_name (names := squareContent.names) (n := 2) (by decide) rfl p (j := 1) (by decide)
  funext i
  fin_cases i
  · show ((1 : Int) : ℚ) * Spec.valuation squareContent.names p "y".toList + 0 = p 1
    rw [hy]; push_cast; ring
  · show ((-1 : Int) : ℚ) * Spec.valuation squareContent.names p "x".toList + 0 = -p 0
    rw [hx]; push_cast; ring

theorem hullOf_point {d : Nat} {X D : (Fin d → ℚ) → Prop} {x : Fin d → ℚ} (hx : X x) : Spec.HullOf X D x :=
  ⟨1, 0, fun _ => 1, fun _ => x, Fin.elim0, Fin.elim0, fun _ => ⟨zero_le_one, hx⟩, fun j => j.elim0, by simp, by simp⟩

/-- the vertices of the square -/
theorem square_points : squareContent.points ![1, 1] ∧ squareContent.points ![1, -1] ∧ squareContent.points ![-1, -1] ∧
    squareContent.points ![-1, 1] := by
  have h0 : squareContent.points ![1, 1] := by
    refine ⟨_, List.mem_singleton.2 rfl, ?_⟩
    rw [show Spec.point 2 [(1, 1), (1, 1)] = ![1, 1] by funext i; fin_cases i <;> norm_num [Spec.point]]
    exact .refl
  have hs : ∀ p, squareContent.points p → squareContent.points ![p 1, -p 0] := by
    rintro p ⟨v, hv, h⟩
    exact ⟨v, hv, h.tail ⟨squareMap, List.mem_singleton.2 rfl, (square_map p).symm⟩⟩
  have h1 := hs _ h0
  have h2 := hs _ h1
  have h3 := hs _ h2
  simp only [Matrix.cons_val_zero, Matrix.cons_val_one, neg_neg] at h1 h2 h3
  exact ⟨h0, h1, h2, h3⟩

theorem square_bounded {p : Fin 2 → ℚ} (h : Spec.HullOf squareContent.points squareContent.rays p) : ∀ i, -1 ≤ p i ∧ p i ≤ 1 := by
  have hb : ∀ x, squareContent.points x → ∀ i, -1 ≤ x i ∧ x i ≤ 1 := by
    rintro x ⟨v, hv, h⟩
    rw [List.mem_singleton.1 hv, show Spec.point 2 [(1, 1), (1, 1)] = ![1, 1] by funext i; fin_cases i <;> norm_num [Spec.point]] at h
    induction h with
    | refl => intro i; fin_cases i <;> norm_num
    | tail _ hst ih =>
      obtain ⟨m, hm, rfl⟩ := hst
      rw [List.mem_singleton.1 hm]
      have := square_map
      intro i
      rw [show Spec.mapPoint ["x".toList, "y".toList] squareMap _ = _ from square_map _]
      fin_cases i
      · exact ih 1
      · have := ih 0
        exact ⟨by show -1 ≤ -_; linarith [this.2], by show -_ ≤ (1 : ℚ); linarith [this.1]⟩
  obtain ⟨k, l, a, x, b, y, h1, h2, h3, rfl⟩ := h
  intro i
  have hl : ∑ j, b j • y j = 0 := Finset.sum_eq_zero fun j _ => (h2 j).2.elim
  rw [hl, add_zero, Finset.sum_apply]
  simp only [Pi.smul_apply, smul_eq_mul]
  constructor
  · calc (-1 : ℚ) = ∑ j, a j * -1 := by rw [← Finset.sum_mul, h3]; ring
      _ ≤ _ := Finset.sum_le_sum fun j _ => mul_le_mul_of_nonneg_left (hb _ (h1 j).2 i).1 (h1 j).1
  · calc _ ≤ ∑ j, a j * 1 := Finset.sum_le_sum fun j _ => mul_le_mul_of_nonneg_left (hb _ (h1 j).2 i).2 (h1 j).1
      _ = 1 := by rw [← Finset.sum_mul, h3]; ring

def squareArgs : List Arg := ["-t".toList, "2".toList, "file".toList]

/-- the hypotheses of C67 can be met -/
example : Spec.PlainCommand squareArgs "file".toList ∧ getInputOrder squareArgs = .ok .noSorting ∧ Spec.UsesAD squareArgs ∧
    Spec.UsesInt squareArgs ∧ Spec.ThreadsOk squareArgs ∧ Spec.NoHelp squareArgs ∧ ¬ Spec.HasWordLine Spec.inequalityWords squareText ∧
    Spec.EarlyHeader 20 squareText ∧ Spec.HullFile Spec.HarmlessExpansion {} squareText squareContent ∧
    Spec.HullFile (fun _ _ => True) {} squareText squareContent ∧ squareContent.Consistent ∧
    (∃ x, squareContent.points x) ∧ squareContent.maps ≠ [] ∧ Spec.AdmissibleNames squareContent.names ∧
    (∀ m ∈ squareContent.maps, squareContent.Symmetry m ∧ Spec.PlainImages m) ∧
    Spec.Solid (Spec.HullOf squareContent.points squareContent.rays) ∧
    Spec.Plane (Spec.HullOf squareContent.points squareContent.rays) ∧
    ¬ Spec.Line (Spec.HullOf squareContent.points squareContent.rays) := by
  obtain ⟨q0, q1, q2, q3⟩ := square_points
  refine ⟨?_, by decide +kernel, Or.inl ?_, Or.inl ?_, Or.inr ⟨"2".toList, 2, ?_, ?_, by decide, by decide⟩, ?_, ?_,
    containsKeywords_early.2 (by decide +kernel), squareFile, HullFile.mono (fun _ _ _ => trivial) squareFile, ?_, ⟨_, q0⟩, by decide, ?_,
    fun m hm => ⟨Or.inr ⟨?_, ?_, ?_⟩, ?_⟩, ?_, ?_, ?_⟩
  · refine ⟨?_, by decide +kernel, by decide +kernel, ?_⟩
    · exact .short (a := "-t".toList) (p := "2".toList) (by decide +kernel) (by decide +kernel) (by decide +kernel) (by decide +kernel)
        (.file (by decide +kernel) (by decide +kernel) .nil)
    · intro a ha
      unfold Spec.LooksLike
      revert a
      decide +kernel
  · unfold Spec.Absent Spec.LooksLike; decide +kernel
  · unfold Spec.Absent Spec.LooksLike; decide +kernel
  · exact ⟨[], ["file".toList], by simp, Or.inl rfl⟩
  · exact ⟨[], "2".toList, [], by simp, Spec.Numeral.plain "2".toList (by decide) (by simp [Spec.Digit]), by simp, rfl⟩
  · unfold Spec.NoHelp Spec.ModeArgument Spec.HelpAbout Spec.HelpWord Spec.VersionWord; decide +kernel
  · rw [← hasInequalitiesKeyword_iff]; decide +kernel
  · exact ⟨Or.inl ⟨_, q0⟩, fun _ => rfl, by intro n hn; simp [squareContent] at hn⟩
  · refine ⟨by decide +kernel, fun x hx => ?_⟩
    have : x = ['x'] ∨ x = ['y'] := by simpa [squareContent] using hx
    rcases this with rfl | rfl
    · exact ⟨'x', [], rfl, by unfold Spec.Space; decide, by unfold Spec.Digit; decide, by decide⟩
    · exact ⟨'y', [], rfl, by unfold Spec.Space; decide, by unfold Spec.Digit; decide, by decide⟩
  · rw [List.mem_singleton.1 hm]
    intro p q e
    rw [square_map, square_map] at e
    have e0 : p 1 = q 1 := congrFun e 0
    have e1 : -p 0 = -q 0 := congrFun e 1
    funext i
    fin_cases i
    · exact neg_injective e1
    · exact e0
  · rintro x ⟨v, hv, h⟩
    exact ⟨v, hv, h.tail ⟨m, hm, rfl⟩⟩
  · intro x hx
    exact hx.elim
  · rw [List.mem_singleton.1 hm]
    unfold Spec.PlainImages; decide +kernel
  · intro a b h
    have h0 := h _ (hullOf_point q0)
    have h1 := h _ (hullOf_point q1)
    have h2 := h _ (hullOf_point q2)
    simp [Fin.sum_univ_two] at h0 h1 h2
    funext i
    fin_cases i
    · show a 0 = 0
      linarith
    · show a 1 = 0
      linarith
  · refine ⟨_, _, _, hullOf_point q0, hullOf_point q1, hullOf_point q3, fun a b h => ?_⟩
    have h0 := congrFun h 0
    have h1 := congrFun h 1
    norm_num at h0 h1
    exact ⟨h1, h0⟩
  · rintro ⟨p, q, hq, h⟩
    apply hq
    funext i
    exact slope_zero (u := p i + 1) (w := q i) (b := 2) fun t => by
      have := square_bounded (h t) i
      simp only [Pi.add_apply, Pi.smul_apply, smul_eq_mul] at this
      linarith [this.2]

/-- the file is read as the four vertices -/
example : inputVertices 40 (fun _ => some squareText) squareArgs =
    some (.ok ([[-1, -1, 1], [-1, 1, 1], [1, -1, 1], [1, 1, 1]], ["x".toList, "y".toList], [[[(1, 1)], [(0, -1)], [(2, 1)]]], [])) := by
  decide +kernel

/-- one inequality stands for all four -/
example : program (fun _ => none) none 40 (fun _ => some squareText) ["-m".toList, "dd".toList, "file".toList] =
    some (.finished 0 "Reduced Inequalities:\nx <= 1\n".toList) := by decide +kernel

/-- **C67** (overflow) the expansion of a point with infinitely many images exceeds the range of `int`: the behaviour is undefined -/
theorem C67_overflow : inputVertices 80 (fun _ => some "Names:\nx\nMaps:\n2x\nReduced Vertices:\n1\n".toList) ["file".toList] = some .ub := by
  decide +kernel

end Panda
