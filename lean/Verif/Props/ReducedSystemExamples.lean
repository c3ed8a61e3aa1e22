import Verif.Props.ReducedSystem
import Verif.Props.ReducedFileExamples
import Verif.Props.VertexMapsExamples

/-! # C68: examples

A square given by one inequality and the rotation by a quarter turn. -/

namespace Panda

open _root_.Relation

def boxText : List Char := "Names:\nx y\nMaps:\ny -x\nReduced Inequalities:\nx <= 1\n".toList

def boxRow : Spec.Constraint := .named [("x".toList, 1)] .le 1

def boxContent : Spec.SystemContent 2 :=
  { names := ["x".toList, "y".toList]
    maps := [squareMap]
    given := ([boxRow] ≠ [])
    inequalities := fun p => ∀ p', Spec.Moved ["x".toList, "y".toList] [squareMap] p p' → ∀ a ∈ [boxRow], a.HoldsAt false ["x".toList, "y".toList] p' }

theorem squareMap_signed : ∀ m ∈ [squareMap], Spec.SignedPermutation m := by
  intro m hm
  rw [List.mem_singleton.1 hm]
  refine ⟨fun l hl => ?_, by decide +kernel⟩
  simp only [squareMap, List.mem_cons, List.not_mem_nil, or_false] at hl
  rcases hl with rfl | rfl
  · exact ⟨_, _, rfl, Or.inl rfl⟩
  · exact ⟨_, _, rfl, Or.inr rfl⟩

theorem boxFile : Spec.SystemFile (fun maps => ∀ m ∈ maps, Spec.SignedPermutation m) {} boxText boxContent := by
  obtain ⟨b0, b1⟩ := blanks_example
  have sp : ∀ c : Char, c = ' ' ∨ c = '\n' → Spec.Space c := by rintro c (rfl | rfl) <;> unfold Spec.Space <;> decide
  have nx : Spec.Name ['x'] := ⟨'x', [], rfl, by unfold Spec.Space; decide, by unfold Spec.Digit; decide, by decide⟩
  have ny : Spec.Name ['y'] := ⟨'y', [], rfl, by unfold Spec.Space; decide, by unfold Spec.Digit; decide, by decide⟩
  have hx : Spec.MapName ['x'] := ⟨nx, by decide, by decide⟩
  have hy : Spec.MapName ['y'] := ⟨ny, by decide, by decide⟩
  have adm : Spec.UsableNames ["x".toList, "y".toList] := by
    refine ⟨⟨by decide, fun x hx => ?_⟩, by unfold Spec.NoPrefix; decide⟩
    simp only [List.mem_cons, List.not_mem_nil, or_false] at hx
    rcases hx with rfl | rfl
    · exact nx
    · exact ny
  have n1 : Spec.Numeral "1".toList 1 := Spec.Numeral.plain "1".toList (by decide) (by simp [Spec.Digit])
  have hle : Spec.RelText ['<', '=', ' '] .le := .le b1
  have s1 : Spec.Symmetric 1 := by unfold Spec.Symmetric; decide
  refine Spec.SystemFile.names (k := "Names:".toList) (t := "x y\n".toList) (w := "Maps:\ny -x\nReduced Inequalities:\nx <= 1\n".toList)
    (names := ["x".toList, "y".toList]) (by decide +kernel) (header_example _ "Names:" (by decide +kernel)) ⟨?_, Or.inr (by decide +kernel), by decide +kernel⟩
    (Or.inr ⟨"Maps:".toList, "y -x\nReduced Inequalities:\nx <= 1\n".toList, ⟨by decide +kernel, Or.inl (by decide +kernel)⟩, by decide +kernel,
      header_example _ "Maps:" (by decide +kernel)⟩) rfl rfl ?_
  · refine .cons (s := []) (x := "x".toList) (t := " y\n".toList) (by simp) (by decide) (by unfold Spec.Space; decide) ⟨' ', by decide, sp _ (Or.inl rfl)⟩ ?_
    refine .cons (s := " ".toList) (x := "y".toList) (t := "\n".toList) (fun c hc => sp _ (Or.inl (by simpa using hc))) (by decide)
      (by unfold Spec.Space; decide) ⟨'\n', by decide, sp _ (Or.inr rfl)⟩ ?_
    exact .nil (fun c hc => sp _ (Or.inr (by simpa using hc)))
  refine Spec.SystemFile.maps (k := "Maps:".toList) (t := "y -x\n".toList) (w := "Reduced Inequalities:\nx <= 1\n".toList)
    (maps := [squareMap]) (by decide +kernel)
    (header_example _ "Maps:" (by decide +kernel)) ?_
    (Or.inr ⟨"Reduced Inequalities:".toList, "x <= 1\n".toList, ⟨by decide +kernel, Or.inl (by decide +kernel)⟩, by decide +kernel,
      header_example _ "Reduced Inequalities:" (by decide +kernel)⟩) ?_
  · refine .line (t := "y -x".toList) (ts := []) ⟨⟨[], "y -x".toList, b0, ?_, rfl⟩, rfl, ?_⟩ (by decide +kernel) (by decide +kernel) .nil
    · exact .cons (t := ['y']) (b := [' ']) (.last (.var (.bare ['y']) hy)) b1 (Or.inl rfl)
        (.last (t := ['-', 'x']) (b := []) (.last (.var (.minus ['x']) hx)) b0)
    · unfold Spec.ImagesFit Spec.IsInt; decide
  refine Spec.SystemFile.reducedInequalities (k := "Reduced Inequalities:".toList) (t := "x <= 1\n".toList) (w := [])
    (cs := [boxRow]) (by decide +kernel) (header_example _ "Reduced Inequalities:" (by decide +kernel))
    ?_ (Or.inl rfl) (by decide) (by decide) (by decide) rfl rfl ?_ squareMap_signed .nil
  · refine .line (t := "x <= 1".toList) (ts := []) ⟨adm, ⟨[], "x ".toList, ['<', '=', ' '], ['1'], [], .none b0, ?_, hle, n1, b0, rfl⟩,
      ⟨[], [], ['x'], " <= 1".toList, rfl, .head _, Or.inl rfl, by simp, by decide⟩, ?_, s1, ?_, by decide⟩ (by decide +kernel) (by decide +kernel) .nil
    · exact .cons (t := ['x']) (b := [' ']) (.token (.bare ['x'])) nx b1 (by decide) .nil
    · intro q hq
      rw [List.mem_singleton.1 hq]; exact ⟨.head _, s1⟩
    · unfold Spec.Repeated Spec.Repeated; simp
  · intro m hm
    rw [List.mem_singleton.1 hm]
    unfold Spec.PlainImages; decide +kernel

/-- a file with condition is a file -/
theorem SystemFile.mono {d : Nat} {Q Q' : List (List (List (Option (List Char) × Int))) → Prop} (hQ : ∀ a, Q a → Q' a)
    {c c' : Spec.SystemContent d} {text : List Char} (h : Spec.SystemFile Q c text c') : Spec.SystemFile Q' c text c' := by
  induction h with
  | nil => exact .nil
  | other a b _ ih => exact .other a b ih
  | names a b e f g i _ ih => exact .names a b e f g i ih
  | maps a b e f _ ih => exact .maps a b e f ih
  | equations a b e f g _ ih => exact .equations a b e f g ih
  | inequalities a b e f g _ ih => exact .inequalities a b e f g ih
  | reducedInequalities a b e f g i j k l m n _ ih => exact .reducedInequalities a b e f g i j k l m (hQ _ n) ih
  | dimension a b e f g i j _ ih => exact .dimension a b e f g i j ih

theorem box_row (p : Fin 2 → ℚ) : boxRow.HoldsAt false ["x".toList, "y".toList] p ↔ p 0 ≤ 1 := by
  have hx : Spec.valuation ["x".toList, "y".toList] p "x".toList = p 0 :=
    valuation_name (names := ["x".toList, "y".toList]) (n := 2) (by decide) rfl p (j := 0) (by decide)
  simp only [boxRow, Spec.Constraint.HoldsAt, Spec.sumValue, List.map_cons, List.map_nil, List.sum_cons, List.sum_nil, hx]
  unfold Spec.Rel.holds
  push_cast
  simp

/-- the solution set is the square -/
theorem box_solution (p : Fin 2 → ℚ) : boxContent.Solution p ↔ ∀ i, -1 ≤ p i ∧ p i ≤ 1 := by
  have step : ∀ q : Fin 2 → ℚ, Spec.mapPoint ["x".toList, "y".toList] squareMap q = ![q 1, -q 0] := square_map
  constructor
  · rintro ⟨h, -⟩
    have g0 : Spec.Moved ["x".toList, "y".toList] [squareMap] p p := .refl
    have g1 : Spec.Moved ["x".toList, "y".toList] [squareMap] p ![p 1, -p 0] := g0.tail ⟨_, .head _, (step _).symm⟩
    have g2 : Spec.Moved ["x".toList, "y".toList] [squareMap] p ![-p 0, -p 1] := g1.tail ⟨_, .head _, by rw [step]; rfl⟩
    have g3 : Spec.Moved ["x".toList, "y".toList] [squareMap] p ![-p 1, - -p 0] := g2.tail ⟨_, .head _, by rw [step]; rfl⟩
    have h0 := (box_row _).1 (h _ g0 _ (.head _))
    have h1 : p 1 ≤ 1 := (box_row _).1 (h _ g1 _ (.head _))
    have h2 : -p 0 ≤ 1 := (box_row _).1 (h _ g2 _ (.head _))
    have h3 : -p 1 ≤ 1 := (box_row _).1 (h _ g3 _ (.head _))
    intro i
    fin_cases i
    · exact ⟨by show -1 ≤ p 0; linarith, h0⟩
    · exact ⟨by show -1 ≤ p 1; linarith, h1⟩
  · intro h
    refine ⟨fun p' hp' a ha => ?_, by simp [boxContent]⟩
    have : ∀ i, -1 ≤ p' i ∧ p' i ≤ 1 := by
      induction hp' with
      | refl => exact h
      | tail _ hst ih =>
        obtain ⟨m, hm, rfl⟩ := hst
        rw [List.mem_singleton.1 hm, step]
        intro i
        fin_cases i
        · exact ih 1
        · have := ih 0
          exact ⟨by show -1 ≤ -_; linarith [this.2], by show -_ ≤ (1 : ℚ); linarith [this.1]⟩
    rw [List.mem_singleton.1 ha]
    exact (box_row _).2 (this 0).2

/-- the map has order 4 -/
theorem square_order : (Spec.mapPoint (d := 2) boxContent.names squareMap)^[4] = id := by
  have step : ∀ q : Fin 2 → ℚ, Spec.mapPoint boxContent.names squareMap q = ![q 1, -q 0] := square_map
  funext p
  simp only [Function.iterate_succ, Function.iterate_zero, Function.comp_apply, id, step]
  funext i
  fin_cases i <;> simp

/-- by `C68_symmetry` -/
theorem box_onto : ∀ m ∈ boxContent.maps, Spec.MapsOnto (d := 2) boxContent.names m boxContent.Solution := by
  intro m hm
  refine C68_symmetry (cs := [boxRow]) rfl (fun p => Iff.rfl) hm (k := 4) (by decide) ?_
  rw [List.mem_singleton.1 hm]
  exact square_order

def boxRows : Matrix := [[-1, 0, -1], [0, -1, -1], [0, 1, -1], [1, 0, -1], [0, 0, -1]]

theorem box_rows : boxContent.Solution = Spec.Solves 2 boxRows := funext fun p => propext (by
  rw [box_solution]
  unfold Spec.Solves boxRows Spec.value
  simp [Fin.sum_univ_two, Fin.forall_fin_two]
  constructor
  · rintro ⟨⟨a, b⟩, c, d⟩
    exact ⟨by linarith, by linarith, by linarith, by linarith⟩
  · rintro ⟨a, b, c, d⟩
    exact ⟨⟨by linarith, by linarith⟩, by linarith, by linarith⟩)

/-- the hypotheses of C68 can be met, including that for the completeness of adjacency decomposition -/
example : (Spec.PlainCommand oneArgs "file".toList ∧ getInputOrder oneArgs = .ok .noSorting ∧ Spec.UsesAD oneArgs ∧
      Spec.UsesInt oneArgs ∧ Spec.ThreadsOk oneArgs ∧ Spec.NoHelp oneArgs) ∧
    (Spec.PlainCommand exampleArgs "file".toList ∧ getInputOrder exampleArgs = .ok .noSorting ∧ Spec.UsesDD exampleArgs ∧
      Spec.UsesChecked exampleArgs ∧ Spec.NoHelp exampleArgs) ∧
    Spec.HasWordLine Spec.inequalityWords boxText ∧ ¬ Spec.HasWordLine Spec.hullWords boxText ∧
    Spec.EarlyHeader 20 boxText ∧ Spec.SystemFile (fun maps => ∀ m ∈ maps, Spec.SignedPermutation m) {} boxText boxContent ∧
    Spec.SystemFile (fun _ => True) {} boxText boxContent ∧ boxContent.Consistent ∧ boxContent.maps ≠ [] ∧
    Spec.AdmissibleNames boxContent.names ∧ boxContent.names ≠ [] ∧
    (∃ p : Fin 2 → ℚ, boxContent.Solution p) ∧ ¬ Spec.Line (d := 2) boxContent.Solution ∧
    (∀ m ∈ boxContent.maps, Spec.MapsOnto (d := 2) boxContent.names m boxContent.Solution) ∧
    ∀ v : Fin 2 → ℚ, Spec.Vertex boxContent.Solution v → ∀ t : ℚ, 0 < t → ¬ Spec.Edge boxContent.Solution v (t • Spec.outward v) := by
  refine ⟨oneArgs_ok, ⟨exampleArgs_plain, exampleArgs_options.1, exampleArgs_options.2.1, exampleArgs_options.2.2.1, exampleArgs_options.2.2.2⟩,
    ?_, ?_, containsKeywords_early.2 (by decide +kernel), boxFile, SystemFile.mono (fun _ _ => trivial) boxFile,
    ⟨by show [boxRow] ≠ []; simp, fun _ => rfl, by simp [boxContent], by simp [boxContent]⟩, by simp [boxContent], ?_, by simp [boxContent], ⟨0, ?_⟩, ?_, box_onto, ?_⟩
  · rw [← hasInequalitiesKeyword_iff]; decide +kernel
  · rw [← hasHullKeyword_iff]; decide +kernel
  · exact (swap_consistent (rel := .le) (rhs := 2)).2.2.1
  · rw [box_solution]; intro i; norm_num
  · rintro ⟨p, q, hq, h⟩
    apply hq
    funext i
    exact slope_zero (u := p i + 1) (w := q i) (b := 2) fun t => by
      have := (box_solution _).1 (h t) i
      simp only [Pi.add_apply, Pi.smul_apply, smul_eq_mul] at this
      linarith [this.2]
  · rw [box_rows]
    have h0 : ∀ p, Spec.Solves 2 boxRows p ↔ ∀ i, -1 ≤ p i ∧ p i ≤ 1 := fun p => by rw [← box_rows, box_solution]
    refine no_edge_of_origin ((h0 0).2 fun i => by norm_num) fun hv => ?_
    have := hv.2 ![1, 0] ![-1, 0] (1 / 2) ((h0 _).2 fun i => by fin_cases i <;> norm_num) ((h0 _).2 fun i => by fin_cases i <;> norm_num)
      (by norm_num) (by norm_num) (by funext i; fin_cases i <;> norm_num)
    have := congrFun this.1 0
    norm_num at this

/-- the file is read as the four inequalities -/
example : inputInequalities 40 (fun _ => some boxText) oneArgs = some (.ok (boxRows, ["x".toList, "y".toList], [[[(1, 1)], [(0, -1)], [(2, 1)]]], [])) := by
  decide +kernel

/-- one vertex stands for all four -/
example : program (fun _ => none) none 60 (fun _ => some boxText) exampleArgs = some (.finished 0 "Reduced Vertices:\n1 1 \n".toList) := by
  decide +kernel

/-- **C68** (overflow) Also for a symmetry of the solution set (the reflection in the point 1000000000), the image of an inequality
can exceed the range of `int`: the behaviour is undefined. -/
theorem C68_overflow : inputInequalities 40 (fun _ => some "Names:\nx\nMaps:\n-x+2000000000\nReduced Inequalities:\n-2x <= 1\n".toList)
    ["file".toList] = some .ub := by
  decide +kernel

/-- **C68** (no maps) Representatives without maps are rejected. -/
theorem C68_no_maps : inputInequalities 40 (fun _ => some "Names:\nx y\nReduced Inequalities:\n-x <= 0\n".toList)
    ["file".toList] = some .thrown := by
  decide +kernel

/-- **C68 is false after equations**: the triangle `x, y, z ≥ 0` in the plane `x + y + z = 1`, with the cyclic map and one inequality.
The maps are simplified with the equation before they are applied; the image of `-x ≤ 0` becomes the trivial inequality, and the
point `(2, -1, 0)` satisfies all rows. -/
theorem C68_equations_false :
    inputInequalities 40 (fun _ => some "Names:\nx y z\nMaps:\ny z x\nEquations:\nx + y + z = 1\nReduced Inequalities:\n-x <= 0\n".toList)
        ["file".toList] =
      some (.ok ([[-1, 0, 0, 0], [0, 0, 0, 0], [1, 1, 1, -1], [-1, -1, -1, 1], [0, 0, 0, -1]], ["x".toList, "y".toList, "z".toList],
        [[[(1, 1)], [(2, 1)], [(0, 1)], [(3, 1)]]], [])) ∧
    Spec.Solves 3 [[-1, 0, 0, 0], [0, 0, 0, 0], [1, 1, 1, -1], [-1, -1, -1, 1], [0, 0, 0, -1]] ![2, -1, 0] := by
  refine ⟨by decide +kernel, ?_⟩
  unfold Spec.Solves Spec.value
  simp [Fin.sum_univ_three]
  norm_num

end Panda
