import Verif.Props.MainVertexAD
import Verif.Props.Canonical

/-! # What is printed for a system of inequalities depends on its solutions only

Not on the inequalities and equations that are given, their order, the order of sorting, the integer type, the number of threads or
what the threads do. -/

namespace Panda

open _root_.Relation

/-- a row is determined by its point or direction and by being in lowest terms -/
theorem row_unique {n : Nat} {x y : Row} (hx : x.length = n + 1) (hy : y.length = n + 1) (px : Spec.PrimitiveRow x) (py : Spec.PrimitiveRow y)
    (h : (0 < x.getD n 0 ∧ 0 < y.getD n 0 ∧ Spec.coord n x = Spec.coord n y) ∨
      (x.getD n 0 = 0 ∧ y.getD n 0 = 0 ∧ ∃ s : ℚ, 0 < s ∧ Spec.coord n x = s • Spec.coord n y)) : x = y := by
  have px := (primitiveRow_iff x).mp px
  have py := (primitiveRow_iff y).mp py
  rcases h with ⟨h0, h1, e⟩ | ⟨h0, h1, s, hs, e⟩
  · have h0' : (0 : ℚ) < (x.getD n 0 : ℚ) := by exact_mod_cast h0
    have h1' : (0 : ℚ) < (y.getD n 0 : ℚ) := by exact_mod_cast h1
    refine prim_eq hx hy px py (t := (x.getD n 0 : ℚ) * (y.getD n 0 : ℚ)⁻¹) (by positivity) ?_
    rw [← vec_eq_toV, ← vec_eq_toV, vec_point h0, vec_point h1, e, smul_smul, mul_assoc, inv_mul_cancel₀ h1'.ne', mul_one]
  · refine prim_eq hx hy px py hs ?_
    rw [← vec_eq_toV, ← vec_eq_toV, vec_dir h0, vec_dir h1, e, dir_smul]

/-- the rows of the vertices and extreme directions are the primitive extreme rays -/
theorem vertexRow_extreme {n : Nat} {A : Matrix} (hA : ∀ a ∈ A, a.length = n + 1) (htriv : List.replicate n 0 ++ [-1] ∈ A)
    (hsat : ∃ p, Spec.Solves n A p) {r : Row} (h : Spec.VertexRow (Spec.Solves n A) r) : Spec.IsExtremeRay (n + 1) A r := by
  obtain ⟨hl, hp, ⟨h0, hv⟩ | ⟨h0, hv⟩⟩ := h
  · obtain ⟨r', l', p', q', e, k⟩ := extreme_of_vertex hA htriv hv
    rw [row_unique hl l' hp p' (Or.inl ⟨h0, q', e.symm⟩)]; exact k
  · obtain ⟨r', l', p', q', ⟨s, hs, e⟩, k⟩ := extreme_of_direction hA htriv hsat hv
    rw [← row_unique l' hl p' hp (Or.inr ⟨q', h0, s, hs, e⟩)]; exact k

/-- the list of rows of the double description method -/
theorem vertexDD_rows {n : Nat} {A : Matrix} (hA : ∀ a ∈ A, a.length = n + 1) (htriv : List.replicate n 0 ++ [-1] ∈ A)
    (hsat : ∃ p, Spec.Solves n A p) (hline : ¬ Spec.HasLine n A) :
    ∃ W : Matrix, W.Nodup ∧ (∀ r, r ∈ W ↔ Spec.VertexRow (Spec.Solves n A) r) ∧ ∃ (P R : Matrix) (N : Nat),
      (∀ fuel ≥ N, vertexEnumerationDD fuel A [] = some (.ok ⟨false, P, R.map List.dropLast⟩)) ∧
      P.Perm (W.filter fun r => 0 < r.getD n 0) ∧ R.Perm (W.filter fun r => r.getD n 0 = 0) := by
  obtain ⟨W, h1, hel, hnil, hE, hlastW⟩ := ve_elim hA htriv hsat hline
  obtain ⟨S, N, g1, g2, g3⟩ := classes_nil .vertex W
  have hlen : ∀ v ∈ W, v.length = n + 1 := fun v hv => ((hel.mem v).1 hv).1
  have hlast : ∀ v ∈ S, v.getLastD 0 = v.getD n 0 := by
    intro v hv
    rw [List.getLastD_eq_getLast?, List.getLast?_eq_getElem?, hlen v ((g3 v).1 hv), List.getD_eq_getElem?_getD]; rfl
  have hp : S.Perm W := (List.perm_ext_iff_of_nodup g2 hel.nodup).2 g3
  refine ⟨W, hel.nodup, fun r => ⟨fun hr => ?_, fun hr => ?_⟩, (splitVertices S).1, (splitVertices S).2, N, fun fuel hf => ?_, ?_, ?_⟩
  · have hnf := (hel.mem r).mp hr
    exact ⟨hnf.1, (primitiveRow_iff r).mpr hnf.2.1, kind_of_extreme (hlastW r hr) hA hsat hline
      (extreme_of_facet hA hE hnf.1 (toV_ne_zero_of_primitive hnf.1 hnf.2.1) hnf.2.2.2)⟩
  · exact (hel.mem r).2 ⟨hr.1, (primitiveRow_iff r).mp hr.2.1, by simp, extreme_facetP hA hE (vertexRow_extreme hA htriv hsat hr)⟩
  · unfold vertexEnumerationDD
    rw [h1]
    simp only [Run.lift, Run.bind, g1 fuel hf]
    rfl
  · refine List.Perm.trans (List.Perm.of_eq ?_) (hp.filter _)
    unfold splitVertices
    refine List.filter_congr fun v hv => ?_
    have h0 := hlastW v ((g3 v).1 hv)
    have h1 := hlast v hv
    simp only [h1]
    by_cases e : v.getD n 0 = 0
    · simp only [e]; decide
    · have : 0 < v.getD n 0 := lt_of_le_of_ne h0 (Ne.symm e)
      simp [-List.getD_eq_getElem?_getD, e, this]
  · refine List.Perm.trans (List.Perm.of_eq ?_) (hp.filter _)
    unfold splitVertices
    refine List.filter_congr fun v hv => ?_
    simp only [hlast v hv]

/-- the coordinates that are printed for a row of a point -/
noncomputable def fractionsOf (n : Nat) (v : Row) : List (Int × Int) :=
  open Classical in
  if h : ∃ cs t, printFractional v = .ok t ∧ Spec.VertexLine t cs ∧ cs.length = n ∧ Spec.PointRow cs v then h.choose else []

theorem printVertexLines_fractions {n : Nat} (hn : 0 < n) : ∀ {m : Matrix}, (∀ v ∈ m, v.length = n + 1 ∧ 0 < v.getD n 0) →
    (∀ v ∈ m, ∀ x ∈ v, Spec.IsInt x) → ∀ {t}, printVertexLines m = .ok t → Spec.VertexLines t (m.map (fractionsOf n))
  | [], _, _, t, h => by
    simp only [printVertexLines, Outcome.ok.injEq] at h
    subst h
    exact .nil
  | v :: m, h, hi, t, ht => by
    rw [printVertexLines] at ht
    rcases printFractional_printed hn (h v (by simp)).1 (h v (by simp)).2 (hi v (by simp)) with ⟨tv, cs, h1, h2⟩ | ⟨h0, h1⟩
    · have hex : ∃ cs t, printFractional v = .ok t ∧ Spec.VertexLine t cs ∧ cs.length = n ∧ Spec.PointRow cs v := ⟨cs, tv, h1, h2⟩
      obtain ⟨t', k1, k2, k3, k4⟩ := hex.choose_spec
      have e : fractionsOf n v = hex.choose := by unfold fractionsOf; rw [dif_pos hex]
      rw [k1] at ht
      cases hm : printVertexLines m with
      | ok ts =>
        rw [hm] at ht
        simp only [Outcome.bind, Outcome.ok.injEq] at ht
        have := Spec.VertexLines.vertex k2 (printVertexLines_fractions hn (m := m) (fun w hw => h w (by simp [hw]))
          (fun w hw => hi w (by simp [hw])) hm)
        rw [← ht, List.map_cons, e]
        simpa using this
      | thrown => rw [hm] at ht; simp [Outcome.bind] at ht
      | ub => rw [hm] at ht; simp [Outcome.bind] at ht
    · rw [h1] at ht; simp [Outcome.bind] at ht

theorem printRayLines_integers {n : Nat} (hn : 0 < n) : ∀ {m : Matrix}, (∀ r ∈ m, r.length = n + 1) →
    Spec.VertexLines (printRayLines (m.map List.dropLast)) (m.map fun r => r.dropLast.map fun x => (x, (1 : Int)))
  | [], _ => .nil
  | r :: m, h => by
    have hl := h r (by simp)
    have := Spec.VertexLines.vertex (printRow_line (r := r.dropLast) (by intro h0; have := congrArg List.length h0; simp at this; omega))
      (printRayLines_integers hn (m := m) fun w hw => h w (by simp [hw]))
    simpa [printRayLines] using this

/-- **C81** For every set that has a point and contains no line, there is one list of points and one list of directions (both without
repetitions) that are printed, in some order, by double description for every file of the documented format with inequalities and
equations, without maps, whose solutions are the set; and there is one list of rows, one for each vertex and each extreme direction,
such that adjacency decomposition prints, for every such file, some of these rows, none twice, and all of them if no edge of the set leads
straight away from the origin - whatever inequalities and equations are given and in which order, whatever order of sorting, integer
type and number of threads is chosen, and whatever the threads do. -/
theorem C81_vertices {n : Nat} {S : (Fin n → ℚ) → Prop} (hn : 0 < n) (hsat : ∃ p, S p) (hline : ¬ Spec.Line S) :
    ∃ (points rays : List (List (Int × Int))) (rows : List (List Int)), rows.Nodup ∧ (∀ r ∈ rows, Spec.VertexRow S r) ∧
      points.length = (rows.filter fun r => 0 < r.getD n 0).length ∧ rays.length = (rows.filter fun r => r.getD n 0 = 0).length ∧
      ∀ {help : Option ProgramResult} {args : List Arg} {f text : List Char} {files : Files} {order : InputOrder} {c : Spec.InequalityContent},
      Spec.PlainCommand args f → files f = some text → getInputOrder args = .ok order → (Spec.UsesChecked args ∨ Spec.UsesInt args) →
      Spec.NoHelp args → Spec.HasWordLine Spec.inequalityWords text → ¬ Spec.HasWordLine Spec.hullWords text → Spec.EarlyHeader 20 text →
      Spec.InequalityFile {} text c → c.Consistent n → c.maps = [] → (∀ p : Fin n → ℚ, c.Solution p ↔ S p) →
      (Spec.UsesDD args → ∃ N, ∀ fuel ≥ N, ∀ ad out, program ad help fuel files args = some (.finished 0 out) →
        ∃ ps rs, Spec.PrintedPoints out ps rs ∧ ps.Perm points ∧ rs.Perm rays) ∧
      (Spec.UsesAD args → Spec.ThreadsOk args → ∀ hardware out, ProgramEnds hardware help files args (.finished 0 out) →
        ∃ rs, Spec.PrintedRows out rs ∧ List.Subperm rs rows ∧
          ((∀ v, Spec.Vertex S v → ∀ t : ℚ, 0 < t → ¬ Spec.Edge S v (t • Spec.outward v)) → rs.Perm rows)) := by
  obtain ⟨W, hW, hWS, hall⟩ : ∃ W : Matrix, W.Nodup ∧ (∀ r ∈ W, Spec.VertexRow S r) ∧
      ∀ W' : Matrix, W'.Nodup → (∀ r, r ∈ W' ↔ Spec.VertexRow S r) → W'.Perm W := by
    by_cases h : ∃ W : Matrix, W.Nodup ∧ ∀ r, r ∈ W ↔ Spec.VertexRow S r
    · obtain ⟨W, h1, h2⟩ := h
      exact ⟨W, h1, fun r hr => (h2 r).1 hr, fun W' h1' h2' => (List.perm_ext_iff_of_nodup h1' h1).2 fun r => by rw [h2 r, h2' r]⟩
    · exact ⟨[], by simp, by simp, fun W' h1 h2 => absurd ⟨W', h1, h2⟩ h⟩
  refine ⟨(W.filter fun r => 0 < r.getD n 0).map (fractionsOf n), (W.filter fun r => r.getD n 0 = 0).map fun r => r.dropLast.map fun x => (x, (1 : Int)),
    W, hW, hWS, by simp, by simp, ?_⟩
  intro help args f text files order c ha hf ho hi hh hw hw' h20 h hc hm hS
  obtain ⟨A, maps, h1, h2, h3, h4, h5, N1, h6⟩ := C57_inequalities ha hf ho h20 h hc
  have hmaps : maps = [] := by rw [hm] at h5; exact List.forall₂_nil_left_iff.1 h5
  subst hmaps
  have hSA : Spec.Solves n A = S := funext fun p => propext ((h4 p).trans (hS p))
  subst hSA
  obtain ⟨W', w1, w2, P, R, N2, g1, gP, gR⟩ := vertexDD_rows h1 h3 hsat hline
  have hWW := hall W' w1 w2
  constructor
  · intro hd
    obtain ⟨ty, t1, t2, t3, t4⟩ := uses_type hi
    refine ⟨max N1 N2, fun fuel hfuel ad out hout => ?_⟩
    have e1 : program ad help fuel files args = ProgramResult.ofRun (verticesDD fuel files args) := by
      unfold program
      rw [detect_vertices ha.1 hf hh hw hw']
      simp [enumeration, usesDD_method hd]
    have e2 : verticesDD fuel files args = Run.bind (Typed.vertexEnumerationDD (selectArith ty) fuel A []) fun o =>
        .lift (printVertexOutput o) := by
      unfold verticesDD
      rw [t1]
      simp only [Run.lift, Run.bind]
      rw [h6 fuel (le_trans (le_max_left _ _) hfuel)]
    rw [e1, e2] at hout
    have hsim := vertexDD_selected (I := A) h2 t2 fuel
    rw [g1 fuel (le_trans (le_max_right _ _) hfuel)] at hsim
    rcases hsim with ⟨h8, h9⟩ | ⟨hs, h8⟩ | ⟨hs, h8⟩
    · rw [h8] at hout
      simp only [Run.bind, Run.lift] at hout
      unfold printVertexOutput at hout
      obtain ⟨i1, i2⟩ := h9 _ rfl
      have hP : ∀ v ∈ P, v.length = n + 1 ∧ 0 < v.getD n 0 := fun v hv => by
        obtain ⟨k1, k2⟩ := List.mem_filter.1 (gP.mem_iff.1 hv)
        exact ⟨((w2 v).1 k1).1, by simpa using k2⟩
      have hR : ∀ v ∈ R, v.length = n + 1 := fun v hv => ((w2 v).1 (List.mem_filter.1 (gR.mem_iff.1 hv)).1).1
      dsimp only at hout
      cases hpv : printVertexLines P with
      | ok t =>
        rw [hpv] at hout
        simp only [Outcome.bind] at hout
        simp only [ProgramResult.ofRun, Option.some.injEq, ProgramResult.finished.injEq, true_and] at hout
        refine ⟨P.map (fractionsOf n), R.map (fun r => r.dropLast.map fun x => (x, (1 : Int))), ⟨t, _,
          printVertexLines_fractions hn hP i1 hpv, printRayLines_integers hn hR, ?_⟩, (gP.trans (hWW.filter _)).map _, (gR.trans (hWW.filter _)).map _⟩
        rw [← hout]
        by_cases b1 : P = [] <;> by_cases b2 : R = [] <;> simp [b1, b2]
      | thrown => rw [hpv] at hout; simp [Outcome.bind, ProgramResult.ofRun] at hout
      | ub => rw [hpv] at hout; simp [Outcome.bind, ProgramResult.ofRun] at hout
    · rw [h8] at hout
      simp [Run.bind, ProgramResult.ofRun] at hout
    · rw [h8] at hout
      simp [Run.bind, ProgramResult.ofRun] at hout
  · intro hd ht hardware out hout
    have e0 : ∀ ad fuel, program ad help fuel files args = ad false := by
      intro ad fuel
      unfold program
      rw [detect_vertices ha.1 hf hh hw hw']
      simp only [enumeration, usesAD_method hd]
    obtain ⟨-, f2⟩ := ad_vertices_general (hardware := hardware) e0 hi ht h2 h6 h1 h3 hsat hline hn
    rcases f2 _ hout with ⟨k, -⟩ | ⟨k, -⟩ | ⟨out', Q, p1, p2, p3, p4, -, p5⟩
    · simp at k
    · simp at k
    · simp only [ProgramResult.finished.injEq, true_and] at p1
      subst p1
      have hsub : List.Subperm Q W' := List.subperm_of_subset p3 fun r hr => (w2 r).2 (p4 r hr)
      refine ⟨Q, p2, hsub.trans hWW.subperm, fun hedge => ?_⟩
      refine ((List.perm_ext_iff_of_nodup p3 w1).2 fun r => ⟨fun hr => (w2 r).2 (p4 r hr), fun hr => ?_⟩).trans hWW
      obtain ⟨q1, q2⟩ := p5 hedge
      obtain ⟨hl, hp, ⟨h0, hv⟩ | ⟨h0, hv⟩⟩ := (w2 r).1 hr
      · obtain ⟨r', m1, m2, m3⟩ := q1 _ hv
        obtain ⟨l', p', -⟩ := p4 r' m1
        rw [row_unique hl l' hp p' (Or.inl ⟨h0, m2, m3.symm⟩)]; exact m1
      · obtain ⟨r', m1, m2, s, hs, m3⟩ := q2 _ hv
        obtain ⟨l', p', -⟩ := p4 r' m1
        rw [← row_unique l' hl p' hp (Or.inr ⟨m2, h0, s, hs, m3⟩)]; exact m1

/-! ## examples: the hypotheses can be met -/

/-- the triangle again, in another order, with a multiple and with a redundant inequality -/
def triangleRows' : Matrix := [[1, 0, -7], [2, 2, -4], [0, -1, 0], [-1, 0, 0]]

theorem triangleRows'_solution (p : Fin 2 → ℚ) : ({ inequalities := triangleRows'.map .raw } : Spec.InequalityContent).Solution p ↔
    Spec.Solves 2 triangle p := by
  rw [rows_solution, triangle_iff]
  unfold triangleRows' Spec.Solves Spec.value
  simp only [List.mem_cons, List.not_mem_nil, or_false, forall_eq_or_imp, forall_eq, Fin.sum_univ_two]
  simp
  constructor
  · rintro ⟨-, h1, h2, h3⟩; exact ⟨h3, h2, by linarith⟩
  · rintro ⟨h1, h2, h3⟩; exact ⟨by linarith, by linarith, h2, h1⟩

/-- the two files have the same solutions, so the programs print the same, whatever the threads do -/
example : ∃ (points rays : List (List (Int × Int))) (rows : List (List Int)),
    (∀ m ∈ [triangleRows, triangleRows'], ∃ N, ∀ fuel ≥ N, ∀ ad out, program ad none fuel (fun _ => some (rowsFile m)) exampleArgs =
      some (.finished 0 out) → ∃ ps rs, Spec.PrintedPoints out ps rs ∧ ps.Perm points ∧ rs.Perm rays) ∧
    ∀ m ∈ [triangleRows, triangleRows'], ∀ hardware out, ProgramEnds hardware none (fun _ => some (rowsFile m)) oneArgs (.finished 0 out) →
      ∃ rs, Spec.PrintedRows out rs ∧ rs.Perm rows := by
  obtain ⟨points, rays, rows, -, -, -, -, h⟩ := C81_vertices (n := 2) (S := Spec.Solves 2 triangle) (by decide)
    ⟨0, (triangle_iff 0).2 (by norm_num)⟩ triangle_no_line
  have key : ∀ m ∈ [triangleRows, triangleRows'], Spec.HasWordLine Spec.inequalityWords (rowsFile m) ∧
      ¬ Spec.HasWordLine Spec.hullWords (rowsFile m) ∧ Spec.EarlyHeader 20 (rowsFile m) ∧
      Spec.InequalityFile {} (rowsFile m) { inequalities := m.map .raw } ∧
      ({ inequalities := m.map .raw } : Spec.InequalityContent).Consistent 2 ∧
      ∀ p : Fin 2 → ℚ, ({ inequalities := m.map .raw } : Spec.InequalityContent).Solution p ↔ Spec.Solves 2 triangle p := by
    intro m hm
    simp only [List.mem_cons, List.not_mem_nil, or_false] at hm
    rcases hm with rfl | rfl
    · refine ⟨?_, ?_, containsKeywords_early.2 (by decide +kernel), rowsFile_inequalities ?_, rows_consistent (by decide) (by decide),
        triangleRows_solution⟩
      · rw [← hasInequalitiesKeyword_iff]; decide +kernel
      · rw [← hasHullKeyword_iff]; decide +kernel
      · unfold Spec.IsInt; decide
    · refine ⟨?_, ?_, containsKeywords_early.2 (by decide +kernel), rowsFile_inequalities ?_, rows_consistent (by decide) (by decide),
        triangleRows'_solution⟩
      · rw [← hasInequalitiesKeyword_iff]; decide +kernel
      · rw [← hasHullKeyword_iff]; decide +kernel
      · unfold Spec.IsInt; decide
  refine ⟨points, rays, rows, fun m hm => ?_, fun m hm hardware out hout => ?_⟩
  · obtain ⟨k1, k2, k3, k4, k5, k6⟩ := key m hm
    exact (h (files := fun _ => some (rowsFile m)) exampleArgs_plain rfl exampleArgs_options.1 (Or.inl exampleArgs_options.2.2.1) exampleArgs_options.2.2.2 k1 k2 k3 k4 k5 rfl k6).1
      exampleArgs_options.2.1
  · obtain ⟨k1, k2, k3, k4, k5, k6⟩ := key m hm
    obtain ⟨o1, o2, o3, o4, o5, o6⟩ := oneArgs_ok
    obtain ⟨rs, q1, -, q3⟩ := (h (files := fun _ => some (rowsFile m)) o1 rfl o2 (Or.inr o4) o6 k1 k2 k3 k4 k5 rfl k6).2 o3 o5 hardware out hout
    exact ⟨rs, q1, q3 triangle_no_edge⟩

/-- the runs of the double description method on these files -/
example : program (fun _ => none) none 40 (fun _ => some (rowsFile triangleRows)) exampleArgs =
      some (.finished 0 "Vertices:\n0 0 \n0 2 \n2 0 \n".toList) ∧
    program (fun _ => none) none 40 (fun _ => some (rowsFile triangleRows')) exampleArgs =
      some (.finished 0 "Vertices:\n0 0 \n0 2 \n2 0 \n".toList) := by decide +kernel

end Panda
