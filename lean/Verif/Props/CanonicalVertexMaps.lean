import Verif.Props.MainVertexMaps
import Verif.Props.CanonicalVertices
import Verif.Props.VertexMapsExamples

/-! # With maps, what is printed for a system of inequalities depends on its solutions and the maps only -/

namespace Panda

open _root_.Relation

/-- a product of the maps takes the point (or the direction) of `x` to that of `y` -/
def RowReaches (n : Nat) (names : Names) (lss : List (List (List (Option (List Char) × Int)))) (x y : Row) : Prop :=
  (0 < x.getD n 0 ∧ 0 < y.getD n 0 ∧ Spec.Moved names lss (Spec.coord n x) (Spec.coord n y)) ∨
    (x.getD n 0 = 0 ∧ y.getD n 0 = 0 ∧ ∃ s : ℚ, 0 < s ∧ Spec.MovedDirection names lss (Spec.coord n x) (s • Spec.coord n y))

/-- the rows are the largest rows of the orbits of vertices and extreme directions -/
structure ListsPointOrbits (n : Nat) (names : Names) (lss : List (List (List (Option (List Char) × Int)))) (S : (Fin n → ℚ) → Prop) (Q : Matrix) :
    Prop where
  isRow : ∀ r ∈ Q, Spec.VertexRow S r
  one : ∀ g, Spec.VertexRow S g → ∃! r, r ∈ Q ∧ RowReaches n names lss r g
  largest : ∀ r ∈ Q, ∀ g, Spec.VertexRow S g → RowReaches n names lss r g → g = r ∨ g < r

/-- there is only one such list (up to the order) -/
theorem ListsPointOrbits.same {n : Nat} {names : Names} {lss : List (List (List (Option (List Char) × Int)))} {S : (Fin n → ℚ) → Prop} {Q Q' : Matrix}
    (htrans : ∀ a b c, Spec.VertexRow S a → Spec.VertexRow S b → Spec.VertexRow S c → RowReaches n names lss a b → RowReaches n names lss b c →
      RowReaches n names lss a c) (hrefl : ∀ a, Spec.VertexRow S a → RowReaches n names lss a a)
    (h : ListsPointOrbits n names lss S Q) (h' : ListsPointOrbits n names lss S Q') (r : Row) : r ∈ Q ↔ r ∈ Q' := by
  have key : ∀ {Q Q' : Matrix}, ListsPointOrbits n names lss S Q → ListsPointOrbits n names lss S Q' → ∀ r ∈ Q, r ∈ Q' := by
    intro Q Q' h h' r hr
    have hf := h.isRow r hr
    obtain ⟨r', ⟨hr', k1⟩, -⟩ := h'.one r hf
    have hf' := h'.isRow r' hr'
    obtain ⟨r2, ⟨hr2, k2⟩, -⟩ := h.one r' hf'
    obtain ⟨r0, -, hu⟩ := h.one r hf
    have e1 := hu r2 ⟨hr2, htrans _ _ _ (h.isRow r2 hr2) hf' hf k2 k1⟩
    have e2 := hu r ⟨hr, hrefl r hf⟩
    rw [e1, ← e2] at k2
    rcases h.largest r hr r' hf' k2 with e | l
    · rw [← e]; exact hr'
    · rcases h'.largest r' hr' r hf k1 with e | l'
      · rw [e]; exact hr'
      · exact absurd l' (lt_asymm l)
  exact ⟨key h h' r, key h' h r⟩

/-- orbits of rows are orbits of points and directions -/
theorem pointOrbit_reaches {n : Nat} {A : Matrix} {names : Names} {lss : List (List (List (Option (List Char) × Int)))} {maps : Maps}
    (hn : names.Nodup) (hl : names.length = n) (hlss : ∀ ls ∈ lss, ls.length = n) (hdo : List.Forall₂ (Spec.DoesImages names) lss maps)
    (hmaps : ∀ m ∈ maps, Spec.IsSolutionSymmetry (n + 1) A m) (hA : ∀ a ∈ A, a.length = n + 1) (htriv : List.replicate n 0 ++ [-1] ∈ A)
    (hsat : ∃ p, Spec.Solves n A p) (hline : ¬ Spec.HasLine n A) {x y : Row} (hx : Spec.VertexRow (Spec.Solves n A) x)
    (hy : Spec.VertexRow (Spec.Solves n A) y) : Spec.PointOrbit (n + 1) A maps x y ↔ RowReaches n names lss x y := by
  obtain ⟨W, heq, hel, hnoE, hE, hlastW⟩ := ve_elim hA htriv hsat hline
  have hrect : Rect A A.length (n+1) := ⟨rfl, hA⟩
  have hsp := gaussSplit_spec hrect (List.length_pos_of_mem htriv) (Nat.succ_pos n)
  rw [hnoE] at hsp
  have norm : ∀ r, Spec.VertexRow (Spec.Solves n A) r → NormalFacet (n + 1) A [] r := fun r hr =>
    ⟨hr.1, (primitiveRow_iff r).mp hr.2.1, by simp, extreme_facetP hA hE (vertexRow_extreme hA htriv hsat hr)⟩
  constructor
  · intro h
    rcases hx.2.2 with ⟨h0, -⟩ | ⟨h0, -⟩
    · obtain ⟨h1, h2⟩ := orbit_point hn hl hlss hdo h h0
      exact Or.inl ⟨h0, h1, h2⟩
    · obtain ⟨h1, h2⟩ := orbit_dir hn hl hlss hdo h h0
      exact Or.inr ⟨h0, h1, h2⟩
  · rintro (⟨h0, h1, h2⟩ | ⟨h0, h1, s, hs, h2⟩)
    · obtain ⟨z, z1, z2, z3, z4⟩ := moved_orbit hn hl hlss hdo hsp hmaps (norm x hx) h0 h2
      rw [row_unique hy.1 z1.1 hy.2.1 ((primitiveRow_iff z).mpr z1.2.1) (Or.inl ⟨h1, z3, z4.symm⟩)]
      exact z2
    · obtain ⟨z, z1, z2, z3, t, ht, z4⟩ := movedDirection_orbit hn hl hlss hdo hsp hmaps (norm x hx) h0 h2
      refine (row_unique hy.1 z1.1 hy.2.1 ((primitiveRow_iff z).mpr z1.2.1) (Or.inr ⟨h1, z3, s⁻¹ * t, by positivity, ?_⟩)) ▸ z2
      rw [mul_smul, ← z4, smul_smul, inv_mul_cancel₀ hs.ne', one_smul]

/-- the rows that double description prints -/
theorem vertexDD_lists {n : Nat} {A : Matrix} {names : Names} {lss : List (List (List (Option (List Char) × Int)))} {maps : Maps}
    (hn : names.Nodup) (hl : names.length = n) (hlss : ∀ ls ∈ lss, ls.length = n) (hdo : List.Forall₂ (Spec.DoesImages names) lss maps)
    (hmaps : ∀ m ∈ maps, Spec.IsSolutionSymmetry (n + 1) A m) (hne : maps ≠ []) (hA : ∀ a ∈ A, a.length = n + 1)
    (htriv : List.replicate n 0 ++ [-1] ∈ A) (hsat : ∃ p, Spec.Solves n A p) (hline : ¬ Spec.HasLine n A) :
    ∃ (Q : Matrix) (N : Nat), (∀ fuel ≥ N, vertexEnumerationDD fuel A maps = some (.ok ⟨true, Q.filter fun r => decide (r.getD n 0 ≠ 0),
        (Q.filter fun r => decide (r.getD n 0 = 0)).map List.dropLast⟩)) ∧ Q.Nodup ∧ ListsPointOrbits n names lss (Spec.Solves n A) Q := by
  obtain ⟨W, heq, hel, hnoE, hE, hlastW⟩ := ve_elim hA htriv hsat hline
  have hrect : Rect A A.length (n+1) := ⟨rfl, hA⟩
  have hsp := gaussSplit_spec hrect (List.length_pos_of_mem htriv) (Nat.succ_pos n)
  rw [hnoE] at hsp
  obtain ⟨W', Q, N, w1, w2, w3, w4, w5, w6⟩ := C52_vertices hA htriv hsat hline hmaps
  rw [heq] at w1
  obtain rfl : W = W' := by simpa using w1
  have hW : ∀ r, r ∈ W ↔ Spec.VertexRow (Spec.Solves n A) r := fun r => ⟨fun hr => by
    have hnf := (hel.mem r).mp hr
    exact ⟨hnf.1, (primitiveRow_iff r).mpr hnf.2.1, kind_of_extreme (hlastW r hr) hA hsat hline
      (extreme_of_facet hA hE hnf.1 (toV_ne_zero_of_primitive hnf.1 hnf.2.1) hnf.2.2.2)⟩,
    fun hr => (hel.mem r).2 ⟨hr.1, (primitiveRow_iff r).mp hr.2.1, by simp, extreme_facetP hA hE (vertexRow_extreme hA htriv hsat hr)⟩⟩
  have e : ∀ x y, Spec.VertexRow (Spec.Solves n A) x → Spec.VertexRow (Spec.Solves n A) y →
      (Spec.OrbitIn W (Spec.PointStep (n+1) maps) x y ↔ RowReaches n names lss x y) := by
    have hi : ∀ x, x ∈ W ↔ Spec.NormalisedFacet (n+1) A [] x := fun x => by rw [hel.mem x, normalisedFacet_iff hsp]
    intro x y hx hy
    rw [← pointOrbit_reaches hn hl hlss hdo hmaps hA htriv hsat hline hx hy]
    unfold Spec.OrbitIn Spec.PointOrbit
    simp only [hi]
  have hlast : ∀ r ∈ Q, r.getLastD 0 = r.getD n 0 := fun r hr => by
    have hl := ((hW r).1 (w4 r hr)).1
    rw [List.getLastD_eq_getLast?, List.getLast?_eq_getElem?, List.getD_eq_getElem?_getD, hl]
    rfl
  refine ⟨Q, N, fun fuel hf => ?_, w3, fun r hr => (hW r).1 (w4 r hr), fun g hg => ?_, fun r hr g hg h => ?_⟩
  · rw [w2 fuel hf, decide_eq_true hne]
    congr 3
    · exact List.filter_congr fun r hr => by rw [hlast r hr]
    · congr 1
      exact List.filter_congr fun r hr => by rw [hlast r hr]
  · obtain ⟨r, ⟨h1, h2⟩, h3⟩ := w5 g ((hW g).2 hg)
    have hv : ∀ r ∈ Q, Spec.VertexRow (Spec.Solves n A) r := fun r hr => (hW r).1 (w4 r hr)
    exact ⟨r, ⟨h1, (e r g (hv r h1) hg).1 h2⟩, fun r' h' => h3 r' ⟨h'.1, (e r' g (hv r' h'.1) hg).2 h'.2⟩⟩
  · exact w6 r hr g ((e r g ((hW r).1 (w4 r hr)) hg).2 h)

/-- the rows that adjacency decomposition prints are the largest of their orbits -/
theorem adVertices_largest {d : Nat} {A : Matrix} {maps : Maps} (hA : ∀ a ∈ A, a.length = d + 1) (htriv : List.replicate d 0 ++ [-1] ∈ A)
    (hsat : ∃ p, Spec.Solves d A p) (hline : ¬ Spec.HasLine d A) (hr : 2 ≤ Spec.rank (d+1) A)
    (hmaps : ∀ m ∈ maps, Spec.IsSolutionSymmetry (d+1) A m) :
    ∃ a N, (∀ fuel ≥ N, adStartVertices fuel A maps [] = some (.ok a)) ∧
      ∀ (ι : Type) [DecidableEq ι] [Fintype ι] (remote : ι → Prop) (s : Pool ι), PoolReach (adConfig remote A .vertex a) s →
        ∀ r ∈ s.printed, ∀ g, Spec.PointOrbit (d+1) A maps r g → g = r ∨ g < r := by
  obtain ⟨W, heq, hel, hnoE, hE, hlastW⟩ := ve_elim hA htriv hsat hline
  have hrect : Rect A A.length (d+1) := ⟨rfl, hA⟩
  have hm : 0 < A.length := List.length_pos_of_mem htriv
  have hsp := gaussSplit_spec hrect hm (Nat.succ_pos d)
  rw [hnoE] at hsp
  have hnz := exists_nonzero_of_rank hA (lt_of_lt_of_le Nat.zero_lt_two hr)
  obtain ⟨hact, hacts⟩ := vertex_actsOn hmaps
  obtain ⟨a, a1, a2, a3, a4, a5, a6, a7, a8⟩ := initializePool_good (known := []) hsp hnoE.symm hrect hel hacts hm hnz (by simp)
  refine ⟨a, W.length, fun fuel hf => a1 fuel hf, fun ι _ _ remote s hs r hrs g hg => ?_⟩
  have hsafe := adSafe hsp hrect hel hacts hr a3 a4 a5 remote
  have hgood := C26_nothing_else hsafe hs r hrs
  rcases hgood.2 g ((point_step_reach hA hmaps hsp hgood.1).1 hg) with h | h
  · exact Or.inl h
  · exact Or.inr ((rowLt_iff_lt _ _).1 h)

/-- the program with adjacency decomposition on an input with maps: what it prints -/
theorem system_vertices_ad_rows {hardware : Nat} {help : Option ProgramResult} {args : List Arg} {f text : List Char}
    {files : Files} {n : Nat} {names : Names}
    {lss : List (List (List (Option (List Char) × Int)))} {S : (Fin n → ℚ) → Prop}
    (ha : Spec.CommandLine args [f]) (hf : files f = some text) (hr0 : ReadsSystem files args n names lss S)
    (hl : names.length = n) (hlss : ∀ ls ∈ lss, ls.length = n)
    (hd : Spec.UsesAD args) (hi : Spec.UsesChecked args ∨ Spec.UsesInt args) (ht : Spec.ThreadsOk args) (hh : Spec.NoHelp args)
    (hw : Spec.HasWordLine Spec.inequalityWords text) (hw' : ¬ Spec.HasWordLine Spec.hullWords text)
    (h0 : 0 < n) (hm : lss ≠ [])
    (hn : Spec.AdmissibleNames names) (hsat : ∃ p : Fin n → ℚ, S p) (hline : ¬ Spec.Line (d := n) S)
    (hsym : ∀ m ∈ lss, Spec.MapsOnto (d := n) names m S) {out : List Char} (hout : ProgramEnds hardware help files args (.finished 0 out)) :
    ∃ rows : List (List Int), Spec.PrintedReducedRows out rows ∧ rows.Nodup ∧ (∀ r ∈ rows, Spec.VertexRow (d := n) S r) ∧
      (∀ r ∈ rows, ∀ g, Spec.VertexRow S g → RowReaches n names lss r g → g = r ∨ g < r) ∧
      ((∀ v : Fin n → ℚ, Spec.Vertex S v → ∀ t : ℚ, 0 < t → ¬ Spec.Edge S v (t • Spec.outward v)) → ListsPointOrbits n names lss S rows) := by
  obtain ⟨A, maps, N1, s1, s2, s3, s4, s5, s6, s7, s8, s9, s10, s11⟩ := vertex_maps_setup hr0 hl hlss hm hn hsat hsym
  have hsat' : ∃ p, Spec.Solves n A p := by rw [s7]; exact hsat
  have hline' : ¬ Spec.HasLine n A := by unfold Spec.HasLine; rw [s7]; exact hline
  have e0 : ∀ ad fuel, program ad help fuel files args = ad false := by
    intro ad fuel
    unfold program
    rw [detect_vertices ha hf hh hw hw']
    simp only [enumeration, usesAD_method hd]
  obtain ⟨ty, t1, t2, t3, t4⟩ := uses_type hi
  obtain ⟨T, hT, hT0⟩ := threadsOk (hardware := hardware) ht
  obtain ⟨N, a0, b1, q0, q⟩ := adProgramVertices_cases (hardware := hardware) t1 t2 s1 s2 hT hT0 s5 s6 hsat' hline' h0 s11 s3
  obtain ⟨f1, f2⟩ := ad_ends (Q := fun a a0' => (a.names = names ∧ a.matrix = A ∧ a.head = (if maps ≠ [] then "Reduced ".toList else []) ++
      "Vertices / Rays:\n".toList) ∧ a0' = a0) (w := ty ≠ .safe) e0 t1 q0 (fun fuel hf => by
    rcases q fuel hf with h | h | ⟨a, R, k1, k2, k3⟩
    · exact Or.inl h
    · exact Or.inr (Or.inl h)
    · exact Or.inr (Or.inr ⟨a, R, a0, k1, ⟨k2, rfl⟩, k3⟩))
  have hp : ∀ {x y}, Spec.VertexRow S x → Spec.VertexRow S y → (Spec.PointOrbit (n + 1) A maps x y ↔ RowReaches n names lss x y) := by
    rw [← s7]
    exact pointOrbit_reaches hn.1 s8 s9 s10 s11 s5 s6 hsat' hline'
  rcases f2 _ hout with ⟨h1, -⟩ | ⟨h1, -⟩ | ⟨a, a0', R', out', s, ti, h1, ⟨⟨a1, a2, a3⟩, rfl⟩, hcore, hreach, hfin, h2, h3⟩
  · simp at h1
  · simp at h1
  · simp only [ProgramResult.finished.injEq, true_and] at h1
    subst h1
    have hre : PoolReach (adConfig (fun _ : Fin a.threads => False) A .vertex a0') s := by rw [← a2, ← hcore.tag]; exact hcore.reach hreach
    have hstop : ∃ i, s.pc i = .stopped := ⟨⟨0, hcore.threads⟩, hfin.2.2 _⟩
    obtain ⟨W, -, -, -, hE, -⟩ := ve_elim s5 s6 hsat' hline'
    have hrk : 2 ≤ Spec.rank (n+1) A := by rw [rank_of_no_annihilator hE]; omega
    obtain ⟨a', N', c1, c2⟩ := C20_sound_partial (known := []) s5 s6 hsat' hline' hrk s11 (by simp)
    obtain rfl : a' = a0' := by
      have e1 := c1 (max N N') (le_max_right _ _)
      rw [b1 (max N N') (le_max_left _ _)] at e1
      simpa using e1.symm
    obtain ⟨a'', N3, m1, m2⟩ := adVertices_largest s5 s6 hsat' hline' hrk s11
    obtain rfl : a'' = a' := by
      have e1 := m1 (max N N3) (le_max_right _ _)
      rw [b1 (max N N3) (le_max_left _ _)] at e1
      simpa using e1.symm
    obtain ⟨g1, g2, g3⟩ := (c2 _ (fun _ => False)).1 s hre
    have hrow : ∀ r ∈ s.printed, Spec.VertexRow (d := n) S r := by
      intro r hr
      obtain ⟨l1, l2, l3, l4⟩ := g2 r hr
      rw [← s7]
      exact ⟨l1, l3, kind_of_extreme l2 s5 hsat' hline' l4⟩
    have hlarge : ∀ r ∈ s.printed, ∀ g, Spec.VertexRow S g → RowReaches n names lss r g → g = r ∨ g < r :=
      fun r hr g hg h => m2 _ (fun _ => False) s hre r hr g ((hp (hrow r hr) hg).2 h)
    refine ⟨s.printed, ⟨_, printRows_printed (m := s.printed) ?_, ?_⟩, g1, hrow, hlarge, fun hedge => ⟨hrow, fun g hg => ?_, hlarge⟩⟩
    · intro r hr h0
      have := (g2 r hr).1
      rw [h0] at this; simp at this
    · simp only [rowsText, Outcome.ok.injEq] at h2
      rw [h3, a3, ← h2, if_pos s4]; rfl
    · obtain ⟨a3, N'', k1, k2⟩ := C20_complete_partial (known := []) s5 s6 hsat' hline' h0 s11 (by simp) (by rw [s7]; exact hedge)
      obtain rfl : a3 = a'' := by
        have e1 := k1 (max N N'') (le_max_right _ _)
        rw [b1 (max N N'') (le_max_left _ _)] at e1
        simpa using e1.symm
      obtain ⟨r, ⟨r1, r2⟩, r3⟩ := k2 _ (fun _ => False) s hre hstop g hg.1 hg.2.1 (vertexRow_extreme s5 s6 hsat' (by rw [s7]; exact hg))
      exact ⟨r, ⟨r1, (hp (hrow r r1) hg).1 r2⟩, fun r' h' => r3 r' ⟨h'.1, (hp (hrow r' h'.1) hg).2 h'.2⟩⟩

/-- what a product of maps does can be undone by one -/
theorem rowReaches_symm {n : Nat} {A : Matrix} {names : Names} {lss : List (List (List (Option (List Char) × Int)))} {maps : Maps}
    (hn : names.Nodup) (hl : names.length = n) (hlss : ∀ ls ∈ lss, ls.length = n) (hdo : List.Forall₂ (Spec.DoesImages names) lss maps)
    (hmaps : ∀ m ∈ maps, Spec.IsSolutionSymmetry (n + 1) A m) (hA : ∀ a ∈ A, a.length = n + 1) (htriv : List.replicate n 0 ++ [-1] ∈ A)
    (hsat : ∃ p, Spec.Solves n A p) (hline : ¬ Spec.HasLine n A) {x y : Row} (hx : Spec.VertexRow (Spec.Solves n A) x)
    (hy : Spec.VertexRow (Spec.Solves n A) y) (h : RowReaches n names lss x y) : RowReaches n names lss y x := by
  have hp := fun {x y} => pointOrbit_reaches (x := x) (y := y) hn hl hlss hdo hmaps hA htriv hsat hline
  obtain ⟨W, heq, hel, hnoE, hE, hlastW⟩ := ve_elim hA htriv hsat hline
  have hrect : Rect A A.length (n+1) := ⟨rfl, hA⟩
  have hsp := gaussSplit_spec hrect (List.length_pos_of_mem htriv) (Nat.succ_pos n)
  rw [hnoE] at hsp
  obtain ⟨hact, hacts⟩ := vertex_actsOn hmaps
  have norm : ∀ r, Spec.VertexRow (Spec.Solves n A) r → NormalFacet (n + 1) A [] r := fun r hr =>
    ⟨hr.1, (primitiveRow_iff r).mp hr.2.1, by simp, extreme_facetP hA hE (vertexRow_extreme hA htriv hsat hr)⟩
  have h1 := (point_step_reach hA hmaps hsp (norm x hx)).1 ((hp hx hy).2 h)
  have h2 := Reach.symm_of_perm (hacts.closed hel) (hacts.inj hsp hrect hel) ((hel.mem x).mpr (norm x hx)) h1
  exact (hp hy hx).1 ((point_step_reach hA hmaps hsp (norm y hy)).2 h2)

/-- **C81** (with maps) For every set that has a point and contains no line, and every list of symmetries of the set, there is one list of
points and one list of directions that are printed, in some order, by double description for every file of the documented format with
inequalities and equations and these maps whose solutions are the set; and there is one list of rows, such that adjacency decomposition
prints, for every such file, some of these rows, none twice, and all of them if no edge of the set leads straight away from the origin -
whatever inequalities and equations are given and in which order, whatever order of sorting, integer type and number of threads is chosen,
and whatever the threads do. -/
theorem C81_maps {names : Names} {n : Nat} {lss : List (List (List (Option (List Char) × Int)))} {S : (Fin n → ℚ) → Prop} (h0 : 0 < n)
    (hn : Spec.AdmissibleNames names) (hm : lss ≠ []) (hsat : ∃ p, S p) (hline : ¬ Spec.Line S) (hsym : ∀ m ∈ lss, Spec.MapsOnto names m S) :
    ∃ (points rays : List (List (Int × Int))) (rows : List (List Int)), rows.Nodup ∧ (∀ r ∈ rows, Spec.VertexRow S r) ∧
      points.length = (rows.filter fun r => r.getD n 0 ≠ 0).length ∧ rays.length = (rows.filter fun r => r.getD n 0 = 0).length ∧
      ∀ {help : Option ProgramResult} {args : List Arg} {f text : List Char} {files : Files} {order : InputOrder} {c : Spec.InequalityContent},
      Spec.PlainCommand args f → files f = some text → getInputOrder args = .ok order → (Spec.UsesChecked args ∨ Spec.UsesInt args) →
      Spec.NoHelp args → Spec.HasWordLine Spec.inequalityWords text → ¬ Spec.HasWordLine Spec.hullWords text → Spec.EarlyHeader 20 text →
      Spec.InequalityFile {} text c → c.Consistent n → names ≠ [] → c.names = names → c.maps = lss → (∀ p : Fin n → ℚ, c.Solution p ↔ S p) →
      (Spec.UsesDD args → ∃ N, ∀ fuel ≥ N, ∀ ad out, program ad help fuel files args = some (.finished 0 out) →
        ∃ ps rs, Spec.PrintedReducedPoints out ps rs ∧ ps.Perm points ∧ rs.Perm rays) ∧
      (Spec.UsesAD args → Spec.ThreadsOk args → ∀ hardware out, ProgramEnds hardware help files args (.finished 0 out) →
        ∃ rs, Spec.PrintedReducedRows out rs ∧ List.Subperm rs rows ∧
          ((∀ v, Spec.Vertex S v → ∀ t : ℚ, 0 < t → ¬ Spec.Edge S v (t • Spec.outward v)) → rs.Perm rows)) := by
  obtain ⟨Q0, hQ0, hQS, hall⟩ : ∃ Q0 : Matrix, Q0.Nodup ∧ (∀ r ∈ Q0, Spec.VertexRow S r) ∧
      ∀ (Q : Matrix) (A : Matrix) (maps : Maps), names.length = n → (∀ ls ∈ lss, ls.length = n) → List.Forall₂ (Spec.DoesImages names) lss maps →
        (∀ m ∈ maps, Spec.IsSolutionSymmetry (n + 1) A m) → (∀ a ∈ A, a.length = n + 1) → List.replicate n 0 ++ [-1] ∈ A →
        Spec.Solves n A = S → Q.Nodup → ListsPointOrbits n names lss S Q → Q.Perm Q0 := by
    by_cases h : ∃ Q : Matrix, Q.Nodup ∧ ListsPointOrbits n names lss S Q
    · obtain ⟨Q0, h1, h2⟩ := h
      refine ⟨Q0, h1, h2.isRow, fun Q A maps hl hlss hdo hmaps hA htriv hS h1' h2' => (List.perm_ext_iff_of_nodup h1' h1).2 fun r => ?_⟩
      have e : ∀ x y, Spec.VertexRow S x → Spec.VertexRow S y → (Spec.PointOrbit (n + 1) A maps x y ↔ RowReaches n names lss x y) := by
        subst hS
        exact fun x y hx hy => pointOrbit_reaches hn.1 hl hlss hdo hmaps hA htriv hsat hline hx hy
      refine ListsPointOrbits.same (fun a b c ha hb hc k1 k2 => ?_) (fun a ha => (e a a ha ha).1 .refl) h2' h2 r
      exact (e a c ha hc).1 (((e a b ha hb).2 k1).trans ((e b c hb hc).2 k2))
    · exact ⟨[], by simp, by simp, fun Q _ _ _ _ _ _ _ _ _ h1 h2 => absurd ⟨Q, h1, h2⟩ h⟩
  refine ⟨(Q0.filter fun r => decide (r.getD n 0 ≠ 0)).map (fractionsOf n),
    (Q0.filter fun r => decide (r.getD n 0 = 0)).map fun r => r.dropLast.map fun x => (x, (1 : Int)),
    Q0, hQ0, hQS, by simp, by simp, ?_⟩
  intro help args f text files order c ha hf ho hi hh hw hw' h20 h hc hne e1 e2 e3
  subst e1; subst e2
  have hl : c.names.length = n := hc.2.2.2.1 hne
  have hlss : ∀ ls ∈ c.maps, ls.length = n := fun ls hls => by rw [inequalityFile_maps h (by simp) ls hls, hl]
  have hr := readsSystem_file ha hf ho h20 h hc
  have hS : c.Solution (d := n) = S := funext fun p => propext (e3 p)
  rw [hS] at hr
  obtain ⟨A, maps, N1, s1, s2, s3, s4, s5, s6, s7, s8, s9, s10, s11⟩ := vertex_maps_setup hr hl hlss hm hn hsat hsym
  obtain ⟨Q, N2, q1, q2, q3⟩ := vertexDD_lists hn.1 s8 s9 s10 s11 s4 s5 s6 (by rw [s7]; exact hsat) (by unfold Spec.HasLine; rw [s7]; exact hline)
  rw [s7] at q3
  have hQ := hall Q A maps hl hlss s10 s11 s5 s6 s7 q2 q3
  refine ⟨fun hd => ?_, fun hd ht hardware out hout => ?_⟩
  rotate_left
  · obtain ⟨rs, k1, k2, k3, k4, k5⟩ := system_vertices_ad_rows ha.1 hf hr hl hlss hd hi ht hh hw hw' h0 hm hn hsat hline hsym hout
    refine ⟨rs, k1, (List.subperm_of_subset k2 fun r hr => ?_).trans hQ.subperm, fun hedge =>
      hall rs A maps hl hlss s10 s11 s5 s6 s7 k2 (k5 hedge)⟩
    obtain ⟨r', ⟨r1, r2⟩, -⟩ := q3.one r (k3 r hr)
    have hsymm : RowReaches n c.names c.maps r r' := by
      have h1 := q3.isRow r' r1
      have h2 := k3 r hr
      rw [← s7] at h1 h2
      exact rowReaches_symm hn.1 s8 s9 s10 s11 s5 s6 (by rw [s7]; exact hsat) (by unfold Spec.HasLine; rw [s7]; exact hline) h1 h2 r2
    rcases k4 r hr r' (q3.isRow r' r1) hsymm with e | l
    · rw [← e]; exact r1
    · rcases q3.largest r' r1 r (k3 r hr) r2 with e | l'
      · rw [e]; exact r1
      · exact absurd l' (lt_asymm l)
  obtain ⟨ty, t1, t2, t3, t4⟩ := uses_type hi
  refine ⟨max N1 N2, fun fuel hfuel ad out hout => ?_⟩
  have e1 : program ad help fuel files args = ProgramResult.ofRun (verticesDD fuel files args) := by
    unfold program
    rw [detect_vertices ha.1 hf hh hw hw']
    simp [enumeration, usesDD_method hd]
  have e2 : verticesDD fuel files args = Run.bind (Typed.vertexEnumerationDD (selectArith ty) fuel A maps) fun o =>
      .lift (printVertexOutput o) := by
    unfold verticesDD
    rw [t1]
    simp only [Run.lift, Run.bind]
    rw [s1 fuel (le_trans (le_max_left _ _) hfuel)]
  rw [e1, e2] at hout
  have hsim := vertexDD_selected_maps s2 s3 t2 fuel
  rw [q1 fuel (le_trans (le_max_right _ _) hfuel)] at hsim
  have g2 : ∀ v ∈ Q.filter fun r => decide (r.getD n 0 ≠ 0), v.length = n + 1 ∧ 0 < v.getD n 0 := fun v hv => by
    obtain ⟨v1, v2⟩ := List.mem_filter.1 hv
    obtain ⟨k1, -, ⟨k2, -⟩ | ⟨k2, -⟩⟩ := q3.isRow v v1
    · exact ⟨k1, k2⟩
    · rw [k2] at v2; simp at v2
  have g3 : ∀ v ∈ Q.filter fun r => decide (r.getD n 0 = 0), v.length = n + 1 := fun v hv => (q3.isRow v (List.mem_filter.1 hv).1).1
  have p1 := hQ.filter fun r => decide (r.getD n 0 ≠ 0)
  have p2 := hQ.filter fun r => decide (r.getD n 0 = 0)
  rcases hsim with ⟨h8, h9⟩ | ⟨hs, h8⟩ | ⟨hs, h8⟩
  · rw [h8] at hout
    simp only [Run.bind, Run.lift] at hout
    unfold printVertexOutput at hout
    obtain ⟨i1, i2⟩ := h9 _ rfl
    dsimp only at hout i1
    generalize (Q.filter fun r => decide (r.getD n 0 = 0)) = D at p2 g3 hout
    generalize (Q.filter fun r => decide (r.getD n 0 ≠ 0)) = P at p1 g2 hout i1
    cases hpv : printVertexLines P with
    | ok t =>
      rw [hpv] at hout
      simp only [Outcome.bind, ProgramResult.ofRun, Option.some.injEq, ProgramResult.finished.injEq, true_and] at hout
      refine ⟨P.map (fractionsOf n), D.map (fun r => r.dropLast.map fun x => (x, (1 : Int))), ⟨t, _,
        printVertexLines_fractions h0 g2 i1 hpv, printRayLines_integers h0 g3, ?_⟩, p1.map _, p2.map _⟩
      rw [← hout]
      have e1 : "Reduced ".toList ++ "Vertices:\n".toList = "Reduced Vertices:\n".toList := rfl
      have e2 : "Reduced ".toList ++ "Rays:\n".toList = "Reduced Rays:\n".toList := rfl
      rw [if_pos trivial, e1, e2]
      by_cases b1 : P = [] <;> by_cases b2 : D = [] <;> simp only [b1, b2, List.map_eq_nil_iff, ne_eq, not_true_eq_false,
        not_false_eq_true, if_true, if_false, List.append_nil, List.nil_append]
    | thrown => rw [hpv] at hout; simp [Outcome.bind, ProgramResult.ofRun] at hout
    | ub => rw [hpv] at hout; simp [Outcome.bind, ProgramResult.ofRun] at hout
  · rw [h8] at hout
    simp [Run.bind, ProgramResult.ofRun] at hout
  · rw [h8] at hout
    simp [Run.bind, ProgramResult.ofRun] at hout

/-! ## examples: the hypotheses can be met -/

/-- the same file, written in another way -/
theorem cornerFile' : Spec.InequalityFile {} (swapText ">= 01".toList) (swapContent .ge 1) :=
  swapFile (r := ['>', '=', ' ']) (n := ['0', '1']) (.ge blanks_example.2) (Spec.Numeral.plain "01".toList (by decide) (by simp [Spec.Digit])) (by decide)
    (by unfold Spec.Symmetric; decide) (by decide)

/-- what is printed for the two files is the same -/
example : ∃ (points rays : List (List (Int × Int))) (rows : List (List Int)), ∀ t ∈ [">= 1".toList, ">= 01".toList],
    (∃ N, ∀ fuel ≥ N, ∀ ad out, program ad none fuel (fun _ => some (swapText t)) exampleArgs = some (.finished 0 out) →
      ∃ ps rs, Spec.PrintedReducedPoints out ps rs ∧ ps.Perm points ∧ rs.Perm rays) ∧
    ∀ hardware out, ProgramEnds hardware none (fun _ => some (swapText t)) oneArgs (.finished 0 out) →
      ∃ rs, Spec.PrintedReducedRows out rs ∧ List.Subperm rs rows := by
  obtain ⟨c1, c2, c3, c4⟩ := swap_consistent (rel := .ge) (rhs := 1)
  obtain ⟨points, rays, rows, -, -, -, -, h⟩ := C81_maps (n := 2) (S := (swapContent .ge 1).Solution) (by decide) c3 c2
    ⟨![1, 0], by rw [swap_solution]; norm_num [Spec.Rel.holds]⟩ swap_no_line swap_onto
  refine ⟨points, rays, rows, fun t ht => ?_⟩
  have key : Spec.HasWordLine Spec.inequalityWords (swapText t) ∧ ¬ Spec.HasWordLine Spec.hullWords (swapText t) ∧
      Spec.EarlyHeader 20 (swapText t) ∧ Spec.InequalityFile {} (swapText t) (swapContent .ge 1) := by
    rw [← hasInequalitiesKeyword_iff, ← hasHullKeyword_iff]
    simp only [List.mem_cons, List.not_mem_nil, or_false] at ht
    rcases ht with rfl | rfl
    · exact ⟨by decide +kernel, by decide +kernel, containsKeywords_early.2 (by decide +kernel), cornerFile⟩
    · exact ⟨by decide +kernel, by decide +kernel, containsKeywords_early.2 (by decide +kernel), cornerFile'⟩
  refine ⟨(h (files := fun _ => some (swapText t)) exampleArgs_plain rfl exampleArgs_options.1 (Or.inl exampleArgs_options.2.2.1)
    exampleArgs_options.2.2.2 key.1 key.2.1 key.2.2.1 key.2.2.2 c1 c4 rfl rfl (fun _ => Iff.rfl)).1 exampleArgs_options.2.1,
    fun hardware out hout => ?_⟩
  obtain ⟨o1, o2, o3, o4, o5, o6⟩ := oneArgs_ok
  obtain ⟨rs, q1, q2, -⟩ := (h (files := fun _ => some (swapText t)) o1 rfl o2 (Or.inr o4) o6 key.1 key.2.1 key.2.2.1 key.2.2.2 c1 c4 rfl rfl
    (fun _ => Iff.rfl)).2 o3 o5 hardware out hout
  exact ⟨rs, q1, q2⟩

/-- on the triangle, where no edge leads straight away from the origin, every finishing run with adjacency decomposition prints the same -/
example : ∃ rows : List (List Int), ∀ hardware out, ProgramEnds hardware none (fun _ => some (swapText "<= 2".toList)) oneArgs (.finished 0 out) →
    ∃ rs, Spec.PrintedReducedRows out rs ∧ rs.Perm rows := by
  obtain ⟨c1, c2, c3, c4⟩ := swap_consistent (rel := .le) (rhs := 2)
  obtain ⟨points, rays, rows, -, -, -, -, h⟩ := C81_maps (n := 2) (S := (swapContent .le 2).Solution) (by decide) c3 c2
    ⟨0, by rw [swap_solution]; norm_num [Spec.Rel.holds]⟩ swap_no_line swap_onto
  have hS : (swapContent .le 2).Solution = Spec.Solves 2 triangle := funext fun p => propext (by
    rw [swap_solution, triangle_iff]; simp [Spec.Rel.holds])
  refine ⟨rows, fun hardware out hout => ?_⟩
  obtain ⟨o1, o2, o3, o4, o5, o6⟩ := oneArgs_ok
  obtain ⟨rs, q1, -, q3⟩ := (h (files := fun _ => some (swapText "<= 2".toList)) o1 rfl o2 (Or.inr o4) o6
    (by rw [← hasInequalitiesKeyword_iff]; decide +kernel) (by rw [← hasHullKeyword_iff]; decide +kernel)
    (containsKeywords_early.2 (by decide +kernel)) swapTriangleFile c1 c4 rfl rfl (fun _ => Iff.rfl)).2 o3 o5 hardware out hout
  exact ⟨rs, q1, q3 (by rw [hS]; exact triangle_no_edge)⟩

end Panda
