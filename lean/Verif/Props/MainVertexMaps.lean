import Verif.Proofs.VertexOrbits
import Verif.Props.MainMaps
import Verif.Props.MainVertexAD

/-! # C66: vertex enumeration on files with symmetries -/

namespace Panda

open _root_.Relation

theorem vertexDD_selected_maps {I : Matrix} {maps : Maps} (hI : IntMatrix I) (hm : IntMaps maps) {ty : IntegerType}
    (hty : ty = .safe ∨ ty = .default ∨ ty = .fixed32) (fuel : Nat) :
    RunSim (ty = .safe) (ty ≠ .safe) (fun o => MatR Spec.IsInt o.vertices ∧ MatR Spec.IsInt o.rays)
      (Typed.vertexEnumerationDD (selectArith ty) fuel I maps) (vertexEnumerationDD fuel I maps) := by
  rcases hty with rfl | hty
  · have := vertexDD_conv (c := fun z => z) (safe_law False) safe_ofInt (fun a _ => safe_toInt a) hI hm fuel
    rw [mapEntries_runV] at this
    rcases this with h | ⟨_, h⟩ | ⟨h, _⟩
    · exact Or.inl h
    · exact Or.inr (Or.inl ⟨rfl, h⟩)
    · exact h.elim
  · have hs : selectArith ty = fixedArith 32 := by rcases hty with rfl | rfl <;> rfl
    have hne : ty ≠ .safe := by rcases hty with rfl | rfl <;> decide
    have := vertexDD_conv (c := fun z => z) (fixed32_law False) fixed32_ofInt (fun a ha => fixed32_ofInt a ha) hI hm fuel
    rw [mapEntries_runV] at this
    rw [hs]
    rcases this with h | ⟨h, _⟩ | ⟨_, h⟩
    · exact Or.inl h
    · exact h.elim
    · exact Or.inr (Or.inr ⟨hne, h⟩)

/-- every map of a file has an image for every variable -/
theorem inequalityFile_maps {c c' : Spec.InequalityContent} {text : List Char} (h : Spec.InequalityFile c text c')
    (hc : ∀ ls ∈ c.maps, ls.length = c.names.length) : ∀ ls ∈ c'.maps, ls.length = c'.names.length := by
  induction h with
  | nil => exact hc
  | names _ _ _ _ hm _ _ _ ih => exact ih (by rw [hm]; simp)
  | maps _ _ hl _ hrest ih =>
    refine ih ?_
    clear ih hrest
    dsimp only
    induction hl with
    | nil => simp
    | blank _ _ ih => exact ih
    | line h1 _ _ _ ih =>
      intro ls hls
      rcases List.mem_cons.1 hls with rfl | hls
      · exact h1.2.1
      · exact ih ls hls
  | other _ _ _ ih => exact ih hc
  | equations _ _ _ _ _ ih => exact ih hc
  | inequalities _ _ _ _ _ ih => exact ih hc
  | dimension _ _ _ _ _ _ _ _ ih => exact ih hc

/-- the input read from a file with inequalities -/
def ReadsSystem (files : Files) (args : List Arg) (n : Nat) (names : Names) (lss : List (List (List (Option (List Char) × Int))))
    (S : (Fin n → ℚ) → Prop) : Prop :=
  ∃ (A : Matrix) (maps : Maps) (N : Nat), (∀ fuel ≥ N, inputInequalities fuel files args = some (.ok (A, names, maps, []))) ∧
    List.Forall₂ (Spec.DoesImages names) lss maps ∧ (∀ a ∈ A, a.length = n + 1) ∧ (∀ a ∈ A, ∀ x ∈ a, Spec.IsInt x) ∧
    List.replicate n 0 ++ [-1] ∈ A ∧ ∀ p : Fin n → ℚ, Spec.Solves n A p ↔ S p

theorem readsSystem_file {args : List Arg} {f text : List Char} {files : Files} {order : InputOrder} {c : Spec.InequalityContent} {n : Nat}
    (ha : Spec.PlainCommand args f) (hf : files f = some text) (ho : getInputOrder args = .ok order)
    (h20 : Spec.EarlyHeader 20 text) (h : Spec.InequalityFile {} text c) (hc : c.Consistent n) :
    ReadsSystem files args n c.names c.maps c.Solution := by
  obtain ⟨A, maps, h1, h2, h3, h4, h5, N1, h6⟩ := C57_inequalities ha hf ho h20 h hc
  exact ⟨A, maps, N1, h6, h5, h1, h2, h3, h4⟩

/-- what is known about the input of a run with maps -/
theorem vertex_maps_setup {args : List Arg} {files : Files} {n : Nat} {names : Names} {lss : List (List (List (Option (List Char) × Int)))}
    {S : (Fin n → ℚ) → Prop} (hr : ReadsSystem files args n names lss S) (hl : names.length = n) (hlss : ∀ ls ∈ lss, ls.length = n) (hm : lss ≠ [])
    (hn : Spec.AdmissibleNames names) (hsat : ∃ p : Fin n → ℚ, S p)
    (hsym : ∀ m ∈ lss, Spec.MapsOnto (d := n) names m S) :
    ∃ (A : Matrix) (maps : Maps) (N : Nat), (∀ fuel ≥ N, inputInequalities fuel files args = some (.ok (A, names, maps, []))) ∧
      IntMatrix A ∧ IntMaps maps ∧ maps ≠ [] ∧ (∀ a ∈ A, a.length = n + 1) ∧ List.replicate n 0 ++ [-1] ∈ A ∧
      Spec.Solves n A = S ∧ names.length = n ∧ (∀ ls ∈ lss, ls.length = n) ∧
      List.Forall₂ (Spec.DoesImages names) lss maps ∧ ∀ m ∈ maps, Spec.IsSolutionSymmetry (n + 1) A m := by
  obtain ⟨A, maps, N1, h6, h5, h1, h2, h3, h4⟩ := hr
  have hS : Spec.Solves n A = S := funext fun p => propext (h4 p)
  obtain ⟨-, d2⟩ := forall₂_both h5
  refine ⟨A, maps, N1, h6, h2, fun m hmm => ?_, ?_, h1, h3, hS, hl, hlss, h5, fun m hmm => ?_⟩
  · obtain ⟨ls, k1, k2⟩ := d2 m hmm
    exact k2.2.2.1
  · rintro rfl
    exact hm (List.forall₂_nil_right_iff.1 h5)
  · obtain ⟨ls, k1, k2⟩ := d2 m hmm
    refine symmetry_of_mapsOnto hn.1 hl (hlss ls k1) k2 h3 (by rw [hS]; exact hsat) ?_
    rw [hS]
    exact hsym ls k1

/-- the vertices and rays that double description prints, one of every orbit -/
theorem vertexDD_orbits {n : Nat} {A : Matrix} {maps : Maps} (hA : ∀ a ∈ A, a.length = n + 1) (htriv : List.replicate n 0 ++ [-1] ∈ A)
    (hsat : ∃ p, Spec.Solves n A p) (hline : ¬ Spec.HasLine n A) (hmaps : ∀ m ∈ maps, Spec.IsSolutionSymmetry (n+1) A m) (hne : maps ≠ []) :
    ∃ (Q : Matrix) (N : Nat), (∀ fuel ≥ N, vertexEnumerationDD fuel A maps = some (.ok ⟨true, Q.filter fun r => decide (r.getD n 0 ≠ 0),
        (Q.filter fun r => decide (r.getD n 0 = 0)).map List.dropLast⟩)) ∧ Q.Nodup ∧
      (∀ r ∈ Q, r.length = n + 1 ∧ 0 ≤ r.getD n 0 ∧ Spec.PrimitiveRow r ∧ Spec.IsExtremeRay (n + 1) A r) ∧
      ∀ g, g.length = n + 1 → Spec.PrimitiveRow g → Spec.IsExtremeRay (n + 1) A g → ∃! r, r ∈ Q ∧ Spec.PointOrbit (n + 1) A maps r g := by
  obtain ⟨W, heq, hel, hnoE, hE, hlastW⟩ := ve_elim hA htriv hsat hline
  have hrect : Rect A A.length (n+1) := ⟨rfl, hA⟩
  have hsp := gaussSplit_spec hrect (List.length_pos_of_mem htriv) (Nat.succ_pos n)
  rw [hnoE] at hsp
  obtain ⟨W', Q, N, w1, w2, w3, w4, w5, -⟩ := C52_vertices hA htriv hsat hline hmaps
  rw [heq] at w1
  obtain rfl : W = W' := by simpa using w1
  have hQ : ∀ r ∈ Q, r.length = n + 1 ∧ 0 ≤ r.getD n 0 ∧ Spec.PrimitiveRow r ∧ Spec.IsExtremeRay (n + 1) A r := fun r hr => by
    have hnf := (hel.mem r).1 (w4 r hr)
    exact ⟨hnf.1, hlastW r (w4 r hr), (primitiveRow_iff r).mpr hnf.2.1,
      extreme_of_facet hA hE hnf.1 (toV_ne_zero_of_primitive hnf.1 hnf.2.1) hnf.2.2.2⟩
  have hlast : ∀ r ∈ Q, r.getLastD 0 = r.getD n 0 := fun r hr => by
    have hl := (hQ r hr).1
    rw [List.getLastD_eq_getLast?, List.getLast?_eq_getElem?, List.getD_eq_getElem?_getD, hl]
    rfl
  refine ⟨Q, N, fun fuel hf => ?_, w3, hQ, fun g g1 g2 g3 => ?_⟩
  · rw [w2 fuel hf, decide_eq_true hne]
    congr 3
    · exact List.filter_congr fun r hr => by rw [hlast r hr]
    · congr 1
      exact List.filter_congr fun r hr => by rw [hlast r hr]
  · have hg : g ∈ W := (hel.mem g).2 ⟨g1, (primitiveRow_iff g).mp g2, by simp, extreme_facetP hA hE g3⟩
    have e : ∀ x y, Spec.OrbitIn W (Spec.PointStep (n+1) maps) x y ↔ Spec.PointOrbit (n+1) A maps x y := by
      have hi : ∀ x, x ∈ W ↔ Spec.NormalisedFacet (n+1) A [] x := fun x => by rw [hel.mem x, normalisedFacet_iff hsp]
      intro x y
      unfold Spec.OrbitIn Spec.PointOrbit
      simp only [hi]
    simpa only [e] using w5 g hg

/-- the rays as printed -/
theorem printRayLines_exact {n : Nat} (hn : 0 < n) : ∀ {m : Matrix}, (∀ r ∈ m, r.length = n + 1) →
    Spec.VertexLines (printRayLines (m.map List.dropLast)) (m.map fun r => r.dropLast.map fun x => (x, 1))
  | [], _ => .nil
  | r :: m, h => by
    have h1 := printRayLines_exact hn (m := m) fun w hw => h w (by simp [hw])
    have hl := h r (by simp)
    have := Spec.VertexLines.vertex (printRow_line (r := r.dropLast) (by
      intro h0
      have := congrArg List.length h0
      simp [hl] at this
      omega)) h1
    simpa [printRayLines] using this

theorem point_dropLast {n : Nat} {r : Row} (hl : r.length = n + 1) (h0 : r.getD n 0 = 0) :
    Spec.point n (r.dropLast.map fun x => (x, 1)) = Spec.coord n r := by
  funext i
  have hi : (i : Nat) < r.dropLast.length := by rw [List.length_dropLast, hl]; have := i.2; omega
  unfold Spec.point Spec.coord
  rw [if_pos h0]
  simp [hl]

theorem points_of_rows {n : Nat} {points : List (List (Int × Int))} {m : Matrix} (h : List.Forall₂ Spec.PointRow points m)
    (hl : ∀ q ∈ points, q.length = n) : points.map (Spec.point n) = m.map (Spec.coord n) := by
  induction h with
  | nil => rfl
  | cons h _ ih =>
    rw [List.map_cons, List.map_cons, ih fun q hq => hl q (by simp [hq]), (pointRow_coord h (hl _ (by simp))).2]

/-- double description on an input with maps that was read -/
theorem system_vertices_dd {ad : Bool → Option ProgramResult} {help : Option ProgramResult} {args : List Arg} {f text : List Char}
    {files : Files} {n : Nat} {names : Names}
    {lss : List (List (List (Option (List Char) × Int)))} {S : (Fin n → ℚ) → Prop}
    (ha : Spec.CommandLine args [f]) (hf : files f = some text) (hr0 : ReadsSystem files args n names lss S)
    (hl : names.length = n) (hlss : ∀ ls ∈ lss, ls.length = n)
    (hd : Spec.UsesDD args) (hi : Spec.UsesChecked args ∨ Spec.UsesInt args) (hh : Spec.NoHelp args)
    (hw : Spec.HasWordLine Spec.inequalityWords text) (hw' : ¬ Spec.HasWordLine Spec.hullWords text)
    (h0 : 0 < n) (hm : lss ≠ [])
    (hn : Spec.AdmissibleNames names) (hsat : ∃ p : Fin n → ℚ, S p) (hline : ¬ Spec.Line (d := n) S)
    (hsym : ∀ m ∈ lss, Spec.MapsOnto (d := n) names m S) :
    ∃ N, ∀ fuel ≥ N, ∃ r, program ad help fuel files args = some r ∧
      ((r = .failed ∧ Spec.UsesChecked args) ∨
        (r = .undefined ∧ (¬ Spec.UsesChecked args ∨ ∃ v : List Int, v.length = n + 1 ∧ Spec.PrimitiveRow v ∧ 0 < v.getD n 0 ∧
          (-2147483648 : Int) ∈ v ∧ S (Spec.coord n v))) ∨
        ∃ (out : List Char) (points rays : List (List (Int × Int))), r = .finished 0 out ∧ Spec.PrintedReducedPoints out points rays ∧
          (∀ q ∈ points ++ rays, q.length = n) ∧
          Spec.OnePerOrbit (d := n) names lss S (points.map (Spec.point n)) (rays.map (Spec.point n)) ∧
          ∀ p : Fin n → ℚ, S p ↔ Spec.HullOf (Spec.ImageOf names lss (points.map (Spec.point n)))
            (Spec.DirectionImageOf names lss (rays.map (Spec.point n))) p) := by
  obtain ⟨A, maps, N1, s1, s2, s3, s4, s5, s6, s7, s8, s9, s10, s11⟩ := vertex_maps_setup hr0 hl hlss hm hn hsat hsym
  have hsat' : ∃ p, Spec.Solves n A p := by rw [s7]; exact hsat
  have hline' : ¬ Spec.HasLine n A := by unfold Spec.HasLine; rw [s7]; exact hline
  obtain ⟨Q, N2, q1, q2, q3, q4⟩ := vertexDD_orbits s5 s6 hsat' hline' s11 s4
  obtain ⟨o1, o2⟩ := onePerOrbit_of_rows hn.1 s8 s9 s10 s11 s5 s6 hsat' hline' q2 (fun r hr => ⟨(q3 r hr).1, (q3 r hr).2.2⟩) q4
  obtain ⟨ty, t1, t2, t3, t4⟩ := uses_type hi
  refine ⟨max N1 N2, fun fuel hfuel => ?_⟩
  have e1 : program ad help fuel files args = ProgramResult.ofRun (verticesDD fuel files args) := by
    unfold program
    rw [detect_vertices ha hf hh hw hw']
    simp [enumeration, usesDD_method hd]
  have e2 : verticesDD fuel files args = Run.bind (Typed.vertexEnumerationDD (selectArith ty) fuel A maps) fun o =>
      .lift (printVertexOutput o) := by
    unfold verticesDD
    rw [t1]
    simp only [Run.lift, Run.bind]
    rw [s1 fuel (le_trans (le_max_left _ _) hfuel)]
  rw [e1, e2]
  have hsim := vertexDD_selected_maps s2 s3 t2 fuel
  rw [q1 fuel (le_trans (le_max_right _ _) hfuel)] at hsim
  have g2 : ∀ v ∈ Q.filter fun r => decide (r.getD n 0 ≠ 0), v.length = n + 1 ∧ 0 < v.getD n 0 := fun v hv => by
    obtain ⟨v1, v2⟩ := List.mem_filter.1 hv
    exact ⟨(q3 v v1).1, lt_of_le_of_ne (q3 v v1).2.1 (Ne.symm (by simpa using v2))⟩
  have g3 : ∀ v ∈ Q.filter fun r => decide (r.getD n 0 = 0), v.length = n + 1 ∧ v.getD n 0 = 0 := fun v hv => by
    obtain ⟨v1, v2⟩ := List.mem_filter.1 hv
    exact ⟨(q3 v v1).1, by simpa using v2⟩
  rcases hsim with ⟨h8, h9⟩ | ⟨hs, h8⟩ | ⟨hs, h8⟩
  · rw [h8]
    simp only [Run.bind, Run.lift]
    unfold printVertexOutput
    obtain ⟨i1, i2⟩ := h9 _ rfl
    rcases printVertexLines_printed h0 g2 i1 with ⟨t, points, k1, k2, k3, k4⟩ | ⟨⟨v, hv, k0⟩, k1⟩
    · have l1 := printRayLines_exact h0 fun v hv => (g3 v hv).1
      have p1 : points.map (Spec.point n) = Spec.pointsOf n Q := points_of_rows k4 k3
      have p2 : ((Q.filter fun r => decide (r.getD n 0 = 0)).map fun r => r.dropLast.map fun x => (x, (1 : Int))).map (Spec.point n) =
          Spec.directionsOf n Q := by
        rw [List.map_map]
        exact List.map_congr_left fun v hv => point_dropLast (g3 v hv).1 (g3 v hv).2
      dsimp only
      rw [k1]
      refine ⟨_, rfl, Or.inr (Or.inr ⟨_, points, _, rfl, ⟨t, _, k2, l1, ?_⟩, ?_, ?_, fun p => ?_⟩)⟩
      · have q1 : (Q.filter fun r => decide (r.getD n 0 ≠ 0)) = [] ↔ points = [] := by
          rw [← List.length_eq_zero_iff, ← List.length_eq_zero_iff, k4.length_eq]
        have e1 : "Reduced ".toList ++ "Vertices:\n".toList = "Reduced Vertices:\n".toList := rfl
        have e2 : "Reduced ".toList ++ "Rays:\n".toList = "Reduced Rays:\n".toList := rfl
        rw [if_pos rfl, e1, e2]
        generalize (Q.filter fun r => decide (r.getD n 0 = 0)) = D
        generalize (Q.filter fun r => decide (r.getD n 0 ≠ 0)) = P at q1 ⊢
        by_cases b1 : points = [] <;> by_cases b2 : D = [] <;> simp only [q1, b1, b2, List.map_eq_nil_iff, ne_eq, not_true_eq_false,
          not_false_eq_true, if_true, if_false, List.append_nil, List.nil_append]
      · intro q hq
        rcases List.mem_append.1 hq with hq | hq
        · exact k3 q hq
        · obtain ⟨v, hv, rfl⟩ := List.mem_map.1 hq
          rw [List.length_map, List.length_dropLast, (g3 v hv).1]; rfl
      · rw [p1, p2, ← s7]; exact o1
      · rw [p1, p2, ← s7]; exact o2 p
    · dsimp only
      rw [k1]
      obtain ⟨v1, -⟩ := List.mem_filter.1 hv
      refine ⟨_, rfl, Or.inr (Or.inl ⟨rfl, Or.inr ⟨v, (g2 v hv).1, (q3 v v1).2.2.1, (g2 v hv).2, k0, ?_⟩⟩)⟩
      rw [← s7]
      exact (vertex_of_extreme (g2 v hv).2 s5 (q3 v v1).2.2.2).1
  · rw [h8]
    exact ⟨_, rfl, Or.inl ⟨rfl, t4 hs⟩⟩
  · rw [h8]
    exact ⟨_, rfl, Or.inr (Or.inl ⟨rfl, Or.inl fun h0 => hs (t3 h0)⟩)⟩


/-- **C66** (double description) Running the vertex enumeration (double description, with checked or 32-bit integers) on a file
of the documented format with names, inequalities, equations and maps, where the solution set is not empty and contains no line and
every map maps it onto itself: if the program finishes, it prints points and rays, exactly one vertex of every orbit of vertices
and one direction of every orbit of extreme directions; the solution set is the hull of their images under products of the maps.  It always
ends; the other ends are the reported overflow of checked integers and undefined behaviour, the latter only with unchecked
integers or if the solution set contains a point `v / w` with `v, w` coprime and `-2^31` among the entries of `v`. -/
theorem C66_vertices_dd {ad : Bool → Option ProgramResult} {help : Option ProgramResult} {args : List Arg} {f text : List Char}
    {files : Files} {order : InputOrder} {c : Spec.InequalityContent} {n : Nat}
    (ha : Spec.PlainCommand args f) (hf : files f = some text) (ho : getInputOrder args = .ok order)
    (hd : Spec.UsesDD args) (hi : Spec.UsesChecked args ∨ Spec.UsesInt args) (hh : Spec.NoHelp args)
    (hw : Spec.HasWordLine Spec.inequalityWords text) (hw' : ¬ Spec.HasWordLine Spec.hullWords text)
    (h20 : Spec.EarlyHeader 20 text) (h : Spec.InequalityFile {} text c) (hc : c.Consistent n) (h0 : 0 < n) (hm : c.maps ≠ [])
    (hn : Spec.AdmissibleNames c.names) (hne : c.names ≠ [])
    (hsat : ∃ p : Fin n → ℚ, c.Solution p) (hline : ¬ Spec.Line (d := n) c.Solution)
    (hsym : ∀ m ∈ c.maps, Spec.MapsOnto (d := n) c.names m c.Solution) :
    ∃ N, ∀ fuel ≥ N, ∃ r, program ad help fuel files args = some r ∧
      ((r = .failed ∧ Spec.UsesChecked args) ∨
        (r = .undefined ∧ (¬ Spec.UsesChecked args ∨ ∃ v : List Int, v.length = n + 1 ∧ Spec.PrimitiveRow v ∧ 0 < v.getD n 0 ∧
          (-2147483648 : Int) ∈ v ∧ c.Solution (Spec.coord n v))) ∨
        ∃ (out : List Char) (points rays : List (List (Int × Int))), r = .finished 0 out ∧ Spec.PrintedReducedPoints out points rays ∧
          (∀ q ∈ points ++ rays, q.length = n) ∧
          Spec.OnePerOrbit (d := n) c.names c.maps c.Solution (points.map (Spec.point n)) (rays.map (Spec.point n)) ∧
          ∀ p : Fin n → ℚ, c.Solution p ↔ Spec.HullOf (Spec.ImageOf c.names c.maps (points.map (Spec.point n)))
            (Spec.DirectionImageOf c.names c.maps (rays.map (Spec.point n))) p) := by
  have hl : c.names.length = n := hc.2.2.2.1 hne
  have hlss : ∀ ls ∈ c.maps, ls.length = n := fun ls hls => by rw [inequalityFile_maps h (by simp) ls hls, hl]
  have hr := readsSystem_file ha hf ho h20 h hc
  exact system_vertices_dd ha.1 hf hr hl hlss hd hi hh hw hw' h0 hm hn hsat hline hsym

/-- adjacency decomposition on an input with maps that was read -/
theorem system_vertices_ad {hardware : Nat} {help : Option ProgramResult} {args : List Arg} {f text : List Char}
    {files : Files} {n : Nat} {names : Names}
    {lss : List (List (List (Option (List Char) × Int)))} {S : (Fin n → ℚ) → Prop}
    (ha : Spec.CommandLine args [f]) (hf : files f = some text) (hr0 : ReadsSystem files args n names lss S)
    (hl : names.length = n) (hlss : ∀ ls ∈ lss, ls.length = n)
    (hd : Spec.UsesAD args) (hi : Spec.UsesChecked args ∨ Spec.UsesInt args) (ht : Spec.ThreadsOk args) (hh : Spec.NoHelp args)
    (hw : Spec.HasWordLine Spec.inequalityWords text) (hw' : ¬ Spec.HasWordLine Spec.hullWords text)
    (h0 : 0 < n) (hm : lss ≠ [])
    (hn : Spec.AdmissibleNames names) (hsat : ∃ p : Fin n → ℚ, S p) (hline : ¬ Spec.Line (d := n) S)
    (hsym : ∀ m ∈ lss, Spec.MapsOnto (d := n) names m S) :
    (∃ r, ProgramEnds hardware help files args r) ∧ ∀ r, ProgramEnds hardware help files args r →
      (r = .failed ∧ Spec.UsesChecked args) ∨ (r = .undefined ∧ ¬ Spec.UsesChecked args) ∨
        ∃ (out : List Char) (rows : List (List Int)), r = .finished 0 out ∧ Spec.PrintedReducedRows out rows ∧ rows.Nodup ∧
          (∀ r ∈ rows, Spec.VertexRow (d := n) S r) ∧
          (∀ r ∈ rows, ∀ r' ∈ rows, 0 < r.getD n 0 → 0 < r'.getD n 0 →
            Spec.Moved names lss (Spec.coord n r) (Spec.coord n r') → r = r') ∧
          (∀ r ∈ rows, ∀ r' ∈ rows, r.getD n 0 = 0 → r'.getD n 0 = 0 → ∀ s : ℚ, 0 < s →
            Spec.MovedDirection names lss (Spec.coord n r) (s • Spec.coord n r') → r = r') ∧
          ((∀ v : Fin n → ℚ, Spec.Vertex S v → ∀ t : ℚ, 0 < t → ¬ Spec.Edge S v (t • Spec.outward v)) →
            Spec.OnePerOrbit (d := n) names lss S (Spec.pointsOf n rows) (Spec.directionsOf n rows) ∧
            ∀ p : Fin n → ℚ, S p ↔ Spec.HullOf (Spec.ImageOf names lss (Spec.pointsOf n rows))
              (Spec.DirectionImageOf names lss (Spec.directionsOf n rows)) p) := by
  obtain ⟨A, maps, N1, s1, s2, s3, s4, s5, s6, s7, s8, s9, s10, s11⟩ := vertex_maps_setup hr0 hl hlss hm hn hsat hsym
  have hsat' : ∃ p, Spec.Solves n A p := by rw [s7]; exact hsat
  have hline' : ¬ Spec.HasLine n A := by unfold Spec.HasLine; rw [s7]; exact hline
  have e0 : ∀ ad fuel, program ad help fuel files args = ad false := by
    intro ad fuel
    unfold program
    rw [detect_vertices ha hf hh hw hw']
    simp only [enumeration, usesAD_method hd]
  obtain ⟨ty, t1, t2, t3, t4⟩ := uses_type hi
  obtain ⟨T, hT, hT0⟩ := threadsOk (hardware := hardware) ht
  obtain ⟨N, a0, b1, q0, q⟩ := adProgramVertices_cases (hardware := hardware) t1 t2 s1 s2 hT hT0 s5 s6 hsat' hline' h0 s11 s3
  obtain ⟨f1, f2⟩ := ad_ends (Q := fun a a0' => (a.names = names ∧ a.matrix = A ∧ a.head = (if maps ≠ [] then "Reduced ".toList else []) ++
      "Vertices / Rays:\n".toList) ∧ a0' = a0) (w := ty ≠ .safe) e0 t1 q0 (fun fuel hf => by
    rcases q fuel hf with h | h | ⟨a, R, k1, k2, k3⟩
    · exact Or.inl h
    · exact Or.inr (Or.inl h)
    · exact Or.inr (Or.inr ⟨a, R, a0, k1, ⟨k2, rfl⟩, k3⟩))
  refine ⟨f1, fun r hr => ?_⟩
  rcases f2 r hr with ⟨rfl, h1⟩ | ⟨rfl, h1⟩ | ⟨a, a0', R', out, s, ti, rfl, ⟨⟨a1, a2, a3⟩, rfl⟩, hcore, hreach, hfin, h2, h3⟩
  · exact Or.inl ⟨rfl, t4 h1⟩
  · refine Or.inr (Or.inl ⟨rfl, fun h0 => ?_⟩)
    rcases h1 with h1 | h1 | ⟨-, -, -, h1, -⟩
    · exact h1 (t3 h0)
    · exact h1 (t3 h0)
    · cases h1
  · have hre : PoolReach (adConfig (fun _ : Fin a.threads => False) A .vertex a0') s := by rw [← a2, ← hcore.tag]; exact hcore.reach hreach
    have hstop : ∃ i, s.pc i = .stopped := ⟨⟨0, hcore.threads⟩, hfin.2.2 _⟩
    obtain ⟨W, -, -, -, hE, -⟩ := ve_elim s5 s6 hsat' hline'
    have hrk : 2 ≤ Spec.rank (n+1) A := by rw [rank_of_no_annihilator hE]; omega
    obtain ⟨a', N', c1, c2⟩ := C20_sound_partial (known := []) s5 s6 hsat' hline' hrk s11 (by simp)
    obtain rfl : a' = a0' := by
      have e1 := c1 (max N N') (le_max_right _ _)
      rw [b1 (max N N') (le_max_left _ _)] at e1
      simpa using e1.symm
    obtain ⟨g1, g2, g3⟩ := (c2 _ (fun _ => False)).1 s hre
    obtain ⟨d1, d2⟩ := differentOrbits_of_rows hn.1 s8 s9 s10 s11 s5 s6 hsat' hline' (fun r hr => ⟨(g2 r hr).1, (g2 r hr).2.2⟩) g3
    refine Or.inr (Or.inr ⟨out, s.printed, rfl, ⟨_, printRows_printed (m := s.printed) ?_, ?_⟩, g1, ?_, d1, d2, fun hedge => ?_⟩)
    · intro r hr h0
      have := (g2 r hr).1
      rw [h0] at this; simp at this
    · simp only [rowsText, Outcome.ok.injEq] at h2
      rw [h3, a3, ← h2, if_pos s4]; rfl
    · intro r hr
      obtain ⟨l1, l2, l3, l4⟩ := g2 r hr
      rw [← s7]
      exact ⟨l1, l3, kind_of_extreme l2 s5 hsat' hline' l4⟩
    · rw [← s7] at hedge ⊢
      obtain ⟨a'', N'', k1, k2⟩ := C20_complete_partial (known := []) s5 s6 hsat' hline' h0 s11 (by simp) hedge
      obtain rfl : a'' = a' := by
        have e1 := k1 (max N N'') (le_max_right _ _)
        rw [b1 (max N N'') (le_max_left _ _)] at e1
        simpa using e1.symm
      exact onePerOrbit_of_rows hn.1 s8 s9 s10 s11 s5 s6 hsat' hline' g1 (fun r hr => ⟨(g2 r hr).1, (g2 r hr).2.2⟩)
        (k2 _ (fun _ => False) s hre hstop)


/-- **C66** (adjacency decomposition) The same with adjacency decomposition (the default method) and any number of threads: whatever the
threads do, if the program finishes, it prints one line for each of some vertices and extreme directions of the solution set, in
lowest terms and none twice, at most one of every orbit.  If moreover no edge of the solution set leads straight away from the origin
(from the origin: in direction of decreasing last coordinate), it prints exactly one of every orbit, and the solution set is the
hull of their images.  Other ends are the reported overflow of checked integers, and undefined behaviour with unchecked integers. -/
theorem C66_vertices_ad {hardware : Nat} {help : Option ProgramResult} {args : List Arg} {f text : List Char}
    {files : Files} {order : InputOrder} {c : Spec.InequalityContent} {n : Nat}
    (ha : Spec.PlainCommand args f) (hf : files f = some text) (ho : getInputOrder args = .ok order)
    (hd : Spec.UsesAD args) (hi : Spec.UsesChecked args ∨ Spec.UsesInt args) (ht : Spec.ThreadsOk args) (hh : Spec.NoHelp args)
    (hw : Spec.HasWordLine Spec.inequalityWords text) (hw' : ¬ Spec.HasWordLine Spec.hullWords text)
    (h20 : Spec.EarlyHeader 20 text) (h : Spec.InequalityFile {} text c) (hc : c.Consistent n) (h0 : 0 < n) (hm : c.maps ≠ [])
    (hn : Spec.AdmissibleNames c.names) (hne : c.names ≠ [])
    (hsat : ∃ p : Fin n → ℚ, c.Solution p) (hline : ¬ Spec.Line (d := n) c.Solution)
    (hsym : ∀ m ∈ c.maps, Spec.MapsOnto (d := n) c.names m c.Solution) :
    (∃ r, ProgramEnds hardware help files args r) ∧ ∀ r, ProgramEnds hardware help files args r →
      (r = .failed ∧ Spec.UsesChecked args) ∨ (r = .undefined ∧ ¬ Spec.UsesChecked args) ∨
        ∃ (out : List Char) (rows : List (List Int)), r = .finished 0 out ∧ Spec.PrintedReducedRows out rows ∧ rows.Nodup ∧
          (∀ r ∈ rows, Spec.VertexRow (d := n) c.Solution r) ∧
          (∀ r ∈ rows, ∀ r' ∈ rows, 0 < r.getD n 0 → 0 < r'.getD n 0 →
            Spec.Moved c.names c.maps (Spec.coord n r) (Spec.coord n r') → r = r') ∧
          (∀ r ∈ rows, ∀ r' ∈ rows, r.getD n 0 = 0 → r'.getD n 0 = 0 → ∀ s : ℚ, 0 < s →
            Spec.MovedDirection c.names c.maps (Spec.coord n r) (s • Spec.coord n r') → r = r') ∧
          ((∀ v : Fin n → ℚ, Spec.Vertex c.Solution v → ∀ t : ℚ, 0 < t → ¬ Spec.Edge c.Solution v (t • Spec.outward v)) →
            Spec.OnePerOrbit (d := n) c.names c.maps c.Solution (Spec.pointsOf n rows) (Spec.directionsOf n rows) ∧
            ∀ p : Fin n → ℚ, c.Solution p ↔ Spec.HullOf (Spec.ImageOf c.names c.maps (Spec.pointsOf n rows))
              (Spec.DirectionImageOf c.names c.maps (Spec.directionsOf n rows)) p) := by
  have hl : c.names.length = n := hc.2.2.2.1 hne
  have hlss : ∀ ls ∈ c.maps, ls.length = n := fun ls hls => by rw [inequalityFile_maps h (by simp) ls hls, hl]
  have hr := readsSystem_file ha hf ho h20 h hc
  exact system_vertices_ad ha.1 hf hr hl hlss hd hi ht hh hw hw' h0 hm hn hsat hline hsym

/-- it ends -/
theorem system_vertices_terminate {hardware : Nat} {args : List Arg}
    {files : Files} {n : Nat} {names : Names}
    {lss : List (List (List (Option (List Char) × Int)))} {S : (Fin n → ℚ) → Prop}
    (hr0 : ReadsSystem files args n names lss S)
    (hl : names.length = n) (hlss : ∀ ls ∈ lss, ls.length = n)
    (hi : Spec.UsesChecked args ∨ Spec.UsesInt args) (ht : Spec.ThreadsOk args)
    (h0 : 0 < n) (hm : lss ≠ [])
    (hn : Spec.AdmissibleNames names) (hsat : ∃ p : Fin n → ℚ, S p) (hline : ¬ Spec.Line (d := n) S)
    (hsym : ∀ m ∈ lss, Spec.MapsOnto (d := n) names m S) :
    ∃ N, ∀ fuel ≥ N, adProgramVertices hardware fuel files args ≠ none ∧
      ∀ a ty, adProgramVertices hardware fuel files args = some (.ok a) → integerType args = .ok ty →
        (∀ s out, ADReach (selectArith ty) a (.running s out) → ¬ s.Finished → ∃ σ, ADStep (selectArith ty) a (.running s out) σ ∧
          ∀ s' out', σ = .running s' out' → Progress (adProgramConfig (selectArith ty) a) s s') ∧
        ∀ f : Nat → ADState (Fin a.threads), f 0 = ADState.init (selectArith ty) a → (∀ n, ADStep (selectArith ty) a (f n) (f (n + 1))) →
          ∃ n s s' out out', f n = .running s out ∧ f (n + 1) = .running s' out' ∧ Spurious s s' := by
  obtain ⟨A, maps, N1, s1, s2, s3, s4, s5, s6, s7, s8, s9, s10, s11⟩ := vertex_maps_setup hr0 hl hlss hm hn hsat hsym
  have hsat' : ∃ p, Spec.Solves n A p := by rw [s7]; exact hsat
  have hline' : ¬ Spec.HasLine n A := by unfold Spec.HasLine; rw [s7]; exact hline
  obtain ⟨ty, t1, t2, t3, t4⟩ := uses_type hi
  obtain ⟨T, hT, hT0⟩ := threadsOk (hardware := hardware) ht
  obtain ⟨N, a0, b1, q0, q⟩ := adProgramVertices_cases (hardware := hardware) t1 t2 s1 s2 hT hT0 s5 s6 hsat' hline' h0 s11 s3
  refine ⟨N, ad_terminates (facets := false) (u := ty ≠ .safe) (w := ty ≠ .safe) (tag := .vertex) (G := ADGood (n + 1) A [] maps .vertex)
    (Q := fun _ _ => True) t1 fun fuel hf => ?_⟩
  rcases q fuel hf with h | h | ⟨a, R, k1, k2, k3⟩
  · exact Or.inl h
  · exact Or.inr (Or.inl h)
  · exact Or.inr (Or.inr ⟨a, R, a0, k1, trivial, k3⟩)


/-- **C66** (termination) In the situation of `C66_vertices_ad`: the threads start or the program ends before; the threads are never
stuck, and there is no infinite run, if `std::condition_variable` wakes no thread without reason. -/
theorem C66_terminates {hardware : Nat} {args : List Arg} {f text : List Char}
    {files : Files} {order : InputOrder} {c : Spec.InequalityContent} {n : Nat}
    (ha : Spec.PlainCommand args f) (hf : files f = some text) (ho : getInputOrder args = .ok order)
    (hi : Spec.UsesChecked args ∨ Spec.UsesInt args) (ht : Spec.ThreadsOk args)
    (h20 : Spec.EarlyHeader 20 text) (h : Spec.InequalityFile {} text c) (hc : c.Consistent n) (h0 : 0 < n) (hm : c.maps ≠ [])
    (hn : Spec.AdmissibleNames c.names) (hne : c.names ≠ [])
    (hsat : ∃ p : Fin n → ℚ, c.Solution p) (hline : ¬ Spec.Line (d := n) c.Solution)
    (hsym : ∀ m ∈ c.maps, Spec.MapsOnto (d := n) c.names m c.Solution) :
    ∃ N, ∀ fuel ≥ N, adProgramVertices hardware fuel files args ≠ none ∧
      ∀ a ty, adProgramVertices hardware fuel files args = some (.ok a) → integerType args = .ok ty →
        (∀ s out, ADReach (selectArith ty) a (.running s out) → ¬ s.Finished → ∃ σ, ADStep (selectArith ty) a (.running s out) σ ∧
          ∀ s' out', σ = .running s' out' → Progress (adProgramConfig (selectArith ty) a) s s') ∧
        ∀ f : Nat → ADState (Fin a.threads), f 0 = ADState.init (selectArith ty) a → (∀ n, ADStep (selectArith ty) a (f n) (f (n + 1))) →
          ∃ n s s' out out', f n = .running s out ∧ f (n + 1) = .running s' out' ∧ Spurious s s' := by
  have hl : c.names.length = n := hc.2.2.2.1 hne
  have hlss : ∀ ls ∈ c.maps, ls.length = n := fun ls hls => by rw [inequalityFile_maps h (by simp) ls hls, hl]
  have hr := readsSystem_file ha hf ho h20 h hc
  exact system_vertices_terminate hr hl hlss hi ht h0 hm hn hsat hline hsym

end Panda
