import Verif.Proofs.FacetOrbits
import Verif.Props.ReducedFile
import Verif.Props.CheckedMain

/-! # What is printed with maps: exactly one inequality for every orbit of facets

The examples after `C63_terminates` (a triangle with a map of order three) meet the hypotheses of the theorems below. -/

namespace Panda

theorem maps_orbits {args : List Arg} {files : Files} {names : Names} {n : Nat} {lss : List (List (List (Option (List Char) × Int)))}
    {S : (Fin n → ℚ) → Prop} {R : Matrix} (hr : ReadsHull files args n names lss S) (hl : names.length = n) (hlss : ∀ ls ∈ lss, ls.length = n)
    (hn : Spec.AdmissibleNames names) (hsym : ∀ m ∈ lss, Spec.MapsOnto names m S ∧ Spec.PlainImages m)
    (hsolid : Spec.Solid S) (hR : ReducedRows files args n names lss S R) :
    RowOrbits n names lss S R ∧ ListsOrbits n names lss S R := by
  obtain ⟨V, maps', N, h4, v2, h3, hV, v5⟩ := hr
  obtain ⟨V', maps, N', g1, g2⟩ := hR.dd
  have e := h4 (max N N') (le_max_left _ _)
  rw [g1 _ (le_max_right N N')] at e
  simp only [Option.some.injEq, Outcome.ok.injEq, Prod.mk.injEq] at e
  obtain ⟨rfl, -, rfl, -⟩ := e
  have hS : Spec.InPolyhedron n V' = S := funext fun p => propext (v5 p)
  have hE := equations_of_solid_set hV v5 hsolid
  obtain ⟨d1, d2⟩ := forall₂_both h3
  rw [← hS]
  refine reduced_orbits hV hE hn.1 hl hlss h3 (fun m hmm => ?_) (fun ls hls => (hsym ls hls).2) g2
  obtain ⟨ls, k1, k2⟩ := d2 m hmm
  refine hullSymmetry_of_mapsOnto hV hn.1 hl (hlss ls k1) k2 ?_
  rw [hS]
  exact (hsym ls k1).1

theorem printed_orbits {names : Names} {n : Nat} {lss : List (List (List (Option (List Char) × Int)))} {R rows : Matrix} {S : (Fin n → ℚ) → Prop}
    (hn : Spec.AdmissibleNames names) (hl : names.length = n) (hlen : ∀ r ∈ rows, r.length = n + 1)
    (hrows : ∀ r, (r ∈ rows ∧ r ≠ List.replicate n 0 ++ [-1]) ↔ r ∈ R) (h : RowOrbits n names lss S R) :
    (∀ a ∈ rows.map (constraintOf false names), a ≠ constraintOf false names (List.replicate n 0 ++ [-1]) →
      Spec.DefinesFacet S (fun p => a.HoldsAt false names p) (fun p => a.TightAt names p)) ∧
    Spec.OnePerFacetOrbit names lss S (rows.map (constraintOf false names)) := by
  have hh : ∀ r ∈ rows, ∀ p : Fin n → ℚ, (constraintOf false names r).HoldsAt false names p ↔ Spec.value n r p ≤ 0 := fun r hr p =>
    constraintOf_holds (equation := false) (Or.inr hn) (fun _ => hl) (hlen r hr) p
  have ht : ∀ r ∈ rows, ∀ p : Fin n → ℚ, (constraintOf false names r).TightAt names p ↔ Spec.value n r p = 0 := fun r hr p =>
    constraintOf_tight (Or.inr hn) (fun _ => hl) (hlen r hr) p
  refine ⟨fun a ha h0 => ?_, fun g b hg => ?_⟩
  · obtain ⟨a, haP, rfl⟩ := List.mem_map.1 ha
    have := h.1 a ((hrows a).1 ⟨haP, fun e => h0 (by rw [e])⟩)
    rwa [show (fun p : Fin n → ℚ => (constraintOf false names a).HoldsAt false names p) = _ from funext fun p => propext (hh a haP p),
      show (fun p : Fin n → ℚ => (constraintOf false names a).TightAt names p) = _ from funext fun p => propext (ht a haP p)]
  · obtain ⟨⟨p0, hp0⟩, a, ⟨haR, ms, hms, e⟩, hu⟩ := h.2 g b hg
    have haP := ((hrows a).2 haR).1
    refine ⟨_, ⟨List.mem_map_of_mem haP, ms, hms, fun p => (hh a haP _).trans (e p)⟩, ?_⟩
    rintro c ⟨hc, ms', hms', e'⟩
    obtain ⟨a', ha', rfl⟩ := List.mem_map.1 hc
    have hnt : a' ≠ List.replicate n 0 ++ [-1] := by
      rintro rfl
      exact hp0 ((e' p0).1 (holds_trivial (Or.inr hn) (fun _ => hl) _))
    have := hu a' ⟨(hrows a').1 ⟨ha', hnt⟩, ms', hms', fun p => (hh a' ha' _).symm.trans (e' p)⟩
    rw [this]

/-- the run with double description, for every way to read the input -/
theorem hull_exact_dd {ad : Bool → Option ProgramResult} {help : Option ProgramResult} {args : List Arg} {f text : List Char}
    {files : Files} {names : Names} {lss : List (List (List (Option (List Char) × Int)))} {n : Nat} {S : (Fin n → ℚ) → Prop}
    (ha : Spec.CommandLine args [f]) (hf : files f = some text)
    (hd : Spec.UsesDD args) (hi : Spec.UsesChecked args ∨ Spec.UsesInt args) (hh : Spec.NoHelp args)
    (hw : ¬ Spec.HasWordLine Spec.inequalityWords text)
    (hr : ReadsHull files args n names lss S) (hl : names.length = n) (hlss : ∀ ls ∈ lss, ls.length = n) (hm : lss ≠ [])
    (hn : Spec.AdmissibleNames names) (hsym : ∀ m ∈ lss, Spec.MapsOnto names m S ∧ Spec.PlainImages m) (hsolid : Spec.Solid S) :
    ∃ N, ∀ fuel ≥ N, ∃ r, program ad help fuel files args = some r ∧
      ((r = .failed ∧ Spec.UsesChecked args) ∨ r = .undefined ∨
        ∃ (out : List Char) (ineqs : List Spec.Constraint), r = .finished 0 out ∧ Spec.PrintedReduced names out ineqs ∧ ineqs.Nodup ∧
          (∀ a ∈ ineqs, Spec.DefinesFacet S (fun p => a.HoldsAt false names p) (fun p => a.TightAt names p)) ∧
          Spec.OnePerFacetOrbit names lss S ineqs) := by
  obtain ⟨R, N, hR, h⟩ := hull_rows_dd (ad := ad) (help := help) ha hf hd hi hh hw hr hl hlss hm hn hsym hsolid
  refine ⟨N, fun fuel hfuel => ?_⟩
  obtain ⟨r, h1, h2⟩ := h fuel hfuel
  refine ⟨r, h1, h2.imp_right (Or.imp_right ?_)⟩
  rintro ⟨out, h3, h4⟩
  have hrows : ∀ r, (r ∈ R ∧ r ≠ List.replicate n 0 ++ [-1]) ↔ r ∈ R :=
    fun r => ⟨fun h => h.1, fun h => ⟨h, fun e => hR.nontrivial (e ▸ h)⟩⟩
  obtain ⟨p1, -, -⟩ := printed_reduced hn hl hR.length hR.nodup hrows hR.holds hR.needed
  obtain ⟨q1, q2⟩ := printed_orbits hn hl hR.length hrows (maps_orbits hr hl hlss hn hsym hsolid hR).1
  refine ⟨out, _, h3, h4, p1, fun a ha => q1 a ha ?_, q2⟩
  obtain ⟨a, haR, rfl⟩ := List.mem_map.1 ha
  intro e
  exact hR.nontrivial (constraintOf_injective (Or.inr hn) (fun _ => hl) (hR.length a haR) (by simp) e ▸ haR)

/-- the runs with adjacency decomposition, for every way to read the input -/
theorem hull_exact_ad {hardware : Nat} {help : Option ProgramResult} {args : List Arg} {f text : List Char}
    {files : Files} {names : Names} {lss : List (List (List (Option (List Char) × Int)))} {n : Nat} {S : (Fin n → ℚ) → Prop}
    (ha : Spec.CommandLine args [f]) (hf : files f = some text)
    (hd : Spec.UsesAD args) (hi : Spec.UsesChecked args ∨ Spec.UsesInt args) (ht : Spec.ThreadsOk args) (hh : Spec.NoHelp args)
    (hw : ¬ Spec.HasWordLine Spec.inequalityWords text)
    (hr : ReadsHull files args n names lss S) (hl : names.length = n) (hlss : ∀ ls ∈ lss, ls.length = n) (hm : lss ≠ [])
    (hn : Spec.AdmissibleNames names) (hsym : ∀ m ∈ lss, Spec.MapsOnto names m S ∧ Spec.PlainImages m) (hsolid : Spec.Solid S)
    (hplane : Spec.Plane S) (hline : ¬ Spec.Line S) :
    (∃ r, ProgramEnds hardware help files args r) ∧ ∀ r, ProgramEnds hardware help files args r →
      (r = .failed ∧ Spec.UsesChecked args) ∨ r = .undefined ∨
        ∃ (out : List Char) (ineqs : List Spec.Constraint), r = .finished 0 out ∧ Spec.PrintedReduced names out ineqs ∧ ineqs.Nodup ∧
          (∃ always, (∀ p : Fin n → ℚ, always.HoldsAt false names p) ∧ ∀ a ∈ ineqs, a ≠ always →
            Spec.DefinesFacet S (fun p => a.HoldsAt false names p) (fun p => a.TightAt names p)) ∧
          Spec.OnePerFacetOrbit names lss S ineqs := by
  obtain ⟨R, hR, f1, f2⟩ := hull_rows_ad (hardware := hardware) (help := help) ha hf hd hi ht hh hw hr hl hlss hm hn hsym hsolid hplane hline
  refine ⟨f1, fun r hr' => (f2 r hr').imp_right (Or.imp_right ?_)⟩
  rintro ⟨out, P, rfl, h1, h2, h3, h4⟩
  obtain ⟨p1, -, -⟩ := printed_reduced hn hl h1 h2 h3 hR.holds hR.needed
  obtain ⟨q1, q2⟩ := printed_orbits hn hl h1 h3 (maps_orbits hr hl hlss hn hsym hsolid hR).1
  exact ⟨out, _, rfl, h4, p1, ⟨_, fun p => holds_trivial (Or.inr hn) (fun _ => hl) p, q1⟩, q2⟩

/-- **C63** (double description) In the situation of `C63_facets_dd` the printed inequalities are facets of the hull, none is printed twice, and
every facet of the hull is an image, under a product of the maps of the file, of exactly one of them. -/
theorem C63_exact_dd {ad : Bool → Option ProgramResult} {help : Option ProgramResult} {args : List Arg} {f text : List Char}
    {files : Files} {order : InputOrder} {c : Spec.VertexContent} {n : Nat}
    (ha : Spec.PlainCommand args f) (hf : files f = some text) (ho : getInputOrder args = .ok order)
    (hd : Spec.UsesDD args) (hi : Spec.UsesChecked args ∨ Spec.UsesInt args) (hh : Spec.NoHelp args)
    (hw : ¬ Spec.HasWordLine Spec.inequalityWords text)
    (h20 : Spec.EarlyHeader 20 text) (h : Spec.VertexFile {} text c) (hc : c.Consistent n) (hp : c.points ≠ []) (hm : c.maps ≠ [])
    (hn : Spec.AdmissibleNames c.names) (hsym : ∀ m ∈ c.maps, Spec.MapsOnto c.names m (Spec.InHull n c.points c.rays) ∧ Spec.PlainImages m)
    (hsolid : Spec.Solid (Spec.InHull n c.points c.rays)) :
    ∃ N, ∀ fuel ≥ N, ∃ r, program ad help fuel files args = some r ∧
      ((r = .failed ∧ Spec.UsesChecked args) ∨ r = .undefined ∨
        ∃ (out : List Char) (ineqs : List Spec.Constraint), r = .finished 0 out ∧ Spec.PrintedReduced c.names out ineqs ∧ ineqs.Nodup ∧
          (∀ a ∈ ineqs, Spec.DefinesFacet (Spec.InHull n c.points c.rays) (fun p => a.HoldsAt false c.names p) (fun p => a.TightAt c.names p)) ∧
          Spec.OnePerFacetOrbit c.names c.maps (Spec.InHull n c.points c.rays) ineqs) := by
  exact hull_exact_dd ha.1 hf hd hi hh hw (readsHull_file ha hf ho h20 h hc hp) (hc.2.2.2.1 (Or.inr hm))
    (fun ls hls => by rw [vertexFile_maps h (by simp) ls hls, hc.2.2.2.1 (Or.inr hm)]) hm hn hsym hsolid

/-- **C63** (adjacency decomposition) The same for adjacency decomposition and any number of threads, whatever the threads do; at most one of the
printed inequalities is not a facet, and it holds everywhere. -/
theorem C63_exact_ad {hardware : Nat} {help : Option ProgramResult} {args : List Arg} {f text : List Char}
    {files : Files} {order : InputOrder} {c : Spec.VertexContent} {n : Nat}
    (ha : Spec.PlainCommand args f) (hf : files f = some text) (ho : getInputOrder args = .ok order)
    (hd : Spec.UsesAD args) (hi : Spec.UsesChecked args ∨ Spec.UsesInt args) (ht : Spec.ThreadsOk args) (hh : Spec.NoHelp args)
    (hw : ¬ Spec.HasWordLine Spec.inequalityWords text)
    (h20 : Spec.EarlyHeader 20 text) (h : Spec.VertexFile {} text c) (hc : c.Consistent n) (hp : c.points ≠ []) (hm : c.maps ≠ [])
    (hn : Spec.AdmissibleNames c.names) (hsym : ∀ m ∈ c.maps, Spec.MapsOnto c.names m (Spec.InHull n c.points c.rays) ∧ Spec.PlainImages m)
    (hsolid : Spec.Solid (Spec.InHull n c.points c.rays))
    (hplane : Spec.Plane (Spec.InHull n c.points c.rays)) (hline : ¬ Spec.Line (Spec.InHull n c.points c.rays)) :
    (∃ r, ProgramEnds hardware help files args r) ∧ ∀ r, ProgramEnds hardware help files args r →
      (r = .failed ∧ Spec.UsesChecked args) ∨ r = .undefined ∨
        ∃ (out : List Char) (ineqs : List Spec.Constraint), r = .finished 0 out ∧ Spec.PrintedReduced c.names out ineqs ∧ ineqs.Nodup ∧
          (∃ always, (∀ p : Fin n → ℚ, always.HoldsAt false c.names p) ∧ ∀ a ∈ ineqs, a ≠ always →
            Spec.DefinesFacet (Spec.InHull n c.points c.rays) (fun p => a.HoldsAt false c.names p) (fun p => a.TightAt c.names p)) ∧
          Spec.OnePerFacetOrbit c.names c.maps (Spec.InHull n c.points c.rays) ineqs := by
  exact hull_exact_ad ha.1 hf hd hi ht hh hw (readsHull_file ha hf ho h20 h hc hp) (hc.2.2.2.1 (Or.inr hm))
    (fun ls hls => by rw [vertexFile_maps h (by simp) ls hls, hc.2.2.2.1 (Or.inr hm)]) hm hn hsym hsolid hplane hline

/-- **C67** (double description) In the situation of `C67_facets_dd` (a file with representatives of points and rays): one facet of every orbit. -/
theorem C67_exact_dd {ad : Bool → Option ProgramResult} {help : Option ProgramResult} {args : List Arg} {f text : List Char}
    {files : Files} {order : InputOrder} {d : Nat} {c : Spec.HullContent d}
    (ha : Spec.PlainCommand args f) (hf : files f = some text) (ho : getInputOrder args = .ok order)
    (hd : Spec.UsesDD args) (hi : Spec.UsesChecked args ∨ Spec.UsesInt args) (hh : Spec.NoHelp args)
    (hw : ¬ Spec.HasWordLine Spec.inequalityWords text)
    (h20 : Spec.EarlyHeader 20 text) (h : Spec.HullFile (fun _ _ => True) {} text c) (hc : c.Consistent) (hp : ∃ x, c.points x)
    (hm : c.maps ≠ []) (hn : Spec.AdmissibleNames c.names) (hsym : ∀ m ∈ c.maps, c.Symmetry m ∧ Spec.PlainImages m)
    (hsolid : Spec.Solid (Spec.HullOf c.points c.rays)) :
    ∃ N, ∀ fuel ≥ N, ∃ r, program ad help fuel files args = some r ∧
      ((r = .failed ∧ Spec.UsesChecked args) ∨ r = .undefined ∨
        ∃ (out : List Char) (ineqs : List Spec.Constraint), r = .finished 0 out ∧ Spec.PrintedReduced c.names out ineqs ∧ ineqs.Nodup ∧
          (∀ a ∈ ineqs, Spec.DefinesFacet (Spec.HullOf c.points c.rays) (fun p => a.HoldsAt false c.names p) (fun p => a.TightAt c.names p)) ∧
          Spec.OnePerFacetOrbit c.names c.maps (Spec.HullOf c.points c.rays) ineqs) := by
  have hl : c.names.length = d := hc.2.1 (Or.inr hm)
  rcases hull_reading (fitting_all d) ha hf ho h20 h hc with ⟨-, N, hN⟩ | hr
  · refine ⟨N, fun fuel hfuel => ?_⟩
    obtain ⟨ty, t1, -⟩ := uses_type hi
    refine ⟨.undefined, ?_, Or.inr (Or.inl rfl)⟩
    unfold program
    rw [detect_facets ha.1 hf hh hw]
    simp only [enumeration, usesDD_method hd, if_true]
    unfold facetsDD
    rw [t1]
    simp only [Run.lift, Run.bind]
    rw [hN fuel hfuel]
    rfl
  · obtain ⟨h1, h2⟩ := readsHull_reduced hr hp
    exact hull_exact_dd ha.1 hf hd hi hh hw h1 hl (fun ls hls => by rw [hullFile_images h (by simp) ls hls, hl]) hm hn
      (fun m hmm => ⟨h2 m (hsym m hmm).1, (hsym m hmm).2⟩) hsolid

/-- **C67** (adjacency decomposition) The same in the situation of `C67_facets_ad`. -/
theorem C67_exact_ad {hardware : Nat} {help : Option ProgramResult} {args : List Arg} {f text : List Char}
    {files : Files} {order : InputOrder} {d : Nat} {c : Spec.HullContent d}
    (ha : Spec.PlainCommand args f) (hf : files f = some text) (ho : getInputOrder args = .ok order)
    (hd : Spec.UsesAD args) (hi : Spec.UsesChecked args ∨ Spec.UsesInt args) (ht : Spec.ThreadsOk args) (hh : Spec.NoHelp args)
    (hw : ¬ Spec.HasWordLine Spec.inequalityWords text)
    (h20 : Spec.EarlyHeader 20 text) (h : Spec.HullFile (fun _ _ => True) {} text c) (hc : c.Consistent) (hp : ∃ x, c.points x)
    (hm : c.maps ≠ []) (hn : Spec.AdmissibleNames c.names) (hsym : ∀ m ∈ c.maps, c.Symmetry m ∧ Spec.PlainImages m)
    (hsolid : Spec.Solid (Spec.HullOf c.points c.rays))
    (hplane : Spec.Plane (Spec.HullOf c.points c.rays)) (hline : ¬ Spec.Line (Spec.HullOf c.points c.rays)) :
    (∃ r, ProgramEnds hardware help files args r) ∧ ∀ r, ProgramEnds hardware help files args r →
      (r = .failed ∧ Spec.UsesChecked args) ∨ r = .undefined ∨
        ∃ (out : List Char) (ineqs : List Spec.Constraint), r = .finished 0 out ∧ Spec.PrintedReduced c.names out ineqs ∧ ineqs.Nodup ∧
          (∃ always, (∀ p : Fin d → ℚ, always.HoldsAt false c.names p) ∧ ∀ a ∈ ineqs, a ≠ always →
            Spec.DefinesFacet (Spec.HullOf c.points c.rays) (fun p => a.HoldsAt false c.names p) (fun p => a.TightAt c.names p)) ∧
          Spec.OnePerFacetOrbit c.names c.maps (Spec.HullOf c.points c.rays) ineqs := by
  have hl : c.names.length = d := hc.2.1 (Or.inr hm)
  rcases hull_reading (fitting_all d) ha hf ho h20 h hc with ⟨-, N, hN⟩ | hr
  · obtain ⟨ty, t1, -⟩ := uses_type hi
    have e1 : ∀ ad fuel, program ad help fuel files args = ad true := by
      intro ad fuel
      unfold program
      rw [detect_facets ha.1 hf hh hw]
      simp only [enumeration, usesAD_method hd]
    obtain ⟨h1, h2⟩ := ad_ub (hardware := hardware) e1 t1 hN
    exact ⟨h1, fun r hr => Or.inr (Or.inl (h2 r hr))⟩
  · obtain ⟨h1, h2⟩ := readsHull_reduced hr hp
    exact hull_exact_ad ha.1 hf hd hi ht hh hw h1 hl (fun ls hls => by rw [hullFile_images h (by simp) ls hls, hl]) hm hn
      (fun m hmm => ⟨h2 m (hsym m hmm).1, (hsym m hmm).2⟩) hsolid hplane hline

/-- **C69** (double description) In the situation of `C69_facets_dd` (with option `-c`): one facet of every orbit. -/
theorem C69_exact_dd {ad : Bool → Option ProgramResult} {help : Option ProgramResult} {args : List Arg} {f text : List Char}
    {files : Files} {order : InputOrder} {c : Spec.VertexContent} {n : Nat}
    (ha : Spec.CheckedCommand args f) (hf : files f = some text) (ho : getInputOrder args = .ok order)
    (hd : Spec.UsesDD args) (hi : Spec.UsesChecked args ∨ Spec.UsesInt args) (hh : Spec.NoHelp args)
    (hw : ¬ Spec.HasWordLine Spec.inequalityWords text)
    (h20 : Spec.EarlyHeader 20 text) (h : Spec.OrderedVertexFile {} text c) (hc : c.Consistent n) (hp : c.points ≠ [])
    (hm : c.maps ≠ []) (hn : Spec.AdmissibleNames c.names) (himg : ∀ m ∈ c.maps, Spec.PlainImages m)
    (hsolid : Spec.Solid (Spec.InHull n c.points c.rays)) :
    ∃ N, ∀ fuel ≥ N, ∃ r, program ad help fuel files args = some r ∧
      ((r = .failed ∧ (Spec.UsesChecked args ∨ c.Rejected n)) ∨ r = .undefined ∨
        ∃ (out : List Char) (ineqs : List Spec.Constraint), r = .finished 0 out ∧ Spec.PrintedReduced c.names out ineqs ∧ c.MapsPermute n ∧ ineqs.Nodup ∧
          (∀ a ∈ ineqs, Spec.DefinesFacet (Spec.InHull n c.points c.rays) (fun p => a.HoldsAt false c.names p) (fun p => a.TightAt c.names p)) ∧
          Spec.OnePerFacetOrbit c.names c.maps (Spec.InHull n c.points c.rays) ineqs) := by
  have run : ∀ {fuel o}, (∀ x, o ≠ .ok x) → inputVertices fuel files args = some o →
      program ad help fuel files args = some (match o with | .thrown => .failed | .ub => .undefined | .ok _ => .undefined) := by
    intro fuel o hne hN
    obtain ⟨ty, t1, -⟩ := uses_type hi
    unfold program
    rw [detect_facets ha.1 hf hh hw]
    simp only [enumeration, usesDD_method hd, if_true]
    unfold facetsDD
    rw [t1]
    simp only [Run.lift, Run.bind]
    rw [hN]
    cases o with
    | ok x => exact (hne x rfl).elim
    | thrown => rfl
    | ub => rfl
  rcases checked_hull ha hf ho h20 h hc hp hm hn.1 with ⟨N, hN⟩ | ⟨⟨N, hN⟩, hr⟩ | ⟨hr, hperm⟩
  · exact ⟨N, fun fuel hfu => ⟨_, run (by simp) (hN fuel hfu), Or.inr (Or.inl rfl)⟩⟩
  · exact ⟨N, fun fuel hfu => ⟨_, run (by simp) (hN fuel hfu), Or.inl ⟨rfl, Or.inr hr⟩⟩⟩
  · obtain ⟨N, hN⟩ := hull_exact_dd (ad := ad) (help := help) ha.1 hf hd hi hh hw hr (hc.2.2.2.1 (Or.inr hm)) (orderedVertexFile_images h hc) hm hn
      (fun m hmm => ⟨C69_symmetry (hperm m hmm).1 (hperm m hmm).2, himg m hmm⟩) hsolid
    refine ⟨N, fun fuel hfu => ?_⟩
    obtain ⟨r, h1, h2⟩ := hN fuel hfu
    refine ⟨r, h1, ?_⟩
    rcases h2 with ⟨h2, h3⟩ | h2 | ⟨out, ineqs, g1, g2, g3⟩
    · exact Or.inl ⟨h2, Or.inl h3⟩
    · exact Or.inr (Or.inl h2)
    · exact Or.inr (Or.inr ⟨out, ineqs, g1, g2, hperm, g3⟩)

/-- **C69** (adjacency decomposition) The same in the situation of `C69_facets_ad`. -/
theorem C69_exact_ad {hardware : Nat} {help : Option ProgramResult} {args : List Arg} {f text : List Char}
    {files : Files} {order : InputOrder} {c : Spec.VertexContent} {n : Nat}
    (ha : Spec.CheckedCommand args f) (hf : files f = some text) (ho : getInputOrder args = .ok order)
    (hd : Spec.UsesAD args) (hi : Spec.UsesChecked args ∨ Spec.UsesInt args) (ht : Spec.ThreadsOk args) (hh : Spec.NoHelp args)
    (hw : ¬ Spec.HasWordLine Spec.inequalityWords text)
    (h20 : Spec.EarlyHeader 20 text) (h : Spec.OrderedVertexFile {} text c) (hc : c.Consistent n) (hp : c.points ≠ [])
    (hm : c.maps ≠ []) (hn : Spec.AdmissibleNames c.names) (himg : ∀ m ∈ c.maps, Spec.PlainImages m)
    (hsolid : Spec.Solid (Spec.InHull n c.points c.rays))
    (hplane : Spec.Plane (Spec.InHull n c.points c.rays)) (hline : ¬ Spec.Line (Spec.InHull n c.points c.rays)) :
    (∃ r, ProgramEnds hardware help files args r) ∧ ∀ r, ProgramEnds hardware help files args r →
      (r = .failed ∧ (Spec.UsesChecked args ∨ c.Rejected n)) ∨ r = .undefined ∨
        ∃ (out : List Char) (ineqs : List Spec.Constraint), r = .finished 0 out ∧ Spec.PrintedReduced c.names out ineqs ∧ c.MapsPermute n ∧ ineqs.Nodup ∧
          (∃ always, (∀ p : Fin n → ℚ, always.HoldsAt false c.names p) ∧ ∀ a ∈ ineqs, a ≠ always →
            Spec.DefinesFacet (Spec.InHull n c.points c.rays) (fun p => a.HoldsAt false c.names p) (fun p => a.TightAt c.names p)) ∧
          Spec.OnePerFacetOrbit c.names c.maps (Spec.InHull n c.points c.rays) ineqs := by
  have e1 : ∀ ad fuel, program ad help fuel files args = ad true := by
    intro ad fuel
    unfold program
    rw [detect_facets ha.1 hf hh hw]
    simp only [enumeration, usesAD_method hd]
  obtain ⟨ty, t1, -⟩ := uses_type hi
  rcases checked_hull ha hf ho h20 h hc hp hm hn.1 with ⟨N, hN⟩ | ⟨⟨N, hN⟩, hr⟩ | ⟨hr, hperm⟩
  · obtain ⟨h1, h2⟩ := ad_ub (hardware := hardware) e1 t1 hN
    exact ⟨h1, fun r hr => Or.inr (Or.inl (h2 r hr))⟩
  · obtain ⟨h1, h2⟩ := ad_thrown (hardware := hardware) e1 t1 hN
    exact ⟨h1, fun r hr' => Or.inl ⟨h2 r hr', Or.inr hr⟩⟩
  · obtain ⟨h1, h2⟩ := hull_exact_ad (hardware := hardware) (help := help) ha.1 hf hd hi ht hh hw hr (hc.2.2.2.1 (Or.inr hm)) (orderedVertexFile_images h hc) hm hn
      (fun m hmm => ⟨C69_symmetry (hperm m hmm).1 (hperm m hmm).2, himg m hmm⟩) hsolid hplane hline
    refine ⟨h1, fun r hr => ?_⟩
    rcases h2 r hr with ⟨h2, h3⟩ | h2 | ⟨out, ineqs, g1, g2, g3⟩
    · exact Or.inl ⟨h2, Or.inl h3⟩
    · exact Or.inr (Or.inl h2)
    · exact Or.inr (Or.inr ⟨out, ineqs, g1, g2, hperm, g3⟩)

end Panda
