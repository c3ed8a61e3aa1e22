import Verif.Props.Checked

/-! # C69: facet enumeration with the option `-c` -/

namespace Panda

/-- the two descriptions of the hull -/
theorem inHull_hullOf {d : Nat} {points rays : List (List (Int × Int))} {p : Fin d → ℚ} :
    Spec.InHull d points rays p ↔ Spec.HullOf (· ∈ points.map (Spec.point d)) (· ∈ rays.map (Spec.point d)) p := by
  constructor
  · rintro ⟨a, b, h1, h2, h3, h4⟩
    exact ⟨_, _, a, fun j => Spec.point d points[j], b, fun j => Spec.point d rays[j],
      fun i => ⟨h1 i, List.mem_map.2 ⟨_, List.getElem_mem _, rfl⟩⟩, fun i => ⟨h2 i, List.mem_map.2 ⟨_, List.getElem_mem _, rfl⟩⟩, h3, h4⟩
  · rintro ⟨k, l, a, x, b, y, h1, h2, h3, rfl⟩
    have q1 : ∀ i, ∃ j : Fin points.length, Spec.point d points[j] = x i := fun i => by
      obtain ⟨v, hv, e⟩ := List.mem_map.1 (h1 i).2
      obtain ⟨j, hj, rfl⟩ := List.getElem_of_mem hv
      exact ⟨⟨j, hj⟩, e⟩
    have q2 : ∀ i, ∃ j : Fin rays.length, Spec.point d rays[j] = y i := fun i => by
      obtain ⟨v, hv, e⟩ := List.mem_map.1 (h2 i).2
      obtain ⟨j, hj, rfl⟩ := List.getElem_of_mem hv
      exact ⟨⟨j, hj⟩, e⟩
    choose f hf using q1
    choose g hg using q2
    refine ⟨fun j => ∑ i with f i = j, a i, fun j => ∑ i with g i = j, b i, fun j => Finset.sum_nonneg fun i _ => (h1 i).1,
      fun j => Finset.sum_nonneg fun i _ => (h2 i).1, ?_, ?_⟩
    · rw [Finset.sum_fiberwise, h3]
    · congr 1
      · rw [← Finset.sum_fiberwise _ f]
        refine Finset.sum_congr rfl fun j _ => ?_
        rw [Finset.sum_smul]
        refine Finset.sum_congr rfl fun i hi => ?_
        rw [← hf i, (Finset.mem_filter.1 hi).2]
      · rw [← Finset.sum_fiberwise _ g]
        refine Finset.sum_congr rfl fun j _ => ?_
        rw [Finset.sum_smul]
        refine Finset.sum_congr rfl fun i hi => ?_
        rw [← hg i, (Finset.mem_filter.1 hi).2]

/-- **C69** A map that permutes the points and the rays is a symmetry of the hull. -/
theorem C69_symmetry {d : Nat} {names : Names} {m : List (List (Option (List Char) × Int))} {points rays : List (List (Int × Int))}
    (hp : Spec.PermutesPoints names m (points.map (Spec.point d))) (hr : Spec.PermutesRays names m (rays.map (Spec.point d))) :
    Spec.MapsOnto names m (Spec.InHull d points rays) := by
  have e : Spec.InHull d points rays = Spec.HullOf (· ∈ points.map (Spec.point d)) (· ∈ rays.map (Spec.point d)) :=
    funext fun p => propext inHull_hullOf
  rw [e]
  constructor
  · rintro p ⟨k, l, a, x, b, y, h1, h2, h3, rfl⟩
    rw [mapPoint_comb _ _ _ _ _ _ h3]
    have : ∀ j, ∃ r' ∈ rays.map (Spec.point d), ∃ s : ℚ, 0 < s ∧ Spec.mapDirection names m (y j) = s • r' := fun j => hr.1 _ (h2 j).2
    choose y' hy s hs ey using this
    refine ⟨k, l, a, fun i => Spec.mapPoint names m (x i), fun j => b j * s j, y', fun i => ⟨(h1 i).1, hp.1 _ (h1 i).2⟩,
      fun j => ⟨mul_nonneg (h2 j).1 (hs j).le, hy j⟩, h3, ?_⟩
    congr 1
    exact Finset.sum_congr rfl fun j _ => by rw [ey, smul_smul]
  · rintro p ⟨k, l, a, x, b, y, h1, h2, h3, rfl⟩
    have q1 : ∀ i, ∃ q ∈ points.map (Spec.point d), Spec.mapPoint names m q = x i := fun i => hp.2 _ (h1 i).2
    have q2 : ∀ j, ∃ r ∈ rays.map (Spec.point d), ∃ s : ℚ, 0 < s ∧ Spec.mapDirection names m r = s • y j := fun j => hr.2 _ (h2 j).2
    choose x' hx ex using q1
    choose y' hy s hs ey using q2
    refine ⟨_, ⟨k, l, a, x', fun j => b j * (s j)⁻¹, y', fun i => ⟨(h1 i).1, hx i⟩,
      fun j => ⟨mul_nonneg (h2 j).1 (inv_pos.2 (hs j)).le, hy j⟩, h3, rfl⟩, ?_⟩
    rw [mapPoint_comb _ _ _ _ _ _ h3]
    congr 1
    · exact Finset.sum_congr rfl fun i _ => by rw [ex]
    · exact Finset.sum_congr rfl fun j _ => by rw [ey, smul_smul, mul_assoc, inv_mul_cancel₀ (hs j).ne', mul_one]

/-- a run in which reading the input throws -/
theorem ad_thrown {hardware : Nat} {help : Option ProgramResult} {args : List Arg} {files : Files} {ty : IntegerType}
    (e1 : ∀ ad fuel, program ad help fuel files args = ad true) (t1 : integerType args = .ok ty) {N : Nat}
    (hN : ∀ fuel ≥ N, inputVertices fuel files args = some .thrown) :
    (∃ r, ProgramEnds hardware help files args r) ∧ ∀ r, ProgramEnds hardware help files args r → r = .failed := by
  have key : ∀ fuel ≥ N, adProgramFacets hardware fuel files args = some .thrown := by
    intro fuel hf
    unfold adProgramFacets
    rw [t1]
    simp only [Run.lift, Run.bind, hN fuel hf]
  constructor
  · refine ⟨.failed, N, fun facets => if facets then some .failed else none, ?_, by rw [e1]; rfl⟩
    intro facets x hx
    cases facets with
    | false => simp at hx
    | true =>
      obtain rfl : x = .failed := by simpa using hx.symm
      refine ⟨N, fun fuel hf => ?_⟩
      simp only [if_true, key fuel hf]
  · rintro r ⟨fuel, ad, h1, h2⟩
    rw [e1] at h2
    obtain ⟨M, hM⟩ := h1 true r h2
    have := hM (max M N) (le_max_left _ _)
    simp only [if_true, key (max M N) (le_max_right _ _)] at this
    exact this

/-- some check fails: a map does not permute the points and rays of the file, or their rows are not different and in lowest terms -/
def Spec.VertexContent.Rejected (c : Spec.VertexContent) (n : Nat) : Prop :=
  ∃ points rays, List.Forall₂ Spec.LeastPoint c.points points ∧ List.Forall₂ Spec.LeastRay c.rays rays ∧ ¬ c.Accepted n points rays

/-- what a file with points and rays is read as, with `-c` -/
theorem checked_hull {args : List Arg} {f text : List Char} {files : Files} {order : InputOrder} {c : Spec.VertexContent} {n : Nat}
    (ha : Spec.CheckedCommand args f) (hf : files f = some text) (ho : getInputOrder args = .ok order)
    (h20 : Spec.EarlyHeader 20 text) (h : Spec.OrderedVertexFile {} text c) (hc : c.Consistent n) (hp : c.points ≠ [])
    (hm : c.maps ≠ []) (hn : c.names.Nodup) :
    (∃ N, ∀ fuel ≥ N, inputVertices fuel files args = some .ub) ∨
      ((∃ N, ∀ fuel ≥ N, inputVertices fuel files args = some .thrown) ∧ c.Rejected n) ∨
      (ReadsHull files args n c.names c.maps (Spec.InHull n c.points c.rays) ∧ c.MapsPermute n) := by
  obtain ⟨P, R, maps, o, h1, h2, k1, k2, k3, h3, ⟨N, hN⟩, hcase, -⟩ := C69_vertices ha hf ho h20 h hc hn
  rcases hcase with rfl | ⟨rfl, hr⟩ | ⟨rfl, hr⟩
  · exact Or.inl ⟨N, hN⟩
  · exact Or.inr (Or.inl ⟨⟨N, hN⟩, P, R, h1, h2, hr⟩)
  · obtain ⟨-, g2, -, -, g5, g6⟩ := rows_hull order k1 k2 k3 hc.2.1 hc.2.2.1
    exact Or.inr (Or.inr ⟨⟨_, maps, N, hN, g2, h3, g6 hp, g5⟩, (hr hm).1⟩)

theorem orderedVertexFile_images {c : Spec.VertexContent} {n : Nat} {text : List Char} (h : Spec.OrderedVertexFile {} text c) (hc : c.Consistent n) :
    ∀ ls ∈ c.maps, ls.length = n := fun ls hls => by
  rw [vertexFile_maps (orderedVertexFile_file h) (by simp) ls hls, hc.2.2.2.1 (Or.inr (List.ne_nil_of_mem hls))]

/-- **C69** (double description) Facet enumeration with `-c`, maps before points and rays; the maps need not be symmetries.  If the hull is
not contained in a hyperplane and no image mentions a variable twice: if the program finishes, every map permutes the points and
the rays, and the printed inequalities, none twice, are such that a point is in the hull if and only if all its images satisfy
them; none can be left out.  The program always ends; it reports an error only if a check fails or (with checked integers)
an operation overflows. -/
theorem C69_facets_dd {ad : Bool → Option ProgramResult} {help : Option ProgramResult} {args : List Arg} {f text : List Char}
    {files : Files} {order : InputOrder} {c : Spec.VertexContent} {n : Nat}
    (ha : Spec.CheckedCommand args f) (hf : files f = some text) (ho : getInputOrder args = .ok order)
    (hd : Spec.UsesDD args) (hi : Spec.UsesChecked args ∨ Spec.UsesInt args) (hh : Spec.NoHelp args)
    (hw : ¬ Spec.HasWordLine Spec.inequalityWords text)
    (h20 : Spec.EarlyHeader 20 text) (h : Spec.OrderedVertexFile {} text c) (hc : c.Consistent n) (hp : c.points ≠ [])
    (hm : c.maps ≠ []) (hn : Spec.AdmissibleNames c.names) (himg : ∀ m ∈ c.maps, Spec.PlainImages m)
    (hsolid : Spec.Solid (Spec.InHull n c.points c.rays)) :
    ∃ N, ∀ fuel ≥ N, ∃ r, program ad help fuel files args = some r ∧
      ((r = .failed ∧ (Spec.UsesChecked args ∨ c.Rejected n)) ∨ r = .undefined ∨
        ∃ (out : List Char) (ineqs : List Spec.Constraint), r = .finished 0 out ∧ Spec.PrintedReduced c.names out ineqs ∧
          c.MapsPermute n ∧ ineqs.Nodup ∧
          (∀ p : Fin n → ℚ, Spec.InHull n c.points c.rays p ↔
            ∀ p', Spec.Moved c.names c.maps p p' → ∀ a ∈ ineqs, a.HoldsAt false c.names p') ∧
          ∀ a ∈ ineqs, ∃ p : Fin n → ℚ, (∀ p', Spec.Moved c.names c.maps p p' → ∀ b ∈ ineqs, b ≠ a → b.HoldsAt false c.names p') ∧
            ¬ Spec.InHull n c.points c.rays p) := by
  have run : ∀ {fuel o}, (∀ x, o ≠ .ok x) → inputVertices fuel files args = some o →
      program ad help fuel files args = some (match o with | .thrown => .failed | .ub => .undefined | .ok _ => .undefined) := by
    intro fuel o hne hN
    obtain ⟨ty, t1, -⟩ := uses_type hi
    unfold program
    rw [detect_facets ha.1 hf hh hw]
    simp only [enumeration, usesDD_method hd, if_true]
    unfold facetsDD
    rw [t1]
    simp only [Run.lift, Run.bind]
    rw [hN]
    cases o with
    | ok x => exact (hne x rfl).elim
    | thrown => rfl
    | ub => rfl
  rcases checked_hull ha hf ho h20 h hc hp hm hn.1 with ⟨N, hN⟩ | ⟨⟨N, hN⟩, hr⟩ | ⟨hr, hperm⟩
  · exact ⟨N, fun fuel hfu => ⟨_, run (by simp) (hN fuel hfu), Or.inr (Or.inl rfl)⟩⟩
  · exact ⟨N, fun fuel hfu => ⟨_, run (by simp) (hN fuel hfu), Or.inl ⟨rfl, Or.inr hr⟩⟩⟩
  · obtain ⟨N, hN⟩ := hull_facets_dd (ad := ad) (help := help) ha.1 hf hd hi hh hw hr (hc.2.2.2.1 (Or.inr hm)) (orderedVertexFile_images h hc) hm hn
      (fun m hmm => ⟨C69_symmetry (hperm m hmm).1 (hperm m hmm).2, himg m hmm⟩) hsolid
    refine ⟨N, fun fuel hfu => ?_⟩
    obtain ⟨r, h1, h2⟩ := hN fuel hfu
    refine ⟨r, h1, ?_⟩
    rcases h2 with ⟨h2, h3⟩ | h2 | ⟨out, ineqs, g1, g2, g3⟩
    · exact Or.inl ⟨h2, Or.inl h3⟩
    · exact Or.inr (Or.inl h2)
    · exact Or.inr (Or.inr ⟨out, ineqs, g1, g2, hperm, g3⟩)

/-- **C69** (adjacency decomposition) The same; the trivially true inequality may be printed in addition. -/
theorem C69_facets_ad {hardware : Nat} {help : Option ProgramResult} {args : List Arg} {f text : List Char}
    {files : Files} {order : InputOrder} {c : Spec.VertexContent} {n : Nat}
    (ha : Spec.CheckedCommand args f) (hf : files f = some text) (ho : getInputOrder args = .ok order)
    (hd : Spec.UsesAD args) (hi : Spec.UsesChecked args ∨ Spec.UsesInt args) (ht : Spec.ThreadsOk args) (hh : Spec.NoHelp args)
    (hw : ¬ Spec.HasWordLine Spec.inequalityWords text)
    (h20 : Spec.EarlyHeader 20 text) (h : Spec.OrderedVertexFile {} text c) (hc : c.Consistent n) (hp : c.points ≠ [])
    (hm : c.maps ≠ []) (hn : Spec.AdmissibleNames c.names) (himg : ∀ m ∈ c.maps, Spec.PlainImages m)
    (hsolid : Spec.Solid (Spec.InHull n c.points c.rays))
    (hplane : Spec.Plane (Spec.InHull n c.points c.rays)) (hline : ¬ Spec.Line (Spec.InHull n c.points c.rays)) :
    (∃ r, ProgramEnds hardware help files args r) ∧ ∀ r, ProgramEnds hardware help files args r →
      (r = .failed ∧ (Spec.UsesChecked args ∨ c.Rejected n)) ∨ r = .undefined ∨
        ∃ (out : List Char) (ineqs : List Spec.Constraint), r = .finished 0 out ∧ Spec.PrintedReduced c.names out ineqs ∧
          c.MapsPermute n ∧ ineqs.Nodup ∧
          (∀ p : Fin n → ℚ, Spec.InHull n c.points c.rays p ↔
            ∀ p', Spec.Moved c.names c.maps p p' → ∀ a ∈ ineqs, a.HoldsAt false c.names p') ∧
          ∃ always, (∀ p : Fin n → ℚ, always.HoldsAt false c.names p) ∧ ∀ a ∈ ineqs, a ≠ always → ∃ p : Fin n → ℚ,
            (∀ p', Spec.Moved c.names c.maps p p' → ∀ b ∈ ineqs, b ≠ a → b.HoldsAt false c.names p') ∧
            ¬ Spec.InHull n c.points c.rays p := by
  have e1 : ∀ ad fuel, program ad help fuel files args = ad true := by
    intro ad fuel
    unfold program
    rw [detect_facets ha.1 hf hh hw]
    simp only [enumeration, usesAD_method hd]
  obtain ⟨ty, t1, -⟩ := uses_type hi
  rcases checked_hull ha hf ho h20 h hc hp hm hn.1 with ⟨N, hN⟩ | ⟨⟨N, hN⟩, hr⟩ | ⟨hr, hperm⟩
  · obtain ⟨h1, h2⟩ := ad_ub (hardware := hardware) e1 t1 hN
    exact ⟨h1, fun r hr => Or.inr (Or.inl (h2 r hr))⟩
  · obtain ⟨h1, h2⟩ := ad_thrown (hardware := hardware) e1 t1 hN
    exact ⟨h1, fun r hr' => Or.inl ⟨h2 r hr', Or.inr hr⟩⟩
  · obtain ⟨h1, h2⟩ := hull_facets_ad (hardware := hardware) (help := help) ha.1 hf hd hi ht hh hw hr (hc.2.2.2.1 (Or.inr hm)) (orderedVertexFile_images h hc) hm hn
      (fun m hmm => ⟨C69_symmetry (hperm m hmm).1 (hperm m hmm).2, himg m hmm⟩) hsolid hplane hline
    refine ⟨h1, fun r hr => ?_⟩
    rcases h2 r hr with ⟨h2, h3⟩ | h2 | ⟨out, ineqs, g1, g2, g3⟩
    · exact Or.inl ⟨h2, Or.inl h3⟩
    · exact Or.inr (Or.inl h2)
    · exact Or.inr (Or.inr ⟨out, ineqs, g1, g2, hperm, g3⟩)

/-- **C69** (termination) In the situation of `C69_facets_ad`: the threads start or the program ends before; the threads are never
stuck, and there is no infinite run, if `std::condition_variable` wakes no thread without reason. -/
theorem C69_facets_terminate {hardware : Nat} {args : List Arg} {f text : List Char}
    {files : Files} {order : InputOrder} {c : Spec.VertexContent} {n : Nat}
    (ha : Spec.CheckedCommand args f) (hf : files f = some text) (ho : getInputOrder args = .ok order)
    (hi : Spec.UsesChecked args ∨ Spec.UsesInt args) (ht : Spec.ThreadsOk args)
    (h20 : Spec.EarlyHeader 20 text) (h : Spec.OrderedVertexFile {} text c) (hc : c.Consistent n) (hp : c.points ≠ [])
    (hm : c.maps ≠ []) (hn : Spec.AdmissibleNames c.names) (himg : ∀ m ∈ c.maps, Spec.PlainImages m)
    (hsolid : Spec.Solid (Spec.InHull n c.points c.rays))
    (hplane : Spec.Plane (Spec.InHull n c.points c.rays)) (hline : ¬ Spec.Line (Spec.InHull n c.points c.rays)) :
    ∃ N, ∀ fuel ≥ N, adProgramFacets hardware fuel files args ≠ none ∧
      ∀ a ty, adProgramFacets hardware fuel files args = some (.ok a) → integerType args = .ok ty →
        (∀ s out, ADReach (selectArith ty) a (.running s out) → ¬ s.Finished → ∃ σ, ADStep (selectArith ty) a (.running s out) σ ∧
          ∀ s' out', σ = .running s' out' → Progress (adProgramConfig (selectArith ty) a) s s') ∧
        ∀ f : Nat → ADState (Fin a.threads), f 0 = ADState.init (selectArith ty) a → (∀ n, ADStep (selectArith ty) a (f n) (f (n + 1))) →
          ∃ n s s' out out', f n = .running s out ∧ f (n + 1) = .running s' out' ∧ Spurious s s' := by
  obtain ⟨ty, t1, -⟩ := uses_type hi
  have stop : ∀ {o N}, (∀ x, o ≠ .ok x) → (∀ fuel ≥ N, inputVertices fuel files args = some o) →
      ∀ fuel ≥ N, adProgramFacets hardware fuel files args ≠ none ∧ ∀ a, adProgramFacets hardware fuel files args ≠ some (.ok a) := by
    intro o N hne hN fuel hf
    unfold adProgramFacets
    rw [t1]
    simp only [Run.lift, Run.bind, hN fuel hf]
    cases o with
    | ok x => exact (hne x rfl).elim
    | thrown => exact ⟨by simp, fun a => by simp⟩
    | ub => exact ⟨by simp, fun a => by simp⟩
  rcases checked_hull ha hf ho h20 h hc hp hm hn.1 with ⟨N, hN⟩ | ⟨⟨N, hN⟩, hr⟩ | ⟨hr, hperm⟩
  · exact ⟨N, fun fuel hf => ⟨(stop (by simp) hN fuel hf).1, fun a _ h => ((stop (by simp) hN fuel hf).2 a h).elim⟩⟩
  · exact ⟨N, fun fuel hf => ⟨(stop (by simp) hN fuel hf).1, fun a _ h => ((stop (by simp) hN fuel hf).2 a h).elim⟩⟩
  · exact hull_terminates hi ht hr (hc.2.2.2.1 (Or.inr hm)) (orderedVertexFile_images h hc) hm hn
      (fun m hmm => ⟨C69_symmetry (hperm m hmm).1 (hperm m hmm).2, himg m hmm⟩) hsolid hplane hline

end Panda
