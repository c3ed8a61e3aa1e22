import Verif.Props.RoundTrip
import Verif.Proofs.HullExtreme
import Verif.Proofs.FacetExact
import Verif.Proofs.FacetOf
import Verif.Spec.Known

/-! # What is printed, said without reference to redundancy: vertices and extreme directions -/

namespace Panda

theorem points_of_hull {n : Nat} {points rays : List (List (Int × Int))} {p : Fin n → ℚ} (h : Spec.InHull n points rays p) : points ≠ [] := by
  rintro rfl
  obtain ⟨a, b, -, -, h1, -⟩ := h
  simp at h1

/-- **C61** Vertex enumeration (double description) prints exactly the vertices and the extreme directions of the solution set: every
vertex once, and every extreme direction up to a positive factor. -/
theorem C61_exact {ad : Bool → Option ProgramResult} {help : Option ProgramResult} {args : List Arg} {f text : List Char}
    {files : Files} {order : InputOrder} {c : Spec.InequalityContent} {n : Nat}
    (ha : Spec.PlainCommand args f) (hf : files f = some text) (ho : getInputOrder args = .ok order)
    (hd : Spec.UsesDD args) (hi : Spec.UsesChecked args ∨ Spec.UsesInt args) (hh : Spec.NoHelp args)
    (hw : Spec.HasWordLine Spec.inequalityWords text) (hw' : ¬ Spec.HasWordLine Spec.hullWords text)
    (h20 : Spec.EarlyHeader 20 text) (h : Spec.InequalityFile {} text c) (hc : c.Consistent n) (hn : 0 < n) (hm : c.maps = [])
    (hsat : ∃ p : Fin n → ℚ, c.Solution p)
    (hline : ¬ ∃ p q : Fin n → ℚ, q ≠ 0 ∧ ∀ t : ℚ, c.Solution (p + t • q)) :
    ∃ N, ∀ fuel ≥ N, ∃ r, program ad help fuel files args = some r ∧
      ((r = .failed ∧ Spec.UsesChecked args) ∨
        (r = .undefined ∧ (¬ Spec.UsesChecked args ∨ ∃ v : List Int, v.length = n + 1 ∧ Spec.PrimitiveRow v ∧ 0 < v.getD n 0 ∧
          (-2147483648 : Int) ∈ v ∧ c.Solution (Spec.coord n v))) ∨
        ∃ (out : List Char) (points rays : List (List (Int × Int))), r = .finished 0 out ∧ Spec.PrintedPoints out points rays ∧
          (points.map (Spec.point n)).Nodup ∧
          (∀ p : Fin n → ℚ, Spec.Vertex c.Solution p ↔ ∃ q ∈ points, Spec.point n q = p) ∧
          ∀ u : Fin n → ℚ, Spec.ExtremeDirection c.Solution u ↔ ∃ q ∈ rays, ∃ t : ℚ, 0 < t ∧ u = t • Spec.point n q) := by
  obtain ⟨N, hN⟩ := C61_vertices (ad := ad) (help := help) ha hf ho hd hi hh hw hw' h20 h hc hn hm hsat hline
  refine ⟨N, fun fuel hfuel => ?_⟩
  obtain ⟨r, hr, hcase⟩ := hN fuel hfuel
  refine ⟨r, hr, ?_⟩
  rcases hcase with h | h | ⟨out, points, rays, q1, q2, -, q4, q5, q6⟩
  · exact Or.inl h
  · exact Or.inr (Or.inl h)
  · have hS : c.Solution (d := n) = Spec.InHull n points rays := funext fun p => propext (q4 p)
    obtain ⟨p, hp⟩ := hsat
    obtain ⟨e1, e2⟩ := hull_exact (points_of_hull ((q4 p).1 hp)) (by simpa only [q4] using hline) q5 q6
    exact Or.inr (Or.inr ⟨out, points, rays, q1, q2, points_injective q5, by rw [hS]; exact e1, by rw [hS]; exact e2⟩)

/-- **C76** Round trip, exactly: the points that come back are the vertices of the hull of the file, each of them once and each of them a
point of the file; the rays that come back are its extreme directions, positive multiples of rays of the file. -/
theorem C76_exact {ad ad' : Bool → Option ProgramResult} {help help' : Option ProgramResult} {args args' : List Arg}
    {f f' text : List Char} {files files' : Files} {order order' : InputOrder} {c : Spec.VertexContent} {n : Nat}
    (ha : Spec.PlainCommand args f) (hf : files f = some text) (ho : getInputOrder args = .ok order)
    (hd : Spec.UsesDD args) (hi : Spec.UsesChecked args ∨ Spec.UsesInt args) (hh : Spec.NoHelp args)
    (hw : ¬ Spec.HasWordLine Spec.inequalityWords text)
    (h20 : Spec.EarlyHeader 20 text) (h : Spec.VertexFile {} text c) (hc : c.Consistent n) (hp : c.points ≠ []) (hm : c.maps = [])
    (hn : c.names = []) (h0 : 0 < n)
    (htwo : ∃ p q : Fin n → ℚ, p ≠ q ∧ Spec.InHull n c.points c.rays p ∧ Spec.InHull n c.points c.rays q)
    (hline : ¬ ∃ p q : Fin n → ℚ, q ≠ 0 ∧ ∀ t : ℚ, Spec.InHull n c.points c.rays (p + t • q))
    (ha' : Spec.PlainCommand args' f') (ho' : getInputOrder args' = .ok order') (hd' : Spec.UsesDD args')
    (hi' : Spec.UsesChecked args' ∨ Spec.UsesInt args') (hh' : Spec.NoHelp args') :
    ∃ N, ∀ fuel ≥ N, ∀ out, program ad help fuel files args = some (.finished 0 out) → files' f' = some out →
      (∀ eqs ineqs, Spec.PrintedSystem [] out eqs ineqs → ∀ row, .raw row ∈ eqs → (-2147483648 : Int) ∉ row) →
      ∃ N', ∀ fuel' ≥ N', ∃ r, program ad' help' fuel' files' args' = some r ∧
        ((r = .failed ∧ Spec.UsesChecked args') ∨
          (r = .undefined ∧ (¬ Spec.UsesChecked args' ∨ ∃ v : List Int, v.length = n + 1 ∧ Spec.PrimitiveRow v ∧ 0 < v.getD n 0 ∧
            (-2147483648 : Int) ∈ v ∧ Spec.InHull n c.points c.rays (Spec.coord n v))) ∨
          ∃ (out' : List Char) (points rays : List (List (Int × Int))), r = .finished 0 out' ∧ Spec.PrintedPoints out' points rays ∧
            (points.map (Spec.point n)).Nodup ∧
            (∀ p, Spec.Vertex (Spec.InHull n c.points c.rays) p ↔ ∃ q ∈ points, Spec.point n q = p) ∧
            (∀ u, Spec.ExtremeDirection (Spec.InHull n c.points c.rays) u ↔ ∃ q ∈ rays, ∃ t : ℚ, 0 < t ∧ u = t • Spec.point n q) ∧
            (∀ q ∈ points, ∃ p ∈ c.points, Spec.point n p = Spec.point n q) ∧
            ∀ q ∈ rays, ∃ p ∈ c.rays, ∃ t : ℚ, 0 < t ∧ Spec.point n q = t • Spec.point n p) := by
  obtain ⟨N, hN⟩ := C76_points (ad := ad) (ad' := ad') (help := help) (help' := help') ha hf ho hd hi hh hw h20 h hc hp hm hn h0 htwo hline
    ha' ho' hd' hi' hh'
  refine ⟨N, fun fuel hfuel out hout hf' hmin => ?_⟩
  obtain ⟨N', hN'⟩ := hN fuel hfuel out hout hf' hmin
  refine ⟨N', fun fuel' hfuel' => ?_⟩
  obtain ⟨r, hr, hcase⟩ := hN' fuel' hfuel'
  refine ⟨r, hr, ?_⟩
  rcases hcase with h | h | ⟨out', points, rays, q1, q2, -, q4, q5, q6⟩
  · exact Or.inl h
  · exact Or.inr (Or.inl h)
  · have hS : Spec.InHull n c.points c.rays = Spec.InHull n points rays := funext fun p => propext (q4 p)
    obtain ⟨p, q, -, hp1, -⟩ := htwo
    obtain ⟨e1, e2⟩ := hull_exact (points_of_hull ((q4 p).1 hp1)) (by simpa only [q4] using hline) q5 q6
    rw [← hS] at e1 e2
    refine Or.inr (Or.inr ⟨out', points, rays, q1, q2, points_injective q5, e1, e2, fun q hq => ?_, fun q hq => ?_⟩)
    · exact vertex_mem_points ((e1 _).2 ⟨q, hq, rfl⟩)
    · exact direction_mem_rays hp ((e2 _).2 ⟨q, hq, 1, one_pos, by rw [one_smul]⟩)

/-! ## facets -/

/-- a facet of the rows is not tight everywhere on the polyhedron -/
theorem isFacet_strict {n : Nat} {V : Matrix} (hV : Spec.IsVInput n V) {a : Row} (h : Spec.IsFacet (n + 1) V a) :
    ∃ p, Spec.InPolyhedron n V p ∧ Spec.value n a p ≠ 0 := by
  by_contra hcon
  push Not at hcon
  obtain ⟨hl, -, hr⟩ := h
  have h1 := valid_of_polyhedron hV hl fun p hp => (hcon p hp).le
  have h2 := valid_of_polyhedron hV (a := a.map Neg.neg) (by simpa using hl) fun p hp => by
    rw [value_eq, show ev (n + 1) (a.map Neg.neg) (hom n p) = -ev (n + 1) a (hom n p) from ?_, ← value_eq, hcon p hp]
    · simp
    · rw [ev_as_sum, ev_as_sum, ← Finset.sum_neg_distrib]
      refine Finset.sum_congr rfl fun i _ => ?_
      have : toV (n + 1) (a.map Neg.neg) i = -toV (n + 1) a i := by
        unfold toV
        rw [List.getD_eq_getElem?_getD, List.getD_eq_getElem?_getD, List.getElem?_map]
        cases a[(i : Nat)]? <;> simp
      rw [this]; ring
  have neg : ∀ (a v : Row), dot (a.map Neg.neg) v = -dot a v := by
    intro a
    induction a with
    | nil => intro v; simp [dot]
    | cons x a ih => intro v; cases v with
      | nil => simp [dot]
      | cons y v => rw [List.map_cons, dot_cons, dot_cons, ih]; ring
  have e : V.filter (fun v => decide (Spec.ip a v = 0)) = V := by
    rw [List.filter_eq_self]
    intro v hv
    have q1 := h1 v hv
    have q2 := h2 v hv
    rw [neg] at q2
    rw [ip_eq_dot]
    simpa using (by omega : dot a v = 0)
  rw [e] at hr
  omega

theorem facetDD_strict {n : Nat} {V : Matrix} (hV : Spec.IsVInput n V) {E F : Matrix} {N : Nat}
    (h : ∀ fuel ≥ N, facetEnumerationDD fuel V [] = some (.ok ⟨E, false, F⟩)) :
    ∀ a ∈ F, ∃ p, Spec.InPolyhedron n V p ∧ Spec.value n a p ≠ 0 := by
  obtain ⟨E', F', h1, h2, -, h6, -⟩ := C09_dd_irredundant hV
  obtain ⟨R, N', g1, g2, g3⟩ := classes_nil .facet F'
  have e := h (max N N') (le_max_left _ _)
  unfold facetEnumerationDD at e
  rw [h1, h2] at e
  simp only [Run.lift, Run.bind] at e
  have : normalizeMaps [] E' = .ok [] := rfl
  rw [this] at e
  simp [g1 _ (le_max_right N N')] at e
  intro a ha
  rw [← e.2] at ha
  exact isFacet_strict hV (h6 a ((g3 a).1 ha)).1

theorem constraintOf_tight {names : Names} {row : Row} {n : Nat} (hn : names = [] ∨ Spec.AdmissibleNames names)
    (hl : names ≠ [] → names.length = n) (hr : row.length = n + 1) (p : Fin n → ℚ) :
    (constraintOf false names row).TightAt names p ↔ Spec.value n row p = 0 := by
  refine Iff.trans ?_ (constraintOf_holds (equation := true) hn hl hr p)
  unfold constraintOf
  split <;> rfl

/-- **C58** Facet enumeration (double description) prints exactly the facets: every printed inequality defines a facet of the hull of the
file; every inequality `g p ≤ b` that defines a facet is, on the affine hull (the solutions of the printed equations), equivalent to
one of the printed ones; no two of the printed ones are equivalent there. -/
theorem C58_exact {ad : Bool → Option ProgramResult} {help : Option ProgramResult} {args : List Arg} {f text : List Char}
    {files : Files} {order : InputOrder} {c : Spec.VertexContent} {n : Nat}
    (ha : Spec.PlainCommand args f) (hf : files f = some text) (ho : getInputOrder args = .ok order)
    (hd : Spec.UsesDD args) (hi : Spec.UsesChecked args ∨ Spec.UsesInt args) (hh : Spec.NoHelp args)
    (hw : ¬ Spec.HasWordLine Spec.inequalityWords text)
    (h20 : Spec.EarlyHeader 20 text) (h : Spec.VertexFile {} text c) (hc : c.Consistent n) (hp : c.points ≠ []) (hm : c.maps = [])
    (hn : c.names = [] ∨ Spec.AdmissibleNames c.names) :
    ∃ N, ∀ fuel ≥ N, ∃ r, program ad help fuel files args = some r ∧
      ((r = .failed ∧ Spec.UsesChecked args) ∨ (r = .undefined ∧ (¬ Spec.UsesChecked args ∨ c.names ≠ [])) ∨
        ∃ (out : List Char) (eqs ineqs : List Spec.Constraint), r = .finished 0 out ∧ Spec.PrintedSystem c.names out eqs ineqs ∧
          (∀ p : Fin n → ℚ, (∀ a ∈ eqs, a.HoldsAt true c.names p) ↔ p ∈ affineSpan ℚ {q | Spec.InHull n c.points c.rays q}) ∧
          (∀ a ∈ ineqs, Spec.DefinesFacet (Spec.InHull n c.points c.rays) (fun p => a.HoldsAt false c.names p) (fun p => a.TightAt c.names p)) ∧
          (∀ (g : Fin n → ℚ) (b : ℚ), Spec.DefinesFacet (Spec.InHull n c.points c.rays) (fun p => ∑ i, g i * p i ≤ b) (fun p => ∑ i, g i * p i = b) →
            ∃ a ∈ ineqs, ∀ p : Fin n → ℚ, (∀ e ∈ eqs, e.HoldsAt true c.names p) → (a.HoldsAt false c.names p ↔ ∑ i, g i * p i ≤ b)) ∧
          ineqs.Pairwise fun a a' => ¬ ∀ p : Fin n → ℚ, (∀ e ∈ eqs, e.HoldsAt true c.names p) → (a.HoldsAt false c.names p ↔ a'.HoldsAt false c.names p)) := by
  obtain ⟨V, maps, h1, h2, h3, h4, -, h5, h6, N1, h7⟩ := C57_hull ha hf ho h20 h hc
  have hmaps : maps = [] := by rw [hm] at h1; exact List.forall₂_nil_left_iff.1 h1
  subst hmaps
  obtain ⟨E, F, N2, g1, g2, g3, g4, g5, g6⟩ := facetDD_exact (h6 hp)
  have g7 := facetDD_strict (h6 hp) g1
  obtain ⟨ty, t1, t2, t3, t4⟩ := uses_type hi
  have hl : c.names ≠ [] → c.names.length = n := fun h0 => hc.2.2.2.1 (Or.inl h0)
  have hS : Spec.InPolyhedron n V = Spec.InHull n c.points c.rays := funext fun p => propext (h5 p)
  rw [hS] at g5 g6 g7
  obtain ⟨v, hv, hpos⟩ := (h6 hp).vertex
  have hne : ∃ p, Spec.InHull n c.points c.rays p := ⟨_, (h5 _).1 (vertex_inPolyhedron (h6 hp).last hv hpos)⟩
  have heqs : ∀ p : Fin n → ℚ, (∀ a ∈ E.map (constraintOf true c.names), a.HoldsAt true c.names p) ↔ ∀ e ∈ E, Spec.value n e p = 0 := by
    intro p
    simp only [List.mem_map, forall_exists_index, and_imp, forall_apply_eq_imp_iff₂]
    constructor
    · exact fun k e he => (constraintOf_holds (equation := true) hn hl (g2 e he) p).1 (k e he)
    · exact fun k e he => (constraintOf_holds (equation := true) hn hl (g2 e he) p).2 (k e he)
  refine ⟨max N1 N2, fun fuel hfuel => ?_⟩
  have e1 : program ad help fuel files args = ProgramResult.ofRun (facetsDD fuel files args) := by
    unfold program
    rw [detect_facets ha.1 hf hh hw]
    simp only [enumeration, usesDD_method hd, if_true]
  have e2 : facetsDD fuel files args = Run.bind (Typed.facetEnumerationDD (selectArith ty) fuel V []) fun o =>
      .lift (printFacetOutput o c.names) := by
    unfold facetsDD
    rw [t1]
    simp only [Run.lift, Run.bind]
    rw [h7 fuel (le_trans (le_max_left _ _) hfuel)]
  rw [e1, e2]
  have hsim := facetDD_selected (V := V) h3 t2 fuel
  rw [g1 fuel (le_trans (le_max_right _ _) hfuel)] at hsim
  rcases hsim with ⟨h8, -⟩ | ⟨hs, h8⟩ | ⟨hs, h8⟩
  · rw [h8]
    simp only [Run.bind, Run.lift]
    rcases printFacetOutput_cases ⟨E, false, F⟩ c.names with ⟨t, h9⟩ | ⟨h0, h9⟩
    · rw [h9]
      refine ⟨_, rfl, Or.inr (Or.inr ⟨t, E.map (constraintOf true c.names), F.map (constraintOf false c.names), rfl, ?_, ?_, ?_, ?_, ?_⟩)⟩
      · exact facetOutput_printed (o := ⟨E, false, F⟩) hn (fun r hr h0 => by have := g2 r hr; rw [h0] at this; simp at this)
          (fun r hr h0 => by have := g3 r hr; rw [h0] at this; simp at this) rfl h9
      · intro p
        rw [heqs]
        exact affineHull_iff g5 hne g7 p
      · intro a ha
        obtain ⟨a, haF, rfl⟩ := List.mem_map.1 ha
        have k1 : (fun p : Fin n → ℚ => (constraintOf false c.names a).HoldsAt false c.names p) = fun p => Spec.value n a p ≤ 0 :=
          funext fun p => propext (constraintOf_holds (equation := false) hn hl (g3 a haF) p)
        have k2 : (fun p : Fin n → ℚ => (constraintOf false c.names a).TightAt c.names p) = fun p => Spec.value n a p = 0 :=
          funext fun p => propext (constraintOf_tight hn hl (g3 a haF) p)
        rw [k1, k2]
        exact listed_facet g5 hne g7 haF (g6 a haF)
      · intro g b hg
        have k1 : (fun p : Fin n → ℚ => ∑ i, g i * p i ≤ b) = fun p => ∑ i, g i * p i - b ≤ 0 := funext fun p => propext sub_nonpos.symm
        have k2 : (fun p : Fin n → ℚ => ∑ i, g i * p i = b) = fun p => ∑ i, g i * p i - b = 0 := funext fun p => propext sub_eq_zero.symm
        rw [k1, k2] at hg
        obtain ⟨a, haF, t, ht, hat⟩ := facet_listed g5 g7 (linear_aff g b) hg
        refine ⟨_, List.mem_map_of_mem haF, fun p hpE => ?_⟩
        refine (constraintOf_holds (equation := false) hn hl (g3 a haF) p).trans ?_
        simp only [Bool.false_eq_true, if_false]
        rw [hat p ((heqs p).1 hpE), ← sub_nonpos (a := ∑ i, g i * p i), mul_nonpos_iff]
        constructor
        · rintro (k | k)
          · exact k.2
          · exact absurd ht (not_lt.2 k.1)
        · exact fun k => Or.inl ⟨ht.le, k⟩
      · rw [List.pairwise_map]
        refine List.Nodup.pairwise_of_forall_ne g4 fun a haF a' haF' hne' hall => ?_
        obtain ⟨p, ⟨k1, k2⟩, k3⟩ := g6 a haF
        have k4 := (constraintOf_holds (equation := false) hn hl (g3 a' haF') p).2
          (k2 a' (List.mem_filter.2 ⟨haF', by simpa using Ne.symm hne'⟩))
        have k5 := (constraintOf_holds (equation := false) hn hl (g3 a haF) p).1 ((hall p ((heqs p).2 k1)).2 k4)
        refine k3 ((g5 p).2 ⟨k1, fun b hb => ?_⟩)
        by_cases e : b = a
        · rw [e]; exact k5
        · exact k2 b (List.mem_filter.2 ⟨hb, by simpa using e⟩)
    · rw [h9]
      exact ⟨_, rfl, Or.inr (Or.inl ⟨rfl, Or.inr h0⟩)⟩
  · rw [h8]
    exact ⟨_, rfl, Or.inl ⟨rfl, t4 hs⟩⟩
  · rw [h8]
    exact ⟨_, rfl, Or.inr (Or.inl ⟨rfl, Or.inl fun h0 => hs (t3 h0)⟩)⟩

/-! ## the facets of the solution set of a file are among its inequalities -/

/-- inequalities that are tight everywhere may be read as equations -/
theorem facet_listed_all {n : Nat} {S : (Fin n → ℚ) → Prop} {E F : Matrix} (hS : ∀ p, S p ↔ Spec.Satisfies n E F p)
    {f : (Fin n → ℚ) → ℚ} (hf : Aff f) (h : Spec.DefinesFacet S (fun p => f p ≤ 0) (fun p => f p = 0)) :
    ∃ a ∈ F, ∃ t : ℚ, 0 < t ∧ ∀ p ∈ affineSpan ℚ {q | S q}, Spec.value n a p = t * f p := by
  classical
  have hS' : ∀ p, S p ↔ Spec.Satisfies n (E ++ F.filter fun a => decide (∀ p, S p → Spec.value n a p = 0))
      (F.filter fun a => decide (¬ ∀ p, S p → Spec.value n a p = 0)) p := by
    intro p
    constructor
    · intro hp
      have h1 := (hS p).1 hp
      refine ⟨fun e he => ?_, fun a ha => h1.2 a (List.mem_of_mem_filter ha)⟩
      rcases List.mem_append.1 he with he | he
      · exact h1.1 e he
      · exact of_decide_eq_true (List.mem_filter.1 he).2 p hp
    · rintro ⟨h1, h2⟩
      refine (hS p).2 ⟨fun e he => h1 e (List.mem_append_left _ he), fun a ha => ?_⟩
      by_cases e : ∀ p, S p → Spec.value n a p = 0
      · exact (h1 a (List.mem_append_right _ (List.mem_filter.2 ⟨ha, by simpa using e⟩))).le
      · exact h2 a (List.mem_filter.2 ⟨ha, by simpa using e⟩)
  obtain ⟨a, ha, t, ht, hat⟩ := facet_listed hS' (fun a ha => by
    have := of_decide_eq_true (List.mem_filter.1 ha).2
    push Not at this
    exact this) hf h
  refine ⟨a, List.mem_of_mem_filter ha, t, ht, fun p hp => hat p fun e he => ?_⟩
  exact (value_aff e).span (fun x hx => ((hS' x).1 hx).1 e he) hp

/-- a constraint printed without names is a row -/
theorem printed_raw {out : List Char} {eqs ineqs : List Spec.Constraint} (h : Spec.PrintedSystem [] out eqs ineqs) :
    ∀ a ∈ ineqs, ∃ row, a = .raw row := by
  obtain ⟨te, ti, -, h, -⟩ := h
  intro a ha
  obtain ⟨s, hs⟩ := lines_mem h a ha
  cases a with
  | named terms rel rhs => exact absurd rfl hs.1
  | unnamed xs rel rhs => exact absurd hs (by simp [Spec.PrintedConstraint])
  | raw row => exact ⟨row, rfl⟩

/-- **C77** Round trip, exactly: the equations that come back describe the affine hull of the solution set, and the inequalities that come
back its facets, each of them once; each of them is, on the affine hull, equivalent to an inequality of the file. -/
theorem C77_exact {ad ad' : Bool → Option ProgramResult} {help help' : Option ProgramResult} {args args' : List Arg}
    {f f' text : List Char} {files files' : Files} {order order' : InputOrder} {c : Spec.InequalityContent} {n : Nat}
    (ha : Spec.PlainCommand args f) (hf : files f = some text) (ho : getInputOrder args = .ok order)
    (hd : Spec.UsesDD args) (hi : Spec.UsesChecked args ∨ Spec.UsesInt args) (hh : Spec.NoHelp args)
    (hw : Spec.HasWordLine Spec.inequalityWords text) (hw' : ¬ Spec.HasWordLine Spec.hullWords text)
    (h20 : Spec.EarlyHeader 20 text) (h : Spec.InequalityFile {} text c) (hc : c.Consistent n) (hn : 0 < n) (hm : c.maps = [])
    (hsat : ∃ p : Fin n → ℚ, c.Solution p)
    (hline : ¬ ∃ p q : Fin n → ℚ, q ≠ 0 ∧ ∀ t : ℚ, c.Solution (p + t • q))
    (ha' : Spec.PlainCommand args' f') (ho' : getInputOrder args' = .ok order') (hd' : Spec.UsesDD args')
    (hi' : Spec.UsesChecked args' ∨ Spec.UsesInt args') (hh' : Spec.NoHelp args') :
    ∃ N, ∀ fuel ≥ N, ∀ out, program ad help fuel files args = some (.finished 0 out) → files' f' = some out →
      ∃ N', ∀ fuel' ≥ N', ∃ r, program ad' help' fuel' files' args' = some r ∧
        ((r = .failed ∧ Spec.UsesChecked args') ∨ (r = .undefined ∧ ¬ Spec.UsesChecked args') ∨
          ∃ (out' : List Char) (eqs ineqs : List Spec.Constraint), r = .finished 0 out' ∧ Spec.PrintedSystem [] out' eqs ineqs ∧
            (∀ p : Fin n → ℚ, (∀ a ∈ eqs, a.HoldsAt true [] p) ↔ p ∈ affineSpan ℚ {q | c.Solution q}) ∧
            (∀ a ∈ ineqs, Spec.DefinesFacet c.Solution (fun p : Fin n → ℚ => a.HoldsAt false [] p) (fun p => a.TightAt [] p)) ∧
            (∀ (g : Fin n → ℚ) (b : ℚ), Spec.DefinesFacet c.Solution (fun p => ∑ i, g i * p i ≤ b) (fun p => ∑ i, g i * p i = b) →
              ∃ a ∈ ineqs, ∀ p ∈ affineSpan ℚ {q : Fin n → ℚ | c.Solution q}, (a.HoldsAt false [] p ↔ ∑ i, g i * p i ≤ b)) ∧
            (ineqs.Pairwise fun a a' => ¬ ∀ p ∈ affineSpan ℚ {q : Fin n → ℚ | c.Solution q}, (a.HoldsAt false [] p ↔ a'.HoldsAt false [] p)) ∧
            ∀ a ∈ ineqs, ∃ a' ∈ c.inequalities, ∀ p ∈ affineSpan ℚ {q : Fin n → ℚ | c.Solution q},
              (a.HoldsAt false [] p ↔ a'.HoldsAt false c.names p)) := by
  obtain ⟨N, hN⟩ := vertices_run (ad := ad) (help := help) ha hf ho hd hi hh hw hw' h20 h hc hn hm hsat hline
  refine ⟨N, fun fuel hfuel out hout hf' => ?_⟩
  obtain ⟨tp, tr, points, rays, k1, k2, k3, k4, k5⟩ := hN fuel hfuel out hout
  have hne : points ≠ [] := by
    obtain ⟨p, hp⟩ := hsat
    exact points_of_hull ((k5 p).1 hp)
  obtain ⟨m1, m2, m3⟩ := printedPoints_file k1 k2 hne k3
  have hcons : Spec.VertexContent.Consistent { points := points, rays := rays } n :=
    ⟨Or.inl hne, fun p hp => k4 p (by simp [hp]), fun p hp => k4 p (by simp [hp]), by simp, by simp⟩
  obtain ⟨N', hN'⟩ := C58_exact (ad := ad') (help := help') ha' hf' ho' hd' hi' hh' m3 m2 m1 hcons hne rfl (Or.inl rfl)
  refine ⟨N', fun fuel' hfuel' => ?_⟩
  obtain ⟨r, hr, hcase⟩ := hN' fuel' hfuel'
  refine ⟨r, hr, ?_⟩
  have hS : Spec.InHull n points rays = c.Solution := funext fun p => propext (k5 p).symm
  rcases hcase with h' | ⟨h1, h2⟩ | ⟨out', eqs, ineqs, q1, q2, q3, q4, q5, q6⟩
  · exact Or.inl h'
  · exact Or.inr (Or.inl ⟨h1, h2.resolve_right (by simp)⟩)
  · dsimp only at q2 q3 q4 q5 q6
    rw [hS] at q3 q4 q5
    simp only [q3] at q5 q6
    refine Or.inr (Or.inr ⟨out', eqs, ineqs, q1, q2, q3, q4, q5, q6, fun a haI => ?_⟩)
    obtain ⟨row, rfl⟩ := printed_raw q2 a haI
    obtain ⟨d, ⟨e1, -, e3, e4, e5, e6, e7, e8⟩, -⟩ := inequalityFile_reads h (d := {})
      ⟨rfl, by intro x hx; simp at hx, .nil, .nil, .nil, rfl, by intro x hx; simp at hx, by intro x hx; simp at hx⟩
    obtain ⟨c1, c2, c3, c4, c5, c6⟩ := hc
    have hsys : ∀ p : Fin n → ℚ, c.Solution p ↔ Spec.Satisfies n d.equations d.inequalities p := by
      intro p
      unfold Spec.InequalityContent.Solution Spec.Satisfies
      rw [← rows_meaning e4 e7 c2 p, ← rows_meaning e5 e8 c3 p, and_comm]
      simp only [Bool.false_eq_true, if_false, if_true]
    obtain ⟨b, hb, t, ht, hbt⟩ := facet_listed_all hsys (value_aff row) (q4 _ haI)
    obtain ⟨a', ha', ⟨s, hs⟩, har⟩ := forall₂_right e4 e7 b hb
    refine ⟨a', ha', fun p hp => ?_⟩
    refine Iff.trans ?_ (hasRow_meaning hs har (c2 a' ha') p).2
    show Spec.value n row p ≤ 0 ↔ Spec.value n b p ≤ 0
    rw [hbt p hp]
    constructor
    · exact fun k => mul_nonpos_of_nonneg_of_nonpos ht.le k
    · intro k
      by_contra hk
      push Not at hk
      have := mul_pos ht hk
      linarith

/-! ## examples (the hypotheses of the theorems above are those of C58, C61, C76 and C77, met in `Props/Main.lean` and `Props/RoundTrip.lean`) -/

/-- x ≤ 1 defines a facet of the segment from 0 to 1 -/
example : Spec.DefinesFacet (fun p : Fin 1 → ℚ => 0 ≤ p 0 ∧ p 0 ≤ 1) (fun p => p 0 ≤ 1) (fun p => p 0 = 1) := by
  refine ⟨fun p hp => hp.2, ⟨fun _ => 1, by norm_num⟩, fun _ => 0, by norm_num, by norm_num, fun p hp => ?_⟩
  set A := affineSpan ℚ (insert (fun _ : Fin 1 => (0 : ℚ)) {q : Fin 1 → ℚ | (0 ≤ q 0 ∧ q 0 ≤ 1) ∧ q 0 = 1})
  have m1 : (fun _ : Fin 1 => (0 : ℚ)) ∈ A := subset_affineSpan _ _ (Set.mem_insert _ _)
  have m2 : (fun _ : Fin 1 => (1 : ℚ)) ∈ A := subset_affineSpan _ _ (Set.mem_insert_of_mem _ ⟨by norm_num, rfl⟩)
  have := A.smul_vsub_vadd_mem (p 0) m2 m1 m1
  convert this using 1
  funext i
  rw [Subsingleton.elim i 0]
  simp

/-- x ≤ 2 does not -/
example : ¬ Spec.DefinesFacet (fun p : Fin 1 → ℚ => 0 ≤ p 0 ∧ p 0 ≤ 1) (fun p => p 0 ≤ 2) (fun p => p 0 = 2) := by
  rintro ⟨-, ⟨p, hp, h⟩, -⟩
  have := hp.2
  rw [h] at this
  norm_num at this

/-- the points that come back in the example of C76 are the vertices: 0 and 1 are the vertices of that segment, 1/2 is not -/
example : Spec.Vertex (fun p : Fin 1 → ℚ => 0 ≤ p 0 ∧ p 0 ≤ 1) (fun _ => 0) ∧ ¬ Spec.Vertex (fun p : Fin 1 → ℚ => 0 ≤ p 0 ∧ p 0 ≤ 1) (fun _ => 1 / 2) := by
  constructor
  · refine ⟨by norm_num, fun x y t hx hy h0 h1 e => ?_⟩
    have e0 := congrFun e 0
    simp only [Pi.add_apply, Pi.smul_apply, smul_eq_mul] at e0
    have k1 := mul_nonneg h0.le hx.1
    have k2 := mul_nonneg (by linarith : (0 : ℚ) ≤ 1 - t) hy.1
    have x0 : x 0 = 0 := (mul_eq_zero.1 (by linarith : t * x 0 = 0)).resolve_left h0.ne'
    have y0 : y 0 = 0 := (mul_eq_zero.1 (by linarith : (1 - t) * y 0 = 0)).resolve_left (by linarith)
    exact ⟨funext fun i => by rw [Subsingleton.elim i 0, x0], funext fun i => by rw [Subsingleton.elim i 0, y0]⟩
  · rintro ⟨-, h⟩
    have := (h (fun _ => 0) (fun _ => 1) (1 / 2) (by norm_num) (by norm_num) (by norm_num) (by norm_num) (by funext i; norm_num)).1
    have := congrFun this 0
    norm_num at this

end Panda
