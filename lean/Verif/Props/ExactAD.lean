import Verif.Props.Exact
import Verif.Props.MainAD
import Verif.Props.MainKnown

/-! # What adjacency decomposition prints, said without reference to redundancy -/

namespace Panda

/-- the printed rows are the facets, possibly together with the inequality 0 ≤ 1 -/
theorem ad_exact_printed {n : Nat} {V E F P : Matrix} {names : Names} {S : (Fin n → ℚ) → Prop} (hV : Spec.IsVInput n V)
    (hS : ∀ p, Spec.InPolyhedron n V p ↔ S p) {N : Nat} (hE : ∀ fuel ≥ N, facetEnumerationDD fuel V [] = some (.ok ⟨E, false, F⟩))
    (hP : ∀ r, (r ∈ P ∧ r ≠ List.replicate n 0 ++ [-1]) ↔ r ∈ F) (hnd : (P.map (constraintOf false names)).Nodup)
    (hn : names = [] ∨ Spec.AdmissibleNames names) (hl : names ≠ [] → names.length = n) :
    (∀ p : Fin n → ℚ, (∀ a ∈ E.map (constraintOf true names), a.HoldsAt true names p) ↔ p ∈ affineSpan ℚ {q | S q}) ∧
    (∀ a ∈ P.map (constraintOf false names), a ≠ constraintOf false names (List.replicate n 0 ++ [-1]) →
      Spec.DefinesFacet S (fun p => a.HoldsAt false names p) (fun p => a.TightAt names p)) ∧
    (∀ (g : Fin n → ℚ) (b : ℚ), Spec.DefinesFacet S (fun p => ∑ i, g i * p i ≤ b) (fun p => ∑ i, g i * p i = b) →
      ∃ a ∈ P.map (constraintOf false names), ∀ p ∈ affineSpan ℚ {q | S q}, (a.HoldsAt false names p ↔ ∑ i, g i * p i ≤ b)) ∧
    (P.map (constraintOf false names)).Pairwise fun a a' => ¬ ∀ p ∈ affineSpan ℚ {q | S q}, (a.HoldsAt false names p ↔ a'.HoldsAt false names p) := by
  obtain ⟨E', F', N', g1, g2, g3, g4, g5, g6⟩ := facetDD_exact hV
  have e := hE (max N N') (le_max_left _ _)
  rw [g1 _ (le_max_right N N')] at e
  simp only [Option.some.injEq, Outcome.ok.injEq] at e
  cases e
  have g7 := facetDD_strict hV g1
  have hSS : Spec.InPolyhedron n V = S := funext fun p => propext (hS p)
  rw [hSS] at g5 g6 g7
  obtain ⟨v, hv, hpos⟩ := hV.vertex
  have hne : ∃ p, S p := ⟨_, (hS _).1 (vertex_inPolyhedron hV.last hv hpos)⟩
  have heqs : ∀ p : Fin n → ℚ, (∀ a ∈ E.map (constraintOf true names), a.HoldsAt true names p) ↔ ∀ e ∈ E, Spec.value n e p = 0 := by
    intro p
    simp only [List.mem_map, forall_exists_index, and_imp, forall_apply_eq_imp_iff₂]
    constructor
    · exact fun k e he => (constraintOf_holds (equation := true) hn hl (g2 e he) p).1 (k e he)
    · exact fun k e he => (constraintOf_holds (equation := true) hn hl (g2 e he) p).2 (k e he)
  have haff := affineHull_iff g5 hne g7
  refine ⟨fun p => (heqs p).trans (haff p), ?_, ?_, ?_⟩
  · intro a ha h0
    obtain ⟨a, haP, rfl⟩ := List.mem_map.1 ha
    have haF := (hP a).1 ⟨haP, fun e => h0 (by rw [e])⟩
    have k1 : (fun p : Fin n → ℚ => (constraintOf false names a).HoldsAt false names p) = fun p => Spec.value n a p ≤ 0 :=
      funext fun p => propext (constraintOf_holds (equation := false) hn hl (g3 a haF) p)
    have k2 : (fun p : Fin n → ℚ => (constraintOf false names a).TightAt names p) = fun p => Spec.value n a p = 0 :=
      funext fun p => propext (constraintOf_tight hn hl (g3 a haF) p)
    rw [k1, k2]
    exact listed_facet g5 hne g7 haF (g6 a haF)
  · intro g b hg
    have k1 : (fun p : Fin n → ℚ => ∑ i, g i * p i ≤ b) = fun p => ∑ i, g i * p i - b ≤ 0 := funext fun p => propext sub_nonpos.symm
    have k2 : (fun p : Fin n → ℚ => ∑ i, g i * p i = b) = fun p => ∑ i, g i * p i - b = 0 := funext fun p => propext sub_eq_zero.symm
    rw [k1, k2] at hg
    obtain ⟨a, haF, t, ht, hat⟩ := facet_listed g5 g7 (linear_aff g b) hg
    refine ⟨_, List.mem_map_of_mem ((hP a).2 haF).1, fun p hpE => ?_⟩
    refine (constraintOf_holds (equation := false) hn hl (g3 a haF) p).trans ?_
    simp only [Bool.false_eq_true, if_false]
    rw [hat p ((haff p).2 hpE), ← sub_nonpos (a := ∑ i, g i * p i), mul_nonpos_iff]
    constructor
    · rintro (k | k)
      · exact k.2
      · exact absurd ht (not_lt.2 k.1)
    · exact fun k => Or.inl ⟨ht.le, k⟩
  · -- a facet is violated somewhere on the affine hull where another row of the list holds
    have key : ∀ a ∈ F, ∀ a' ∈ P, a' ≠ a → ∃ p ∈ affineSpan ℚ {q | S q}, (constraintOf false names a').HoldsAt false names p ∧
        ¬ (constraintOf false names a).HoldsAt false names p := by
      intro a haF a' ha' hne'
      obtain ⟨p, ⟨k1, k2⟩, k3⟩ := g6 a haF
      refine ⟨p, (haff p).1 k1, ?_, ?_⟩
      · by_cases ht : a' = List.replicate n 0 ++ [-1]
        · rw [ht]; exact holds_trivial hn hl p
        · have haF' := (hP a').1 ⟨ha', ht⟩
          exact (constraintOf_holds (equation := false) hn hl (g3 a' haF') p).2 (k2 a' (List.mem_filter.2 ⟨haF', by simpa using hne'⟩))
      · intro hc
        have k5 := (constraintOf_holds (equation := false) hn hl (g3 a haF) p).1 hc
        refine k3 ((g5 p).2 ⟨k1, fun b hb => ?_⟩)
        by_cases e : b = a
        · rw [e]; exact k5
        · exact k2 b (List.mem_filter.2 ⟨hb, by simpa using e⟩)
    refine List.Nodup.pairwise_of_forall_ne hnd fun x hx y hy hxy hall => ?_
    obtain ⟨a, ha, rfl⟩ := List.mem_map.1 hx
    obtain ⟨a', ha', rfl⟩ := List.mem_map.1 hy
    have hne' : a ≠ a' := fun e => hxy (by rw [e])
    by_cases ht : a = List.replicate n 0 ++ [-1]
    · have ht' : a' ≠ List.replicate n 0 ++ [-1] := fun e => hne' (ht.trans e.symm)
      obtain ⟨p, k1, k2, k3⟩ := key a' ((hP a').1 ⟨ha', ht'⟩) a ha hne'
      exact k3 ((hall p k1).1 k2)
    · obtain ⟨p, k1, k2, k3⟩ := key a ((hP a).1 ⟨ha, ht⟩) a' ha' (Ne.symm hne')
      exact k3 ((hall p k1).2 k2)

/-- **C62** Facet enumeration with adjacency decomposition prints exactly the facets, whatever the threads do: every printed inequality, apart from at
most one that holds everywhere, defines a facet of the hull of the file; every inequality `g p ≤ b` that defines a facet is, on the affine hull (the
solutions of the printed equations), equivalent to one of the printed ones; no two of the printed ones are equivalent there. -/
theorem C62_exact {hardware : Nat} {help : Option ProgramResult} {args : List Arg} {f text : List Char}
    {files : Files} {order : InputOrder} {c : Spec.VertexContent} {n : Nat}
    (ha : Spec.PlainCommand args f) (hf : files f = some text) (ho : getInputOrder args = .ok order)
    (hd : Spec.UsesAD args) (hi : Spec.UsesChecked args ∨ Spec.UsesInt args) (ht : Spec.ThreadsOk args) (hh : Spec.NoHelp args)
    (hw : ¬ Spec.HasWordLine Spec.inequalityWords text)
    (h20 : Spec.EarlyHeader 20 text) (h : Spec.VertexFile {} text c) (hc : c.Consistent n) (hp : c.points ≠ []) (hm : c.maps = [])
    (hn : c.names = [] ∨ Spec.AdmissibleNames c.names)
    (hplane : Spec.Plane (Spec.InHull n c.points c.rays)) (hline : ¬ Spec.Line (Spec.InHull n c.points c.rays)) :
    (∃ r, ProgramEnds hardware help files args r) ∧ ∀ r, ProgramEnds hardware help files args r →
      (r = .failed ∧ Spec.UsesChecked args) ∨ (r = .undefined ∧ (¬ Spec.UsesChecked args ∨ c.names ≠ [])) ∨
        ∃ (out : List Char) (eqs ineqs : List Spec.Constraint), r = .finished 0 out ∧ Spec.PrintedSystem c.names out eqs ineqs ∧
          (∀ p : Fin n → ℚ, (∀ a ∈ eqs, a.HoldsAt true c.names p) ↔ p ∈ affineSpan ℚ {q | Spec.InHull n c.points c.rays q}) ∧
          (∃ always, (∀ p : Fin n → ℚ, always.HoldsAt false c.names p) ∧ ∀ a ∈ ineqs, a ≠ always →
            Spec.DefinesFacet (Spec.InHull n c.points c.rays) (fun p => a.HoldsAt false c.names p) (fun p => a.TightAt c.names p)) ∧
          (∀ (g : Fin n → ℚ) (b : ℚ), Spec.DefinesFacet (Spec.InHull n c.points c.rays) (fun p => ∑ i, g i * p i ≤ b) (fun p => ∑ i, g i * p i = b) →
            ∃ a ∈ ineqs, ∀ p ∈ affineSpan ℚ {q : Fin n → ℚ | Spec.InHull n c.points c.rays q}, (a.HoldsAt false c.names p ↔ ∑ i, g i * p i ≤ b)) ∧
          ineqs.Pairwise fun a a' => ¬ ∀ p ∈ affineSpan ℚ {q : Fin n → ℚ | Spec.InHull n c.points c.rays q},
            (a.HoldsAt false c.names p ↔ a'.HoldsAt false c.names p) := by
  obtain ⟨V, maps, h1, h2, h3, h4, -, h5, h6, N1, h7⟩ := C57_hull ha hf ho h20 h hc
  have hmaps : maps = [] := by rw [hm] at h1; exact List.forall₂_nil_left_iff.1 h1
  subst hmaps
  have hl : c.names ≠ [] → c.names.length = n := fun h0 => hc.2.2.2.1 (Or.inl h0)
  have e0 : ∀ ad fuel, program ad help fuel files args = ad true := by
    intro ad fuel
    unfold program
    rw [detect_facets ha.1 hf hh hw]
    simp only [enumeration, usesAD_method hd]
  obtain ⟨f1, E, F, ⟨N2, hE⟩, f2⟩ := ad_facets_general (hardware := hardware) e0 hi ht (h6 hp) h3 h5 (by intro r hr; simp at hr) (by simp) (by simp) h7 hn hl hplane hline
  refine ⟨f1, fun r hr => ?_⟩
  rcases f2 r hr with h | h | ⟨out, P, rfl, hP, p1, p2, -, -⟩
  · exact Or.inl h
  · exact Or.inr (Or.inl h)
  · obtain ⟨q1, q2, q3, q4⟩ := ad_exact_printed (h6 hp) h5 hE hP p2 hn hl
    exact Or.inr (Or.inr ⟨out, _, _, rfl, p1, q1, ⟨_, fun p => holds_trivial hn hl p, q2⟩, q3, q4⟩)

/-- **C64** The same for runs that start from known facets. -/
theorem C64_exact {hardware : Nat} {help : Option ProgramResult} {text : List Char} {c : Spec.VertexContent} {n : Nat}
    {args : List Arg} {f : List Char} {files : Files} {order : InputOrder}
    (ha : Spec.FacetCommand c.names (Spec.InHull n c.points c.rays) files args f) (hf : files f = some text)
    (ho : getInputOrder args = .ok order)
    (hd : Spec.UsesAD args) (hi : Spec.UsesChecked args ∨ Spec.UsesInt args) (ht : Spec.ThreadsOk args) (hh : Spec.NoHelp args)
    (hw : ¬ Spec.HasWordLine Spec.inequalityWords text)
    (h20 : Spec.EarlyHeader 20 text) (h : Spec.VertexFile {} text c) (hc : c.Consistent n) (hp : c.points ≠ []) (hm : c.maps = [])
    (hn : c.names = [] ∨ Spec.AdmissibleNames c.names)
    (hplane : Spec.Plane (Spec.InHull n c.points c.rays)) (hline : ¬ Spec.Line (Spec.InHull n c.points c.rays)) :
    (∃ r, ProgramEnds hardware help files args r) ∧ ∀ r, ProgramEnds hardware help files args r →
      (r = .failed ∧ Spec.UsesChecked args) ∨ (r = .undefined ∧ (¬ Spec.UsesChecked args ∨ c.names ≠ [])) ∨
        ∃ (out : List Char) (eqs ineqs : List Spec.Constraint), r = .finished 0 out ∧ Spec.PrintedSystem c.names out eqs ineqs ∧
          (∀ p : Fin n → ℚ, (∀ a ∈ eqs, a.HoldsAt true c.names p) ↔ p ∈ affineSpan ℚ {q | Spec.InHull n c.points c.rays q}) ∧
          (∃ always, (∀ p : Fin n → ℚ, always.HoldsAt false c.names p) ∧ ∀ a ∈ ineqs, a ≠ always →
            Spec.DefinesFacet (Spec.InHull n c.points c.rays) (fun p => a.HoldsAt false c.names p) (fun p => a.TightAt c.names p)) ∧
          (∀ (g : Fin n → ℚ) (b : ℚ), Spec.DefinesFacet (Spec.InHull n c.points c.rays) (fun p => ∑ i, g i * p i ≤ b) (fun p => ∑ i, g i * p i = b) →
            ∃ a ∈ ineqs, ∀ p ∈ affineSpan ℚ {q : Fin n → ℚ | Spec.InHull n c.points c.rays q}, (a.HoldsAt false c.names p ↔ ∑ i, g i * p i ≤ b)) ∧
          ineqs.Pairwise fun a a' => ¬ ∀ p ∈ affineSpan ℚ {q : Fin n → ℚ | Spec.InHull n c.points c.rays q},
            (a.HoldsAt false c.names p ↔ a'.HoldsAt false c.names p) := by
  obtain ⟨V, maps, h1, h2, h3, h4, -, h5, h6, h8⟩ := hull_read_all order h20 h hc
  have hmaps : maps = [] := by rw [hm] at h1; exact List.forall₂_nil_left_iff.1 h1
  subst hmaps
  obtain ⟨hcmd, hc1, hc2, known, k1, k2, k3, k4⟩ := known_rows ha (h6 hp) h5
  obtain ⟨N1, h7⟩ := h8 args files f known hcmd hc1 hc2 hf ho k4
  have hl : c.names ≠ [] → c.names.length = n := fun h0 => hc.2.2.2.1 (Or.inl h0)
  have e0 : ∀ ad fuel, program ad help fuel files args = ad true := by
    intro ad fuel
    unfold program
    rw [detect_facets hcmd hf hh hw]
    simp only [enumeration, usesAD_method hd]
  obtain ⟨f1, E, F, ⟨N2, hE⟩, f2⟩ := ad_facets_general (hardware := hardware) e0 hi ht (h6 hp) h3 h5 k1 k2
    (fun h0 h1 => equations_of_solid (h6 hp) h5 (k3 h0 h1)) h7 hn hl hplane hline
  refine ⟨f1, fun r hr => ?_⟩
  rcases f2 r hr with h | h | ⟨out, P, rfl, hP, p1, p2, -, -⟩
  · exact Or.inl h
  · exact Or.inr (Or.inl h)
  · obtain ⟨q1, q2, q3, q4⟩ := ad_exact_printed (h6 hp) h5 hE hP p2 hn hl
    exact Or.inr (Or.inr ⟨out, _, _, rfl, p1, q1, ⟨_, fun p => holds_trivial hn hl p, q2⟩, q3, q4⟩)

end Panda
