import Verif.Props.Canonical
import Verif.Props.MainKnown

/-! # C80 for every hull: equations and inequalities are determined by the set of points -/

namespace Panda

/-- two inputs on which the same rows vanish have the same equations up to order -/
theorem equations_perm_of_annih {V V' : Matrix} {n : Nat} (hV : Rect V V.length n) (hV' : Rect V' V'.length n)
    (hm : 0 < V.length) (hm' : 0 < V'.length) (hn : 0 < n)
    (hset : ∀ a : Row, a.length = n → ((∀ v ∈ V, dot a v = 0) ↔ ∀ v ∈ V', dot a v = 0)) :
    (gaussSplit V).1.Perm (gaussSplit V').1 := by
  have h := gaussSplit_spec hV hm hn
  have h' := gaussSplit_spec hV' hm' hn
  have hlead : ∀ c, (∃ e ∈ (gaussSplit V).1, firstNonzero e = c) ↔ ∃ e ∈ (gaussSplit V').1, firstNonzero e = c := by
    intro c
    rw [h.lead_iff hV, h'.lead_iff hV']
    exact exists_congr fun a => and_congr_right fun ha => and_congr_left fun _ => hset a ha
  rw [List.perm_ext_iff_of_nodup h.echelon.nodup h'.echelon.nodup]
  intro a
  rw [h.eq_mem_iff hV, h'.eq_mem_iff hV']
  have : (∀ e ∈ (gaussSplit V).1, firstNonzero e ≠ firstNonzero a → a.getD (firstNonzero e) 0 = 0) ↔
      ∀ e ∈ (gaussSplit V').1, firstNonzero e ≠ firstNonzero a → a.getD (firstNonzero e) 0 = 0 := by
    constructor
    · intro h1 e he hne
      obtain ⟨e', he', heq⟩ := (hlead (firstNonzero e)).mpr ⟨e, he, rfl⟩
      rw [← heq]; exact h1 e' he' (by rw [heq]; exact hne)
    · intro h1 e he hne
      obtain ⟨e', he', heq⟩ := (hlead (firstNonzero e)).mp ⟨e, he, rfl⟩
      rw [← heq]; exact h1 e' he' (by rw [heq]; exact hne)
  rw [this]
  exact and_congr_right fun ha => and_congr_right fun _ => and_congr_left fun _ => hset a ha

variable {n : Nat} {V V' : Matrix} {S : (Fin n → ℚ) → Prop}

/-- valid inequalities are determined by the polyhedron -/
theorem valid_transfer (hV : Spec.IsVInput n V) (hV' : Spec.IsVInput n V') (hS : ∀ p, Spec.InPolyhedron n V p ↔ S p)
    (hS' : ∀ p, Spec.InPolyhedron n V' p ↔ S p) {a : Row} (ha : a.length = n + 1) (h : ∀ v ∈ V, dot a v ≤ 0) :
    ∀ v ∈ V', dot a v ≤ 0 := by
  refine valid_of_polyhedron hV' ha fun p hp => ?_
  rw [value_eq]
  exact ev_inConeOf ha h ((inPolyhedron_iff hV.last p).1 ((hS p).2 ((hS' p).1 hp)))

/-- so is the cone of the rows -/
theorem cone_transfer (hV : Spec.IsVInput n V) (hV' : Spec.IsVInput n V') (hS : ∀ p, Spec.InPolyhedron n V p ↔ S p)
    (hS' : ∀ p, Spec.InPolyhedron n V' p ↔ S p) {x : Row} (hx : x ∈ V') :
    ∃ c : Fin V.length → ℚ, (∀ j, 0 ≤ c j) ∧ toV (n + 1) x = ∑ j, c j • toV (n + 1) V[j] := by
  obtain ⟨E, F0, -, -, hsp, hel, -⟩ := dd_ok hV
  have neg : ∀ a v : Row, dot (a.map fun z => -z) v = - dot a v := by
    intro a v
    have := dot_scale a v (-1)
    simpa using this
  refine hel.cone x (hV'.size x hx) (fun e he => ?_) (fun a ha => ?_)
  · have h1 := valid_transfer hV hV' hS hS' (hsp.E_len e he) (fun v hv => (hsp.E_zero e he v hv).le) x hx
    have h2 := valid_transfer hV hV' hS hS' (a := e.map fun z => -z) (by simpa using hsp.E_len e he)
      (fun v hv => by rw [neg, hsp.E_zero e he v hv]; simp) x hx
    rw [neg] at h2
    omega
  · obtain ⟨l, -, -, hf⟩ := (hel.mem a).1 ha
    exact valid_transfer hV hV' hS hS' l hf.valid x hx

theorem dot_combination {a x : Row} (ha : a.length = n + 1) {c : Fin V.length → ℚ}
    (h : toV (n + 1) x = ∑ j, c j • toV (n + 1) V[j]) : (dot a x : ℚ) = ∑ j, c j * (dot a V[j] : ℚ) := by
  rw [← ev_row ha, h, map_sum]
  refine Finset.sum_congr rfl fun j _ => ?_
  rw [map_smul, smul_eq_mul, ev_row ha]

/-- so are the facets of the cone -/
theorem facetP_transfer (hV : Spec.IsVInput n V) (hV' : Spec.IsVInput n V') (hS : ∀ p, Spec.InPolyhedron n V p ↔ S p)
    (hS' : ∀ p, Spec.InPolyhedron n V' p ↔ S p) {a : Row} (ha : a.length = n + 1) (h : FacetP (n + 1) V a) : FacetP (n + 1) V' a := by
  have hval := valid_transfer hV hV' hS hS' ha h.valid
  refine ⟨hval, ?_, fun b hb hbt => ?_⟩
  · by_contra hcon
    push Not at hcon
    obtain ⟨v, hv, hne⟩ := h.strict
    obtain ⟨c, -, e⟩ := cone_transfer hV' hV hS' hS hv
    have h1 := dot_combination ha e
    refine hne ?_
    have : (dot a v : ℚ) = 0 := by
      rw [h1]
      refine Finset.sum_eq_zero fun j _ => ?_
      rw [hcon V'[j] (List.getElem_mem _)]
      simp
    exact_mod_cast this
  · obtain ⟨t, ht⟩ := h.tight b hb fun v hv h0 => by
      obtain ⟨c, hc, e⟩ := cone_transfer hV' hV hS' hS hv
      have h1 := dot_combination ha e
      rw [h0] at h1
      have h2 := (Finset.sum_eq_zero_iff_of_nonpos (s := Finset.univ) (f := fun j : Fin V'.length => c j * (dot a V'[j] : ℚ)) fun j _ =>
        mul_nonpos_of_nonneg_of_nonpos (hc j) (by exact_mod_cast hval _ (List.getElem_mem _))).1 (by simpa using h1.symm)
      have h3 := dot_combination hb e
      have : (dot b v : ℚ) = 0 := by
        rw [h3]
        refine Finset.sum_eq_zero fun j _ => ?_
        rcases mul_eq_zero.1 (h2 j (Finset.mem_univ _)) with h4 | h4
        · rw [h4, zero_mul]
        · rw [hbt V'[j] (List.getElem_mem _) (by exact_mod_cast h4)]; simp
      exact_mod_cast this
    refine ⟨t, fun v hv => ?_⟩
    obtain ⟨c, -, e⟩ := cone_transfer hV hV' hS hS' hv
    rw [dot_combination hb e, dot_combination ha e, Finset.mul_sum]
    refine Finset.sum_congr rfl fun j _ => ?_
    rw [ht V[j] (List.getElem_mem _)]
    ring

theorem equations_transfer (hV : Spec.IsVInput n V) (hV' : Spec.IsVInput n V') (hS : ∀ p, Spec.InPolyhedron n V p ↔ S p)
    (hS' : ∀ p, Spec.InPolyhedron n V' p ↔ S p) : (gaussSplit V).1.Perm (gaussSplit V').1 := by
  obtain ⟨h1, h2, -⟩ := IsVInput.rect hV
  obtain ⟨h1', h2', -⟩ := IsVInput.rect hV'
  have key : ∀ {V V' : Matrix}, Spec.IsVInput n V → Spec.IsVInput n V' → (∀ p, Spec.InPolyhedron n V p ↔ S p) →
      (∀ p, Spec.InPolyhedron n V' p ↔ S p) → ∀ a : Row, a.length = n + 1 → (∀ v ∈ V, dot a v = 0) → ∀ v ∈ V', dot a v = 0 := by
    intro V V' hV hV' hS hS' a ha h v hv
    obtain ⟨c, -, e⟩ := cone_transfer hV hV' hS hS' hv
    have : (dot a v : ℚ) = 0 := by
      rw [dot_combination ha e]
      refine Finset.sum_eq_zero fun j _ => ?_
      rw [h V[j] (List.getElem_mem _)]
      simp
    exact_mod_cast this
  exact equations_perm_of_annih h1 h1' h2 h2' (Nat.succ_pos n) fun a ha => ⟨key hV hV' hS hS' a ha, key hV' hV hS' hS a ha⟩

/-- what the computation returns, and that it is determined by the polyhedron -/
theorem facetDD_canonical (hV : Spec.IsVInput n V) :
    ∃ F N, (∀ fuel ≥ N, facetEnumerationDD fuel V [] = some (.ok ⟨(gaussSplit V).1, false, F⟩)) ∧ F.Nodup ∧
      ∀ a, a ∈ F ↔ NormalFacet (n + 1) V (gaussSplit V).1 a ∧ a ≠ trivialRow n := by
  obtain ⟨E, F0, h1, rfl, h3, h4, h5⟩ := dd_ok hV
  obtain ⟨R, N, g1, g2, g3⟩ := classes_nil .facet (F0.filter fun a => !(isBadRow a))
  refine ⟨R, N, fun fuel hf => ?_, g2, fun a => ?_⟩
  · unfold facetEnumerationDD
    rw [h1, h5]
    simp only [Run.lift, Run.bind]
    have : normalizeMaps [] (gaussSplit V).1 = .ok [] := rfl
    rw [this]
    simp [Run.bind, g1 fuel hf]
  · rw [g3 a, List.mem_filter, h4.mem]
    refine and_congr_right fun h => ?_
    have := isBadRow_eq_trivialRow (d := n) h.1
    cases hb : isBadRow a <;> simp_all

theorem normalFacet_transfer (hV : Spec.IsVInput n V) (hV' : Spec.IsVInput n V') (hS : ∀ p, Spec.InPolyhedron n V p ↔ S p)
    (hS' : ∀ p, Spec.InPolyhedron n V' p ↔ S p) {a : Row} :
    NormalFacet (n + 1) V (gaussSplit V).1 a ↔ NormalFacet (n + 1) V' (gaussSplit V').1 a := by
  have hp := equations_transfer hV hV' hS hS'
  unfold NormalFacet
  simp only [hp.mem_iff]
  exact ⟨fun ⟨h1, h2, h3, h4⟩ => ⟨h1, h2, h3, facetP_transfer hV hV' hS hS' h1 h4⟩,
    fun ⟨h1, h2, h3, h4⟩ => ⟨h1, h2, h3, facetP_transfer hV' hV hS' hS h1 h4⟩⟩

/-- **C80** (every set of points, without maps) For every set of points there are one list of equations and one list of inequalities such that
whatever file describes the set, the equations and the inequalities printed are these, up to the order of the lines (and, with adjacency
decomposition, for sets of dimension two and more, up to the inequality `0 <= 1`). -/
theorem C80_every_set {names : Names} {n : Nat} (S : (Fin n → ℚ) → Prop) (hn : names = [] ∨ Spec.AdmissibleNames names) :
    ∃ equations rows : List Spec.Constraint,
      ∀ {help : Option ProgramResult} {args : List Arg} {f text : List Char} {files : Files} {order : InputOrder} {c : Spec.VertexContent},
      Spec.PlainCommand args f → files f = some text → getInputOrder args = .ok order → (Spec.UsesChecked args ∨ Spec.UsesInt args) →
      Spec.NoHelp args → ¬ Spec.HasWordLine Spec.inequalityWords text → Spec.EarlyHeader 20 text → Spec.VertexFile {} text c → c.Consistent n →
      c.points ≠ [] → c.names = names → c.maps = [] → (∀ p, Spec.InHull n c.points c.rays p ↔ S p) →
      (Spec.UsesDD args → ∃ N, ∀ fuel ≥ N, ∀ ad out, program ad help fuel files args = some (.finished 0 out) →
        ∃ eqs ineqs, Spec.PrintedSystem names out eqs ineqs ∧ eqs.Perm equations ∧ ineqs.Perm rows) ∧
      (Spec.UsesAD args → Spec.ThreadsOk args → Spec.Plane S → ¬ Spec.Line S →
        ∀ hardware out, ProgramEnds hardware help files args (.finished 0 out) →
        ∃ eqs ineqs, Spec.PrintedSystem names out eqs ineqs ∧ eqs.Perm equations ∧ ineqs.Nodup ∧ Spec.SameInequalities names n ineqs rows) := by
  obtain ⟨E0, R0, hR1, hcanon⟩ : ∃ E0 R0 : Matrix, R0.Nodup ∧ ∀ V : Matrix, Spec.IsVInput n V → (∀ p, Spec.InPolyhedron n V p ↔ S p) →
      (gaussSplit V).1.Perm E0 ∧ ∀ a, (NormalFacet (n + 1) V (gaussSplit V).1 a ∧ a ≠ trivialRow n) ↔ a ∈ R0 := by
    by_cases h : ∃ V : Matrix, Spec.IsVInput n V ∧ ∀ p, Spec.InPolyhedron n V p ↔ S p
    · obtain ⟨V, h1, h2⟩ := h
      obtain ⟨F, N, -, k2, k3⟩ := facetDD_canonical h1
      exact ⟨_, F, k2, fun V' h1' h2' => ⟨equations_transfer h1' h1 h2' h2, fun a => by
        rw [k3, normalFacet_transfer h1' h1 h2' h2]⟩⟩
    · exact ⟨[], [], by simp, fun V h1 h2 => absurd ⟨V, h1, h2⟩ h⟩
  refine ⟨E0.map (constraintOf true names), R0.map (constraintOf false names), ?_⟩
  intro help args f text files order c ha hf ho hi hh hw h20 h hc hp e1 e2 e3
  subst e1
  obtain ⟨V, maps, h1, h2, h3, h4, -, h5, h6, N1, h7⟩ := C57_hull ha hf ho h20 h hc
  have hmaps : maps = [] := by rw [e2] at h1; exact List.forall₂_nil_left_iff.1 h1
  subst hmaps
  have hV := h6 hp
  obtain ⟨q1, q2⟩ := hcanon V hV fun p => (h5 p).trans (e3 p)
  obtain ⟨F, N2, g1, g2, g3⟩ := facetDD_canonical hV
  constructor
  · intro hd
    obtain ⟨ty, t1, t2, t3, t4⟩ := uses_type hi
    refine ⟨max N1 N2, fun fuel hfuel ad out hout => ?_⟩
    have e1 : program ad help fuel files args = ProgramResult.ofRun (facetsDD fuel files args) := by
      unfold program
      rw [detect_facets ha.1 hf hh hw]
      simp only [enumeration, usesDD_method hd, if_true]
    have e2 : facetsDD fuel files args = Run.bind (Typed.facetEnumerationDD (selectArith ty) fuel V []) fun o =>
        .lift (printFacetOutput o c.names) := by
      unfold facetsDD
      rw [t1]
      simp only [Run.lift, Run.bind]
      rw [h7 fuel (le_trans (le_max_left _ _) hfuel)]
    rw [e1, e2] at hout
    have hsim := facetDD_selected (V := V) h3 t2 fuel
    rw [g1 fuel (le_trans (le_max_right _ _) hfuel)] at hsim
    rcases hsim with ⟨h8, -⟩ | ⟨hs, h8⟩ | ⟨hs, h8⟩
    · rw [h8] at hout
      simp only [Run.bind, Run.lift] at hout
      rcases printFacetOutput_cases ⟨(gaussSplit V).1, false, F⟩ c.names with ⟨t, h9⟩ | ⟨h0, h9⟩
      · rw [h9] at hout
        simp only [ProgramResult.ofRun, Option.some.injEq, ProgramResult.finished.injEq, true_and] at hout
        subst hout
        have hE := (gaussSplit_spec (IsVInput.rect hV).1 (IsVInput.rect hV).2.1 (Nat.succ_pos n)).E_len
        refine ⟨_, _, facetOutput_printed (o := ⟨(gaussSplit V).1, false, F⟩) hn
          (fun r hr h0 => by have := hE r hr; rw [h0] at this; simp at this)
          (fun r hr h0 => by have := ((g3 r).1 hr).1.1; rw [h0] at this; simp at this) rfl h9, q1.map _, ?_⟩
        exact ((List.perm_ext_iff_of_nodup g2 hR1).2 fun a => (g3 a).trans (q2 a)).map _
      · rw [h9] at hout
        simp [ProgramResult.ofRun] at hout
    · rw [h8] at hout
      simp [ProgramResult.ofRun, Run.bind] at hout
    · rw [h8] at hout
      simp [ProgramResult.ofRun, Run.bind] at hout
  · intro hd ht hplane hline hardware out hout
    have e0 : ∀ ad fuel, program ad help fuel files args = ad true := by
      intro ad fuel
      unfold program
      rw [detect_facets ha.1 hf hh hw]
      simp only [enumeration, usesAD_method hd]
    have hl : c.names ≠ [] → c.names.length = n := fun h0 => hc.2.2.2.1 (Or.inl h0)
    obtain ⟨f1, E, F', ⟨N3, k1⟩, f2⟩ := ad_facets_general (hardware := hardware) e0 hi ht hV h3 (fun p => (h5 p).trans (e3 p))
      (by intro r hr; simp at hr) (by simp) (by simp) h7 hn hl hplane hline
    have e := k1 (max N2 N3) (le_max_right _ _)
    rw [g1 _ (le_max_left _ _)] at e
    simp only [Option.some.injEq, Outcome.ok.injEq, FacetOutput.mk.injEq] at e
    obtain ⟨rfl, -, rfl⟩ := e
    rcases f2 _ hout with ⟨h2, -⟩ | ⟨h2, -⟩ | ⟨out', P, h2, hP, p1, p2, -, -⟩
    · simp at h2
    · simp at h2
    · simp only [ProgramResult.finished.injEq, true_and] at h2
      subst h2
      exact ⟨_, _, p1, q1.map _, p2, same_of_perm hn hl (List.Nodup.of_map _ p2) g2 hR1 (fun h0 => ((g3 _).1 h0).2 rfl) hP
        fun r => (g3 r).trans (q2 r)⟩

/-! ## examples: the hypotheses can be met -/

/-- a triangle in a space of dimension four, for which two equations are printed (`Props/MainKnown`) -/
example : ∃ equations rows : List Spec.Constraint, ∀ hardware out,
    ProgramEnds hardware none (fun _ => some lostText) triangleArgs (.finished 0 out) →
    ∃ eqs ineqs, Spec.PrintedSystem [] out eqs ineqs ∧ eqs.Perm equations ∧ ineqs.Nodup ∧ Spec.SameInequalities [] 4 ineqs rows := by
  obtain ⟨h1, h2, h3, h4, h5, h6, -⟩ := triangle_case
  obtain ⟨-, ⟨-, -, -, -, -, -, h7, h8, h9, h10, h11, h12, h13, h16, h17⟩, -⟩ := C64_swallowed_false
  obtain ⟨equations, rows, k⟩ := C80_every_set (Spec.InHull 4 lostContent.points lostContent.rays) (Or.inl rfl)
  exact ⟨equations, rows, (k (help := none) (files := fun _ => some lostText) h1 rfl h2 (Or.inr h4) h6 h7 h8 h9 h10 h11 h13 h12
    (fun _ => Iff.rfl)).2 h3 h5 h16 h17⟩

/-- the computation for two descriptions of a segment in the plane: the same equation and the same inequalities -/
example : facetEnumerationDD 9 [[0, 0, 1], [2, 2, 1]] [] = facetEnumerationDD 9 [[2, 2, 1], [1, 1, 1], [0, 0, 1], [6, 6, 4]] [] ∧
    facetEnumerationDD 9 [[0, 0, 1], [2, 2, 1]] [] = some (.ok ⟨[[1, -1, 0]], false, [[0, -1, 0], [0, 1, -2]]⟩) := by
  decide +kernel

end Panda
