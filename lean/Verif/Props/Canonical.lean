import Verif.Props.ExactMaps
import Verif.Props.ExactAD

/-! # What is printed depends on the hull and the maps only

Not on the points that are given, their order, the order of sorting, the integer type, the method, the number of threads or what
the threads do. -/

namespace Panda

theorem perm_of_rows {P R : Matrix} {t : Row} (hP : P.Nodup) (hR : R.Nodup) (ht : t ∉ R) (h : ∀ r, (r ∈ P ∧ r ≠ t) ↔ r ∈ R) :
    P.Perm R ∨ P.Perm (t :: R) := by
  by_cases htP : t ∈ P
  · refine Or.inr ((List.perm_ext_iff_of_nodup hP (List.nodup_cons.2 ⟨ht, hR⟩)).2 fun r => ?_)
    by_cases e : r = t
    · subst e; simp [htP]
    · rw [List.mem_cons, ← h r]; simp [e]
  · refine Or.inl ((List.perm_ext_iff_of_nodup hP hR).2 fun r => ?_)
    rw [← h r]
    exact ⟨fun hr => ⟨hr, fun e => htP (e ▸ hr)⟩, fun hr => hr.1⟩

/-- the two lists have the same elements, or the first has one more, which holds everywhere -/
def Spec.SameInequalities (names : List (List Char)) (d : Nat) (inequalities rows : List Spec.Constraint) : Prop :=
  inequalities.Perm rows ∨ ∃ always : Spec.Constraint, (∀ p : Fin d → ℚ, always.HoldsAt false names p) ∧ inequalities.Perm (always :: rows)

theorem same_of_perm {n : Nat} {names : Names} {P R R0 : Matrix} (hn : names = [] ∨ Spec.AdmissibleNames names)
    (hl : names ≠ [] → names.length = n) (hP : P.Nodup) (hR : R.Nodup) (hR0 : R0.Nodup) (ht : List.replicate n 0 ++ [-1] ∉ R)
    (h : ∀ r, (r ∈ P ∧ r ≠ List.replicate n 0 ++ [-1]) ↔ r ∈ R) (hsame : ∀ r, r ∈ R ↔ r ∈ R0) :
    Spec.SameInequalities names n (P.map (constraintOf false names)) (R0.map (constraintOf false names)) := by
  have hp : R.Perm R0 := (List.perm_ext_iff_of_nodup hR hR0).2 hsame
  rcases perm_of_rows hP hR ht h with k | k
  · exact Or.inl ((k.trans hp).map _)
  · exact Or.inr ⟨_, fun p => holds_trivial hn hl p, ((k.trans (hp.cons _)).map (constraintOf false names))⟩

/-- **C80** (with maps) For every set of points that is not contained in a hyperplane, and every list of symmetries of the set, there is one list of
inequalities, no two of them equal, that is printed (in some order) for every file of the documented format with these symmetries
whose hull is the set: with double description exactly these inequalities; with adjacency decomposition these and at most one more,
which holds everywhere - whatever points and rays are given and in which order, whatever order of sorting, integer type and number of
threads is chosen, and whatever the threads do. -/
theorem C80_maps {names : Names} {n : Nat} {lss : List (List (List (Option (List Char) × Int)))} {S : (Fin n → ℚ) → Prop}
    (hn : Spec.AdmissibleNames names) (hm : lss ≠ []) (hsym : ∀ m ∈ lss, Spec.MapsOnto names m S ∧ Spec.PlainImages m) (hsolid : Spec.Solid S) :
    ∃ rows : List Spec.Constraint, rows.Nodup ∧
      ∀ {help : Option ProgramResult} {args : List Arg} {f text : List Char} {files : Files} {order : InputOrder} {c : Spec.VertexContent},
      Spec.PlainCommand args f → files f = some text → getInputOrder args = .ok order → (Spec.UsesChecked args ∨ Spec.UsesInt args) →
      Spec.NoHelp args → ¬ Spec.HasWordLine Spec.inequalityWords text → Spec.EarlyHeader 20 text → Spec.VertexFile {} text c → c.Consistent n →
      c.points ≠ [] → c.names = names → c.maps = lss → (∀ p, Spec.InHull n c.points c.rays p ↔ S p) →
      (Spec.UsesDD args → ∃ N, ∀ fuel ≥ N, ∀ ad out, program ad help fuel files args = some (.finished 0 out) →
        ∃ ineqs, Spec.PrintedReduced names out ineqs ∧ ineqs.Perm rows) ∧
      (Spec.UsesAD args → Spec.ThreadsOk args → Spec.Plane S → ¬ Spec.Line S →
        ∀ hardware out, ProgramEnds hardware help files args (.finished 0 out) →
        ∃ ineqs, Spec.PrintedReduced names out ineqs ∧ ineqs.Nodup ∧ Spec.SameInequalities names n ineqs rows) := by
  obtain ⟨R0, hR0, hcanon⟩ : ∃ R0 : Matrix, (names.length = n → (R0.map (constraintOf false names)).Nodup ∧ R0.Nodup) ∧
      ∀ R : Matrix, R.Nodup → ListsOrbits n names lss S R → ∀ r, r ∈ R ↔ r ∈ R0 := by
    by_cases h : ∃ R : Matrix, R.Nodup ∧ ListsOrbits n names lss S R
    · obtain ⟨R, h1, h2⟩ := h
      refine ⟨R, fun hl => ⟨List.Nodup.map_on (fun x hx y hy e => ?_) h1, h1⟩, fun R' _ h' => h'.same h2⟩
      exact constraintOf_injective (Or.inr hn) (fun _ => hl) (h2.isFacet x hx).1 (h2.isFacet y hy).1 e
    · exact ⟨[], fun _ => ⟨by simp, by simp⟩, fun R h1 h2 => absurd ⟨R, h1, h2⟩ h⟩
  by_cases hl : names.length = n
  · refine ⟨R0.map (constraintOf false names), (hR0 hl).1, ?_⟩
    intro help args f text files order c ha hf ho hi hh hw h20 h hc hp e1 e2 e3
    subst e1; subst e2
    have hS : Spec.InHull n c.points c.rays = S := funext fun p => propext (e3 p)
    have hr := readsHull_file ha hf ho h20 h hc hp
    rw [hS] at hr
    have hlss : ∀ ls ∈ c.maps, ls.length = n := fun ls hls => by rw [vertexFile_maps h (by simp) ls hls, hl]
    constructor
    · intro hd
      have key : ∀ ad : Bool → Option ProgramResult, ∃ N, ∀ fuel ≥ N, ∀ out, program ad help fuel files args = some (.finished 0 out) →
          ∃ ineqs, Spec.PrintedReduced c.names out ineqs ∧ ineqs.Perm (R0.map (constraintOf false c.names)) := by
        intro ad
        obtain ⟨R, N, hR, hN⟩ := hull_rows_dd (ad := ad) (help := help) ha.1 hf hd hi hh hw hr hl hlss hm hn hsym hsolid
        refine ⟨N, fun fuel hfuel out hout => ?_⟩
        obtain ⟨r, h1, h2⟩ := hN fuel hfuel
        rw [hout] at h1
        simp only [Option.some.injEq] at h1
        subst h1
        rcases h2 with ⟨h2, -⟩ | h2 | ⟨out', h2, h3⟩
        · simp at h2
        · simp at h2
        · simp only [ProgramResult.finished.injEq, true_and] at h2
          subst h2
          have := hcanon R hR.nodup (maps_orbits hr hl hlss hn hsym hsolid hR).2
          exact ⟨_, h3, ((List.perm_ext_iff_of_nodup hR.nodup (hR0 hl).2).2 this).map _⟩
      obtain ⟨N, hN⟩ := key fun _ => none
      refine ⟨N, fun fuel hfuel ad out hout => hN fuel hfuel out ?_⟩
      rw [← hout]
      unfold program
      rw [detect_facets ha.1 hf hh hw]
      simp only [enumeration, usesDD_method hd, if_true]
    · intro hd ht hplane hline hardware out hout
      obtain ⟨R, hR, -, f2⟩ := hull_rows_ad (hardware := hardware) (help := help) ha.1 hf hd hi ht hh hw hr hl hlss hm hn hsym hsolid hplane hline
      rcases f2 _ hout with ⟨h2, -⟩ | h2 | ⟨out', P, h2, g1, g2, g3, g4⟩
      · simp at h2
      · simp at h2
      · simp only [ProgramResult.finished.injEq, true_and] at h2
        subst h2
        have := hcanon R hR.nodup (maps_orbits hr hl hlss hn hsym hsolid hR).2
        obtain ⟨p1, -, -⟩ := printed_reduced hn hl g1 g2 g3 hR.holds hR.needed
        exact ⟨_, g4, p1, same_of_perm (Or.inr hn) (fun _ => hl) g2 hR.nodup (hR0 hl).2 hR.nontrivial g3 this⟩
  · refine ⟨[], by simp, ?_⟩
    intro help args f text files order c ha hf ho hi hh hw h20 h hc hp e1 e2 e3
    exact absurd (e1 ▸ hc.2.2.2.1 (Or.inr (e2 ▸ hm))) hl

/-- names that are only used to write down that there are no maps -/
def dummyNames (n : Nat) : Names := (List.range n).map fun i => List.replicate i 'x'

theorem dummyNames_nodup (n : Nat) : (dummyNames n).Nodup :=
  List.Nodup.map_on (fun x _ y _ e => by simpa using congrArg List.length e) List.nodup_range

theorem plain_orbits {n : Nat} {V E F : Matrix} (hV : Spec.IsVInput n V) (hE : extractEquations V = .ok []) {N : Nat}
    (h : ∀ fuel ≥ N, facetEnumerationDD fuel V [] = some (.ok ⟨E, false, F⟩)) :
    E = [] ∧ F.Nodup ∧ ListsOrbits n (dummyNames n) [] (Spec.InPolyhedron n V) F ∧ List.replicate n 0 ++ [-1] ∉ F := by
  obtain ⟨F0, R, N', -, f2, f3, -, -, -⟩ := C52_facets_full_dimensional (maps := []) hV hE (by simp) (by simp)
  have e := h (max N N') (le_max_left _ _)
  rw [f2 _ (le_max_right N N')] at e
  simp only [Option.some.injEq, Outcome.ok.injEq, FacetOutput.mk.injEq] at e
  obtain ⟨rfl, -, rfl⟩ := e
  have := (reduced_orbits (names := dummyNames n) (lss := []) (maps := []) hV hE (dummyNames_nodup n) (by simp [dummyNames]) (by simp) .nil (by simp)
    (by simp) f2).2
  refine ⟨rfl, f3, this, fun hc => ?_⟩
  obtain ⟨-, -, -, ⟨p, -, hp⟩, -⟩ := this.isFacet _ hc
  have e : Spec.value n (List.replicate n 0 ++ [-1]) p = -1 := value_trivialRow n p
  rw [e] at hp
  norm_num at hp

/-- **C80** (without maps) The same for files without maps: one list of inequalities for every set of points that is not contained in a
hyperplane; no equations are printed. -/
theorem C80_plain {names : Names} {n : Nat} {S : (Fin n → ℚ) → Prop}
    (hn : names = [] ∨ Spec.AdmissibleNames names) (hsolid : Spec.Solid S) :
    ∃ rows : List Spec.Constraint, rows.Nodup ∧
      ∀ {help : Option ProgramResult} {args : List Arg} {f text : List Char} {files : Files} {order : InputOrder} {c : Spec.VertexContent},
      Spec.PlainCommand args f → files f = some text → getInputOrder args = .ok order → (Spec.UsesChecked args ∨ Spec.UsesInt args) →
      Spec.NoHelp args → ¬ Spec.HasWordLine Spec.inequalityWords text → Spec.EarlyHeader 20 text → Spec.VertexFile {} text c → c.Consistent n →
      c.points ≠ [] → c.names = names → c.maps = [] → (∀ p, Spec.InHull n c.points c.rays p ↔ S p) →
      (Spec.UsesDD args → ∃ N, ∀ fuel ≥ N, ∀ ad out, program ad help fuel files args = some (.finished 0 out) →
        ∃ ineqs, Spec.PrintedSystem names out [] ineqs ∧ ineqs.Perm rows) ∧
      (Spec.UsesAD args → Spec.ThreadsOk args → Spec.Plane S → ¬ Spec.Line S →
        ∀ hardware out, ProgramEnds hardware help files args (.finished 0 out) →
        ∃ ineqs, Spec.PrintedSystem names out [] ineqs ∧ ineqs.Nodup ∧ Spec.SameInequalities names n ineqs rows) := by
  by_cases hl : names ≠ [] → names.length = n
  swap
  · refine ⟨[], by simp, ?_⟩
    intro help args f text files order c ha hf ho hi hh hw h20 h hc hp e1 e2 e3
    exact absurd (fun h0 => e1 ▸ hc.2.2.2.1 (Or.inl (e1 ▸ h0))) hl
  obtain ⟨R0, hR0, hR1, hcanon⟩ : ∃ R0 : Matrix, (R0.map (constraintOf false names)).Nodup ∧ R0.Nodup ∧
      ∀ R : Matrix, R.Nodup → ListsOrbits n (dummyNames n) [] S R → ∀ r, r ∈ R ↔ r ∈ R0 := by
    by_cases h : ∃ R : Matrix, R.Nodup ∧ ListsOrbits n (dummyNames n) [] S R
    · obtain ⟨R, h1, h2⟩ := h
      refine ⟨R, List.Nodup.map_on (fun x hx y hy e => ?_) h1, h1, fun R' _ h' => h'.same h2⟩
      exact constraintOf_injective hn hl (h2.isFacet x hx).1 (h2.isFacet y hy).1 e
    · exact ⟨[], by simp, by simp, fun R h1 h2 => absurd ⟨R, h1, h2⟩ h⟩
  refine ⟨R0.map (constraintOf false names), hR0, ?_⟩
  intro help args f text files order c ha hf ho hi hh hw h20 h hc hp e1 e2 e3
  subst e1
  have hS : Spec.InHull n c.points c.rays = S := funext fun p => propext (e3 p)
  obtain ⟨V, maps, h1, h2, h3, h4, -, h5, h6, N1, h7⟩ := C57_hull ha hf ho h20 h hc
  have hmaps : maps = [] := by rw [e2] at h1; exact List.forall₂_nil_left_iff.1 h1
  subst hmaps
  have hV := h6 hp
  rw [hS] at h5
  have hS' : Spec.InPolyhedron n V = S := funext fun p => propext (h5 p)
  have hE := equations_of_solid_set hV h5 hsolid
  constructor
  · intro hd
    obtain ⟨E, F, N2, g1, g2, g3, -⟩ := facetDD_exact hV
    obtain ⟨rfl, q1, q2, -⟩ := plain_orbits hV hE g1
    rw [hS'] at q2
    obtain ⟨ty, t1, t2, t3, t4⟩ := uses_type hi
    refine ⟨max N1 N2, fun fuel hfuel ad out hout => ?_⟩
    have e1 : program ad help fuel files args = ProgramResult.ofRun (facetsDD fuel files args) := by
      unfold program
      rw [detect_facets ha.1 hf hh hw]
      simp only [enumeration, usesDD_method hd, if_true]
    have e2 : facetsDD fuel files args = Run.bind (Typed.facetEnumerationDD (selectArith ty) fuel V []) fun o =>
        .lift (printFacetOutput o c.names) := by
      unfold facetsDD
      rw [t1]
      simp only [Run.lift, Run.bind]
      rw [h7 fuel (le_trans (le_max_left _ _) hfuel)]
    rw [e1, e2] at hout
    have hsim := facetDD_selected (V := V) h3 t2 fuel
    rw [g1 fuel (le_trans (le_max_right _ _) hfuel)] at hsim
    rcases hsim with ⟨h8, -⟩ | ⟨hs, h8⟩ | ⟨hs, h8⟩
    · rw [h8] at hout
      simp only [Run.bind, Run.lift] at hout
      rcases printFacetOutput_cases ⟨[], false, F⟩ c.names with ⟨t, h9⟩ | ⟨h0, h9⟩
      · rw [h9] at hout
        simp only [ProgramResult.ofRun, Option.some.injEq, ProgramResult.finished.injEq, true_and] at hout
        subst hout
        refine ⟨_, facetOutput_printed (o := ⟨[], false, F⟩) hn (by simp)
          (fun r hr h0 => by have := g3 r hr; rw [h0] at this; simp at this) rfl h9, ?_⟩
        exact ((List.perm_ext_iff_of_nodup q1 hR1).2 (hcanon F q1 q2)).map _
      · rw [h9] at hout
        simp [ProgramResult.ofRun] at hout
    · rw [h8] at hout
      simp [ProgramResult.ofRun, Run.bind] at hout
    · rw [h8] at hout
      simp [ProgramResult.ofRun, Run.bind] at hout
  · intro hd ht hplane hline hardware out hout
    have e0 : ∀ ad fuel, program ad help fuel files args = ad true := by
      intro ad fuel
      unfold program
      rw [detect_facets ha.1 hf hh hw]
      simp only [enumeration, usesAD_method hd]
    obtain ⟨f1, E, F, ⟨N2, g1⟩, f2⟩ := ad_facets_general (hardware := hardware) e0 hi ht hV h3 h5 (by intro r hr; simp at hr) (by simp) (by simp) h7 hn hl hplane hline
    obtain ⟨rfl, q1, q2, q3⟩ := plain_orbits hV hE g1
    rw [hS'] at q2
    rcases f2 _ hout with ⟨h2, -⟩ | ⟨h2, -⟩ | ⟨out', P, h2, hP, p1, p2, -, -⟩
    · simp at h2
    · simp at h2
    · simp only [ProgramResult.finished.injEq, true_and] at h2
      subst h2
      exact ⟨_, p1, p2, same_of_perm hn hl (List.Nodup.of_map _ p2) q1 hR1 q3 hP (hcanon F q1 q2)⟩

/-! ## examples: the hypotheses can be met -/

/-- the file with the map of order three (`Props/MainMaps`), whose points are not all vertices -/
example : ∃ rows : List Spec.Constraint, rows.Nodup ∧ ∀ hardware out,
    ProgramEnds hardware none (fun _ => some rotatedText) rotatedArgs (.finished 0 out) →
    ∃ ineqs, Spec.PrintedReduced rotatedContent.names out ineqs ∧ ineqs.Nodup ∧ Spec.SameInequalities rotatedContent.names 2 ineqs rows := by
  obtain ⟨h1, h2, h3, h4, h5, h6, h7, h8, h9, h10, h11, h12, h13, h14, h15, h16, h17⟩ := rotated_case
  obtain ⟨rows, k1, k2⟩ := C80_maps h13 h12 h14 h15
  exact ⟨rows, k1, (k2 (help := none) (files := fun _ => some rotatedText) h1 rfl h2 (Or.inr h4) h6 h7 h8 h9 h10 h11 rfl rfl
    (fun _ => Iff.rfl)).2 h3 h5 h16 h17⟩

theorem triangle_solid : Spec.Solid (Spec.InHull 2 triangleContent.points triangleContent.rays) := by
  intro a b h
  have h0 := h _ (triangle_point ⟨0, by decide⟩)
  have h1 := h _ (triangle_point ⟨1, by decide⟩)
  have h2 := h _ (triangle_point ⟨2, by decide⟩)
  simp [Fin.sum_univ_two, Spec.point, triangleContent] at h0 h1 h2
  funext i
  fin_cases i
  · show a 0 = 0
    linarith
  · show a 1 = 0
    linarith

/-- the triangle without maps (`Props/MainAD`) -/
example : ∃ rows : List Spec.Constraint, rows.Nodup ∧ ∀ hardware out,
    ProgramEnds hardware none (fun _ => some triangleText) triangleArgs (.finished 0 out) →
    ∃ ineqs, Spec.PrintedSystem [] out [] ineqs ∧ ineqs.Nodup ∧ Spec.SameInequalities [] 2 ineqs rows := by
  obtain ⟨h1, h2, h3, h4, h5, h6, h7, h8, h9, h10, h11, h12, h13, h16, h17⟩ := triangle_case
  obtain ⟨rows, k1, k2⟩ := C80_plain (Or.inl rfl) triangle_solid
  exact ⟨rows, k1, (k2 (help := none) (files := fun _ => some triangleText) h1 rfl h2 (Or.inr h4) h6 h7 h8 h9 h10 h11 h13 h12
    (fun _ => Iff.rfl)).2 h3 h5 h16 h17⟩

end Panda
