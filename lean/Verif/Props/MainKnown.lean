import Verif.Proofs.FacetOf
import Verif.Proofs.Fuel
import Verif.Proofs.OneThread

/-! # C64: facet enumeration with known facets, from the files to the printed answer -/

namespace Panda

open _root_.Relation

namespace Spec

/-- the command line of a facet enumeration of the file `f`: without known facets, or with a file of facets of the set `S`.  With
checked integers, the set must not lie in a hyperplane then. -/
def FacetCommand (names : List (List Char)) {d : Nat} (S : (Fin d → ℚ) → Prop) (files : List Char → Option (List Char))
    (args : List (List Char)) (f : List Char) : Prop :=
  PlainCommand args f ∨ ∃ g text cs, KnownCommand args f g ∧ files g = some text ∧ KnownFacetFile names text cs ∧
    (∀ a ∈ cs, a.HasSize names d ∧ a.FacetOf names S) ∧ (UsesChecked args → Solid S)

end Spec

/-- the known facets as rows -/
theorem known_rows {args : List Arg} {f : List Char} {files : Files} {names : Names} {n : Nat} {V : Matrix} {S : (Fin n → ℚ) → Prop}
    (ha : Spec.FacetCommand names S files args f) (hI : Spec.IsVInput n V) (hS : ∀ p, Spec.InPolyhedron n V p ↔ S p) :
    Spec.CommandLine args [f] ∧ "-c".toList ∉ args ∧ "--check".toList ∉ args ∧
    ∃ known : Matrix, IntMatrix known ∧ (∀ k ∈ known, Spec.IsFacet (n + 1) V k) ∧ (known ≠ [] → Spec.UsesChecked args → Spec.Solid S) ∧
      ∃ M, ∀ fuel ≥ M, knownFacets fuel files args names = some (.ok known) := by
  rcases ha with ha | ⟨g, text, cs, ha, hg, hk, hcs, hsolid⟩
  · refine ⟨ha.1, ha.2.1, ha.2.2.1, [], by intro r hr; simp at hr, by simp, by simp, 0, fun fuel _ => ?_⟩
    unfold knownFacets
    rw [known_absent true args ha.2.2.2]
    simp [Run.bind]
  · obtain ⟨rows, h1, h2⟩ := C59_facets ha.2.2.2.1 ha.2.2.2.2 hg hk
    refine ⟨ha.1, ha.2.1, ha.2.2.1, rows, ?_, ?_, fun _ => hsolid, h2⟩
    · intro r hr
      obtain ⟨a, ha, ⟨t, ht⟩, hrow⟩ := forall₂_right h1 (knownFacetFile_texts hk) r hr
      exact hasRow_int ht hrow
    · intro r hr
      obtain ⟨a, ha, ⟨⟨t, ht⟩, hsize, hvalid, p0, hp0, hp1, hp2⟩, hrow⟩ := forall₂_right h1
        (P := fun a => (∃ t, Spec.ConstraintText false names t a) ∧ a.HasSize names n ∧ a.FacetOf names S)
        (fun a ha => ⟨knownFacetFile_texts hk a ha, hcs a ha⟩) r hr
      have hm := fun p => hasRow_meaning (n := n) ht hrow hsize p
      simp only [Bool.false_eq_true, if_false] at hm
      refine isFacet_of hI hS (hm 0).1 (fun p hp => (hm p).2.2 (hvalid p hp)) hp0 (fun h => hp1 ((hasRow_tight ht hrow hsize p0).1 h)) ?_
      intro p hp
      have e : {q | S q ∧ a.TightAt names q} = {q | S q ∧ Spec.value n r q = 0} := by
        ext q
        simp only [Set.mem_ofPred_eq, hasRow_tight ht hrow hsize q]
      rw [← e]
      exact hp2 p hp

section

variable {hardware : Nat} {help : Option ProgramResult} {text : List Char} {c : Spec.VertexContent} {n : Nat}

/-- **C64** `C62_facets` for runs that start from a file of known facets (`-k`): whatever the threads do, if the program finishes,
the printed equations and inequalities describe exactly the hull, no inequality is printed twice, and each is irredundant, apart
from at most one that holds everywhere. -/
theorem C64_facets {args : List Arg} {f : List Char} {files : Files} {order : InputOrder}
    (ha : Spec.FacetCommand c.names (Spec.InHull n c.points c.rays) files args f) (hf : files f = some text)
    (ho : getInputOrder args = .ok order)
    (hd : Spec.UsesAD args) (hi : Spec.UsesChecked args ∨ Spec.UsesInt args) (ht : Spec.ThreadsOk args) (hh : Spec.NoHelp args)
    (hw : ¬ Spec.HasWordLine Spec.inequalityWords text)
    (h20 : Spec.EarlyHeader 20 text) (h : Spec.VertexFile {} text c) (hc : c.Consistent n) (hp : c.points ≠ []) (hm : c.maps = [])
    (hn : c.names = [] ∨ Spec.AdmissibleNames c.names)
    (hplane : Spec.Plane (Spec.InHull n c.points c.rays)) (hline : ¬ Spec.Line (Spec.InHull n c.points c.rays)) :
    (∃ r, ProgramEnds hardware help files args r) ∧ ∀ r, ProgramEnds hardware help files args r →
      (r = .failed ∧ Spec.UsesChecked args) ∨ (r = .undefined ∧ (¬ Spec.UsesChecked args ∨ c.names ≠ [])) ∨
        ∃ (out : List Char) (eqs ineqs : List Spec.Constraint), r = .finished 0 out ∧ Spec.PrintedSystem c.names out eqs ineqs ∧
          ineqs.Nodup ∧
          (∀ p : Fin n → ℚ, Spec.InHull n c.points c.rays p ↔
            (∀ a ∈ eqs, a.HoldsAt true c.names p) ∧ ∀ a ∈ ineqs, a.HoldsAt false c.names p) ∧
          ∃ always, (∀ p : Fin n → ℚ, always.HoldsAt false c.names p) ∧ ∀ a ∈ ineqs, a ≠ always → ∃ p : Fin n → ℚ,
            (∀ b ∈ eqs, b.HoldsAt true c.names p) ∧ (∀ b ∈ ineqs, b ≠ a → b.HoldsAt false c.names p) ∧ ¬ a.HoldsAt false c.names p := by
  obtain ⟨V, maps, h1, h2, h3, h4, -, h5, h6, h8⟩ := hull_read_all order h20 h hc
  have hmaps : maps = [] := by rw [hm] at h1; exact List.forall₂_nil_left_iff.1 h1
  subst hmaps
  obtain ⟨hcmd, hc1, hc2, known, k1, k2, k3, k4⟩ := known_rows ha (h6 hp) h5
  obtain ⟨N1, h7⟩ := h8 args files f known hcmd hc1 hc2 hf ho k4
  have hl : c.names ≠ [] → c.names.length = n := fun h0 => hc.2.2.2.1 (Or.inl h0)
  have e0 : ∀ ad fuel, program ad help fuel files args = ad true := by
    intro ad fuel
    unfold program
    rw [detect_facets hcmd hf hh hw]
    simp only [enumeration, usesAD_method hd]
  obtain ⟨f1, E, F, -, f2⟩ := ad_facets_general (hardware := hardware) e0 hi ht (h6 hp) h3 h5 k1 k2
    (fun h0 h1 => equations_of_solid (h6 hp) h5 (k3 h0 h1)) h7 hn hl hplane hline
  refine ⟨f1, fun r hr => ?_⟩
  rcases f2 r hr with h | h | ⟨out, P, rfl, -, p1, p2, p3, p4⟩
  · exact Or.inl h
  · exact Or.inr (Or.inl h)
  · exact Or.inr (Or.inr ⟨out, _, _, rfl, p1, p2, p3, _, fun p => holds_trivial hn hl p, p4⟩)

/-- **C64** (termination) In the situation of `C64_facets`: the threads start or the program ends before; the threads are never
stuck, and there is no infinite run, if `std::condition_variable` wakes no thread without reason. -/
theorem C64_terminates {args : List Arg} {f : List Char} {files : Files} {order : InputOrder}
    (ha : Spec.FacetCommand c.names (Spec.InHull n c.points c.rays) files args f) (hf : files f = some text)
    (ho : getInputOrder args = .ok order)
    (hi : Spec.UsesChecked args ∨ Spec.UsesInt args) (ht : Spec.ThreadsOk args)
    (h20 : Spec.EarlyHeader 20 text) (h : Spec.VertexFile {} text c) (hc : c.Consistent n) (hp : c.points ≠ []) (hm : c.maps = [])
    (hplane : Spec.Plane (Spec.InHull n c.points c.rays)) (hline : ¬ Spec.Line (Spec.InHull n c.points c.rays)) :
    ∃ N, ∀ fuel ≥ N, adProgramFacets hardware fuel files args ≠ none ∧
      ∀ a ty, adProgramFacets hardware fuel files args = some (.ok a) → integerType args = .ok ty →
        (∀ s out, ADReach (selectArith ty) a (.running s out) → ¬ s.Finished → ∃ σ, ADStep (selectArith ty) a (.running s out) σ ∧
          ∀ s' out', σ = .running s' out' → Progress (adProgramConfig (selectArith ty) a) s s') ∧
        ∀ f : Nat → ADState (Fin a.threads), f 0 = ADState.init (selectArith ty) a → (∀ n, ADStep (selectArith ty) a (f n) (f (n + 1))) →
          ∃ n s s' out out', f n = .running s out ∧ f (n + 1) = .running s' out' ∧ Spurious s s' := by
  obtain ⟨V, maps, h1, h2, h3, h4, -, h5, h6, h8⟩ := hull_read_all order h20 h hc
  have hmaps : maps = [] := by rw [hm] at h1; exact List.forall₂_nil_left_iff.1 h1
  subst hmaps
  obtain ⟨hcmd, hc1, hc2, known, k1, k2, k3, k4⟩ := known_rows ha (h6 hp) h5
  obtain ⟨N1, h7⟩ := h8 args files f known hcmd hc1 hc2 hf ho k4
  obtain ⟨ty, E, F, N, t1, -, -, -, -, -, -, -, q⟩ := ad_setup (hardware := hardware) hi ht (h6 hp) h3 h5 k1 k2
    (fun h0 h1 => equations_of_solid (h6 hp) h5 (k3 h0 h1)) h7 hplane hline
  exact ⟨N, ad_terminates t1 q⟩

/-! ## any two runs -/

/-- double description prints the system that it computes from the rows -/
theorem dd_end {args : List Arg} {f : List Char} {files : Files} {V known E F : Matrix} {names : Names} {N1 : Nat} {ty : IntegerType}
    (hcmd : Spec.CommandLine args [f]) (hf : files f = some text) (hd : Spec.UsesDD args) (hh : Spec.NoHelp args)
    (hw : ¬ Spec.HasWordLine Spec.inequalityWords text) (t1 : integerType args = .ok ty) (t2 : ty = .safe ∨ ty = .default ∨ ty = .fixed32)
    (h3 : IntMatrix V) (h7 : ∀ fuel ≥ N1, inputVertices fuel files args = some (.ok (V, names, [], known)))
    (hn : names = [] ∨ Spec.AdmissibleNames names) (g2 : ∀ e ∈ E, e.length = n + 1) (g3 : ∀ a ∈ F, a.length = n + 1)
    (g1 : ∃ N2, ∀ fuel ≥ N2, facetEnumerationDD fuel V [] = some (.ok ⟨E, false, F⟩)) {out : List Char}
    (hr : ProgramEnds hardware help files args (.finished 0 out)) :
    Spec.PrintedSystem names out (E.map (constraintOf true names)) (F.map (constraintOf false names)) := by
  obtain ⟨N2, g1⟩ := g1
  obtain ⟨fuel0, ad, -, hr⟩ := hr
  have hr := program_mono ad help files args (le_max_left fuel0 (max N1 N2)) hr
  set fuel := max fuel0 (max N1 N2)
  have hf1 : N1 ≤ fuel := le_trans (le_max_left _ _) (le_max_right _ _)
  have hf2 : N2 ≤ fuel := le_trans (le_max_right _ _) (le_max_right _ _)
  have e1 : program ad help fuel files args = ProgramResult.ofRun (facetsDD fuel files args) := by
    unfold program
    rw [detect_facets hcmd hf hh hw]
    simp only [enumeration, usesDD_method hd, if_true]
  have e2 : facetsDD fuel files args = Run.bind (Typed.facetEnumerationDD (selectArith ty) fuel V []) fun o =>
      .lift (printFacetOutput o names) := by
    unfold facetsDD
    rw [t1]
    simp only [Run.lift, Run.bind]
    rw [h7 fuel hf1]
  rw [e1, e2] at hr
  have hsim := facetDD_selected (V := V) h3 t2 fuel
  rw [g1 fuel hf2] at hsim
  rcases hsim with ⟨h8, -⟩ | ⟨hs, h8⟩ | ⟨hs, h8⟩
  · rw [h8] at hr
    simp only [Run.bind, Run.lift] at hr
    rcases printFacetOutput_cases ⟨E, false, F⟩ names with ⟨t, h9⟩ | ⟨h0, h9⟩
    · rw [h9] at hr
      obtain rfl : t = out := by simpa [ProgramResult.ofRun] using hr
      exact facetOutput_printed (o := ⟨E, false, F⟩) hn (fun r hr h0 => by have := g2 r hr; rw [h0] at this; simp at this)
          (fun r hr h0 => by have := g3 r hr; rw [h0] at this; simp at this) rfl h9
    · rw [h9] at hr
      simp [ProgramResult.ofRun] at hr
  · rw [h8] at hr; simp [Run.bind, ProgramResult.ofRun] at hr
  · rw [h8] at hr; simp [Run.bind, ProgramResult.ofRun] at hr

/-- **C64** Any two runs that finish on the same text, with the same sorting of the input, print the same equations, and the same
inequalities apart from at most one that holds everywhere: whatever the methods (adjacency decomposition or double description),
the numbers of threads, the interleavings, the integer types (checked or 32 bits), and the files of known facets. -/
theorem C64_same (order : InputOrder)
    (h20 : Spec.EarlyHeader 20 text) (h : Spec.VertexFile {} text c) (hc : c.Consistent n) (hp : c.points ≠ []) (hm : c.maps = [])
    (hn : c.names = [] ∨ Spec.AdmissibleNames c.names) (hw : ¬ Spec.HasWordLine Spec.inequalityWords text)
    (hplane : Spec.Plane (Spec.InHull n c.points c.rays)) (hline : ¬ Spec.Line (Spec.InHull n c.points c.rays)) :
    ∃ (eqs ineqs : List Spec.Constraint) (always : Spec.Constraint), (∀ p : Fin n → ℚ, always.HoldsAt false c.names p) ∧ always ∉ ineqs ∧
      ∀ (hardware : Nat) (help : Option ProgramResult) (args : List Arg) (f : List Char) (files : Files) (out : List Char),
        Spec.FacetCommand c.names (Spec.InHull n c.points c.rays) files args f → files f = some text → getInputOrder args = .ok order →
        (Spec.UsesDD args ∨ (Spec.UsesAD args ∧ Spec.ThreadsOk args)) → (Spec.UsesChecked args ∨ Spec.UsesInt args) → Spec.NoHelp args →
        ProgramEnds hardware help files args (.finished 0 out) →
        ∃ printed, Spec.PrintedSystem c.names out eqs printed ∧ ∀ a, (a ∈ printed ∧ a ≠ always) ↔ a ∈ ineqs := by
  obtain ⟨V, maps, h1, h2, h3, h4, -, h5, h6, h8⟩ := hull_read_all order h20 h hc
  have hmaps : maps = [] := by rw [hm] at h1; exact List.forall₂_nil_left_iff.1 h1
  subst hmaps
  have hl : c.names ≠ [] → c.names.length = n := fun h0 => hc.2.2.2.1 (Or.inl h0)
  obtain ⟨E, F, N2, g1, g2, g3, g4, g5, g6⟩ := facetDD_exact (h6 hp)
  have hF : List.replicate n 0 ++ [-1] ∉ F := by
    intro h0
    obtain ⟨p, ⟨k1, k2⟩, k3⟩ := g6 _ h0
    refine k3 ((g5 p).2 ⟨k1, fun b hb => ?_⟩)
    by_cases e : b = List.replicate n 0 ++ [-1]
    · rw [e, value_trivial]; norm_num
    · exact k2 b (List.mem_filter.2 ⟨hb, by simpa using e⟩)
  have inj : ∀ {r : Row}, r.length = n + 1 → constraintOf false c.names r = constraintOf false c.names (List.replicate n 0 ++ [-1]) →
      r = List.replicate n 0 ++ [-1] := fun h0 e => constraintOf_injective hn hl h0 (by simp) e
  refine ⟨E.map (constraintOf true c.names), F.map (constraintOf false c.names), constraintOf false c.names (List.replicate n 0 ++ [-1]),
    fun p => holds_trivial hn hl p, ?_, fun hardware help args f files out ha hf ho hd hi hh hr => ?_⟩
  · intro h0
    obtain ⟨r, hr, e⟩ := List.mem_map.1 h0
    exact hF (inj (g3 r hr) e ▸ hr)
  obtain ⟨hcmd, hc1, hc2, known, k1, k2, k3, k4⟩ := known_rows ha (h6 hp) h5
  obtain ⟨N1, h7⟩ := h8 args files f known hcmd hc1 hc2 hf ho k4
  rcases hd with hd | ⟨hd, ht⟩
  · obtain ⟨ty, t1, t2, t3, t4⟩ := uses_type hi
    refine ⟨_, dd_end hcmd hf hd hh hw t1 t2 h3 h7 hn g2 g3 ⟨N2, g1⟩ hr, fun a => ⟨fun h => h.1, fun h => ⟨h, ?_⟩⟩⟩
    rintro rfl
    obtain ⟨r, hr, e⟩ := List.mem_map.1 h
    exact hF (inj (g3 r hr) e ▸ hr)
  · have e0 : ∀ ad fuel, program ad help fuel files args = ad true := by
      intro ad fuel
      unfold program
      rw [detect_facets hcmd hf hh hw]
      simp only [enumeration, usesAD_method hd]
    obtain ⟨f1, E', F', ⟨N3, e1⟩, f2⟩ := ad_facets_general (hardware := hardware) e0 hi ht (h6 hp) h3 h5 k1 k2
      (fun h0 h1 => equations_of_solid (h6 hp) h5 (k3 h0 h1)) h7 hn hl hplane hline
    have e1 := e1 (max N2 N3) (le_max_right _ _)
    rw [g1 (max N2 N3) (le_max_left _ _)] at e1
    simp only [Option.some.injEq, Outcome.ok.injEq, FacetOutput.mk.injEq, true_and] at e1
    obtain ⟨rfl, rfl⟩ := e1
    rcases f2 _ hr with ⟨h, -⟩ | ⟨h, -⟩ | ⟨out', P, h, h0, p1, -⟩
    · simp at h
    · simp at h
    · obtain rfl : out = out' := by simpa using h
      refine ⟨_, p1, fun a => ?_⟩
      constructor
      · rintro ⟨ha, hne⟩
        obtain ⟨r, hr, rfl⟩ := List.mem_map.1 ha
        exact List.mem_map.2 ⟨r, (h0 r).1 ⟨hr, fun e => hne (by rw [e])⟩, rfl⟩
      · intro ha
        obtain ⟨r, hr, rfl⟩ := List.mem_map.1 ha
        exact ⟨List.mem_map.2 ⟨r, ((h0 r).2 hr).1, rfl⟩, fun e => hF (inj (g3 r hr) e ▸ hr)⟩

end

/-! ## facets of triangles -/

/-- the triangle with the given corners -/
def InTriangle {n : Nat} (x y z p : Fin n → ℚ) : Prop :=
  ∃ a b c : ℚ, 0 ≤ a ∧ 0 ≤ b ∧ 0 ≤ c ∧ a + b + c = 1 ∧ p = a • x + b • y + c • z

theorem InTriangle.turn {n : Nat} {x y z p : Fin n → ℚ} (h : InTriangle x y z p) : InTriangle y z x p := by
  obtain ⟨a, b, c, h1, h2, h3, h4, h5⟩ := h
  exact ⟨b, c, a, h2, h3, h1, by linarith, by rw [h5]; abel⟩

theorem hull_three {n : Nat} {x y z : List (Int × Int)} (p : Fin n → ℚ) :
    Spec.InHull n [x, y, z] [] p ↔ InTriangle (Spec.point n x) (Spec.point n y) (Spec.point n z) p := by
  constructor
  · rintro ⟨a, b, ha, -, hsum, rfl⟩
    obtain ⟨c, hc⟩ : ∃ c : Fin 3 → ℚ, c = a := ⟨a, rfl⟩
    refine ⟨c 0, c 1, c 2, by rw [hc]; exact ha _, by rw [hc]; exact ha _, by rw [hc]; exact ha _,
      by rw [← Fin.sum_univ_three, hc]; exact hsum, ?_⟩
    have e2 : (∑ j : Fin ([] : List (List (Int × Int))).length, b j • Spec.point n ([] : List (List (Int × Int)))[j]) = 0 :=
      Finset.sum_eq_zero fun j _ => absurd j.2 (by simp)
    rw [e2, add_zero]
    subst hc
    exact Fin.sum_univ_three (fun j : Fin 3 => c j • Spec.point n ([x, y, z].get j))
  · rintro ⟨a, b, c, h1, h2, h3, h4, rfl⟩
    refine ⟨![a, b, c], fun _ => 0, ?_, by simp, ?_, ?_⟩
    · intro i
      match i with
      | ⟨0, _⟩ => exact h1
      | ⟨1, _⟩ => exact h2
      | ⟨2, _⟩ => exact h3
    · exact (Fin.sum_univ_three ![a, b, c]).trans h4
    · have e := Fin.sum_univ_three (fun j : Fin 3 => (![a, b, c] : Fin 3 → ℚ) j • Spec.point n ([x, y, z].get j))
      have e2 : (∑ j : Fin ([] : List (List (Int × Int))).length, (0 : ℚ) • Spec.point n ([] : List (List (Int × Int)))[j]) = 0 :=
        Finset.sum_eq_zero fun j _ => absurd j.2 (by simp)
      rw [e2, add_zero]
      exact e.symm

theorem value_three {n : Nat} (row : Row) (x y z : Fin n → ℚ) {a b c : ℚ} (h : a + b + c = 1) :
    Spec.value n row (a • x + b • y + c • z) = a * Spec.value n row x + b * Spec.value n row y + c * Spec.value n row z := by
  unfold Spec.value
  simp only [Pi.add_apply, Pi.smul_apply, smul_eq_mul, mul_add, Finset.sum_add_distrib, Finset.mul_sum]
  have e : ∀ (t : ℚ) (u : Fin n → ℚ), ∑ i : Fin n, (row.getD i 0 : ℚ) * (t * u i) = ∑ i : Fin n, t * ((row.getD i 0 : ℚ) * u i) :=
    fun t u => Finset.sum_congr rfl fun i _ => by ring
  rw [e, e, e]
  linear_combination -(row.getD n 0 : ℚ) * h

/-- an inequality that is tight at two corners of a triangle and holds strictly at the third defines a facet -/
theorem facetOf_triangle {n : Nat} {S : (Fin n → ℚ) → Prop} {x y z : Fin n → ℚ} {row : Row} (hS : ∀ p, S p ↔ InTriangle x y z p)
    (hx : Spec.value n row x = 0) (hy : Spec.value n row y = 0) (hz : Spec.value n row z < 0) : (Spec.Constraint.raw row).FacetOf [] S := by
  have hSx : S x := (hS x).2 ⟨1, 0, 0, by norm_num, le_rfl, le_rfl, by norm_num, by simp⟩
  have hSy : S y := (hS y).2 ⟨0, 1, 0, le_rfl, by norm_num, le_rfl, by norm_num, by simp⟩
  have hSz : S z := (hS z).2 ⟨0, 0, 1, le_rfl, le_rfl, by norm_num, by norm_num, by simp⟩
  refine ⟨fun p hp => ?_, z, hSz, fun h => hz.ne h, fun p hp => ?_⟩
  · obtain ⟨a, b, c, h1, h2, h3, h4, rfl⟩ := (hS p).1 hp
    show Spec.value n row _ ≤ 0
    rw [value_three row x y z h4, hx, hy]
    nlinarith
  · obtain ⟨a, b, c, h1, h2, h3, h4, rfl⟩ := (hS p).1 hp
    have mz : z ∈ affineSpan ℚ (insert z {q | S q ∧ (Spec.Constraint.raw row).TightAt [] q}) := subset_affineSpan _ _ (Set.mem_insert _ _)
    have mx : x ∈ affineSpan ℚ (insert z {q | S q ∧ (Spec.Constraint.raw row).TightAt [] q}) :=
      subset_affineSpan _ _ (Set.mem_insert_of_mem _ ⟨hSx, hx⟩)
    have my : y ∈ affineSpan ℚ (insert z {q | S q ∧ (Spec.Constraint.raw row).TightAt [] q}) :=
      subset_affineSpan _ _ (Set.mem_insert_of_mem _ ⟨hSy, hy⟩)
    have m1 := AffineSubspace.smul_vsub_vadd_mem _ b my mx (AffineSubspace.smul_vsub_vadd_mem _ c mz mx mx)
    have e : a • x + b • y + c • z = b • (y -ᵥ x) +ᵥ (c • (z -ᵥ x) +ᵥ x) := by
      obtain rfl : a = 1 - b - c := by linarith
      funext i
      simp only [Pi.add_apply, Pi.smul_apply, smul_eq_mul, vsub_eq_sub, vadd_eq_add, Pi.sub_apply]
      ring
    rw [e]
    exact m1

/-! ## an example: the triangle with a known facet -/

def triangleKnownArgs : List Arg := ["-t".toList, "2".toList, "-k".toList, "known".toList, "file".toList]

def triangleKnown : List Char := "a facet\nInequalities:\n0 -1 0\n".toList

def triangleFiles : Files := fun f => if f = "file".toList then some triangleText else if f = "known".toList then some triangleKnown else none

/-- the hypotheses of C64 can be met -/
example : Spec.FacetCommand triangleContent.names (Spec.InHull 2 triangleContent.points triangleContent.rays) triangleFiles triangleKnownArgs
    "file".toList ∧ triangleFiles "file".toList = some triangleText ∧ getInputOrder triangleKnownArgs = .ok .noSorting ∧
    Spec.UsesAD triangleKnownArgs ∧ Spec.UsesInt triangleKnownArgs ∧ Spec.ThreadsOk triangleKnownArgs ∧ Spec.NoHelp triangleKnownArgs := by
  refine ⟨Or.inr ⟨"known".toList, triangleKnown, [.raw [0, -1, 0]], ⟨?_, by decide +kernel, by decide +kernel, ⟨["-t".toList, "2".toList],
    ["file".toList], ?_, Or.inl rfl⟩, by decide⟩, by decide +kernel, ?_, ?_, ?_⟩, by decide +kernel, by decide +kernel, Or.inl ?_, Or.inl ?_,
    Or.inr ⟨"2".toList, 2, ?_, ?_, by decide, by decide⟩, ?_⟩
  · exact .short (a := "-t".toList) (p := "2".toList) (by decide +kernel) (by decide +kernel) (by decide +kernel) (by decide +kernel)
      (.short (a := "-k".toList) (p := "known".toList) (by decide +kernel) (by decide +kernel) (by decide +kernel) (by decide +kernel)
        (.file (by decide +kernel) (by decide +kernel) .nil))
  · unfold Spec.LooksLike; decide +kernel
  · obtain ⟨b0, b1⟩ := blanks_example
    refine .other (l := "a facet".toList) (r := "Inequalities:\n0 -1 0\n".toList) ⟨by decide +kernel, Or.inl (by decide +kernel)⟩ ?_ ?_
    · intro h
      have := (header_keyword _).2 h
      revert this; decide +kernel
    · refine Spec.KnownFacetFile.inequalities (k := "Inequalities:".toList) (t := "0 -1 0\n".toList) (w := [])
        (by decide +kernel) (header_example _ "Inequalities:" (by decide +kernel)) ?_ (Or.inl rfl)
      have h0 : Spec.Numeral "0".toList 0 := Spec.Numeral.plain "0".toList (by decide) (by simp [Spec.Digit])
      have h1 : Spec.Numeral "-1".toList (-1) := Spec.Numeral.minus "1".toList (by decide) (by simp [Spec.Digit])
      refine .line (t := "0 -1 0".toList) (ts := []) ⟨rfl, ⟨[], "0 -1 ".toList, "0".toList, [], [0, -1], 0, .none b0, ?_, h0, b0, by decide +kernel, rfl⟩, ?_⟩
        (by decide +kernel) (by decide +kernel) .nil
      · exact .cons (t := "0".toList) (b := " ".toList) (ts := "-1 ".toList) h0 b1 (by decide)
          (.cons (t := "-1".toList) (b := " ".toList) (ts := []) h1 b1 (by decide) .nil)
      · unfold Spec.IsInt; decide
  · intro a ha
    rw [List.mem_singleton.1 ha]
    refine ⟨rfl, facetOf_triangle (fun p => hull_three p) ?_ ?_ ?_⟩ <;>
    · unfold Spec.value
      rw [Fin.sum_univ_two]
      norm_num [Spec.point]
  · intro h
    have := ((C54_integer_type _).2 _ h).2.2.2.1 rfl
    exact absurd this (by decide +kernel)
  · unfold Spec.Absent Spec.LooksLike; decide +kernel
  · unfold Spec.Absent Spec.LooksLike; decide +kernel
  · exact ⟨[], ["-k".toList, "known".toList, "file".toList], by simp, Or.inl rfl⟩
  · exact ⟨[], "2".toList, [], by simp, Spec.Numeral.plain "2".toList (by decide) (by simp [Spec.Digit]), by simp, rfl⟩
  · unfold Spec.NoHelp Spec.ModeArgument Spec.HelpAbout Spec.HelpWord Spec.VersionWord; decide +kernel

/-- the program up to the start of the threads on these files -/
example : adProgramFacets 8 20 triangleFiles triangleKnownArgs =
    some (.ok { matrix := [[0, 0, 1], [3, 0, 1], [1, 2, 1]], names := [], tag := .facet, threads := 2, head := "Inequalities:\n".toList
                maps := [], initial := [[0, -1, 0]], known := [[0, -1, 0]], knownEnd := .ok (), dangling := false }) := by decide +kernel

/-! ## an exception that nobody sees -/

def lostArgs : List Arg := ["-i".toList, "safe".toList, "-t".toList, "1".toList, "-k".toList, "known".toList, "file".toList]
def lostText : List Char := "Vertices:\n0 0 0 0\n1 0 99991 0\n0 1 0 99989\n".toList
def lostKnown : List Char := "Inequalities:\n-1 0 0 0 0\n1 1 0 0 -1\n".toList
def lostFiles : Files := fun f => if f = "file".toList then some lostText else if f = "known".toList then some lostKnown else none
def lostContent : Spec.VertexContent :=
  { points := [[(0, 1), (0, 1), (0, 1), (0, 1)], [(1, 1), (0, 1), (99991, 1), (0, 1)], [(0, 1), (1, 1), (0, 1), (99989, 1)]] }
def lostOut : List Char :=
  "Equations:\n  0  99989  0 -1  0\n  99991  0 -1  0  0\n\nInequalities:\n  0  0 -1  0  0\n  0  0  0 -1  0\n".toList

def lostProgram : ADProgram :=
  { matrix := [[0, 0, 0, 0, 1], [1, 0, 99991, 0, 1], [0, 1, 0, 99989, 1]], names := [], tag := .facet, threads := 1
    head := "Equations:\n  0  99989  0 -1  0\n  99991  0 -1  0  0\n\nInequalities:\n".toList, maps := []
    initial := [[0, 0, -1, 0, 0]], known := [[0, 0, -1, 0, 0], [0, 0, 99989, 99991, -9998000099]], knownEnd := .ok (), dangling := false }

instance : Subsingleton (Fin lostProgram.threads) := inferInstanceAs (Subsingleton (Fin 1))

theorem lost_run : ADEnd safeArith lostProgram (.finished 0 lostOut) := by
  have i : Fin lostProgram.threads := (0 : Fin 1)
  have h1 := (OneThread.init (A := safeArith) (a := lostProgram)).masterPut (r := [0, 0, -1, 0, 0]) (rest := []) (by simp)
    (rows' := [[0, 0, -1, 0, 0]]) (by decide +kernel) (t := "  0  0 -1  0  0\n".toList) (by decide +kernel)
  have h2 := ((h1.masterDone).asyncDup (r := [0, 0, -1, 0, 0]) (rest := [[0, 0, 99989, 99991, -9998000099]]) (by decide +kernel)).asyncThrows
    (by simp) (rows' := [[0, 0, -1, 0, 0], [0, 0, 99989, 99991, -9998000099]]) (by decide +kernel) (by decide +kernel)
  have h3 := (((h2.start i).checkBusy i (by decide)).take i (row := [0, 0, -1, 0, 0]) (rest := []) (by simp)).rotate i (fuel := 20)
    (m := [[0, 0, 0, -1, 0], [0, 0, 99989, 99991, -9998000099]]) (by decide +kernel)
  have h4 := ((h3.putNew i (rows' := [[0, 0, -1, 0, 0], [0, 0, 0, -1, 0], [0, 0, 99989, 99991, -9998000099]]) (by decide +kernel)
    (t := "  0  0  0 -1  0\n".toList) (by decide +kernel)).putDup i (by decide +kernel)).done i
  have h5 := (((h4.checkBusy i (by decide)).take i (row := [0, 0, 0, -1, 0]) (rest := []) (by simp)).rotate i (fuel := 20)
    (m := [[0, 0, -1, 0, 0], [0, 0, 99989, 99991, -9998000099]]) (by decide +kernel))
  have h6 := ((h5.putDup i (by decide +kernel)).putDup i (by decide +kernel)).done i
  have h7 := ((((OneThread.checkEmpty i h6).insertEmpty i).pushEmpty i).stop i (rest := [])).finished
  have e : lostProgram.head ++ "  0  0 -1  0  0\n".toList ++ "  0  0  0 -1  0\n".toList = lostOut := by decide +kernel
  rwa [e] at h7

theorem lost_setup (hardware : Nat) : ∀ fuel ≥ 30, adProgramFacets hardware fuel lostFiles lostArgs = some (.ok lostProgram) := by
  intro fuel hf
  refine adProgramFacets_mono hardware lostFiles lostArgs 30 fuel _ hf ?_
  have ht : ∀ hardware, numberOfThreads hardware lostArgs = .ok 1 := by
    intro hardware
    refine (C49_threads hardware lostArgs).1 "1".toList 1 ⟨["-i".toList, "safe".toList], ["-k".toList, "known".toList, "file".toList], ?_, Or.inl rfl⟩ ?_ (by decide) (by decide)
    · unfold Spec.LooksLike; decide +kernel
    · exact ⟨[], "1".toList, [], by simp, Spec.Numeral.plain "1".toList (by decide) (by simp [Spec.Digit]), by simp, rfl⟩
  have e : adProgramFacets hardware 30 lostFiles lostArgs = adProgramFacets 8 30 lostFiles lostArgs := by
    unfold adProgramFacets
    rw [ht hardware, ht 8]
  show adProgramFacets hardware 30 lostFiles lostArgs = _
  rw [e]
  decide +kernel

theorem lost_hull (p : Fin 4 → ℚ) : Spec.InHull 4 lostContent.points lostContent.rays p ↔
    InTriangle ![0, 0, 0, 0] ![1, 0, 99991, 0] ![0, 1, 0, 99989] p := by
  have e : ∀ a b c d : Int, Spec.point 4 [(a, 1), (b, 1), (c, 1), (d, 1)] = ![(a : ℚ), b, c, d] := by
    intro a b c d
    funext i
    fin_cases i <;> simp [Spec.point]
  refine (hull_three p).trans ?_
  rw [e, e, e]
  norm_num

theorem lostFile : Spec.VertexFile {} lostText lostContent := by
  obtain ⟨b0, b1⟩ := blanks_example
  have h0 : Spec.Fraction "0".toList 0 1 := .whole (Spec.Numeral.plain "0".toList (by decide) (by simp [Spec.Digit]))
  have h1 : Spec.Fraction "1".toList 1 1 := .whole (Spec.Numeral.plain "1".toList (by decide) (by simp [Spec.Digit]))
  have h2 : Spec.Fraction "99991".toList 99991 1 := .whole (Spec.Numeral.plain "99991".toList (by decide) (by simp [Spec.Digit]))
  have h3 : Spec.Fraction "99989".toList 99989 1 := .whole (Spec.Numeral.plain "99989".toList (by decide) (by simp [Spec.Digit]))
  refine Spec.VertexFile.points (k := "Vertices:".toList) (t := "0 0 0 0\n1 0 99991 0\n0 1 0 99989\n".toList) (w := [])
    (vs := lostContent.points) (by decide +kernel) (header_example _ "Vertices:" (by decide +kernel))
    ⟨?_, ?_⟩ (Or.inl rfl) .nil
  · refine Spec.VertexLines.vertex (l := "0 0 0 0".toList) (t := "1 0 99991 0\n0 1 0 99989\n".toList) ⟨[], "0 0 0 0".toList, .none b0, ?_, rfl⟩ ?_
    · exact .cons (t := "0".toList) (b := " ".toList) (ts := "0 0 0".toList) h0 b1 (by decide)
        (.cons (t := "0".toList) (b := " ".toList) (ts := "0 0".toList) h0 b1 (by decide)
        (.cons (t := "0".toList) (b := " ".toList) (ts := "0".toList) h0 b1 (by decide) (.last (t := "0".toList) (b := []) h0 b0)))
    refine Spec.VertexLines.vertex (l := "1 0 99991 0".toList) (t := "0 1 0 99989\n".toList) ⟨[], "1 0 99991 0".toList, .none b0, ?_, rfl⟩ ?_
    · exact .cons (t := "1".toList) (b := " ".toList) (ts := "0 99991 0".toList) h1 b1 (by decide)
        (.cons (t := "0".toList) (b := " ".toList) (ts := "99991 0".toList) h0 b1 (by decide)
        (.cons (t := "99991".toList) (b := " ".toList) (ts := "0".toList) h2 b1 (by decide) (.last (t := "0".toList) (b := []) h0 b0)))
    refine Spec.VertexLines.vertex (l := "0 1 0 99989".toList) (t := []) ⟨[], "0 1 0 99989".toList, .none b0, ?_, rfl⟩ .nil
    exact .cons (t := "0".toList) (b := " ".toList) (ts := "1 0 99989".toList) h0 b1 (by decide)
        (.cons (t := "1".toList) (b := " ".toList) (ts := "0 99989".toList) h1 b1 (by decide)
        (.cons (t := "0".toList) (b := " ".toList) (ts := "99989".toList) h0 b1 (by decide) (.last (t := "99989".toList) (b := []) h3 b0)))
  · intro cs hcs
    simp only [lostContent, List.mem_cons, List.not_mem_nil, or_false] at hcs
    rcases hcs with rfl | rfl | rfl <;>
    · refine ⟨⟨?_, 1, ⟨by decide, by decide, fun m hm => by omega⟩, by unfold Spec.IsInt; decide, ?_⟩, by decide⟩ <;>
      · unfold Spec.IsInt; decide

theorem lostKnownFile : Spec.KnownFacetFile [] lostKnown [.raw [-1, 0, 0, 0, 0], .raw [1, 1, 0, 0, -1]] := by
  obtain ⟨b0, b1⟩ := blanks_example
  have h0 : Spec.Numeral "0".toList 0 := Spec.Numeral.plain "0".toList (by decide) (by simp [Spec.Digit])
  have h1 : Spec.Numeral "1".toList 1 := Spec.Numeral.plain "1".toList (by decide) (by simp [Spec.Digit])
  have h2 : Spec.Numeral "-1".toList (-1) := Spec.Numeral.minus "1".toList (by decide) (by simp [Spec.Digit])
  refine Spec.KnownFacetFile.inequalities (k := "Inequalities:".toList) (t := "-1 0 0 0 0\n1 1 0 0 -1\n".toList) (w := [])
    (by decide +kernel) (header_example _ "Inequalities:" (by decide +kernel)) ?_ (Or.inl rfl)
  refine .line (t := "-1 0 0 0 0".toList) (ts := "1 1 0 0 -1\n".toList)
      ⟨rfl, ⟨[], "-1 0 0 0 ".toList, "0".toList, [], [-1, 0, 0, 0], 0, .none b0, ?_, h0, b0, by decide +kernel, rfl⟩, ?_⟩
      (by decide +kernel) (by decide +kernel) (.line (t := "1 1 0 0 -1".toList) (ts := [])
        ⟨rfl, ⟨[], "1 1 0 0 ".toList, "-1".toList, [], [1, 1, 0, 0], -1, .none b0, ?_, h2, b0, by decide +kernel, rfl⟩, ?_⟩
        (by decide +kernel) (by decide +kernel) .nil)
  · exact .cons (t := "-1".toList) (b := " ".toList) (ts := "0 0 0 ".toList) h2 b1 (by decide)
      (.cons (t := "0".toList) (b := " ".toList) (ts := "0 0 ".toList) h0 b1 (by decide)
      (.cons (t := "0".toList) (b := " ".toList) (ts := "0 ".toList) h0 b1 (by decide)
      (.cons (t := "0".toList) (b := " ".toList) (ts := []) h0 b1 (by decide) .nil)))
  · unfold Spec.IsInt; decide
  · exact .cons (t := "1".toList) (b := " ".toList) (ts := "1 0 0 ".toList) h1 b1 (by decide)
      (.cons (t := "1".toList) (b := " ".toList) (ts := "0 0 ".toList) h1 b1 (by decide)
      (.cons (t := "0".toList) (b := " ".toList) (ts := "0 ".toList) h0 b1 (by decide)
      (.cons (t := "0".toList) (b := " ".toList) (ts := []) h0 b1 (by decide) .nil)))
  · unfold Spec.IsInt; decide

/-- **C64** fails for sets in a hyperplane with checked integers (the remaining hypotheses of `C64_facets` are met, and so is the
type that reports overflows): the known facet is combined with the equations, its coefficients do not fit into an `int`, the
exception when printing it is stored in the future of the asynchronous task, which nobody reads, and the row is in the set already
and never printed.  The program ends with exit code 0 and misses a facet. -/
theorem C64_swallowed_false :
    (Spec.KnownCommand lostArgs "file".toList "known".toList ∧ lostFiles "known".toList = some lostKnown ∧
      Spec.KnownFacetFile [] lostKnown [.raw [-1, 0, 0, 0, 0], .raw [1, 1, 0, 0, -1]] ∧
      ∀ a ∈ [Spec.Constraint.raw [-1, 0, 0, 0, 0], .raw [1, 1, 0, 0, -1]], a.HasSize [] 4 ∧
        a.FacetOf [] (Spec.InHull 4 lostContent.points lostContent.rays)) ∧
    (lostFiles "file".toList = some lostText ∧ getInputOrder lostArgs = .ok .noSorting ∧ Spec.UsesAD lostArgs ∧ Spec.UsesChecked lostArgs ∧
      Spec.ThreadsOk lostArgs ∧ Spec.NoHelp lostArgs ∧ ¬ Spec.HasWordLine Spec.inequalityWords lostText ∧ Spec.EarlyHeader 20 lostText ∧
      Spec.VertexFile {} lostText lostContent ∧ lostContent.Consistent 4 ∧ lostContent.points ≠ [] ∧ lostContent.maps = [] ∧
      lostContent.names = [] ∧ Spec.Plane (Spec.InHull 4 lostContent.points lostContent.rays) ∧
      ¬ Spec.Line (Spec.InHull 4 lostContent.points lostContent.rays)) ∧
    (∀ hardware help, ProgramEnds hardware help lostFiles lostArgs (.finished 0 lostOut)) ∧
    ∃ eqs ineqs : List Spec.Constraint, Spec.PrintedSystem [] lostOut eqs ineqs ∧ ∃ p : Fin 4 → ℚ,
      (∀ a ∈ eqs, a.HoldsAt true [] p) ∧ (∀ a ∈ ineqs, a.HoldsAt false [] p) ∧ ¬ Spec.InHull 4 lostContent.points lostContent.rays p := by
  have hcmd : Spec.CommandLine lostArgs ["file".toList] :=
    .short (a := "-i".toList) (p := "safe".toList) (by decide +kernel) (by decide +kernel) (by decide +kernel) (by decide +kernel)
      (.short (a := "-t".toList) (p := "1".toList) (by decide +kernel) (by decide +kernel) (by decide +kernel) (by decide +kernel)
      (.short (a := "-k".toList) (p := "known".toList) (by decide +kernel) (by decide +kernel) (by decide +kernel) (by decide +kernel)
        (.file (by decide +kernel) (by decide +kernel) .nil)))
  have hAD : Spec.UsesAD lostArgs := Or.inl (by unfold Spec.Absent Spec.LooksLike; decide +kernel)
  have hhelp : Spec.NoHelp lostArgs := by
    unfold Spec.NoHelp Spec.ModeArgument Spec.HelpAbout Spec.HelpWord Spec.VersionWord; decide +kernel
  have hword : ¬ Spec.HasWordLine Spec.inequalityWords lostText := by rw [← hasInequalitiesKeyword_iff]; decide +kernel
  have hchecked : Spec.UsesChecked lostArgs :=
    ⟨[], ["-t".toList, "1".toList, "-k".toList, "known".toList, "file".toList], by simp, Or.inl rfl⟩
  have hfile : lostFiles "file".toList = some lostText := by decide +kernel
  refine ⟨⟨⟨hcmd, by decide +kernel, by decide +kernel, ⟨["-i".toList, "safe".toList, "-t".toList, "1".toList], ["file".toList], ?_, Or.inl rfl⟩,
    by decide⟩, by decide +kernel, lostKnownFile, ?_⟩, ⟨hfile, by decide +kernel, hAD, hchecked,
    Or.inr ⟨"1".toList, 1, ⟨["-i".toList, "safe".toList], ["-k".toList, "known".toList, "file".toList], ?_, Or.inl rfl⟩, ?_, by decide, by decide⟩, hhelp, hword,
    containsKeywords_early.2 (by decide +kernel), lostFile, ?_, by decide, rfl, rfl, ?_, ?_⟩, fun hardware help => ?_, ?_⟩
  · unfold Spec.LooksLike; decide +kernel
  · intro a ha
    simp only [List.mem_cons, List.not_mem_nil, or_false] at ha
    rcases ha with rfl | rfl
    · refine ⟨rfl, facetOf_triangle (fun p => (lost_hull p).trans ⟨fun h => h.turn.turn, fun h => h.turn⟩) ?_ ?_ ?_⟩ <;>
      · unfold Spec.value
        rw [Fin.sum_univ_four]
        norm_num
    · refine ⟨rfl, facetOf_triangle (fun p => (lost_hull p).trans ⟨fun h => h.turn, fun h => h.turn.turn⟩) ?_ ?_ ?_⟩ <;>
      · unfold Spec.value
        rw [Fin.sum_univ_four]
        norm_num
  · unfold Spec.LooksLike; decide +kernel
  · exact ⟨[], "1".toList, [], by simp, Spec.Numeral.plain "1".toList (by decide) (by simp [Spec.Digit]), by simp, rfl⟩
  · refine ⟨Or.inl (by decide), ?_, ?_, fun h => ?_, ?_⟩ <;> simp [lostContent] at *
  · refine ⟨_, _, _, (lost_hull _).2 ⟨1, 0, 0, by norm_num, le_rfl, le_rfl, by norm_num, rfl⟩,
      (lost_hull _).2 ⟨0, 1, 0, le_rfl, by norm_num, le_rfl, by norm_num, rfl⟩,
      (lost_hull _).2 ⟨0, 0, 1, le_rfl, le_rfl, by norm_num, by norm_num, rfl⟩, fun a b h => ?_⟩
    have h0 := congrFun h 0
    have h1 := congrFun h 1
    simp at h0 h1
    exact ⟨h0, h1⟩
  · rintro ⟨p, q, hq, h⟩
    apply hq
    have bound : ∀ x, Spec.InHull 4 lostContent.points lostContent.rays x → ∀ i, x i ≤ 99991 := by
      intro x hx i
      obtain ⟨a, b, c, h1, h2, h3, h4, rfl⟩ := (lost_hull x).1 hx
      fin_cases i <;> simp <;> nlinarith
    funext i
    exact slope_zero (u := p i) (w := q i) (b := 99991) fun t => bound _ (h t) i
  · refine ⟨0, fun b => if b then some (.finished 0 lostOut) else none, fun b x hx => ?_, ?_⟩
    · cases b
      · simp at hx
      · obtain rfl : ProgramResult.finished 0 lostOut = x := by simpa using hx
        refine ⟨30, fun fuel hf => ?_⟩
        simp only [if_true, lost_setup hardware fuel hf]
        exact ⟨.safe, ((C54_integer_type _).2 _ hchecked).2.2.2.1 rfl, lost_run⟩
    · unfold program
      rw [detect_facets hcmd hfile hhelp hword]
      simp only [enumeration, usesAD_method hAD, if_true]
  · refine ⟨[.raw [0, 99989, 0, -1, 0], .raw [99991, 0, -1, 0, 0]], [.raw [0, 0, -1, 0, 0], .raw [0, 0, 0, -1, 0]], ?_, ![5, 0, 499955, 0], ?_, ?_, ?_⟩
    · refine ⟨"  0  99989  0 -1  0\n  99991  0 -1  0  0\n".toList, "  0  0 -1  0  0\n  0  0  0 -1  0\n".toList, ?_, ?_, by decide +kernel⟩
      · exact prettyPrintMatrix_printed (equation := true) (m := [[0, 99989, 0, -1, 0], [99991, 0, -1, 0, 0]]) (Or.inl rfl)
          (by simp) (by decide +kernel)
      · exact prettyPrintMatrix_printed (equation := false) (m := [[0, 0, -1, 0, 0], [0, 0, 0, -1, 0]]) (Or.inl rfl)
          (by simp) (by decide +kernel)
    · intro a ha
      simp only [List.mem_cons, List.not_mem_nil, or_false] at ha
      rcases ha with rfl | rfl <;>
      · simp only [Spec.Constraint.HoldsAt, if_true]
        unfold Spec.value
        rw [Fin.sum_univ_four]
        norm_num [show (![5, 0, 499955, 0] : Fin 4 → ℚ) 2 = 499955 from rfl, show (![5, 0, 499955, 0] : Fin 4 → ℚ) 3 = 0 from rfl]
    · intro a ha
      simp only [List.mem_cons, List.not_mem_nil, or_false] at ha
      rcases ha with rfl | rfl <;>
      · simp only [Spec.Constraint.HoldsAt]
        unfold Spec.value
        rw [Fin.sum_univ_four]
        norm_num [show (![5, 0, 499955, 0] : Fin 4 → ℚ) 2 = 499955 from rfl, show (![5, 0, 499955, 0] : Fin 4 → ℚ) 3 = 0 from rfl]
    · intro h
      obtain ⟨a, b, c, h1, h2, h3, h4, h5⟩ := (lost_hull _).1 h
      have := congrFun h5 0
      simp at this
      linarith

end Panda
