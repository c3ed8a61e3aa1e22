import Verif.Proofs.MainMaps

/-! # C63: the program on files with symmetries -/

namespace Panda

open Relation

/-! ## the computation with the selected type -/

theorem typed_simplifyLoop_distinct : ∀ (fuel : Nat) (done : List Term) (rest : Image), (rest.map Prod.fst).Nodup →
    Typed.simplifyLoop fuel done rest = .ok (done.reverse ++ rest)
  | 0, _, _, _ => rfl
  | _ + 1, _, [], _ => by simp [Typed.simplifyLoop]
  | _ + 1, _, [a], _ => by simp [Typed.simplifyLoop]
  | fuel + 1, done, a :: b :: rest, h => by
    rw [Typed.simplifyLoop]
    have hne : a.1 ≠ b.1 := by
      simp only [List.map_cons, List.nodup_cons, List.mem_cons, not_or] at h; exact h.1.1
    rw [if_neg hne, typed_simplifyLoop_distinct fuel (a :: done) (b :: rest) (by
      simp only [List.map_cons, List.nodup_cons] at h ⊢; exact h.2)]
    simp

theorem sortImage_nodup {im : Image} (h : (im.map Prod.fst).Nodup) : ((sortImage im).map Prod.fst).Nodup := by
  exact ((sortImage_perm im).map Prod.fst).nodup_iff.2 h

/-- without equations and repetitions, adapting the maps computes nothing with the selected type -/
theorem typed_normalizeMaps_nil (A : Arith) : ∀ {ms : Maps}, (∀ m ∈ ms, ∀ im ∈ m, (im.map Prod.fst).Nodup) →
    Typed.normalizeMaps A ms [] = normalizeMaps ms []
  | [], _ => rfl
  | m :: ms, h => by
    have e : Typed.normalizeMaps A (m :: ms) [] = (Typed.normalizeMap A m []).bind fun b =>
      (Typed.normalizeMaps A ms []).bind fun bs => .ok (b :: bs) := rfl
    have hs : ∀ m : SymMap, (∀ im ∈ m, (im.map Prod.fst).Nodup) → Typed.simplifyMap m = simplifyMap m := by
      intro m
      induction m with
      | nil => intro _; rfl
      | cons im m ih =>
        intro hm
        have e : Typed.simplifyMap (im :: m) = (Typed.simplifyLoop (2 * im.length) [] (sortImage im)).bind fun b =>
          (Typed.simplifyMap m).bind fun bs => .ok (b :: bs) := rfl
        rw [e, ih fun x hx => hm x (List.mem_cons_of_mem _ hx)]
        unfold simplifyMap simplifyImage
        rw [typed_simplifyLoop_distinct _ _ _ (sortImage_nodup (hm im List.mem_cons_self)),
          simplifyLoop_distinct _ _ _ (sortImage_nodup (hm im List.mem_cons_self))]
        cases m <;> rfl
    have h1 : Typed.normalizeMap A m [] = normalizeMap m [] := by
      unfold Typed.normalizeMap normalizeMap
      have : eliminatedIndices [] = [] := rfl
      rw [this]
      simp only [eliminateZeroCoefficients, Typed.subtractEquations, subtractEquations, Outcome.bind]
      exact hs m (h m List.mem_cons_self)
    rw [e, h1, typed_normalizeMaps_nil A fun x hx => h x (List.mem_cons_of_mem _ hx)]
    rfl

/-- the double description method for facets, with a type whose operations are exact or fail; what adapting the maps does with
that type is given -/
theorem facetDD_conv_maps {A : Arith} {R : Int → Prop} {t u : Prop} (L : Law A R t u)
    (hof : ∀ a, Spec.IsInt a → Sim t u R (A.ofInt a) (.ok a)) (hto : ∀ a, R a → Sim t u Spec.IsInt (A.toInt a) (.ok a))
    {maps : Maps} {V : Matrix} (hV : MatR Spec.IsInt V)
    (hm : ∀ E, extractEquations V = .ok E →
      Sim t u (fun ms => ∀ m ∈ ms, MapR Spec.IsInt m) (Typed.normalizeMaps A maps E) (normalizeMaps maps E)) (fuel : Nat) :
    RunSim t u (fun o => MatR Spec.IsInt o.equations ∧ MatR Spec.IsInt o.inequalities)
      (Typed.facetEnumerationDD A fuel V maps) (facetEnumerationDD fuel V maps) := by
  unfold Typed.facetEnumerationDD facetEnumerationDD
  refine RunSim.bindOk (traverse_cast hof hV).lift fun h1 => ?_
  have hE : Sim t u (fun E => MatR R E ∧ extractEquations V = .ok E) (Typed.extractEquations A V) (extractEquations V) := by
    rcases extractEquations_sim L h1 with ⟨e, h⟩ | h | h
    · exact Or.inl ⟨e, fun v hv => ⟨h v hv, hv⟩⟩
    · exact Or.inr (Or.inl h)
    · exact Or.inr (Or.inr h)
  refine hE.lift.bind fun E hE => (hm E hE.2).lift.bind fun ms hms => ?_
  refine RunSim.bindOk (traverse_cast hto hE.1).lift fun h2 => ?_
  refine (fourierMotzkin_sim L h1).lift.bind fun I hI => (classes_sim L hof hms hI).bind fun C hC => ?_
  exact RunSim.bindOk (traverse_cast hto hC).lift fun h3 => RunSim.done ⟨h2, h3⟩

theorem normalizeMaps_nil_mapR {maps mm : Maps} (hm : IntMaps maps) (hnod : ∀ m ∈ maps, ∀ im ∈ m, (im.map Prod.fst).Nodup)
    (h : normalizeMaps maps [] = .ok mm) : ∀ m ∈ mm, MapR Spec.IsInt m := by
  have := normalizeMaps_sim (A := fixedArith 32) (R := Spec.IsInt) (S := Spec.IsInt) (t := False) (u := True) (by unfold Spec.IsInt; decide)
    (fixed32_factors False) (E := []) (by intro r hr; simp at hr) (ms := maps) hm
  rw [typed_normalizeMaps_nil _ hnod, h] at this
  rcases this with ⟨-, h⟩ | ⟨h, -⟩ | ⟨-, h⟩
  · exact h mm rfl
  · exact h.elim
  · simp at h

/-- without equations -/
theorem facetDD_selected_maps {V : Matrix} {maps : Maps} (hV : IntMatrix V) (hm : IntMaps maps)
    (hnod : ∀ m ∈ maps, ∀ im ∈ m, (im.map Prod.fst).Nodup) (hE : extractEquations V = .ok []) {ty : IntegerType}
    (hty : ty = .safe ∨ ty = .default ∨ ty = .fixed32) (fuel : Nat) :
    RunSim (ty = .safe) (ty ≠ .safe) (fun o => MatR Spec.IsInt o.equations ∧ MatR Spec.IsInt o.inequalities)
      (Typed.facetEnumerationDD (selectArith ty) fuel V maps) (facetEnumerationDD fuel V maps) := by
  obtain ⟨mm, hmm⟩ := C25_no_equations hnod
  have key : ∀ (A : Arith) (t u : Prop) (E : Matrix), extractEquations V = .ok E →
      Sim t u (fun ms => ∀ m ∈ ms, MapR Spec.IsInt m) (Typed.normalizeMaps A maps E) (normalizeMaps maps E) := by
    intro A t u E h
    rw [hE] at h
    obtain rfl : [] = E := by simpa using h
    rw [typed_normalizeMaps_nil A hnod, hmm]
    exact Sim.ok (normalizeMaps_nil_mapR hm hnod hmm)
  rcases hty with rfl | hty
  · rcases facetDD_conv_maps (safe_law False) safe_ofInt (fun a _ => safe_toInt a) hV (key _ _ _) fuel with h | ⟨_, h⟩ | ⟨h, _⟩
    · exact Or.inl h
    · exact Or.inr (Or.inl ⟨rfl, h⟩)
    · exact h.elim
  · have hs : selectArith ty = fixedArith 32 := by rcases hty with rfl | rfl <;> rfl
    have hne : ty ≠ .safe := by rcases hty with rfl | rfl <;> decide
    rw [hs]
    rcases facetDD_conv_maps (fixed32_law False) fixed32_ofInt (fun a ha => fixed32_ofInt a ha) hV (key _ _ _) fuel with h | ⟨h, _⟩ | ⟨_, h⟩
    · exact Or.inl h
    · exact h.elim
    · exact Or.inr (Or.inr ⟨hne, h⟩)

/-! ## files with maps -/

/-- every map of a file has an image for every variable -/
theorem vertexFile_maps {c c' : Spec.VertexContent} {text : List Char} (h : Spec.VertexFile c text c')
    (hc : ∀ ls ∈ c.maps, ls.length = c.names.length) : ∀ ls ∈ c'.maps, ls.length = c'.names.length := by
  induction h with
  | nil => exact hc
  | names _ _ _ _ hm _ ih => exact ih (by rw [hm]; simp)
  | maps _ _ hl _ hrest ih =>
    refine ih ?_
    clear ih hrest
    dsimp only
    induction hl with
    | nil => simp
    | blank _ _ ih => exact ih
    | line h1 _ _ _ ih =>
      intro ls hls
      rcases List.mem_cons.1 hls with rfl | hls
      · exact h1.2.1
      · exact ih ls hls
  | other _ _ _ ih => exact ih hc
  | points _ _ _ _ _ ih => exact ih hc
  | rays _ _ _ _ _ ih => exact ih hc
  | dimension _ _ _ _ _ _ _ _ ih => exact ih hc

theorem hull_point {n : Nat} {points rays : List (List (Int × Int))} (i : Fin points.length) :
    Spec.InHull n points rays (Spec.point n points[i]) := by
  refine ⟨fun j => if j = i then 1 else 0, fun _ => 0, fun j => by dsimp only; split <;> norm_num, by simp, ?_, ?_⟩
  · rw [Finset.sum_ite_eq' Finset.univ i]; simp
  · simp

theorem inPolyhedron_nonempty {n : Nat} {V : Matrix} (hV : Spec.IsVInput n V) : ∃ p, Spec.InPolyhedron n V p := by
  obtain ⟨v, hv, h0⟩ := hV.vertex
  obtain ⟨j, hj, e⟩ := List.getElem_of_mem hv
  have e' : V[(⟨j, hj⟩ : Fin V.length)] = v := e
  refine ⟨Spec.coord n v, fun i => if i = ⟨j, hj⟩ then 1 else 0, fun i => by dsimp only; split <;> norm_num, ?_, ?_⟩
  · rw [Finset.sum_eq_single (⟨j, hj⟩ : Fin V.length)]
    · rw [e', if_neg h0.ne']; exact if_pos rfl
    · intro b _ hb; dsimp only; rw [if_neg hb]; simp
    · intro h; exact absurd (Finset.mem_univ _) h
  · rw [Finset.sum_eq_single (⟨j, hj⟩ : Fin V.length)]
    · rw [e']; dsimp only; rw [if_pos rfl, one_smul]
    · intro b _ hb; dsimp only; rw [if_neg hb, zero_smul]
    · intro h; exact absurd (Finset.mem_univ _) h

/-- a hull that is not contained in a hyperplane has no equations -/
theorem equations_of_solid_set {n : Nat} {V : Matrix} {S : (Fin n → ℚ) → Prop} (hV : Spec.IsVInput n V)
    (h : ∀ p, Spec.InPolyhedron n V p ↔ S p) (hs : Spec.Solid S) :
    extractEquations V = .ok [] := by
  obtain ⟨E, F0, e1, -, hsp, -, -⟩ := dd_ok hV
  obtain ⟨E', F, c1, c2, c3⟩ := C08_dd_complete hV
  rw [e1] at c1; cases c1
  rw [e1]
  cases E with
  | nil => rfl
  | cons e E =>
    exfalso
    have hval : ∀ p, S p → Spec.value n e p = 0 := fun p hp =>
      ((c3 p).1 ((h p).2 hp)).1 e List.mem_cons_self
    have h0 := hs (fun i => (e.getD i 0 : ℚ)) (-(e.getD n 0 : ℚ)) fun p hp => by
      have := hval p hp
      unfold Spec.value at this
      linarith
    obtain ⟨l1, l2⟩ := hsp.E_lead e List.mem_cons_self
    have hz : ∀ i, i < n → e.getD i 0 = 0 := fun i hi => by
      have := congrFun h0 ⟨i, hi⟩
      simpa using this
    have hn : e.getD n 0 = 0 := by
      obtain ⟨p, hp⟩ := inPolyhedron_nonempty hV
      have := hval p ((h p).1 hp)
      unfold Spec.value at this
      simp only [hz _ (Fin.is_lt _)] at this
      simpa using this
    rcases Nat.lt_or_ge (firstNonzero e) n with h1 | h1
    · rw [hz _ h1] at l2; exact lt_irrefl _ l2
    · rw [show firstNonzero e = n by omega, hn] at l2; exact lt_irrefl _ l2

theorem equations_of_solid {n : Nat} {V : Matrix} {points rays : List (List (Int × Int))} (hV : Spec.IsVInput n V)
    (h : ∀ p, Spec.InPolyhedron n V p ↔ Spec.InHull n points rays p) (hs : Spec.Solid (Spec.InHull n points rays)) :
    extractEquations V = .ok [] := equations_of_solid_set hV h hs

/-- the input is read completely, and it is the set `S` -/
def ReadsHull (files : Files) (args : List Arg) (n : Nat) (names : Names) (lss : List (List (List (Option (List Char) × Int))))
    (S : (Fin n → ℚ) → Prop) : Prop :=
  ∃ (V : Matrix) (maps : Maps) (N : Nat), (∀ fuel ≥ N, inputVertices fuel files args = some (.ok (V, names, maps, []))) ∧
    IntMatrix V ∧ List.Forall₂ (Spec.DoesImages names) lss maps ∧ Spec.IsVInput n V ∧ ∀ p, Spec.InPolyhedron n V p ↔ S p

theorem readsHull_file {args : List Arg} {f text : List Char} {files : Files} {order : InputOrder} {c : Spec.VertexContent} {n : Nat}
    (ha : Spec.PlainCommand args f) (hf : files f = some text) (ho : getInputOrder args = .ok order)
    (h20 : Spec.EarlyHeader 20 text) (h : Spec.VertexFile {} text c) (hc : c.Consistent n) (hp : c.points ≠ []) :
    ReadsHull files args n c.names c.maps (Spec.InHull n c.points c.rays) := by
  obtain ⟨V, maps, h1, v1, v2, v3, -, v5, v6, N, h4⟩ := C57_hull ha hf ho h20 h hc
  exact ⟨V, maps, N, h4, v2, h1, v6 hp, v5⟩

/-- what is known about the input of a run with maps -/
theorem maps_setup {args : List Arg} {files : Files} {names : Names} {n : Nat} {lss : List (List (List (Option (List Char) × Int)))}
    {S : (Fin n → ℚ) → Prop} (hr : ReadsHull files args n names lss S) (hl : names.length = n) (hlss : ∀ ls ∈ lss, ls.length = n)
    (hm : lss ≠ []) (hn : Spec.AdmissibleNames names) (hsym : ∀ m ∈ lss, Spec.MapsOnto names m S ∧ Spec.PlainImages m)
    (hsolid : Spec.Solid S) :
    ∃ (V R : Matrix) (maps : Maps) (N : Nat), (∀ fuel ≥ N, inputVertices fuel files args = some (.ok (V, names, maps, []))) ∧
      IntMatrix V ∧ IntMaps maps ∧ maps ≠ [] ∧ (∀ m ∈ maps, ∀ im ∈ m, (im.map Prod.fst).Nodup) ∧ Spec.IsVInput n V ∧
      (∀ p, Spec.InPolyhedron n V p ↔ S p) ∧ extractEquations V = .ok [] ∧
      (∀ m ∈ maps, Spec.IsHullSymmetry (n + 1) V m ∧ Spec.IsAffine n m) ∧
      (∀ fuel ≥ N, facetEnumerationDD fuel V maps = some (.ok ⟨[], true, R⟩)) ∧ R.Nodup ∧ (∀ r ∈ R, r.length = n + 1) ∧
      (∃ mm, normalizeMaps maps [] = .ok mm) ∧ List.replicate n 0 ++ [-1] ∉ R ∧
      (∀ p, S p ↔ ∀ p', Spec.Moved names lss p p' → ∀ r ∈ R, Spec.value n r p' ≤ 0) ∧
      ∀ a ∈ R, ∃ p, (∀ p', Spec.Moved names lss p p' → ∀ b ∈ R, b ≠ a → Spec.value n b p' ≤ 0) ∧
        ¬ S p := by
  obtain ⟨V, maps', N, h4, v2, h3, hV, v5⟩ := hr
  have hE := equations_of_solid_set hV v5 hsolid
  obtain ⟨d1, d2⟩ := forall₂_both h3
  have hs : ∀ m ∈ maps', Spec.IsHullSymmetry (n + 1) V m := fun m hmm => by
    obtain ⟨ls, k1, k2⟩ := d2 m hmm
    refine hullSymmetry_of_mapsOnto hV hn.1 hl (hlss ls k1) k2 ?_
    rw [show Spec.InPolyhedron n V = S from funext fun p => propext (v5 p)]
    exact (hsym ls k1).1
  have hm' : maps' ≠ [] := by
    rintro rfl
    exact hm (List.forall₂_nil_right_iff.1 h3)
  obtain ⟨R, N2, r1, r2, r3, r4, r5, r6, r7, r8⟩ := reduced_exact hV hE hn.1 hl hlss h3 hs fun ls hls => (hsym ls hls).2
  refine ⟨V, R, maps', max N N2, fun fuel hf => h4 fuel (le_trans (le_max_left _ _) hf), v2, fun m hmm => ?_, hm', fun m hmm => ?_, hV, v5, hE,
    fun m hmm => ⟨hs m hmm, r5 m hmm⟩, fun fuel hf => ?_, r2, r3, r4, r6, fun p => by rw [← v5 p, r7 p], fun a ha => ?_⟩
  · obtain ⟨ls, k1, k2⟩ := d2 m hmm
    exact k2.2.2.1
  · obtain ⟨ls, k1, k2⟩ := d2 m hmm
    exact k2.2.2.2 (hsym ls k1).2
  · rw [r1 fuel (le_trans (le_max_right _ _) hf), decide_eq_true hm']
  · obtain ⟨p, p1, p2⟩ := r8 a ha
    exact ⟨p, p1, fun h0 => p2 ((v5 p).2 h0)⟩

/-- the printed representatives mean what the rows mean -/
theorem printed_reduced {names : Names} {n : Nat} {lss : List (List (List (Option (List Char) × Int)))} {R rows : Matrix} {S : (Fin n → ℚ) → Prop}
    (hn : Spec.AdmissibleNames names) (hl : names.length = n) (hlen : ∀ r ∈ rows, r.length = n + 1) (hnodup : rows.Nodup)
    (hrows : ∀ r, (r ∈ rows ∧ r ≠ List.replicate n 0 ++ [-1]) ↔ r ∈ R)
    (h1 : ∀ p, S p ↔ ∀ p', Spec.Moved names lss p p' → ∀ r ∈ R, Spec.value n r p' ≤ 0)
    (h2 : ∀ a ∈ R, ∃ p, (∀ p', Spec.Moved names lss p p' → ∀ b ∈ R, b ≠ a → Spec.value n b p' ≤ 0) ∧ ¬ S p) :
    (rows.map (constraintOf false names)).Nodup ∧
      (∀ p, S p ↔ ∀ p', Spec.Moved names lss p p' → ∀ a ∈ rows.map (constraintOf false names), a.HoldsAt false names p') ∧
      ∀ a ∈ rows.map (constraintOf false names), a ≠ constraintOf false names (List.replicate n 0 ++ [-1]) → ∃ p,
        (∀ p', Spec.Moved names lss p p' → ∀ b ∈ rows.map (constraintOf false names), b ≠ a → b.HoldsAt false names p') ∧ ¬ S p := by
  have hh : ∀ r ∈ rows, ∀ p : Fin n → ℚ, (constraintOf false names r).HoldsAt false names p ↔ Spec.value n r p ≤ 0 := fun r hr p =>
    constraintOf_holds (equation := false) (Or.inr hn) (fun _ => hl) (hlen r hr) p
  refine ⟨List.Nodup.map_on (fun x hx y hy e => constraintOf_injective (Or.inr hn) (fun _ => hl) (hlen x hx) (hlen y hy) e) hnodup, fun p => ?_,
    fun a ha hat => ?_⟩
  · rw [h1 p]
    constructor
    · intro h p' hp' a ha
      obtain ⟨r, hr, rfl⟩ := List.mem_map.1 ha
      by_cases h0 : r = List.replicate n 0 ++ [-1]
      · rw [h0]; exact holds_trivial (Or.inr hn) (fun _ => hl) p'
      · exact (hh r hr p').2 (h p' hp' r ((hrows r).1 ⟨hr, h0⟩))
    · intro h p' hp' r hr
      have hr := ((hrows r).2 hr).1
      exact (hh r hr p').1 (h p' hp' _ (List.mem_map.2 ⟨r, hr, rfl⟩))
  · obtain ⟨a, haR, rfl⟩ := List.mem_map.1 ha
    obtain ⟨p, hp, hp'⟩ := h2 a ((hrows a).1 ⟨haR, fun h0 => hat (by rw [h0])⟩)
    refine ⟨p, fun p' hm b hb hba => ?_, hp'⟩
    obtain ⟨b, hbR, rfl⟩ := List.mem_map.1 hb
    by_cases h0 : b = List.replicate n 0 ++ [-1]
    · rw [h0]; exact holds_trivial (Or.inr hn) (fun _ => hl) p'
    · exact (hh b hbR p').2 (hp p' hm b ((hrows b).1 ⟨hbR, h0⟩) fun e => hba (by rw [e]))

/-- the rows that are printed in reduced form, for every way to read the input -/
structure ReducedRows (files : Files) (args : List Arg) (n : Nat) (names : Names) (lss : List (List (List (Option (List Char) × Int))))
    (S : (Fin n → ℚ) → Prop) (R : Matrix) : Prop where
  dd : ∃ (V : Matrix) (maps : Maps) (N : Nat), (∀ fuel ≥ N, inputVertices fuel files args = some (.ok (V, names, maps, []))) ∧
    ∀ fuel ≥ N, facetEnumerationDD fuel V maps = some (.ok ⟨[], true, R⟩)
  nodup : R.Nodup
  length : ∀ r ∈ R, r.length = n + 1
  nontrivial : List.replicate n 0 ++ [-1] ∉ R
  holds : ∀ p, S p ↔ ∀ p', Spec.Moved names lss p p' → ∀ r ∈ R, Spec.value n r p' ≤ 0
  needed : ∀ a ∈ R, ∃ p, (∀ p', Spec.Moved names lss p p' → ∀ b ∈ R, b ≠ a → Spec.value n b p' ≤ 0) ∧ ¬ S p

/-- the run with double description prints the reduced rows -/
theorem hull_rows_dd {ad : Bool → Option ProgramResult} {help : Option ProgramResult} {args : List Arg} {f text : List Char}
    {files : Files} {names : Names} {lss : List (List (List (Option (List Char) × Int)))} {n : Nat} {S : (Fin n → ℚ) → Prop}
    (ha : Spec.CommandLine args [f]) (hf : files f = some text)
    (hd : Spec.UsesDD args) (hi : Spec.UsesChecked args ∨ Spec.UsesInt args) (hh : Spec.NoHelp args)
    (hw : ¬ Spec.HasWordLine Spec.inequalityWords text)
    (hr : ReadsHull files args n names lss S) (hl : names.length = n) (hlss : ∀ ls ∈ lss, ls.length = n) (hm : lss ≠ [])
    (hn : Spec.AdmissibleNames names) (hsym : ∀ m ∈ lss, Spec.MapsOnto names m S ∧ Spec.PlainImages m) (hsolid : Spec.Solid S) :
    ∃ R N, ReducedRows files args n names lss S R ∧ ∀ fuel ≥ N, ∃ r, program ad help fuel files args = some r ∧
      ((r = .failed ∧ Spec.UsesChecked args) ∨ r = .undefined ∨
        ∃ out : List Char, r = .finished 0 out ∧ Spec.PrintedReduced names out (R.map (constraintOf false names))) := by
  obtain ⟨V, R, maps, N, s1, s2, s3, s4, s5, s6, s7, s8, s9, r1, r2, r3, r4, r5, r6, r7⟩ := maps_setup hr hl hlss hm hn hsym hsolid
  obtain ⟨ty, t1, t2, t3, t4⟩ := uses_type hi
  refine ⟨R, N, ⟨⟨V, maps, N, s1, r1⟩, r2, r3, r5, r6, r7⟩, fun fuel hfuel => ?_⟩
  have e1 : program ad help fuel files args = ProgramResult.ofRun (facetsDD fuel files args) := by
    unfold program
    rw [detect_facets ha hf hh hw]
    simp only [enumeration, usesDD_method hd, if_true]
  have e2 : facetsDD fuel files args = Run.bind (Typed.facetEnumerationDD (selectArith ty) fuel V maps) fun o =>
      .lift (printFacetOutput o names) := by
    unfold facetsDD
    rw [t1]
    simp only [Run.lift, Run.bind]
    rw [s1 fuel hfuel]
  rw [e1, e2]
  have hsim := facetDD_selected_maps s2 s3 s5 s8 t2 fuel
  rw [r1 fuel hfuel] at hsim
  rcases hsim with ⟨h8, -⟩ | ⟨hs, h8⟩ | ⟨hs, h8⟩
  · rw [h8]
    simp only [Run.bind, Run.lift]
    rcases prettyPrintMatrix_cases R names "<=".toList with ⟨t, h9⟩ | ⟨h0, h9⟩
    · have h10 : printFacetOutput ⟨[], true, R⟩ names = .ok ("Reduced Inequalities:\n".toList ++ t) := by
        unfold printFacetOutput
        simp only [prettyPrintMatrix, Outcome.bind, h9]
        rfl
      rw [h10]
      refine ⟨_, rfl, Or.inr (Or.inr ⟨_, rfl, ⟨t, ?_, rfl⟩⟩)⟩
      exact prettyPrintMatrix_printed (equation := false) (Or.inr hn) (fun r hr h0 => by have := r3 r hr; rw [h0] at this; simp at this) h9
    · have h10 : printFacetOutput ⟨[], true, R⟩ names = .ub := by
        unfold printFacetOutput
        simp only [prettyPrintMatrix, Outcome.bind, h9]
      rw [h10]
      exact ⟨_, rfl, Or.inr (Or.inl rfl)⟩
  · rw [h8]
    exact ⟨_, rfl, Or.inl ⟨rfl, t4 hs⟩⟩
  · rw [h8]
    exact ⟨_, rfl, Or.inr (Or.inl rfl)⟩

/-- the run with double description, for every way to read the input -/
theorem hull_facets_dd {ad : Bool → Option ProgramResult} {help : Option ProgramResult} {args : List Arg} {f text : List Char}
    {files : Files} {names : Names} {lss : List (List (List (Option (List Char) × Int)))} {n : Nat} {S : (Fin n → ℚ) → Prop}
    (ha : Spec.CommandLine args [f]) (hf : files f = some text)
    (hd : Spec.UsesDD args) (hi : Spec.UsesChecked args ∨ Spec.UsesInt args) (hh : Spec.NoHelp args)
    (hw : ¬ Spec.HasWordLine Spec.inequalityWords text)
    (hr : ReadsHull files args n names lss S) (hl : names.length = n) (hlss : ∀ ls ∈ lss, ls.length = n) (hm : lss ≠ [])
    (hn : Spec.AdmissibleNames names) (hsym : ∀ m ∈ lss, Spec.MapsOnto names m S ∧ Spec.PlainImages m) (hsolid : Spec.Solid S) :
    ∃ N, ∀ fuel ≥ N, ∃ r, program ad help fuel files args = some r ∧
      ((r = .failed ∧ Spec.UsesChecked args) ∨ r = .undefined ∨
        ∃ (out : List Char) (ineqs : List Spec.Constraint), r = .finished 0 out ∧ Spec.PrintedReduced names out ineqs ∧
          ineqs.Nodup ∧
          (∀ p : Fin n → ℚ, S p ↔ ∀ p', Spec.Moved names lss p p' → ∀ a ∈ ineqs, a.HoldsAt false names p') ∧
          ∀ a ∈ ineqs, ∃ p : Fin n → ℚ, (∀ p', Spec.Moved names lss p p' → ∀ b ∈ ineqs, b ≠ a → b.HoldsAt false names p') ∧ ¬ S p) := by
  obtain ⟨R, N, hR, h⟩ := hull_rows_dd (ad := ad) (help := help) ha hf hd hi hh hw hr hl hlss hm hn hsym hsolid
  refine ⟨N, fun fuel hfuel => ?_⟩
  obtain ⟨r, h1, h2⟩ := h fuel hfuel
  refine ⟨r, h1, h2.imp_right (Or.imp_right ?_)⟩
  rintro ⟨out, h3, h4⟩
  have hrows : ∀ r, (r ∈ R ∧ r ≠ List.replicate n 0 ++ [-1]) ↔ r ∈ R :=
    fun r => ⟨fun h => h.1, fun h => ⟨h, fun e => hR.nontrivial (e ▸ h)⟩⟩
  obtain ⟨p1, p2, p3⟩ := printed_reduced hn hl hR.length hR.nodup hrows hR.holds hR.needed
  refine ⟨out, _, h3, h4, p1, p2, fun a ha => p3 a ha ?_⟩
  obtain ⟨a, haR, rfl⟩ := List.mem_map.1 ha
  intro e
  exact hR.nontrivial (constraintOf_injective (Or.inr hn) (fun _ => hl) (hR.length a haR) (by simp) e ▸ haR)

/-- **C63** (double description) Running the facet enumeration (double description, with checked or 32-bit integers) on a file
of the documented format with names, points and maps, where the hull is not contained in a hyperplane, every map maps the
hull onto itself, and no image mentions a variable twice: if the program finishes, it prints
inequalities, none twice, such that a point is in the hull if and only if all its images under products of the maps satisfy
them; no inequality can be left out.  It always ends; the other ends are overflow, reported with checked integers. -/
theorem C63_facets_dd {ad : Bool → Option ProgramResult} {help : Option ProgramResult} {args : List Arg} {f text : List Char}
    {files : Files} {order : InputOrder} {c : Spec.VertexContent} {n : Nat}
    (ha : Spec.PlainCommand args f) (hf : files f = some text) (ho : getInputOrder args = .ok order)
    (hd : Spec.UsesDD args) (hi : Spec.UsesChecked args ∨ Spec.UsesInt args) (hh : Spec.NoHelp args)
    (hw : ¬ Spec.HasWordLine Spec.inequalityWords text)
    (h20 : Spec.EarlyHeader 20 text) (h : Spec.VertexFile {} text c) (hc : c.Consistent n) (hp : c.points ≠ []) (hm : c.maps ≠ [])
    (hn : Spec.AdmissibleNames c.names) (hsym : ∀ m ∈ c.maps, Spec.MapsOnto c.names m (Spec.InHull n c.points c.rays) ∧ Spec.PlainImages m)
    (hsolid : Spec.Solid (Spec.InHull n c.points c.rays)) :
    ∃ N, ∀ fuel ≥ N, ∃ r, program ad help fuel files args = some r ∧
      ((r = .failed ∧ Spec.UsesChecked args) ∨ r = .undefined ∨
        ∃ (out : List Char) (ineqs : List Spec.Constraint), r = .finished 0 out ∧ Spec.PrintedReduced c.names out ineqs ∧
          ineqs.Nodup ∧
          (∀ p : Fin n → ℚ, Spec.InHull n c.points c.rays p ↔
            ∀ p', Spec.Moved c.names c.maps p p' → ∀ a ∈ ineqs, a.HoldsAt false c.names p') ∧
          ∀ a ∈ ineqs, ∃ p : Fin n → ℚ, (∀ p', Spec.Moved c.names c.maps p p' → ∀ b ∈ ineqs, b ≠ a → b.HoldsAt false c.names p') ∧
            ¬ Spec.InHull n c.points c.rays p) :=
  hull_facets_dd ha.1 hf hd hi hh hw (readsHull_file ha hf ho h20 h hc hp) (hc.2.2.2.1 (Or.inr hm))
    (fun ls hls => by rw [vertexFile_maps h (by simp) ls hls, hc.2.2.2.1 (Or.inr hm)]) hm hn hsym hsolid

/-- what a finished run of the threads has printed -/
theorem ad_finish {hardware : Nat} {help : Option ProgramResult} {args : List Arg} {files : Files} {ty : IntegerType} {N : Nat} {u w : Prop}
    {Q : ADProgram → Prop} {a0 : ADStart} {G : Row → Prop}
    (e1 : ∀ ad fuel, program ad help fuel files args = ad true) (t1 : integerType args = .ok ty)
    (q0 : ∀ fuel ≥ N, adProgramFacets hardware fuel files args = adProgramFacets hardware N files args)
    (q : ∀ fuel ≥ N, (adProgramFacets hardware fuel files args = some .thrown ∧ ty = .safe) ∨
      (adProgramFacets hardware fuel files args = some .ub ∧ w) ∨
      ∃ a R, adProgramFacets hardware fuel files args = some (.ok a) ∧ Q a ∧ ADCore (selectArith ty) R (ty = .safe) u a a0 .facet G) :
    (∃ r, ProgramEnds hardware help files args r) ∧ ∀ r, ProgramEnds hardware help files args r →
      (r = .failed ∧ ty = .safe) ∨ (r = .undefined ∧ (w ∨ u ∨ ∃ a, Q a ∧ a.names ≠ [])) ∨
        ∃ (a : ADProgram) (R : Int → Prop) (out : List Char) (s : Pool (Fin a.threads)) (ti : List Char), r = .finished 0 out ∧ Q a ∧
          ADCore (selectArith ty) R (ty = .safe) u a a0 .facet G ∧ PoolReach (adProgramConfig (selectArith ty) a) s ∧
          (∃ i, s.pc i = .stopped) ∧ prettyPrintMatrix s.printed a.names "<=".toList = .ok ti ∧ out = a.head ++ ti := by
  obtain ⟨h1, h2⟩ := ad_ends (hardware := hardware) (Q := fun a b => Q a ∧ b = a0) (tag := .facet) (G := G) (u := u) (w := w) e1 t1 q0 (fun fuel hf => by
    rcases q fuel hf with h | h | ⟨a, R, h3, h4, h5⟩
    · exact Or.inl h
    · exact Or.inr (Or.inl h)
    · exact Or.inr (Or.inr ⟨a, R, a0, h3, ⟨h4, rfl⟩, h5⟩))
  refine ⟨h1, fun r hr => ?_⟩
  rcases h2 r hr with h | ⟨h3, h4⟩ | ⟨a, b, R, out, s, ti, h3, ⟨h4, rfl⟩, h5, h6, h7, h8, h9⟩
  · exact Or.inl h
  · refine Or.inr (Or.inl ⟨h3, h4.imp_right fun h4 => h4.imp_right ?_⟩)
    rintro ⟨a, b, ⟨h5, -⟩, -, h6⟩
    exact ⟨a, h5, h6⟩
  · exact Or.inr (Or.inr ⟨a, R, out, s, ti, h3, h4, h5, h6, ⟨⟨0, h5.threads⟩, h7.2.2 _⟩, h8, h9⟩)

theorem ad_maps_setup {hardware : Nat} {args : List Arg} {files : Files} {names : Names}
    {lss : List (List (List (Option (List Char) × Int)))} {n : Nat} {S : (Fin n → ℚ) → Prop}
    (hi : Spec.UsesChecked args ∨ Spec.UsesInt args) (ht : Spec.ThreadsOk args)
    (hr : ReadsHull files args n names lss S) (hl : names.length = n) (hlss : ∀ ls ∈ lss, ls.length = n) (hm : lss ≠ [])
    (hn : Spec.AdmissibleNames names) (hsym : ∀ m ∈ lss, Spec.MapsOnto names m S ∧ Spec.PlainImages m) (hsolid : Spec.Solid S)
    (hplane : Spec.Plane S) (hline : ¬ Spec.Line S) :
    ∃ (ty : IntegerType) (V R : Matrix) (maps : Maps) (a0 : ADStart) (N : Nat), integerType args = .ok ty ∧ (Spec.UsesChecked args ↔ ty = .safe) ∧
      ReducedRows files args n names lss S R ∧
      (∀ (ι : Type) [DecidableEq ι] [Fintype ι] (remote : ι → Prop) (s : Pool ι), PoolReach (adConfig remote V .facet a0) s →
        (∃ i, s.pc i = .stopped) → ∀ r, (r ∈ s.printed ∧ r ≠ List.replicate n 0 ++ [-1]) ↔ r ∈ R) ∧
      (∀ fuel ≥ N, adProgramFacets hardware fuel files args = adProgramFacets hardware N files args) ∧
      ∀ fuel ≥ N,
        (adProgramFacets hardware fuel files args = some .thrown ∧ ty = .safe) ∨
        (adProgramFacets hardware fuel files args = some .ub ∧ (ty ≠ .safe ∨ names ≠ [])) ∨
        ∃ a R, adProgramFacets hardware fuel files args = some (.ok a) ∧
          (a.names = names ∧ a.matrix = V ∧ a.head = "Reduced Inequalities:\n".toList) ∧
          ADCore (selectArith ty) R (ty = .safe) (ty ≠ .safe) a a0 .facet (ADGood (n + 1) V [] maps .facet) := by
  obtain ⟨V, R, maps, N, s1, s2, s3, s4, s5, s6, s7, s8, s9, r1, r2, r3, r4, r5, r6, r7⟩ := maps_setup hr hl hlss hm hn hsym hsolid
  have hIH : Spec.InPolyhedron n V = S := funext fun p => propext (s7 p)
  have hrank : 3 ≤ Spec.rank (n + 1) V := rank_of_plane s6.last (by rw [hIH]; exact hplane)
  have hnl : ¬ Spec.ContainsLine n V := by unfold Spec.ContainsLine; rw [hIH]; exact hline
  obtain ⟨ty, t1, t2, t3, t4⟩ := uses_type hi
  obtain ⟨T, hT, hT0⟩ := threadsOk (hardware := hardware) ht
  have hin : ADInput n V [] maps maps [] :=
    { input := s6, rank := by omega, symmetries := s9, equations := s8, leading := fun _ _ => by simp [Spec.Adaptable]
      reduced := by unfold reduceFacet; rw [s8]; rfl
      known := by simp }
  obtain ⟨a1, b, F', N3, k1, k2, -, k4⟩ := C19_same_as_dd_partial hin (Or.inr ⟨hrank, hnl⟩) r4
  obtain rfl : F' = R := by
    have e1 := k2 (max N N3) (le_max_right _ _)
    rw [r1 (max N N3) (le_max_left _ _)] at e1
    simp only [Option.some.injEq, Outcome.ok.injEq, FacetOutput.mk.injEq] at e1
    exact e1.2.2.symm
  obtain ⟨N4, a0, q1, q0, q2⟩ := adProgramFacets_cases (hardware := hardware) t1 t2 s1 s2 hT hT0 hin s3
  obtain rfl : a1 = a0 := by
    have e1 := q1 (max N3 N4) (le_max_right _ _)
    rw [k1 (max N3 N4) (le_max_left _ _)] at e1
    simpa using e1
  refine ⟨ty, V, F', maps, a1, N4, t1, ⟨t3, t4⟩, ⟨⟨V, maps, N, s1, r1⟩, r2, r3, r5, r6, r7⟩, k4, q0, fun fuel hfuel => ?_⟩
  have hu : (ty ≠ .safe ∨ (maps ≠ [] ∧ ([] : Matrix) ≠ [])) = (ty ≠ .safe) := by simp
  rcases q2 fuel hfuel with h1 | ⟨h1, h2⟩ | ⟨a, R, te, h1, h2, h3, h4, h5, h6⟩
  · exact Or.inl h1
  · exact Or.inr (Or.inl ⟨h1, by rwa [hu] at h2⟩)
  · refine Or.inr (Or.inr ⟨a, R, h1, ⟨h3, h4, ?_⟩, by rwa [hu] at h6⟩)
    rw [h5, if_neg (by simp), if_pos s4]
    rfl

/-- the runs with adjacency decomposition print the reduced rows -/
theorem hull_rows_ad {hardware : Nat} {help : Option ProgramResult} {args : List Arg} {f text : List Char}
    {files : Files} {names : Names} {lss : List (List (List (Option (List Char) × Int)))} {n : Nat} {S : (Fin n → ℚ) → Prop}
    (ha : Spec.CommandLine args [f]) (hf : files f = some text)
    (hd : Spec.UsesAD args) (hi : Spec.UsesChecked args ∨ Spec.UsesInt args) (ht : Spec.ThreadsOk args) (hh : Spec.NoHelp args)
    (hw : ¬ Spec.HasWordLine Spec.inequalityWords text)
    (hr : ReadsHull files args n names lss S) (hl : names.length = n) (hlss : ∀ ls ∈ lss, ls.length = n) (hm : lss ≠ [])
    (hn : Spec.AdmissibleNames names) (hsym : ∀ m ∈ lss, Spec.MapsOnto names m S ∧ Spec.PlainImages m) (hsolid : Spec.Solid S)
    (hplane : Spec.Plane S) (hline : ¬ Spec.Line S) :
    ∃ R, ReducedRows files args n names lss S R ∧ (∃ r, ProgramEnds hardware help files args r) ∧ ∀ r, ProgramEnds hardware help files args r →
      (r = .failed ∧ Spec.UsesChecked args) ∨ r = .undefined ∨
        ∃ (out : List Char) (P : Matrix), r = .finished 0 out ∧ (∀ r ∈ P, r.length = n + 1) ∧ P.Nodup ∧
          (∀ r, (r ∈ P ∧ r ≠ List.replicate n 0 ++ [-1]) ↔ r ∈ R) ∧ Spec.PrintedReduced names out (P.map (constraintOf false names)) := by
  obtain ⟨ty, V, R, maps, a0, N, t1, t2, hR, k4, q0, q⟩ :=
    ad_maps_setup (hardware := hardware) hi ht hr hl hlss hm hn hsym hsolid hplane hline
  have e1 : ∀ ad fuel, program ad help fuel files args = ad true := by
    intro ad fuel
    unfold program
    rw [detect_facets ha hf hh hw]
    simp only [enumeration, usesAD_method hd]
  obtain ⟨f1, f2⟩ := ad_finish e1 t1 q0 q
  refine ⟨R, hR, f1, fun r hr => ?_⟩
  rcases f2 r hr with ⟨rfl, h1⟩ | ⟨rfl, -⟩ | ⟨a, R', out, s, ti, rfl, ⟨a1, a2, a3⟩, hcore, hreach, hstop, h2, h3⟩
  · exact Or.inl ⟨rfl, t2.2 h1⟩
  · exact Or.inr (Or.inl rfl)
  · right; right
    rw [a1] at h2
    have hpr := fun r => k4 _ _ _ (by rw [← a2, ← hcore.tag]; exact hcore.reach hreach) hstop r
    have hlen : ∀ r ∈ s.printed, r.length = n + 1 := fun r hr => (hcore.printedR hreach hr).1.1.1
    refine ⟨out, s.printed, rfl, hlen, (C26_once hcore.typedSafe hreach).1, hpr, ⟨ti, ?_, by rw [h3, a3]⟩⟩
    exact prettyPrintMatrix_printed (equation := false) (Or.inr hn) (fun r hr h0 => by have := hlen r hr; rw [h0] at this; simp at this) h2

/-- the runs with adjacency decomposition, for every way to read the input -/
theorem hull_facets_ad {hardware : Nat} {help : Option ProgramResult} {args : List Arg} {f text : List Char}
    {files : Files} {names : Names} {lss : List (List (List (Option (List Char) × Int)))} {n : Nat} {S : (Fin n → ℚ) → Prop}
    (ha : Spec.CommandLine args [f]) (hf : files f = some text)
    (hd : Spec.UsesAD args) (hi : Spec.UsesChecked args ∨ Spec.UsesInt args) (ht : Spec.ThreadsOk args) (hh : Spec.NoHelp args)
    (hw : ¬ Spec.HasWordLine Spec.inequalityWords text)
    (hr : ReadsHull files args n names lss S) (hl : names.length = n) (hlss : ∀ ls ∈ lss, ls.length = n) (hm : lss ≠ [])
    (hn : Spec.AdmissibleNames names) (hsym : ∀ m ∈ lss, Spec.MapsOnto names m S ∧ Spec.PlainImages m) (hsolid : Spec.Solid S)
    (hplane : Spec.Plane S) (hline : ¬ Spec.Line S) :
    (∃ r, ProgramEnds hardware help files args r) ∧ ∀ r, ProgramEnds hardware help files args r →
      (r = .failed ∧ Spec.UsesChecked args) ∨ r = .undefined ∨
        ∃ (out : List Char) (ineqs : List Spec.Constraint), r = .finished 0 out ∧ Spec.PrintedReduced names out ineqs ∧
          ineqs.Nodup ∧
          (∀ p : Fin n → ℚ, S p ↔
            ∀ p', Spec.Moved names lss p p' → ∀ a ∈ ineqs, a.HoldsAt false names p') ∧
          ∃ always, (∀ p : Fin n → ℚ, always.HoldsAt false names p) ∧ ∀ a ∈ ineqs, a ≠ always → ∃ p : Fin n → ℚ,
            (∀ p', Spec.Moved names lss p p' → ∀ b ∈ ineqs, b ≠ a → b.HoldsAt false names p') ∧
            ¬ S p := by
  obtain ⟨R, hR, f1, f2⟩ := hull_rows_ad (hardware := hardware) (help := help) ha hf hd hi ht hh hw hr hl hlss hm hn hsym hsolid hplane hline
  refine ⟨f1, fun r hr => (f2 r hr).imp_right (Or.imp_right ?_)⟩
  rintro ⟨out, P, rfl, h1, h2, h3, h4⟩
  obtain ⟨p1, p2, p3⟩ := printed_reduced hn hl h1 h2 h3 hR.holds hR.needed
  exact ⟨out, _, rfl, h4, p1, p2, _, fun p => holds_trivial (Or.inr hn) (fun _ => hl) p, p3⟩

/-- **C63** (adjacency decomposition) The same with adjacency decomposition (the default method) and any number of threads, if the
hull contains three points that are not on a line, but no line: whatever the threads do, if the program finishes, it prints
inequalities, none twice, such that a point is in the hull if and only if all its images under products of the maps satisfy
them; none can be left out, apart from at most one which holds everywhere.  The run can always be brought to an end. -/
theorem C63_facets_ad {hardware : Nat} {help : Option ProgramResult} {args : List Arg} {f text : List Char}
    {files : Files} {order : InputOrder} {c : Spec.VertexContent} {n : Nat}
    (ha : Spec.PlainCommand args f) (hf : files f = some text) (ho : getInputOrder args = .ok order)
    (hd : Spec.UsesAD args) (hi : Spec.UsesChecked args ∨ Spec.UsesInt args) (ht : Spec.ThreadsOk args) (hh : Spec.NoHelp args)
    (hw : ¬ Spec.HasWordLine Spec.inequalityWords text)
    (h20 : Spec.EarlyHeader 20 text) (h : Spec.VertexFile {} text c) (hc : c.Consistent n) (hp : c.points ≠ []) (hm : c.maps ≠ [])
    (hn : Spec.AdmissibleNames c.names) (hsym : ∀ m ∈ c.maps, Spec.MapsOnto c.names m (Spec.InHull n c.points c.rays) ∧ Spec.PlainImages m)
    (hsolid : Spec.Solid (Spec.InHull n c.points c.rays))
    (hplane : Spec.Plane (Spec.InHull n c.points c.rays)) (hline : ¬ Spec.Line (Spec.InHull n c.points c.rays)) :
    (∃ r, ProgramEnds hardware help files args r) ∧ ∀ r, ProgramEnds hardware help files args r →
      (r = .failed ∧ Spec.UsesChecked args) ∨ r = .undefined ∨
        ∃ (out : List Char) (ineqs : List Spec.Constraint), r = .finished 0 out ∧ Spec.PrintedReduced c.names out ineqs ∧
          ineqs.Nodup ∧
          (∀ p : Fin n → ℚ, Spec.InHull n c.points c.rays p ↔
            ∀ p', Spec.Moved c.names c.maps p p' → ∀ a ∈ ineqs, a.HoldsAt false c.names p') ∧
          ∃ always, (∀ p : Fin n → ℚ, always.HoldsAt false c.names p) ∧ ∀ a ∈ ineqs, a ≠ always → ∃ p : Fin n → ℚ,
            (∀ p', Spec.Moved c.names c.maps p p' → ∀ b ∈ ineqs, b ≠ a → b.HoldsAt false c.names p') ∧
            ¬ Spec.InHull n c.points c.rays p :=
  hull_facets_ad ha.1 hf hd hi ht hh hw (readsHull_file ha hf ho h20 h hc hp) (hc.2.2.2.1 (Or.inr hm))
    (fun ls hls => by rw [vertexFile_maps h (by simp) ls hls, hc.2.2.2.1 (Or.inr hm)]) hm hn hsym hsolid hplane hline

theorem hull_terminates {hardware : Nat} {args : List Arg}
    {files : Files} {names : Names} {lss : List (List (List (Option (List Char) × Int)))} {n : Nat} {S : (Fin n → ℚ) → Prop}
    (hi : Spec.UsesChecked args ∨ Spec.UsesInt args) (ht : Spec.ThreadsOk args)
    (hr : ReadsHull files args n names lss S) (hl : names.length = n) (hlss : ∀ ls ∈ lss, ls.length = n) (hm : lss ≠ [])
    (hn : Spec.AdmissibleNames names) (hsym : ∀ m ∈ lss, Spec.MapsOnto names m S ∧ Spec.PlainImages m) (hsolid : Spec.Solid S)
    (hplane : Spec.Plane S) (hline : ¬ Spec.Line S) :
    ∃ N, ∀ fuel ≥ N, adProgramFacets hardware fuel files args ≠ none ∧
      ∀ a ty, adProgramFacets hardware fuel files args = some (.ok a) → integerType args = .ok ty →
        (∀ s out, ADReach (selectArith ty) a (.running s out) → ¬ s.Finished → ∃ σ, ADStep (selectArith ty) a (.running s out) σ ∧
          ∀ s' out', σ = .running s' out' → Progress (adProgramConfig (selectArith ty) a) s s') ∧
        ∀ f : Nat → ADState (Fin a.threads), f 0 = ADState.init (selectArith ty) a → (∀ n, ADStep (selectArith ty) a (f n) (f (n + 1))) →
          ∃ n s s' out out', f n = .running s out ∧ f (n + 1) = .running s' out' ∧ Spurious s s' := by
  obtain ⟨ty, V, R, maps, a0, N, t1, t2, hR, k4, q0, q⟩ :=
    ad_maps_setup (hardware := hardware) hi ht hr hl hlss hm hn hsym hsolid hplane hline
  refine ⟨N, fun fuel hfuel => ?_⟩
  rcases q fuel hfuel with ⟨e, -⟩ | ⟨e, -⟩ | ⟨a, R, e, -, hcore⟩
  · rw [e]; exact ⟨by simp, fun a ty h1 => by simp at h1⟩
  · rw [e]; exact ⟨by simp, fun a ty h1 => by simp at h1⟩
  · rw [e]
    refine ⟨by simp, fun a' ty' h1 h2 => ?_⟩
    rw [t1] at h2
    simp only [Option.some.injEq, Outcome.ok.injEq] at h1 h2
    subst h1; subst h2
    refine ⟨fun s out hr hf => hcore.no_deadlock hr hf, fun f h0 hstep => ?_⟩
    by_contra hno
    exact hcore.terminates f h0 hstep fun n s s' out out' h1 h2 h3 => hno ⟨n, s, s', out, out', h1, h2, h3⟩

/-- **C63** (termination) In the situation of `C63_facets_ad`: the threads start or the program ends before; the threads are never
stuck, and there is no infinite run, if `std::condition_variable` wakes no thread without reason. -/
theorem C63_terminates {hardware : Nat} {args : List Arg} {f text : List Char}
    {files : Files} {order : InputOrder} {c : Spec.VertexContent} {n : Nat}
    (ha : Spec.PlainCommand args f) (hf : files f = some text) (ho : getInputOrder args = .ok order)
    (hi : Spec.UsesChecked args ∨ Spec.UsesInt args) (ht : Spec.ThreadsOk args)
    (h20 : Spec.EarlyHeader 20 text) (h : Spec.VertexFile {} text c) (hc : c.Consistent n) (hp : c.points ≠ []) (hm : c.maps ≠ [])
    (hn : Spec.AdmissibleNames c.names) (hsym : ∀ m ∈ c.maps, Spec.MapsOnto c.names m (Spec.InHull n c.points c.rays) ∧ Spec.PlainImages m)
    (hsolid : Spec.Solid (Spec.InHull n c.points c.rays))
    (hplane : Spec.Plane (Spec.InHull n c.points c.rays)) (hline : ¬ Spec.Line (Spec.InHull n c.points c.rays)) :
    ∃ N, ∀ fuel ≥ N, adProgramFacets hardware fuel files args ≠ none ∧
      ∀ a ty, adProgramFacets hardware fuel files args = some (.ok a) → integerType args = .ok ty →
        (∀ s out, ADReach (selectArith ty) a (.running s out) → ¬ s.Finished → ∃ σ, ADStep (selectArith ty) a (.running s out) σ ∧
          ∀ s' out', σ = .running s' out' → Progress (adProgramConfig (selectArith ty) a) s s') ∧
        ∀ f : Nat → ADState (Fin a.threads), f 0 = ADState.init (selectArith ty) a → (∀ n, ADStep (selectArith ty) a (f n) (f (n + 1))) →
          ∃ n s s' out out', f n = .running s out ∧ f (n + 1) = .running s' out' ∧ Spurious s s' :=
  hull_terminates hi ht (readsHull_file ha hf ho h20 h hc hp) (hc.2.2.2.1 (Or.inr hm))
    (fun ls hls => by rw [vertexFile_maps h (by simp) ls hls, hc.2.2.2.1 (Or.inr hm)]) hm hn hsym hsolid hplane hline

/-! ## an example: a triangle with a map of order three

The list of points contains one that is not a vertex; the map does not permute the list, but the hull. -/

def rotatedText : List Char := "Names:\nx y\nMaps:\n3-x-y x\nVertices:\n0 0\n3 0\n0 3\n1 0\n".toList

def rotatedContent : Spec.VertexContent :=
  { names := ["x".toList, "y".toList]
    maps := [[[(none, 3), (some "x".toList, -1), (some "y".toList, -1)], [(some "x".toList, 1)]]]
    points := [[(0, 1), (0, 1)], [(3, 1), (0, 1)], [(0, 1), (3, 1)], [(1, 1), (0, 1)]] }

theorem rotatedFile : Spec.VertexFile {} rotatedText rotatedContent := by
  obtain ⟨b0, b1⟩ := blanks_example
  have sp : ∀ c : Char, c = ' ' ∨ c = '\n' → Spec.Space c := by rintro c (rfl | rfl) <;> unfold Spec.Space <;> decide
  have n0 : Spec.Fraction "0".toList 0 1 := .whole (Spec.Numeral.plain "0".toList (by decide) (by simp [Spec.Digit]))
  have n1 : Spec.Fraction "1".toList 1 1 := .whole (Spec.Numeral.plain "1".toList (by decide) (by simp [Spec.Digit]))
  have n3' : Spec.Numeral "3".toList 3 := Spec.Numeral.plain "3".toList (by decide) (by simp [Spec.Digit])
  have n3 : Spec.Fraction "3".toList 3 1 := .whole n3'
  have hx : Spec.MapName ['x'] := ⟨⟨'x', [], rfl, by unfold Spec.Space; decide, by unfold Spec.Digit; decide, by decide⟩, by decide, by decide⟩
  have hy : Spec.MapName ['y'] := ⟨⟨'y', [], rfl, by unfold Spec.Space; decide, by unfold Spec.Digit; decide, by decide⟩, by decide, by decide⟩
  refine Spec.VertexFile.names (k := "Names:".toList) (t := "x y\n".toList) (w := "Maps:\n3-x-y x\nVertices:\n0 0\n3 0\n0 3\n1 0\n".toList)
    (names := ["x".toList, "y".toList]) (by decide +kernel) (header_example _ "Names:" (by decide +kernel)) ⟨?_, Or.inr (by decide +kernel), by decide +kernel⟩
    (Or.inr ⟨"Maps:".toList, "3-x-y x\nVertices:\n0 0\n3 0\n0 3\n1 0\n".toList, ⟨by decide +kernel, Or.inl (by decide +kernel)⟩, by decide +kernel,
      header_example _ "Maps:" (by decide +kernel)⟩) rfl ?_
  · refine .cons (s := []) (x := "x".toList) (t := " y\n".toList) (by simp) (by decide) (by unfold Spec.Space; decide) ⟨' ', by decide, sp _ (Or.inl rfl)⟩ ?_
    refine .cons (s := " ".toList) (x := "y".toList) (t := "\n".toList) (fun c hc => sp _ (Or.inl (by simpa using hc))) (by decide)
      (by unfold Spec.Space; decide) ⟨'\n', by decide, sp _ (Or.inr rfl)⟩ ?_
    exact .nil (fun c hc => sp _ (Or.inr (by simpa using hc)))
  refine Spec.VertexFile.maps (k := "Maps:".toList) (t := "3-x-y x\n".toList) (w := "Vertices:\n0 0\n3 0\n0 3\n1 0\n".toList)
    (maps := [[[(none, 3), (some "x".toList, -1), (some "y".toList, -1)], [(some "x".toList, 1)]]]) (by decide +kernel)
    (header_example _ "Maps:" (by decide +kernel)) ?_
    (Or.inr ⟨"Vertices:".toList, "0 0\n3 0\n0 3\n1 0\n".toList, ⟨by decide +kernel, Or.inl (by decide +kernel)⟩, by decide +kernel,
      header_example _ "Vertices:" (by decide +kernel)⟩) ?_
  · refine .line (t := "3-x-y x".toList) (ts := []) ⟨⟨[], "3-x-y x".toList, b0, ?_, rfl⟩, rfl, ?_⟩ (by decide +kernel) (by decide +kernel) .nil
    · exact .cons (t := ['3', '-', 'x', '-', 'y']) (b := [' ']) (.more (t := ['3']) (.constant n3') (Or.inr rfl)
        (.more (t := ['-', 'x']) (.var (.minus ['x']) hx) (Or.inr rfl) (.last (.var (.minus ['y']) hy)))) b1 (Or.inl rfl)
        (.last (t := ['x']) (b := []) (.last (.var (.bare ['x']) hx)) b0)
    · unfold Spec.ImagesFit Spec.IsInt; decide
  refine Spec.VertexFile.points (k := "Vertices:".toList) (t := "0 0\n3 0\n0 3\n1 0\n".toList) (w := [])
    (vs := [[(0, 1), (0, 1)], [(3, 1), (0, 1)], [(0, 1), (3, 1)], [(1, 1), (0, 1)]]) (by decide +kernel) (header_example _ "Vertices:" (by decide +kernel))
    ⟨?_, ?_⟩ (Or.inl rfl) .nil
  · refine Spec.VertexLines.vertex (l := "0 0".toList) (t := "3 0\n0 3\n1 0\n".toList) ⟨[], "0 0".toList, .none b0,
      Spec.Coordinates.cons (t := "0".toList) (b := " ".toList) (ts := "0".toList) n0 b1 (by decide) (.last (t := "0".toList) (b := []) n0 b0), rfl⟩ ?_
    refine Spec.VertexLines.vertex (l := "3 0".toList) (t := "0 3\n1 0\n".toList) ⟨[], "3 0".toList, .none b0,
      Spec.Coordinates.cons (t := "3".toList) (b := " ".toList) (ts := "0".toList) n3 b1 (by decide) (.last (t := "0".toList) (b := []) n0 b0), rfl⟩ ?_
    refine Spec.VertexLines.vertex (l := "0 3".toList) (t := "1 0\n".toList) ⟨[], "0 3".toList, .none b0,
      Spec.Coordinates.cons (t := "0".toList) (b := " ".toList) (ts := "3".toList) n0 b1 (by decide) (.last (t := "3".toList) (b := []) n3 b0), rfl⟩ ?_
    exact Spec.VertexLines.vertex (l := "1 0".toList) (t := []) ⟨[], "1 0".toList, .none b0,
      Spec.Coordinates.cons (t := "1".toList) (b := " ".toList) (ts := "0".toList) n1 b1 (by decide) (.last (t := "0".toList) (b := []) n0 b0), rfl⟩ .nil
  · intro cs hcs
    simp only [List.mem_cons, List.not_mem_nil, or_false] at hcs
    rcases hcs with rfl | rfl | rfl | rfl <;>
    · refine ⟨⟨?_, 1, ⟨by decide, by decide, fun m hm => by omega⟩, by unfold Spec.IsInt; decide, ?_⟩, by decide⟩ <;>
      · unfold Spec.IsInt; decide

theorem rotated_hull {p : Fin 2 → ℚ} : Spec.InHull 2 rotatedContent.points rotatedContent.rays p ↔ 0 ≤ p 0 ∧ 0 ≤ p 1 ∧ p 0 + p 1 ≤ 3 := by
  have e : ∀ (c : Fin 4 → ℚ) (b : Fin rotatedContent.rays.length → ℚ) (i : Fin 2),
      (∑ j : Fin rotatedContent.points.length, (show ℚ from c j) • Spec.point 2 rotatedContent.points[j] +
      ∑ j : Fin rotatedContent.rays.length, b j • Spec.point 2 rotatedContent.rays[j]) i =
      c 0 * Spec.point 2 [(0, 1), (0, 1)] i + c 1 * Spec.point 2 [(3, 1), (0, 1)] i + c 2 * Spec.point 2 [(0, 1), (3, 1)] i +
        c 3 * Spec.point 2 [(1, 1), (0, 1)] i := by
    intro c b i
    have e2 : (∑ j : Fin rotatedContent.rays.length, b j • Spec.point 2 rotatedContent.rays[j]) = 0 :=
      Finset.sum_eq_zero fun j _ => absurd j.2 (by simp [rotatedContent])
    have e1 : (∑ j : Fin rotatedContent.points.length, (show ℚ from c j) • Spec.point 2 rotatedContent.points[j]) =
        c 0 • Spec.point 2 [(0, 1), (0, 1)] + c 1 • Spec.point 2 [(3, 1), (0, 1)] + c 2 • Spec.point 2 [(0, 1), (3, 1)] +
          c 3 • Spec.point 2 [(1, 1), (0, 1)] :=
      Fin.sum_univ_four (fun j : Fin 4 => c j • Spec.point 2 (rotatedContent.points.get j))
    rw [e1, e2]
    simp
  constructor
  · rintro ⟨c, b, hc, -, hsum, rfl⟩
    have h0 : 0 ≤ (show Fin 4 → ℚ from c) 0 := hc _
    have h1 : 0 ≤ (show Fin 4 → ℚ from c) 1 := hc _
    have h2 : 0 ≤ (show Fin 4 → ℚ from c) 2 := hc _
    have h3 : 0 ≤ (show Fin 4 → ℚ from c) 3 := hc _
    have hs : (show Fin 4 → ℚ from c) 0 + (show Fin 4 → ℚ from c) 1 + (show Fin 4 → ℚ from c) 2 + (show Fin 4 → ℚ from c) 3 = 1 := by
      rw [← Fin.sum_univ_four]; exact hsum
    have e' := e c b
    rw [e' 0, e' 1]
    simp only [Spec.point, List.getD_cons_zero, List.getD_cons_succ, Fin.val_zero, Fin.val_one]
    norm_num
    exact ⟨by linarith, by linarith, by linarith⟩
  · rintro ⟨h0, h1, h2⟩
    let c : Fin 4 → ℚ := ![1 - (p 0 + p 1) / 3, p 0 / 3, p 1 / 3, 0]
    refine ⟨c, fun _ => 0, fun j => ?_, fun _ => le_rfl, ?_, ?_⟩
    · have : ∀ j : Fin 4, 0 ≤ c j := by
        intro j
        fin_cases j
        · show (0 : ℚ) ≤ 1 - (p 0 + p 1) / 3
          linarith
        · show (0 : ℚ) ≤ p 0 / 3
          linarith
        · show (0 : ℚ) ≤ p 1 / 3
          linarith
        · exact le_rfl
      exact this j
    · have : ∑ j : Fin 4, c j = 1 := by
        rw [Fin.sum_univ_four]
        show 1 - (p 0 + p 1) / 3 + p 0 / 3 + p 1 / 3 + 0 = 1
        ring
      exact this
    · funext i
      refine Eq.trans ?_ (e c _ i).symm
      show p i = (1 - (p 0 + p 1) / 3) * Spec.point 2 [(0, 1), (0, 1)] i + p 0 / 3 * Spec.point 2 [(3, 1), (0, 1)] i +
        p 1 / 3 * Spec.point 2 [(0, 1), (3, 1)] i + 0 * Spec.point 2 [(1, 1), (0, 1)] i
      fin_cases i <;> norm_num [Spec.point]

def rotatedArgs : List Arg := ["-t".toList, "2".toList, "file".toList]

theorem rotated_map (p : Fin 2 → ℚ) (m : List (List (Option (List Char) × Int))) (hm : m ∈ rotatedContent.maps) :
    Spec.mapPoint rotatedContent.names m p = ![3 - p 0 - p 1, p 0] := by
  have hx : Spec.valuation rotatedContent.names p "x".toList = p 0 :=
    valuation_name (names := rotatedContent.names) (n := 2) (by decide) rfl p (j := 0) (by decide)
  have hy : Spec.valuation rotatedContent.names p "y".toList = p 1 :=
    valuation_name (names := rotatedContent.names) (n := 2) (by decide) rfl p (j := 1) (by decide)
  rw [List.mem_singleton.1 hm]
  funext i
  fin_cases i
  · show (3 : Int) * (1 : ℚ) + (((-1 : Int) : ℚ) * Spec.valuation rotatedContent.names p "x".toList +
      (((-1 : Int) : ℚ) * Spec.valuation rotatedContent.names p "y".toList + 0)) = 3 - p 0 - p 1
    rw [hx, hy]; push_cast; ring
  · show ((1 : Int) : ℚ) * Spec.valuation rotatedContent.names p "x".toList + 0 = p 0
    rw [hx]; push_cast; ring

theorem rotated_onto : ∀ m ∈ rotatedContent.maps,
    Spec.MapsOnto rotatedContent.names m (Spec.InHull 2 rotatedContent.points rotatedContent.rays) ∧ Spec.PlainImages m := by
  intro m hm
  refine ⟨⟨fun p hp => ?_, fun p hp => ?_⟩, ?_⟩
  · obtain ⟨h0, h1, h2⟩ := rotated_hull.1 hp
    rw [rotated_map p m hm, rotated_hull]
    show 0 ≤ 3 - p 0 - p 1 ∧ 0 ≤ p 0 ∧ 3 - p 0 - p 1 + p 0 ≤ 3
    exact ⟨by linarith, by linarith, by linarith⟩
  · obtain ⟨h0, h1, h2⟩ := rotated_hull.1 hp
    refine ⟨![p 1, 3 - p 0 - p 1], rotated_hull.2 ?_, ?_⟩
    · show 0 ≤ p 1 ∧ 0 ≤ 3 - p 0 - p 1 ∧ p 1 + (3 - p 0 - p 1) ≤ 3
      exact ⟨by linarith, by linarith, by linarith⟩
    · rw [rotated_map _ m hm]
      funext i
      fin_cases i
      · show 3 - p 1 - (3 - p 0 - p 1) = p 0
        ring
      · rfl
  · rw [List.mem_singleton.1 hm]
    unfold Spec.PlainImages; decide +kernel

/-- the hypotheses of C63 can be met -/
theorem rotated_case : Spec.PlainCommand rotatedArgs "file".toList ∧ getInputOrder rotatedArgs = .ok .noSorting ∧ Spec.UsesAD rotatedArgs ∧
    Spec.UsesInt rotatedArgs ∧ Spec.ThreadsOk rotatedArgs ∧ Spec.NoHelp rotatedArgs ∧ ¬ Spec.HasWordLine Spec.inequalityWords rotatedText ∧
    Spec.EarlyHeader 20 rotatedText ∧ Spec.VertexFile {} rotatedText rotatedContent ∧ rotatedContent.Consistent 2 ∧
    rotatedContent.points ≠ [] ∧ rotatedContent.maps ≠ [] ∧ Spec.AdmissibleNames rotatedContent.names ∧
    (∀ m ∈ rotatedContent.maps,
      Spec.MapsOnto rotatedContent.names m (Spec.InHull 2 rotatedContent.points rotatedContent.rays) ∧ Spec.PlainImages m) ∧
    Spec.Solid (Spec.InHull 2 rotatedContent.points rotatedContent.rays) ∧
    Spec.Plane (Spec.InHull 2 rotatedContent.points rotatedContent.rays) ∧
    ¬ Spec.Line (Spec.InHull 2 rotatedContent.points rotatedContent.rays) := by
  have hpt := fun i => hull_point (n := 2) (points := rotatedContent.points) (rays := rotatedContent.rays) i
  refine ⟨?_, by decide +kernel, Or.inl ?_, Or.inl ?_, Or.inr ⟨"2".toList, 2, ?_, ?_, by decide, by decide⟩, ?_, ?_,
    containsKeywords_early.2 (by decide +kernel), rotatedFile, ?_, by decide, by decide, ?_, rotated_onto, ?_, ?_, ?_⟩
  · refine ⟨?_, by decide +kernel, by decide +kernel, ?_⟩
    · exact .short (a := "-t".toList) (p := "2".toList) (by decide +kernel) (by decide +kernel) (by decide +kernel) (by decide +kernel)
        (.file (by decide +kernel) (by decide +kernel) .nil)
    · intro a ha
      unfold Spec.LooksLike
      revert a
      decide +kernel
  · unfold Spec.Absent Spec.LooksLike; decide +kernel
  · unfold Spec.Absent Spec.LooksLike; decide +kernel
  · exact ⟨[], ["file".toList], by simp, Or.inl rfl⟩
  · exact ⟨[], "2".toList, [], by simp, Spec.Numeral.plain "2".toList (by decide) (by simp [Spec.Digit]), by simp, rfl⟩
  · unfold Spec.NoHelp Spec.ModeArgument Spec.HelpAbout Spec.HelpWord Spec.VersionWord; decide +kernel
  · rw [← hasInequalitiesKeyword_iff]; decide +kernel
  · refine ⟨Or.inl (by decide), ?_, ?_, fun _ => rfl, ?_⟩ <;> simp [rotatedContent]
  · refine ⟨by decide +kernel, fun x hx => ?_⟩
    have : x = ['x'] ∨ x = ['y'] := by simpa [rotatedContent] using hx
    rcases this with rfl | rfl
    · exact ⟨'x', [], rfl, by unfold Spec.Space; decide, by unfold Spec.Digit; decide, by decide⟩
    · exact ⟨'y', [], rfl, by unfold Spec.Space; decide, by unfold Spec.Digit; decide, by decide⟩
  · intro a b h
    have h0 := h _ (hpt ⟨0, by decide⟩)
    have h1 := h _ (hpt ⟨1, by decide⟩)
    have h2 := h _ (hpt ⟨2, by decide⟩)
    simp [Fin.sum_univ_two, Spec.point, rotatedContent] at h0 h1 h2
    funext i
    fin_cases i
    · show a 0 = 0
      linarith
    · show a 1 = 0
      linarith
  · refine ⟨_, _, _, hpt ⟨0, by decide⟩, hpt ⟨1, by decide⟩, hpt ⟨2, by decide⟩, fun a b h => ?_⟩
    have h0 := congrFun h 0
    have h1 := congrFun h 1
    simp [Spec.point, rotatedContent] at h0 h1
    exact ⟨h0, h1⟩
  · rintro ⟨p, q, hq, h⟩
    apply hq
    funext i
    fin_cases i
    · exact slope_zero (u := p 0) (w := q 0) (b := 3) fun t => by have := rotated_hull.1 (h t); simp only [Pi.add_apply, Pi.smul_apply, smul_eq_mul] at this; linarith [this.2.1, this.2.2]
    · exact slope_zero (u := p 1) (w := q 1) (b := 3) fun t => by have := rotated_hull.1 (h t); simp only [Pi.add_apply, Pi.smul_apply, smul_eq_mul] at this; linarith [this.1, this.2.2]

/-- the run with double description: one inequality stands for all three -/
example : program (fun _ => none) none 30 (fun _ => some rotatedText) ["-m".toList, "dd".toList, "file".toList] =
    some (.finished 0 "Reduced Inequalities:\nx +y <= 3\n".toList) := by decide +kernel

end Panda
