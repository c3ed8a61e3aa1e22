import Verif.Model.Main
import Verif.Spec.Output
import Verif.Props.FileExamples
import Verif.Props.PrintConstraint
import Verif.Props.Print
import Verif.Props.Symmetry
import Verif.Props.Vertices
import Verif.Props.Typed

/-! # C58, C61: from the file to the printed answer -/

namespace Panda

/-! ## what is printed for rows -/

/-- the constraint that is printed for a row -/
def constraintOf (equation : Bool) (names : Names) (row : Row) : Spec.Constraint :=
  if names = [] then .raw row else .named (termsOf names row) (if equation then .eq else .le) (-row.getLastD 0)

theorem prettyTerms_line : ∀ (row : Row) (names : Names), (∀ x ∈ names, Spec.Name x) →
    (termsOf names row = [] ∧ prettyTerms false row names = []) ∨ Spec.Sum (prettyTerms false row names ++ [' ']) (termsOf names row)
  | [], names, _ => Or.inl ⟨by unfold termsOf; simp, prettyTerms_nil _ _⟩
  | a :: row, [], _ => Or.inl ⟨by unfold termsOf; simp, prettyTerms_no_names _ _⟩
  | a :: row, x :: names, hn => by
    rw [prettyTerms]
    by_cases ha : a = 0
    · have e : termsOf (x :: names) (a :: row) = termsOf names row := by
        unfold termsOf; rw [List.zip_cons_cons, List.filter_cons_of_neg (by simp [ha])]
      rw [if_pos ha, e]
      exact prettyTerms_line row names fun y hy => hn y (by simp [hy])
    · rw [if_neg ha]
      right
      obtain ⟨s, h1, h2⟩ := prettyTerms_tail row names fun y hy => hn y (by simp [hy])
      have fin : ∀ tok, Spec.Term (tok ++ x) x a →
          Spec.Sum (([] ++ tok ++ x ++ prettyTerms true row names) ++ [' ']) (termsOf (x :: names) (a :: row)) := by
        intro tok htok
        rw [List.append_assoc _ (prettyTerms true row names), h1]
        have : Spec.Sum (tok ++ x ++ [' '] ++ s) (termsOf (x :: names) (a :: row)) := by
          unfold termsOf at *
          rw [List.zip_cons_cons, List.filter_cons_of_pos (by simp [ha])]
          exact .cons (.token htok) (hn x (by simp)) (by intro c hc; simp at hc; simp [hc]) (by simp) h2
        simpa using this
      by_cases h1' : a = 1
      · rw [if_pos h1']; exact fin [] (h1' ▸ .bare x)
      · rw [if_neg h1']
        by_cases h2' : a = -1
        · rw [if_pos h2']; exact fin ['-'] (h2' ▸ .minus x)
        · rw [if_neg h2', if_neg (show ¬ (a > 1 ∧ false = true) by simp)]
          exact fin ([] ++ printInt a) (.factor x (printInt_numeral a))

/-- a row that is printed at all is printed as the constraint it stands for -/
theorem prettyPrint_printed {equation : Bool} {names : Names} {row : Row} {t : List Char} (hn : names = [] ∨ Spec.AdmissibleNames names)
    (hrow : row ≠ []) (h : prettyPrint row names (relationText equation) = .ok t) :
    Spec.PrintedConstraint equation names t (constraintOf equation names row) ∧ ∀ a ∈ t, a ≠ '\n' ∧ a ≠ '\r' := by
  unfold prettyPrint at h
  unfold constraintOf
  split at h
  · next h0 =>
    simp only [Outcome.ok.injEq] at h
    subst h
    rw [if_pos h0]
    refine ⟨⟨h0, ?_⟩, printRow_chars row⟩
    obtain ⟨b, s, n, xs, z, h1, h2, h3, h4, h5, h6⟩ := printRow_numbers row hrow
    exact ⟨b, s, n, [], xs, z, .none h1, h3, h4, blanks_nil, by rw [h5]; simp, h6⟩
  · next h0 =>
    split at h
    · simp at h
    · next hlen =>
      have hlen : row.length = names.length + 1 := by omega
      have hn : Spec.AdmissibleNames names := hn.resolve_left h0
      unfold negInt at h
      split at h
      · simp [Outcome.bind] at h
      · simp only [Outcome.bind, Outcome.ok.injEq] at h
        subst h
        rw [if_neg h0]
        have hbl : Spec.Blanks [' '] := by intro c hc; simp at hc; simp [hc]
        have hrel : Spec.RelText (relationText equation ++ [' ']) (if equation then .eq else .le) := by
          unfold relationText
          cases equation with
          | true => exact Spec.RelText.eq hbl (by simp)
          | false => exact Spec.RelText.le hbl
        refine ⟨⟨h0, ?_, fun q hq => (termsOf_mem hq).1, termsOf_not_repeated hn.1, rfl⟩, ?_⟩
        · rcases prettyTerms_line row names hn.2 with ⟨e1, e2⟩ | h1
          · rw [e1, e2]
            exact ⟨[' '], [], relationText equation ++ [' '], printInt (-row.getLastD 0), [], .none hbl, .nil, hrel,
              printInt_numeral _, blanks_nil, by simp⟩
          · exact ⟨[], prettyTerms false row names ++ [' '], relationText equation ++ [' '], printInt (-row.getLastD 0), [],
              .none blanks_nil, h1, hrel, printInt_numeral _, blanks_nil, by simp⟩
        · intro c hc
          simp only [List.mem_append, List.mem_cons] at hc
          rcases hc with hc | rfl | hc | rfl | hc
          · exact prettyTerms_chars _ _ _ hn.2 c hc
          · decide
          · unfold relationText at hc
            split at hc
            · simp at hc; rw [hc]; decide
            · simp at hc; rcases hc with rfl | rfl <;> decide
          · decide
          · have := (factor_not_space (numeral_factor (printInt_numeral _) c hc)).1
            constructor <;> rintro rfl <;> exact absurd this (by decide)

theorem prettyPrintMatrix_printed {equation : Bool} {names : Names} (hn : names = [] ∨ Spec.AdmissibleNames names) :
    ∀ {m : Matrix} {t : List Char}, (∀ r ∈ m, r ≠ []) → prettyPrintMatrix m names (relationText equation) = .ok t →
      Spec.Lines (Spec.PrintedConstraint equation names) t (m.map (constraintOf equation names))
  | [], t, _, h => by
    simp only [prettyPrintMatrix, Outcome.ok.injEq] at h
    subst h; exact .nil
  | r :: m, t, hm, h => by
    rw [prettyPrintMatrix] at h
    match e : prettyPrint r names (relationText equation), h with
    | .thrown, h => simp [Outcome.bind] at h
    | .ub, h => simp [Outcome.bind] at h
    | .ok t1, h =>
      simp only [Outcome.bind] at h
      match e' : prettyPrintMatrix m names (relationText equation), h with
      | .thrown, h => simp at h
      | .ub, h => simp at h
      | .ok ts, h =>
        simp only [Outcome.ok.injEq] at h
        subst h
        obtain ⟨h1, h2⟩ := prettyPrint_printed hn (hm r (by simp)) e
        exact .line h1 (fun hc => (h2 _ hc).1 rfl) (fun hc => (h2 _ (List.mem_of_mem_head? hc)).2 rfl)
          (prettyPrintMatrix_printed hn (fun r hr => hm r (by simp [hr])) e')

/-- what the printed constraint means -/
theorem constraintOf_holds {equation : Bool} {names : Names} {row : Row} {n : Nat} (hn : names = [] ∨ Spec.AdmissibleNames names)
    (hl : names ≠ [] → names.length = n) (hr : row.length = n + 1) (p : Fin n → ℚ) :
    (constraintOf equation names row).HoldsAt equation names p ↔
      if equation then Spec.value n row p = 0 else Spec.value n row p ≤ 0 := by
  unfold constraintOf
  split
  · exact Iff.rfl
  · next h0 =>
    have hn : Spec.AdmissibleNames names := hn.resolve_left h0
    have hl := hl h0
    rw [← value_rowHolds hl hn.1 equation p]
    have hsign : (if equation then Spec.Rel.eq else Spec.Rel.le).sign = 1 := by cases equation <;> rfl
    have hlast : row.getLastD 0 = row.getD names.length 0 := by
      rw [List.getLastD_eq_getLast?, List.getLast?_eq_getElem?, hr, List.getD_eq_getElem?_getD, hl]; rfl
    refine (C42_meaning (rel := if equation then .eq else .le) (rhs := -row.getLastD 0) ?_ hn.1 (fun q hq => (termsOf_mem hq).1)
      (by cases equation <;> simp) _).symm
    refine ⟨by omega, fun j hj => ?_, ?_⟩
    · rw [hsign, one_mul, coefficient_termsOf hn.1 (by omega) j hj]
    · rw [hsign, hlast]; ring

theorem facetOutput_printed {o : FacetOutput} {names : Names} {t : List Char} (hn : names = [] ∨ Spec.AdmissibleNames names)
    (he : ∀ r ∈ o.equations, r ≠ []) (hi : ∀ r ∈ o.inequalities, r ≠ []) (hred : o.reduced = false)
    (h : printFacetOutput o names = .ok t) :
    Spec.PrintedSystem names t (o.equations.map (constraintOf true names)) (o.inequalities.map (constraintOf false names)) := by
  unfold printFacetOutput at h
  rw [hred] at h
  match e1 : prettyPrintMatrix o.equations names "=".toList, h with
  | .thrown, h => simp [Outcome.bind] at h
  | .ub, h => simp [Outcome.bind] at h
  | .ok te, h =>
    simp only [Outcome.bind] at h
    match e2 : prettyPrintMatrix o.inequalities names "<=".toList, h with
    | .thrown, h => simp at h
    | .ub, h => simp at h
    | .ok ti, h =>
      refine ⟨te, ti, prettyPrintMatrix_printed hn he e1, prettyPrintMatrix_printed hn hi e2, ?_⟩
      simp only [Outcome.ok.injEq, Bool.false_eq_true, if_false] at h
      rw [← h]
      by_cases h0 : o.equations = []
      · rw [h0]; simp
      · rw [if_pos h0, if_neg (by simpa using h0)]
        simp

theorem constraintOf_injective {equation : Bool} {names : Names} {r r' : Row} {n : Nat} (hn : names = [] ∨ Spec.AdmissibleNames names)
    (hl : names ≠ [] → names.length = n) (h : r.length = n + 1) (h' : r'.length = n + 1)
    (e : constraintOf equation names r = constraintOf equation names r') : r = r' := by
  unfold constraintOf at e
  split at e
  · simpa using e
  · next h0 =>
    have hn : Spec.AdmissibleNames names := hn.resolve_left h0
    have hl := hl h0
    simp only [Spec.Constraint.named.injEq, true_and, neg_inj] at e
    have hlast : ∀ x : Row, x.length = n + 1 → x.getLastD 0 = x.getD n 0 := by
      intro x hx
      rw [List.getLastD_eq_getLast?, List.getLast?_eq_getElem?, hx, List.getD_eq_getElem?_getD]; rfl
    refine row_ext h h' (fun j hj => ?_) (by rw [← hlast r h, ← hlast r' h', e.2])
    rw [← coefficient_termsOf hn.1 (row := r) (by omega) j (by omega), ← coefficient_termsOf hn.1 (row := r') (by omega) j (by omega), e.1]

/-! ## the exact computation without maps -/

theorem reach_nil {tag : Tag} {r x : Row} (h : Reach [] tag r x) : x = r := by
  induction h with
  | refl => rfl
  | tail _ h _ => obtain ⟨m, hm, -⟩ := h; simp at hm

theorem classes_nil (tag : Tag) (S : Matrix) : ∃ R N, (∀ fuel ≥ N, classes fuel S [] tag = some (.ok R)) ∧ R.Nodup ∧ ∀ r, r ∈ R ↔ r ∈ S := by
  obtain ⟨R, N, h1, h2, h3, h4, -⟩ := C21_classes_partition (maps := []) (tag := tag) (S := S) (by simp) (by simp)
  refine ⟨R, N, h1, h2, fun r => ⟨h3 r, fun hr => ?_⟩⟩
  obtain ⟨r', ⟨h5, h6⟩, -⟩ := h4 r hr
  rw [reach_nil h6]; exact h5

theorem facetDD_exact {n : Nat} {V : Matrix} (hV : Spec.IsVInput n V) :
    ∃ E F N, (∀ fuel ≥ N, facetEnumerationDD fuel V [] = some (.ok ⟨E, false, F⟩)) ∧ (∀ e ∈ E, e.length = n + 1) ∧
      (∀ a ∈ F, a.length = n + 1) ∧ F.Nodup ∧ (∀ p, Spec.InPolyhedron n V p ↔ Spec.Satisfies n E F p) ∧
      ∀ a ∈ F, ∃ p : Fin n → ℚ, Spec.Satisfies n E (F.filter fun b => decide (b ≠ a)) p ∧ ¬ Spec.InPolyhedron n V p := by
  obtain ⟨E, F, h1, h2, h3⟩ := C08_dd_complete hV
  obtain ⟨E', F', h1', h2', -, -, -, h4⟩ := C09_dd_irredundant hV
  rw [h1] at h1'; rw [h2] at h2'
  simp only [Outcome.ok.injEq] at h1' h2'
  subst h1'; subst h2'
  obtain ⟨v, hv, hpos⟩ := hV.vertex
  obtain ⟨E', F', h1', h2', h5, h6⟩ := C07_dd_sound hV.size ⟨v, hv, v.getD n 0, by
    rw [List.getD_eq_getElem?_getD, List.getElem?_eq_getElem (by rw [hV.size v hv]; omega)]; exact List.getElem_mem _, hpos.ne'⟩
  rw [h1] at h1'; rw [h2] at h2'
  simp only [Outcome.ok.injEq] at h1' h2'
  subst h1'; subst h2'
  obtain ⟨R, N, g1, g2, g3⟩ := classes_nil .facet F
  refine ⟨E, R, N, fun fuel hf => ?_, fun e he => (h5 e he).1, fun a ha => (h6 a ((g3 a).1 ha)).1, g2, fun p => ?_, fun a ha => ?_⟩
  · unfold facetEnumerationDD
    rw [h1, h2]
    simp only [Run.lift, Run.bind]
    have : normalizeMaps [] E = .ok [] := rfl
    rw [this]
    simp [Run.bind, g1 fuel hf]
  · rw [h3 p]; unfold Spec.Satisfies; simp only [g3]
  · obtain ⟨p, hp, hp'⟩ := h4 a ((g3 a).1 ha)
    refine ⟨p, ⟨hp.1, fun b hb => hp.2 b ?_⟩, hp'⟩
    rw [List.mem_filter] at hb ⊢
    exact ⟨(g3 b).1 hb.1, hb.2⟩

/-! ## the computation with the selected type -/

/-- the types with checked or undefined overflow and values that fit into `int` -/
theorem facetDD_selected {V : Matrix} (hV : IntMatrix V) {ty : IntegerType} (hty : ty = .safe ∨ ty = .default ∨ ty = .fixed32) (fuel : Nat) :
    RunSim (ty = .safe) (ty ≠ .safe) (fun o => MatR Spec.IsInt o.equations ∧ MatR Spec.IsInt o.inequalities)
      (Typed.facetEnumerationDD (selectArith ty) fuel V []) (facetEnumerationDD fuel V []) := by
  rcases hty with rfl | hty
  · have := facetDD_conv (maps := []) (c := fun z => z) (safe_law False) safe_ofInt (fun a _ => safe_toInt a) (fun h => absurd rfl h) hV
      (by simp) fuel
    rw [mapEntries_run] at this
    rcases this with h | ⟨_, h⟩ | ⟨h, _⟩
    · exact Or.inl h
    · exact Or.inr (Or.inl ⟨rfl, h⟩)
    · exact h.elim
  · have hs : selectArith ty = fixedArith 32 := by rcases hty with rfl | rfl <;> rfl
    have hne : ty ≠ .safe := by rcases hty with rfl | rfl <;> decide
    have := facetDD_conv (maps := []) (c := fun z => z) (fixed32_law False) fixed32_ofInt (fun a ha => fixed32_ofInt a ha)
      (fun _ => fixed32_factors False) hV (by simp) fuel
    rw [mapEntries_run] at this
    rw [hs]
    rcases this with h | ⟨h, _⟩ | ⟨_, h⟩
    · exact Or.inl h
    · exact h.elim
    · exact Or.inr (Or.inr ⟨hne, h⟩)

theorem vertexDD_selected {I : Matrix} (hI : IntMatrix I) {ty : IntegerType} (hty : ty = .safe ∨ ty = .default ∨ ty = .fixed32) (fuel : Nat) :
    RunSim (ty = .safe) (ty ≠ .safe) (fun o => MatR Spec.IsInt o.vertices ∧ MatR Spec.IsInt o.rays)
      (Typed.vertexEnumerationDD (selectArith ty) fuel I []) (vertexEnumerationDD fuel I []) := by
  rcases hty with rfl | hty
  · have := vertexDD_conv (maps := []) (c := fun z => z) (safe_law False) safe_ofInt (fun a _ => safe_toInt a) hI (by simp) fuel
    rw [mapEntries_runV] at this
    rcases this with h | ⟨_, h⟩ | ⟨h, _⟩
    · exact Or.inl h
    · exact Or.inr (Or.inl ⟨rfl, h⟩)
    · exact h.elim
  · have hs : selectArith ty = fixedArith 32 := by rcases hty with rfl | rfl <;> rfl
    have hne : ty ≠ .safe := by rcases hty with rfl | rfl <;> decide
    have := vertexDD_conv (maps := []) (c := fun z => z) (fixed32_law False) fixed32_ofInt (fun a ha => fixed32_ofInt a ha) hI (by simp) fuel
    rw [mapEntries_runV] at this
    rw [hs]
    rcases this with h | ⟨h, _⟩ | ⟨_, h⟩
    · exact Or.inl h
    · exact h.elim
    · exact Or.inr (Or.inr ⟨hne, h⟩)

/-! ## the options -/

theorem noHelp_mode {args : List Arg} (h : Spec.NoHelp args) (hne : args ≠ []) : commandLineModeOption args = .undecided := by
  unfold commandLineModeOption
  rw [if_neg hne]
  clear hne
  induction args with
  | nil => rfl
  | cons a rest ih =>
    have ha := h a (by simp)
    rw [modeLoop]
    unfold Spec.ModeArgument Spec.HelpAbout Spec.HelpWord Spec.VersionWord at ha
    rw [if_neg, if_neg, if_neg, ih fun b hb => h b (by simp [hb])]
    · rintro (e | e | e | e) <;> exact ha (Or.inr (Or.inr (Or.inr (by rw [e]; simp))))
    · rintro (e | e | e | e | e)
      · exact ha (Or.inr (Or.inr (Or.inl (by rw [e]; simp))))
      · exact ha (Or.inl e)
      all_goals exact ha (Or.inr (Or.inr (Or.inl (by rw [e]; simp))))
    · rintro (e | e | e | e)
      · exact ha (Or.inl e.1)
      · exact ha (Or.inr (Or.inl (Or.inl (List.isPrefixOf_iff_prefix.1 e))))
      · exact ha (Or.inr (Or.inl (Or.inr (Or.inl (List.isPrefixOf_iff_prefix.1 e)))))
      · exact ha (Or.inr (Or.inl (Or.inr (Or.inr (List.isPrefixOf_iff_prefix.1 e)))))

theorem usesDD_method {args : List Arg} (h : Spec.UsesDD args) : methodOption args = .ok .doubleDescription := by
  obtain ⟨p, hp, h⟩ := h
  exact ((C54_method args).2 p h).1 hp

theorem uses_type {args : List Arg} (h : Spec.UsesChecked args ∨ Spec.UsesInt args) :
    ∃ ty, integerType args = .ok ty ∧ (ty = .safe ∨ ty = .default ∨ ty = .fixed32) ∧ (Spec.UsesChecked args → ty = .safe) ∧
      (ty = .safe → Spec.UsesChecked args) := by
  obtain ⟨h1, h2⟩ := C54_integer_type args
  by_cases h0 : Spec.UsesChecked args
  · exact ⟨.safe, (h2 _ h0).2.2.2.1 rfl, Or.inl rfl, fun _ => rfl, fun _ => h0⟩
  · rcases h.resolve_left h0 with h3 | h3
    · exact ⟨.default, h1 h3, Or.inr (Or.inl rfl), fun h => absurd h h0, fun h => by cases h⟩
    · exact ⟨.fixed32, (h2 _ h3).2.1 rfl, Or.inr (Or.inr rfl), fun h => absurd h h0, fun h => by cases h⟩

/-! ## facet enumeration from the file to the printed answer -/

theorem prettyPrint_cases (row : Row) (names : Names) (rel : List Char) :
    (∃ t, prettyPrint row names rel = .ok t) ∨ (names ≠ [] ∧ prettyPrint row names rel = .ub) := by
  unfold prettyPrint
  split
  · exact Or.inl ⟨_, rfl⟩
  · next h0 =>
    split
    · exact Or.inr ⟨h0, rfl⟩
    · unfold negInt
      split
      · exact Or.inr ⟨h0, rfl⟩
      · exact Or.inl ⟨_, rfl⟩

theorem prettyPrintMatrix_cases (m : Matrix) (names : Names) (rel : List Char) :
    (∃ t, prettyPrintMatrix m names rel = .ok t) ∨ (names ≠ [] ∧ prettyPrintMatrix m names rel = .ub) := by
  induction m with
  | nil => exact Or.inl ⟨_, rfl⟩
  | cons r m ih =>
    rw [prettyPrintMatrix]
    rcases prettyPrint_cases r names rel with ⟨t, h⟩ | ⟨h0, h⟩
    · rw [h]
      rcases ih with ⟨ts, h'⟩ | ⟨h0, h'⟩
      · rw [h']; exact Or.inl ⟨_, rfl⟩
      · rw [h']; exact Or.inr ⟨h0, rfl⟩
    · rw [h]; exact Or.inr ⟨h0, rfl⟩

theorem printFacetOutput_cases (o : FacetOutput) (names : Names) :
    (∃ t, printFacetOutput o names = .ok t) ∨ (names ≠ [] ∧ printFacetOutput o names = .ub) := by
  unfold printFacetOutput
  rcases prettyPrintMatrix_cases o.equations names "=".toList with ⟨t, h⟩ | ⟨h0, h⟩
  · rw [h]
    rcases prettyPrintMatrix_cases o.inequalities names "<=".toList with ⟨ts, h'⟩ | ⟨h0, h'⟩
    · rw [h']; exact Or.inl ⟨_, rfl⟩
    · rw [h']; exact Or.inr ⟨h0, rfl⟩
  · rw [h]; exact Or.inr ⟨h0, rfl⟩

theorem detect_facets {args : List Arg} {f text : List Char} {files : Files} (ha : Spec.CommandLine args [f]) (hf : files f = some text)
    (hh : Spec.NoHelp args) (hw : ¬ Spec.HasWordLine Spec.inequalityWords text) :
    detectOperationMode files args = .ok .facetEnumeration := by
  have hne : args ≠ [] := by
    rintro rfl
    cases ha
  obtain ⟨m, h1, -, -, h2⟩ := C56_operation_mode files args [f] f text (noHelp_mode hh hne) ha rfl hf
  rw [h1, h2.2 hw]

theorem detect_vertices {args : List Arg} {f text : List Char} {files : Files} (ha : Spec.CommandLine args [f]) (hf : files f = some text)
    (hh : Spec.NoHelp args) (hw : Spec.HasWordLine Spec.inequalityWords text) (hw' : ¬ Spec.HasWordLine Spec.hullWords text) :
    detectOperationMode files args = .ok .vertexEnumeration := by
  have hne : args ≠ [] := by
    rintro rfl
    cases ha
  obtain ⟨m, h1, -, h2, -⟩ := C56_operation_mode files args [f] f text (noHelp_mode hh hne) ha rfl hf
  rw [h1, h2.2 ⟨hw, hw'⟩]

/-- **C56** How the program ends when it does not enumerate: general help and the version end it with exit code 0, help about
a command or option is left to `help`, and a file with headings of both kinds ends it with exit code 1; nothing is written to
the standard output (the texts go to the standard error). -/
theorem C56_exit {ad : Bool → Option ProgramResult} {help : Option ProgramResult} {fuel : Nat} {files : Files} :
    (∀ (pre rest : List Arg) (a : Arg), (∀ b ∈ pre, ¬ Spec.ModeArgument b) →
      (Spec.HelpAbout a ∨ (a = "-h".toList ∧ rest ≠ []) → program ad help fuel files (pre ++ a :: rest) = help) ∧
      (Spec.HelpWord a ∨ (a = "-h".toList ∧ rest = []) ∨ Spec.VersionWord a →
        program ad help fuel files (pre ++ a :: rest) = some (.finished 0 []))) ∧
    ∀ (args : List Arg) (f text : List Char), Spec.PlainCommand args f → files f = some text → Spec.NoHelp args →
      Spec.HasWordLine Spec.hullWords text → Spec.HasWordLine Spec.inequalityWords text →
      program ad help fuel files args = some (.finished 1 []) := by
  refine ⟨fun pre rest a hpre => ?_, fun args f text ha hf hh h1 h2 => ?_⟩
  · obtain ⟨k1, k2, k3⟩ := C56_first files pre rest a hpre
    refine ⟨fun h => by unfold program; rw [k1 h], ?_⟩
    rintro (h | h | h)
    · unfold program; rw [k2 (Or.inl h)]
    · unfold program; rw [k2 (Or.inr h)]
    · unfold program; rw [k3 h]
  · have hne : args ≠ [] := by
      rintro rfl
      have := ha.1
      cases this
    obtain ⟨m, k1, k2, -⟩ := C56_operation_mode files args [f] f text (noHelp_mode hh hne) ha.1 rfl hf
    unfold program
    rw [k1, k2.2 ⟨h1, h2⟩]

/-- **C58** Running the facet enumeration (double description, with checked or 32-bit integers) on a file of the documented
format with points: if the program finishes, it prints equations and inequalities, no inequality twice, whose solutions are
exactly the convex hull of the points of the file plus the cone of its rays, and no inequality can be left out.  It always
ends; other ends than that answer are the reported overflow of checked integers and undefined behaviour, the latter only
with unchecked integers or (negating the right-hand side) with names. -/
theorem C58_facets {ad : Bool → Option ProgramResult} {help : Option ProgramResult} {args : List Arg} {f text : List Char}
    {files : Files} {order : InputOrder} {c : Spec.VertexContent} {n : Nat}
    (ha : Spec.PlainCommand args f) (hf : files f = some text) (ho : getInputOrder args = .ok order)
    (hd : Spec.UsesDD args) (hi : Spec.UsesChecked args ∨ Spec.UsesInt args) (hh : Spec.NoHelp args)
    (hw : ¬ Spec.HasWordLine Spec.inequalityWords text)
    (h20 : Spec.EarlyHeader 20 text) (h : Spec.VertexFile {} text c) (hc : c.Consistent n) (hp : c.points ≠ []) (hm : c.maps = [])
    (hn : c.names = [] ∨ Spec.AdmissibleNames c.names) :
    ∃ N, ∀ fuel ≥ N, ∃ r, program ad help fuel files args = some r ∧
      ((r = .failed ∧ Spec.UsesChecked args) ∨ (r = .undefined ∧ (¬ Spec.UsesChecked args ∨ c.names ≠ [])) ∨
        ∃ (out : List Char) (eqs ineqs : List Spec.Constraint), r = .finished 0 out ∧ Spec.PrintedSystem c.names out eqs ineqs ∧
          ineqs.Nodup ∧
          (∀ p : Fin n → ℚ, Spec.InHull n c.points c.rays p ↔
            (∀ a ∈ eqs, a.HoldsAt true c.names p) ∧ ∀ a ∈ ineqs, a.HoldsAt false c.names p) ∧
          ∀ a ∈ ineqs, ∃ p : Fin n → ℚ, (∀ b ∈ eqs, b.HoldsAt true c.names p) ∧
            (∀ b ∈ ineqs, b ≠ a → b.HoldsAt false c.names p) ∧ ¬ a.HoldsAt false c.names p) := by
  obtain ⟨V, maps, h1, h2, h3, h4, -, h5, h6, N1, h7⟩ := C57_hull ha hf ho h20 h hc
  have hmaps : maps = [] := by rw [hm] at h1; exact List.forall₂_nil_left_iff.1 h1
  subst hmaps
  obtain ⟨E, F, N2, g1, g2, g3, g4, g5, g6⟩ := facetDD_exact (h6 hp)
  obtain ⟨ty, t1, t2, t3, t4⟩ := uses_type hi
  have hl : c.names ≠ [] → c.names.length = n := fun h0 => hc.2.2.2.1 (Or.inl h0)
  refine ⟨max N1 N2, fun fuel hfuel => ?_⟩
  have e1 : program ad help fuel files args = ProgramResult.ofRun (facetsDD fuel files args) := by
    unfold program
    rw [detect_facets ha.1 hf hh hw]
    simp only [enumeration, usesDD_method hd, if_true]
  have e2 : facetsDD fuel files args = Run.bind (Typed.facetEnumerationDD (selectArith ty) fuel V []) fun o =>
      .lift (printFacetOutput o c.names) := by
    unfold facetsDD
    rw [t1]
    simp only [Run.lift, Run.bind]
    rw [h7 fuel (le_trans (le_max_left _ _) hfuel)]
  rw [e1, e2]
  have hsim := facetDD_selected (V := V) h3 t2 fuel
  rw [g1 fuel (le_trans (le_max_right _ _) hfuel)] at hsim
  rcases hsim with ⟨h8, -⟩ | ⟨hs, h8⟩ | ⟨hs, h8⟩
  · rw [h8]
    simp only [Run.bind, Run.lift]
    rcases printFacetOutput_cases ⟨E, false, F⟩ c.names with ⟨t, h9⟩ | ⟨h0, h9⟩
    · rw [h9]
      refine ⟨_, rfl, Or.inr (Or.inr ⟨t, E.map (constraintOf true c.names), F.map (constraintOf false c.names), rfl, ?_, ?_, ?_, ?_⟩)⟩
      · exact facetOutput_printed (o := ⟨E, false, F⟩) hn (fun r hr h0 => by have := g2 r hr; rw [h0] at this; simp at this)
          (fun r hr h0 => by have := g3 r hr; rw [h0] at this; simp at this) rfl h9
      · exact List.Nodup.map_on (fun x hx y hy e => constraintOf_injective hn hl (g3 x hx) (g3 y hy) e) g4
      · intro p
        rw [← h5 p, g5 p]
        unfold Spec.Satisfies
        simp only [List.mem_map, forall_exists_index, and_imp, forall_apply_eq_imp_iff₂]
        constructor
        · rintro ⟨k1, k2⟩
          exact ⟨fun e he => (constraintOf_holds (equation := true) hn hl (g2 e he) p).2 (k1 e he),
            fun e he => (constraintOf_holds (equation := false) hn hl (g3 e he) p).2 (k2 e he)⟩
        · rintro ⟨k1, k2⟩
          exact ⟨fun e he => (constraintOf_holds (equation := true) hn hl (g2 e he) p).1 (k1 e he),
            fun e he => (constraintOf_holds (equation := false) hn hl (g3 e he) p).1 (k2 e he)⟩
      · intro a ha
        obtain ⟨a, haF, rfl⟩ := List.mem_map.1 ha
        obtain ⟨p, ⟨k1, k2⟩, k3⟩ := g6 a haF
        refine ⟨p, ?_, ?_, ?_⟩
        · intro b hb
          obtain ⟨b, hbE, rfl⟩ := List.mem_map.1 hb
          exact (constraintOf_holds (equation := true) hn hl (g2 b hbE) p).2 (k1 b hbE)
        · intro b hb hba
          obtain ⟨b, hbF, rfl⟩ := List.mem_map.1 hb
          refine (constraintOf_holds (equation := false) hn hl (g3 b hbF) p).2 (k2 b ?_)
          rw [List.mem_filter]
          exact ⟨hbF, by simpa using fun e : b = a => hba (by rw [e])⟩
        · intro k4
          have k4 := (constraintOf_holds (equation := false) hn hl (g3 a haF) p).1 k4
          refine k3 ((g5 p).2 ⟨k1, fun b hb => ?_⟩)
          by_cases e : b = a
          · rw [e]; exact k4
          · exact k2 b (List.mem_filter.2 ⟨hb, by simpa using e⟩)
    · rw [h9]
      exact ⟨_, rfl, Or.inr (Or.inl ⟨rfl, Or.inr h0⟩)⟩
  · rw [h8]
    exact ⟨_, rfl, Or.inl ⟨rfl, t4 hs⟩⟩
  · rw [h8]
    exact ⟨_, rfl, Or.inr (Or.inl ⟨rfl, Or.inl fun h0 => hs (t3 h0)⟩)⟩

/-! ## vertex enumeration from the file to the printed answer -/

theorem extreme_not_generated {m : Nat} {A G : Matrix} {r : Row} (hr : Spec.IsExtremeRay m A r)
    (hA : ∀ a ∈ A, a.length = m) (hG : ∀ w ∈ G, ∀ a ∈ A, Spec.ip a w ≤ 0)
    (hno : ∀ w ∈ G, ∀ t : ℚ, Spec.vec m w ≠ t • Spec.vec m r) {s : ℚ} (hs : 0 < s) : ¬ Spec.InConeOf m G (s • Spec.vec m r) := by
  rintro ⟨c, hc, h⟩
  have hex : ∃ j, c j ≠ 0 := by
    by_contra h0
    push Not at h0
    simp only [h0, zero_smul, Finset.sum_const_zero] at h
    exact hr.2.1 ((smul_eq_zero.1 h).resolve_left hs.ne')
  obtain ⟨j, hj⟩ := hex
  have hcone : ∀ (x : Fin m → ℚ) (a : Row), ∑ i : Fin m, (a.getD i 0 : ℚ) * x i = ev m a x := by
    intro x a; rw [ev_apply]; exact Finset.sum_congr rfl fun i _ => mul_comm _ _
  have hw : ∀ k : Fin G.length, ∀ a ∈ A, ev m a ((c k / s) • Spec.vec m G[k]) ≤ 0 := by
    intro k a ha
    rw [map_smul, smul_eq_mul, vec_eq_toV, ev_row (hA a ha), ← ip_eq_dot]
    exact mul_nonpos_of_nonneg_of_nonpos (div_nonneg (hc k) hs.le) (by exact_mod_cast hG _ (List.getElem_mem _) a ha)
  have hsum : Spec.vec m r = (c j / s) • Spec.vec m G[j] + ∑ k ∈ Finset.univ.erase j, (c k / s) • Spec.vec m G[k] := by
    rw [Finset.add_sum_erase Finset.univ (fun k => (c k / s) • Spec.vec m G[k]) (Finset.mem_univ j)]
    have : Spec.vec m r = s⁻¹ • (s • Spec.vec m r) := by rw [smul_smul, inv_mul_cancel₀ hs.ne', one_smul]
    rw [this, h, Finset.smul_sum]
    exact Finset.sum_congr rfl fun k _ => by rw [smul_smul]; congr 1; field_simp
  obtain ⟨⟨t, ht⟩, -⟩ := hr.2.2 _ _ (fun a ha => by rw [hcone]; exact hw j a ha) (fun a ha => by
    rw [hcone, map_sum]; exact Finset.sum_nonpos fun k _ => hw k a ha) hsum
  refine hno _ (List.getElem_mem (l := G) j.2) (s / c j * t) ?_
  rw [← smul_smul, ← ht, smul_smul, show s / c j * (c j / s) = 1 by field_simp, one_smul]
  rfl

theorem vertexDD_exact {n : Nat} {A : Matrix} (hA : ∀ a ∈ A, a.length = n + 1) (htriv : List.replicate n 0 ++ [-1] ∈ A)
    (hsat : ∃ p, Spec.Solves n A p) (hline : ¬ Spec.HasLine n A) :
    ∃ P R N, (∀ fuel ≥ N, vertexEnumerationDD fuel A [] = some (.ok ⟨false, P, R.map List.dropLast⟩)) ∧
      (∀ v ∈ P, v.length = n + 1 ∧ 0 < v.getD n 0) ∧ (∀ r ∈ R, r.length = n + 1 ∧ r.getD n 0 = 0) ∧
      (∀ v ∈ R ++ P, Spec.PrimitiveRow v) ∧ (R ++ P).Nodup ∧
      (∀ p : Fin n → ℚ, Spec.Solves n A p ↔ Spec.InPolyhedron n (R ++ P) p) ∧
      (∀ v ∈ R ++ P, Spec.IsExtremeRay (n + 1) A v) ∧
      ∀ v ∈ R ++ P, ∀ w ∈ R ++ P, w ≠ v → ∀ t : ℚ, Spec.vec (n + 1) w ≠ t • Spec.vec (n + 1) v := by
  obtain ⟨W, h1, h2, h3, h4⟩ := C12_vertex_enumeration hA htriv hsat hline
  obtain ⟨W', h1', hel, hnil, -, -⟩ := ve_elim hA htriv hsat hline
  rw [h1] at h1'
  simp only [Outcome.ok.injEq] at h1'
  subst h1'
  have hsp := gaussSplit_spec (V := A) (n := n + 1) ⟨rfl, hA⟩ (List.length_pos_of_mem htriv) (Nat.succ_pos n)
  rw [hnil] at hsp
  obtain ⟨S, N, g1, g2, g3⟩ := classes_nil .vertex W
  have hlast : ∀ v ∈ S, v.getLastD 0 = v.getD n 0 := by
    intro v hv
    rw [List.getLastD_eq_getLast?, List.getLast?_eq_getElem?, (h3 v ((g3 v).1 hv)).1, List.getD_eq_getElem?_getD]; rfl
  have hmem : ∀ v, v ∈ (splitVertices S).2 ++ (splitVertices S).1 ↔ v ∈ W := by
    intro v
    unfold splitVertices
    rw [List.mem_append, List.mem_filter, List.mem_filter, ← g3 v]
    simp only [decide_eq_true_eq]
    tauto
  refine ⟨(splitVertices S).1, (splitVertices S).2, N, fun fuel hf => ?_, ?_, ?_, ?_, ?_, ?_, ?_, ?_⟩
  · unfold vertexEnumerationDD
    rw [h1]
    simp only [Run.lift, Run.bind, g1 fuel hf]
    rfl
  · intro v hv
    obtain ⟨h5, h6⟩ := List.mem_filter.1 hv
    rw [hlast v h5] at h6
    have := h3 v ((g3 v).1 h5)
    refine ⟨this.1, lt_of_le_of_ne this.2.1 fun e => ?_⟩
    rw [← e] at h6; simp at h6
  · intro v hv
    obtain ⟨h5, h6⟩ := List.mem_filter.1 hv
    rw [hlast v h5] at h6
    exact ⟨(h3 v ((g3 v).1 h5)).1, by simpa using h6⟩
  · intro v hv
    exact (h3 v ((hmem v).1 hv)).2.2.1
  · rw [List.nodup_append]
    refine ⟨g2.filter _, g2.filter _, ?_⟩
    rintro a ha b hb rfl
    have k1 := (List.mem_filter.1 ha).2
    have k2 := (List.mem_filter.1 hb).2
    simp only [decide_eq_true_eq] at k1 k2
    exact k2 k1
  · intro p
    rw [h4 p]
    exact ⟨inPolyhedron_mono fun v hv => (hmem v).2 hv, inPolyhedron_mono fun v hv => (hmem v).1 hv⟩
  · intro v hv
    exact (h3 v ((hmem v).1 hv)).2.2.2
  · intro v hv w hw hne t ht
    have nv := (hel.mem v).1 ((hmem v).1 hv)
    have nw := (hel.mem w).1 ((hmem w).1 hw)
    refine hne (NormalFacet.unique hsp ⟨rfl, hA⟩ nv nw (t := t) fun a ha => ?_)
    have := congrArg (ev (n + 1) a) ht
    rw [map_smul, vec_eq_toV, vec_eq_toV, ev_row (hA a ha), ev_row (hA a ha), dot_comm, dot_comm a v] at this
    exact this

theorem printQuotients_cases (neg : Bool) (den : Int) : ∀ xs : Row,
    ((∃ t, printQuotients neg den xs = .ok t) ∧ ∀ x ∈ xs, x ≠ intMin) ∨ printQuotients neg den xs = .ub
  | [] => Or.inl ⟨⟨_, rfl⟩, by simp⟩
  | x :: xs => by
    rw [printQuotients]
    unfold printQuotient
    by_cases h0 : x = intMin ∨ den = intMin
    · rw [if_pos h0]; exact Or.inr rfl
    · rw [if_neg h0]
      dsimp only
      split
      · exact Or.inr rfl
      · rcases printQuotients_cases neg den xs with ⟨⟨t, h⟩, hx⟩ | h
        · rw [h]
          refine Or.inl ⟨⟨_, rfl⟩, ?_⟩
          intro y hy
          rcases List.mem_cons.1 hy with rfl | hy
          · exact fun e => h0 (Or.inl e)
          · exact hx y hy
        · rw [h]; exact Or.inr rfl

/-- a vertex that is printed at all is printed as the point it stands for -/
theorem printFractional_printed {n : Nat} {v : Row} (hn : 0 < n) (hl : v.length = n + 1) (hpos : 0 < v.getD n 0)
    (hint : ∀ x ∈ v, Spec.IsInt x) :
    (∃ t cs, printFractional v = .ok t ∧ Spec.VertexLine t cs ∧ cs.length = n ∧ Spec.PointRow cs v) ∨
      ((-2147483648 : Int) ∈ v ∧ printFractional v = .ub) := by
  obtain ⟨xs, b, rfl⟩ : ∃ xs b, v = xs ++ [b] := by
    have hne : v ≠ [] := by intro h0; rw [h0] at hl; simp at hl
    exact ⟨v.dropLast, v.getLast hne, (List.dropLast_append_getLast hne).symm⟩
  have hxs : xs.length = n := by simpa using hl
  have hb : (xs ++ [b]).getD n 0 = b := by rw [List.getD_eq_getElem?_getD, ← hxs]; simp
  rw [hb] at hpos
  have hbl : (xs ++ [b]).getLastD 0 = b := by simp
  have hbm : b ≠ intMin := by unfold intMin; omega
  have e : printFractional (xs ++ [b]) = printQuotients false b xs := by
    unfold printFractional
    simp only [hbl, List.dropLast_concat]
    rw [if_neg hbm, if_neg (show ¬ b < 0 by omega), one_mul, decide_eq_false (show ¬ b < 0 by omega)]
  rw [e]
  by_cases hmin : ∀ x ∈ xs, x ≠ intMin
  · left
    obtain ⟨t, cs, h1, h2, h3⟩ := printQuotients_spec (den := b) (s := 1) (neg := false) hpos hbm rfl xs
      (by intro h0; rw [h0] at hxs; simp at hxs; omega) hmin
    have hlen : xs.length = cs.length := h3.length_eq
    refine ⟨t, cs, h1, ⟨[], t, .none blanks_nil, h2, rfl⟩, by omega, by simp [hlen], ?_, ?_⟩
    · rw [show cs.length = n by omega, hb]; exact hpos
    · intro i hi
      rw [show cs.length = n by omega, hb]
      rw [List.forall₂_iff_get] at h3
      obtain ⟨q1, -, q3⟩ := h3.2 i (by omega) hi
      simp only [List.get_eq_getElem] at q1 q3
      rw [List.getD_eq_getElem?_getD, List.getElem?_append_left (by omega), List.getElem?_eq_getElem (by omega), Option.getD_some]
      rw [div_eq_div_iff (by exact_mod_cast hpos.ne') (by exact_mod_cast q1.ne')]
      rw [one_mul] at q3
      exact_mod_cast q3.symm
  · push Not at hmin
    obtain ⟨x, hx, hx'⟩ := hmin
    rcases printQuotients_cases false b xs with ⟨-, h⟩ | h
    · exact absurd hx' (h x hx)
    · refine Or.inr ⟨?_, h⟩
      rw [show (-2147483648 : Int) = x by rw [hx']; rfl]
      simp [hx]

theorem printVertexLines_printed {n : Nat} (hn : 0 < n) : ∀ {m : Matrix}, (∀ v ∈ m, v.length = n + 1 ∧ 0 < v.getD n 0) →
    (∀ v ∈ m, ∀ x ∈ v, Spec.IsInt x) →
    (∃ t points, printVertexLines m = .ok t ∧ Spec.VertexLines t points ∧ (∀ q ∈ points, q.length = n) ∧ List.Forall₂ Spec.PointRow points m) ∨
      ((∃ v ∈ m, (-2147483648 : Int) ∈ v) ∧ printVertexLines m = .ub)
  | [], _, _ => Or.inl ⟨[], [], rfl, .nil, by simp, .nil⟩
  | v :: m, h, hi => by
    rw [printVertexLines]
    rcases printFractional_printed hn (h v (by simp)).1 (h v (by simp)).2 (hi v (by simp)) with ⟨t, cs, h1, h2, h3, h4⟩ | ⟨h0, h1⟩
    · rw [h1]
      rcases printVertexLines_printed hn (m := m) (fun w hw => h w (by simp [hw])) (fun w hw => hi w (by simp [hw])) with
        ⟨ts, ps, k1, k2, k3, k4⟩ | ⟨⟨w, hw, k0⟩, k1⟩
      · rw [k1]
        refine Or.inl ⟨_, cs :: ps, rfl, .vertex h2 k2, ?_, .cons h4 k4⟩
        intro q hq
        rcases List.mem_cons.1 hq with rfl | hq
        · exact h3
        · exact k3 q hq
      · rw [k1]
        exact Or.inr ⟨⟨w, by simp [hw], k0⟩, rfl⟩
    · rw [h1]
      exact Or.inr ⟨⟨v, by simp, h0⟩, rfl⟩

theorem printRayLines_printed {n : Nat} (hn : 0 < n) : ∀ {m : Matrix}, (∀ r ∈ m, r.length = n + 1 ∧ r.getD n 0 = 0) →
    ∃ rays, Spec.VertexLines (printRayLines (m.map List.dropLast)) rays ∧ (∀ q ∈ rays, q.length = n) ∧ List.Forall₂ Spec.RayRow rays m
  | [], _ => ⟨[], .nil, by simp, .nil⟩
  | r :: m, h => by
    obtain ⟨rays, h1, h2, h3⟩ := printRayLines_printed hn (m := m) fun w hw => h w (by simp [hw])
    obtain ⟨hl, h0⟩ := h r (by simp)
    obtain ⟨xs, b, rfl⟩ : ∃ xs b, r = xs ++ [b] := by
      have hne : r ≠ [] := by intro h0; rw [h0] at hl; simp at hl
      exact ⟨r.dropLast, r.getLast hne, (List.dropLast_append_getLast hne).symm⟩
    have hxs : xs.length = n := by simpa using hl
    refine ⟨xs.map (fun x => (x, 1)) :: rays, ?_, ?_, .cons ⟨by simp, ?_, 1, by norm_num, ?_⟩ h3⟩
    · have := Spec.VertexLines.vertex (printRow_line (r := xs) (by rintro rfl; simp at hxs; omega)) h1
      simpa [printRayLines] using this
    · intro q hq
      rcases List.mem_cons.1 hq with rfl | hq
      · simpa using hxs
      · exact h2 q hq
    · rw [List.length_map, hxs]; exact h0
    · intro i hi
      have hi' : i < xs.length := by simpa using hi
      rw [List.getD_eq_getElem?_getD, List.getElem?_append_left hi', List.getElem?_eq_getElem hi']
      simp

theorem forall₂_eraseIdx {α β : Type} {R : α → β → Prop} : ∀ {a : List α} {b : List β}, List.Forall₂ R a b → ∀ i,
    List.Forall₂ R (a.eraseIdx i) (b.eraseIdx i)
  | _, _, .nil, _ => by simp
  | _, _, .cons h t, 0 => by simpa using t
  | _, _, .cons h t, i + 1 => by simpa using ⟨h, forall₂_eraseIdx t i⟩

theorem hom_coord {n : Nat} {v : Row} (h : v.getD n 0 ≠ 0) : hom n (Spec.coord n v) = (1 / (v.getD n 0 : ℚ)) • Spec.vec (n + 1) v := by
  have h' : (v.getD n 0 : ℚ) ≠ 0 := by exact_mod_cast h
  funext i
  refine Fin.lastCases ?_ (fun i => ?_) i
  · rw [hom_last, Pi.smul_apply, smul_eq_mul, Spec.vec, Fin.val_last, one_div, inv_mul_cancel₀ h']
  · rw [hom_castSucc, Pi.smul_apply, smul_eq_mul, Spec.vec, Fin.val_castSucc, Spec.coord, if_neg h, one_div, inv_mul_eq_div]

theorem inRays_cone {n : Nat} {rays : List (List (Int × Int))} {R : Matrix} (h : List.Forall₂ Spec.RayRow rays R)
    (hl : ∀ v ∈ rays, v.length = n) {x : Fin n → ℚ} (hx : Spec.InRays n rays x) :
    Spec.InConeOf (n + 1) R (Fin.snoc x 0 : Fin (n + 1) → ℚ) := by
  have h1 : WComb n (rays.map fun r => ((0 : ℚ), Spec.point n r)) 0 x := by
    rw [wcomb_map]
    obtain ⟨b, hb, h2⟩ := hx
    exact ⟨b, hb, by simp, h2⟩
  have h0 : ∀ r ∈ R, r.getD n 0 = 0 := by
    intro r hr
    obtain ⟨a, ha, hal, har⟩ := forall₂_right h hl r hr
    exact (rayRow_coord har hal).1
  have h2 : WComb n (R.map fun r => ((0 : ℚ), Spec.coord n r)) 0 x := by
    refine (wcomb_scaled ?_).2 h1
    clear h0 h1 hx
    induction h with
    | nil => exact .nil
    | @cons a b as bs hab _ ih =>
      obtain ⟨-, t, ht, e⟩ := rayRow_coord hab (hl a (by simp))
      exact .cons ⟨rfl, Or.inr ⟨rfl, t, ht, e⟩⟩ (ih fun v hv => hl v (by simp [hv]))
  rw [wcomb_map] at h2
  obtain ⟨c, hc, -, h3⟩ := h2
  refine ⟨c, hc, ?_⟩
  funext i
  refine Fin.lastCases ?_ (fun i => ?_) i
  · rw [Fin.snoc_last, Finset.sum_apply]
    refine (Finset.sum_eq_zero fun j _ => ?_).symm
    rw [Pi.smul_apply, smul_eq_mul, Spec.vec, Fin.val_last, h0 R[j] (List.getElem_mem j.2)]; simp
  · rw [Fin.snoc_castSucc, h3, Finset.sum_apply, Finset.sum_apply]
    refine Finset.sum_congr rfl fun j _ => ?_
    rw [Pi.smul_apply, Pi.smul_apply, Spec.coord, if_pos (h0 R[j] (List.getElem_mem j.2))]; rfl

/-- nothing among the printed points and rays is superfluous -/
theorem minimal_generators {n : Nat} {A P R : Matrix} {points rays : List (List (Int × Int))} (hA : ∀ a ∈ A, a.length = n + 1)
    (hP : List.Forall₂ Spec.PointRow points P) (hR : List.Forall₂ Spec.RayRow rays R)
    (h1 : ∀ v ∈ points, v.length = n) (h2 : ∀ v ∈ rays, v.length = n) (hnd : (R ++ P).Nodup)
    (hex : ∀ v ∈ R ++ P, Spec.IsExtremeRay (n + 1) A v)
    (hno : ∀ v ∈ R ++ P, ∀ w ∈ R ++ P, w ≠ v → ∀ t : ℚ, Spec.vec (n + 1) w ≠ t • Spec.vec (n + 1) v) :
    (∀ i (hi : i < points.length), ¬ Spec.InHull n (points.eraseIdx i) rays (Spec.point n points[i])) ∧
      ∀ i (hi : i < rays.length), ¬ Spec.InRays n (rays.eraseIdx i) (Spec.point n rays[i]) := by
  have lP := hP.length_eq
  have lR := hR.length_eq
  have hnP := (List.nodup_append.1 hnd).2.1
  have hnR := (List.nodup_append.1 hnd).1
  have hdis := (List.nodup_append.1 hnd).2.2
  have hP' := List.forall₂_iff_get.1 hP
  have hR' := List.forall₂_iff_get.1 hR
  have last : ∀ v ∈ R ++ P, 0 ≤ v.getD n 0 := by
    intro v hv
    rcases List.mem_append.1 hv with hv | hv
    · obtain ⟨a, ha, hal, har⟩ := forall₂_right hR h2 v hv
      exact (rayRow_coord har hal).1.ge
    · obtain ⟨a, ha, hal, har⟩ := forall₂_right hP h1 v hv
      rw [← hal]; exact har.2.1.le
  constructor
  · intro i hi hh
    have hrow := hP'.2 i hi (by omega)
    simp only [List.get_eq_getElem] at hrow
    obtain ⟨k1, k2⟩ := pointRow_coord hrow (h1 _ (List.getElem_mem _))
    have kpos : 0 < (P[i]'(by omega)).getD n 0 := by
      have := hrow.2.1; rwa [h1 _ (List.getElem_mem _)] at this
    have hmemP : P[i]'(by omega) ∈ R ++ P := List.mem_append.2 (Or.inr (List.getElem_mem _))
    have hsub : ∀ w ∈ R ++ P.eraseIdx i, w ∈ R ++ P ∧ w ≠ P[i]'(by omega) := by
      intro w hw
      rcases List.mem_append.1 hw with hw | hw
      · exact ⟨List.mem_append.2 (Or.inl hw), hdis w hw _ (List.getElem_mem _)⟩
      · rw [← hnP.erase_getElem i (by omega), hnP.mem_erase_iff] at hw
        exact ⟨List.mem_append.2 (Or.inr hw.2), hw.1⟩
    rw [← inPolyhedron_hull (forall₂_eraseIdx hP i) hR (fun v hv => h1 v (List.mem_of_mem_eraseIdx hv)) h2,
      inPolyhedron_iff (fun v hv => last v (hsub v hv).1), ← k2, hom_coord k1] at hh
    refine extreme_not_generated (hex _ hmemP) hA (fun w hw a ha => (hex w (hsub w hw).1).1 a ha)
      (fun w hw => hno _ hmemP w (hsub w hw).1 (hsub w hw).2) ?_ hh
    rw [one_div, inv_pos]; exact_mod_cast kpos
  · intro i hi hh
    have hrow := hR'.2 i hi (by omega)
    simp only [List.get_eq_getElem] at hrow
    obtain ⟨k1, t, ht, k2⟩ := rayRow_coord hrow (h2 _ (List.getElem_mem _))
    have hmemR : R[i]'(by omega) ∈ R ++ P := List.mem_append.2 (Or.inl (List.getElem_mem _))
    have hsub : ∀ w ∈ R.eraseIdx i, w ∈ R ++ P ∧ w ≠ R[i]'(by omega) := by
      intro w hw
      rw [← hnR.erase_getElem i (by omega), hnR.mem_erase_iff] at hw
      exact ⟨List.mem_append.2 (Or.inl hw.2), hw.1⟩
    have hc := inRays_cone (forall₂_eraseIdx hR i) (fun v hv => h2 v (List.mem_of_mem_eraseIdx hv)) hh
    have e : (Fin.snoc (Spec.point n rays[i]) 0 : Fin (n + 1) → ℚ) = (1 / t) • Spec.vec (n + 1) (R[i]'(by omega)) := by
      funext j
      refine Fin.lastCases ?_ (fun j => ?_) j
      · rw [Fin.snoc_last, Pi.smul_apply, Spec.vec, Fin.val_last, k1]; simp
      · have := congrFun k2 j
        rw [Spec.coord, if_pos k1, Pi.smul_apply, smul_eq_mul] at this
        rw [Fin.snoc_castSucc, Pi.smul_apply, Spec.vec, Fin.val_castSucc, this, smul_eq_mul, ← mul_assoc, one_div, inv_mul_cancel₀ ht.ne', one_mul]
    rw [e] at hc
    exact extreme_not_generated (hex _ hmemR) hA (fun w hw a ha => (hex w (hsub w hw).1).1 a ha)
      (fun w hw => hno _ hmemR w (hsub w hw).1 (hsub w hw).2) (by positivity) hc

/-- **C61** Running the vertex enumeration (double description, with checked or 32-bit integers) on a file of the documented
format with inequalities and equations whose solution set is not empty and contains no line: if the program finishes, it prints
points and rays whose hull is exactly the solution set of the constraints of the file; no point is in the hull of the other
points and the rays, no ray in the cone of the others.  It always ends; other ends than that answer are the reported overflow
of checked integers and undefined behaviour, the latter only with unchecked integers or if the solution set contains a point
`v / w` with `v, w` coprime and `-2^31` among the entries of `v`. -/
theorem C61_vertices {ad : Bool → Option ProgramResult} {help : Option ProgramResult} {args : List Arg} {f text : List Char}
    {files : Files} {order : InputOrder} {c : Spec.InequalityContent} {n : Nat}
    (ha : Spec.PlainCommand args f) (hf : files f = some text) (ho : getInputOrder args = .ok order)
    (hd : Spec.UsesDD args) (hi : Spec.UsesChecked args ∨ Spec.UsesInt args) (hh : Spec.NoHelp args)
    (hw : Spec.HasWordLine Spec.inequalityWords text) (hw' : ¬ Spec.HasWordLine Spec.hullWords text)
    (h20 : Spec.EarlyHeader 20 text) (h : Spec.InequalityFile {} text c) (hc : c.Consistent n) (hn : 0 < n) (hm : c.maps = [])
    (hsat : ∃ p : Fin n → ℚ, c.Solution p)
    (hline : ¬ ∃ p q : Fin n → ℚ, q ≠ 0 ∧ ∀ t : ℚ, c.Solution (p + t • q)) :
    ∃ N, ∀ fuel ≥ N, ∃ r, program ad help fuel files args = some r ∧
      ((r = .failed ∧ Spec.UsesChecked args) ∨
        (r = .undefined ∧ (¬ Spec.UsesChecked args ∨ ∃ v : List Int, v.length = n + 1 ∧ Spec.PrimitiveRow v ∧ 0 < v.getD n 0 ∧
          (-2147483648 : Int) ∈ v ∧ c.Solution (Spec.coord n v))) ∨
        ∃ (out : List Char) (points rays : List (List (Int × Int))), r = .finished 0 out ∧ Spec.PrintedPoints out points rays ∧
          (∀ q ∈ points ++ rays, q.length = n) ∧
          (∀ p : Fin n → ℚ, c.Solution p ↔ Spec.InHull n points rays p) ∧
          (∀ i (hi : i < points.length), ¬ Spec.InHull n (points.eraseIdx i) rays (Spec.point n points[i])) ∧
          ∀ i (hi : i < rays.length), ¬ Spec.InRays n (rays.eraseIdx i) (Spec.point n rays[i])) := by
  obtain ⟨A, maps, h1, h2, h3, h4, h5, N1, h6⟩ := C57_inequalities ha hf ho h20 h hc
  have hmaps : maps = [] := by rw [hm] at h5; exact List.forall₂_nil_left_iff.1 h5
  subst hmaps
  have h4 : ∀ p : Fin n → ℚ, Spec.Solves n A p ↔ c.Solution p := h4
  obtain ⟨P, R, N2, g1, g2, g3, g4, g5, g6, g7, g8⟩ := vertexDD_exact h1 h3 (by simpa only [h4] using hsat)
    (by unfold Spec.HasLine; simpa only [h4] using hline)
  obtain ⟨ty, t1, t2, t3, t4⟩ := uses_type hi
  refine ⟨max N1 N2, fun fuel hfuel => ?_⟩
  have e1 : program ad help fuel files args = ProgramResult.ofRun (verticesDD fuel files args) := by
    unfold program
    rw [detect_vertices ha.1 hf hh hw hw']
    simp [enumeration, usesDD_method hd]
  have e2 : verticesDD fuel files args = Run.bind (Typed.vertexEnumerationDD (selectArith ty) fuel A []) fun o =>
      .lift (printVertexOutput o) := by
    unfold verticesDD
    rw [t1]
    simp only [Run.lift, Run.bind]
    rw [h6 fuel (le_trans (le_max_left _ _) hfuel)]
  rw [e1, e2]
  have hsim := vertexDD_selected (I := A) h2 t2 fuel
  rw [g1 fuel (le_trans (le_max_right _ _) hfuel)] at hsim
  rcases hsim with ⟨h8, h9⟩ | ⟨hs, h8⟩ | ⟨hs, h8⟩
  · rw [h8]
    simp only [Run.bind, Run.lift]
    unfold printVertexOutput
    obtain ⟨i1, i2⟩ := h9 _ rfl
    rcases printVertexLines_printed hn g2 i1 with ⟨t, points, k1, k2, k3, k4⟩ | ⟨⟨v, hv, k0⟩, k1⟩
    · obtain ⟨rays, l1, l2, l3⟩ := printRayLines_printed hn g3
      obtain ⟨m1, m2⟩ := minimal_generators h1 k4 l3 k3 l2 g5 g7 g8
      dsimp only
      rw [k1]
      refine ⟨_, rfl, Or.inr (Or.inr ⟨_, points, rays, rfl, ⟨t, _, k2, l1, ?_⟩, ?_, fun p => ?_, m1, m2⟩)⟩
      · have q1 : P = [] ↔ points = [] := by
          rw [← List.length_eq_zero_iff, ← List.length_eq_zero_iff, k4.length_eq]
        have q2 : R = [] ↔ rays = [] := by
          rw [← List.length_eq_zero_iff, ← List.length_eq_zero_iff, l3.length_eq]
        by_cases b1 : points = [] <;> by_cases b2 : rays = [] <;> simp [q1, q2, b1, b2]
      · intro q hq
        rcases List.mem_append.1 hq with hq | hq
        · exact k3 q hq
        · exact l2 q hq
      · rw [← h4 p, g6 p, inPolyhedron_hull k4 l3 k3 l2]
    · dsimp only
      rw [k1]
      refine ⟨_, rfl, Or.inr (Or.inl ⟨rfl, Or.inr ⟨v, (g2 v hv).1, g4 v (by simp [hv]), (g2 v hv).2, k0, ?_⟩⟩)⟩
      rw [← h4, g6]
      refine inPolyhedron_mono (V := [v]) (by simp [hv]) ⟨fun _ => 1, by simp, ?_, by simp⟩
      simp [-List.getD_eq_getElem?_getD, (g2 v hv).2.ne']
  · rw [h8]
    exact ⟨_, rfl, Or.inl ⟨rfl, t4 hs⟩⟩
  · rw [h8]
    exact ⟨_, rfl, Or.inr (Or.inl ⟨rfl, Or.inl fun h0 => hs (t3 h0)⟩)⟩

/-! ## examples -/

/-- a command line with the double description method and checked integers -/
def exampleArgs : List Arg := ["-m".toList, "dd".toList, "-i".toList, "safe".toList, "file".toList]

theorem exampleArgs_plain : Spec.PlainCommand exampleArgs "file".toList := by
  refine ⟨?_, by decide +kernel, by decide +kernel, ?_⟩
  · exact .short (a := "-m".toList) (p := "dd".toList) (by decide +kernel) (by decide +kernel) (by decide +kernel) (by decide +kernel)
      (.short (a := "-i".toList) (p := "safe".toList) (by decide +kernel) (by decide +kernel) (by decide +kernel) (by decide +kernel)
        (.file (by decide +kernel) (by decide +kernel) .nil))
  · intro a ha
    unfold Spec.LooksLike
    revert a
    decide +kernel

theorem exampleArgs_options : getInputOrder exampleArgs = .ok .noSorting ∧ Spec.UsesDD exampleArgs ∧ Spec.UsesChecked exampleArgs ∧
    Spec.NoHelp exampleArgs := by
  refine ⟨by decide +kernel, ⟨"dd".toList, .head _, [], ["-i".toList, "safe".toList, "file".toList], by simp, Or.inl rfl⟩,
    ⟨["-m".toList, "dd".toList], ["file".toList], ?_, Or.inl rfl⟩, ?_⟩
  · unfold Spec.LooksLike; decide +kernel
  · unfold Spec.NoHelp Spec.ModeArgument Spec.HelpAbout Spec.HelpWord Spec.VersionWord; decide +kernel

/-- the hypotheses of C58 can be met -/
example : Spec.PlainCommand exampleArgs "file".toList ∧ getInputOrder exampleArgs = .ok .noSorting ∧ Spec.UsesDD exampleArgs ∧
    Spec.UsesChecked exampleArgs ∧ Spec.NoHelp exampleArgs ∧ ¬ Spec.HasWordLine Spec.inequalityWords exampleText ∧
    Spec.EarlyHeader 20 exampleText ∧ Spec.VertexFile {} exampleText exampleContent ∧ exampleContent.Consistent 2 ∧
    exampleContent.points ≠ [] ∧ exampleContent.maps = [] ∧ Spec.AdmissibleNames exampleContent.names := by
  refine ⟨exampleArgs_plain, exampleArgs_options.1, exampleArgs_options.2.1, exampleArgs_options.2.2.1, exampleArgs_options.2.2.2, ?_,
    containsKeywords_early.2 (by decide +kernel), exampleFile, ?_, by decide, rfl, ?_⟩
  · rw [← hasInequalitiesKeyword_iff]; decide +kernel
  · refine ⟨Or.inl (by decide), ?_, ?_, fun _ => rfl, ?_⟩ <;> simp [exampleContent]
  · refine ⟨by decide, fun x hx => ?_⟩
    simp only [exampleContent, List.mem_cons, List.not_mem_nil, or_false] at hx
    rcases hx with rfl | rfl
    · exact ⟨'x', [], rfl, by unfold Spec.Space; decide, by unfold Spec.Digit; decide, by decide⟩
    · exact ⟨'y', [], rfl, by unfold Spec.Space; decide, by unfold Spec.Digit; decide, by decide⟩

/-- the program run on that file: the half-line from (1/2, -3) in direction (2, 5) -/
example : program (fun _ => none) none 20 (fun _ => some exampleText) exampleArgs =
    some (.finished 0 "Equations:\n10x -4y = 17\n\nInequalities:\n-y <= 3\n".toList) := by decide +kernel

/-- a bound for all `t` -/
theorem slope_zero {u w b : ℚ} (h : ∀ t : ℚ, u + t * w ≤ b) : w = 0 := by
  by_contra hw
  have := h ((b - u + 1) / w)
  rw [div_mul_cancel₀ _ hw] at this
  linarith

theorem exampleContent'_solution (p : Fin 2 → ℚ) : exampleContent'.Solution p ↔ p 0 + 2 * p 1 ≤ 5 ∧ -3 * p 0 + 5 * p 1 ≤ -1 := by
  unfold Spec.InequalityContent.Solution exampleContent'
  simp only [List.mem_cons, List.not_mem_nil, or_false, forall_eq_or_imp, forall_eq, Spec.Constraint.HoldsAt, false_imp_iff, implies_true,
    and_true, Fin.sum_univ_two, Spec.value, Spec.Rel.holds, Bool.false_eq_true, if_false]
  constructor
  · rintro ⟨h1, h2⟩
    constructor
    · simpa using h1
    · have : (-3 : ℚ) * p 0 + 5 * p 1 + 1 ≤ 0 := by simpa using h2
      linarith
  · rintro ⟨h1, h2⟩
    constructor
    · simpa using h1
    · have : (-3 : ℚ) * p 0 + 5 * p 1 + 1 ≤ 0 := by linarith
      simpa using this

/-- the hypotheses of C61 can be met -/
example : Spec.HasWordLine Spec.inequalityWords "Inequalities:\n1 2 <= 5\n-3 5 1\nEND\n".toList ∧
    ¬ Spec.HasWordLine Spec.hullWords "Inequalities:\n1 2 <= 5\n-3 5 1\nEND\n".toList ∧
    Spec.EarlyHeader 20 "Inequalities:\n1 2 <= 5\n-3 5 1\nEND\n".toList ∧
    Spec.InequalityFile {} "Inequalities:\n1 2 <= 5\n-3 5 1\nEND\n".toList exampleContent' ∧
    exampleContent'.maps = [] ∧ (∃ p : Fin 2 → ℚ, exampleContent'.Solution p) ∧
    ¬ ∃ p q : Fin 2 → ℚ, q ≠ 0 ∧ ∀ t : ℚ, exampleContent'.Solution (p + t • q) := by
  refine ⟨?_, ?_, containsKeywords_early.2 (by decide +kernel), exampleFile', rfl, ⟨![1, 0], ?_⟩, ?_⟩
  · rw [← hasInequalitiesKeyword_iff]; decide +kernel
  · rw [← hasHullKeyword_iff]; decide +kernel
  · rw [exampleContent'_solution]; norm_num
  · rintro ⟨p, q, hq, h⟩
    simp only [exampleContent'_solution, Pi.add_apply, Pi.smul_apply, smul_eq_mul] at h
    have h1 := slope_zero (u := p 0 + 2 * p 1) (w := q 0 + 2 * q 1) (b := 5) fun t => by have := (h t).1; linarith
    have h2 := slope_zero (u := -3 * p 0 + 5 * p 1) (w := -3 * q 0 + 5 * q 1) (b := -1) fun t => by have := (h t).2; linarith
    apply hq
    funext i
    fin_cases i
    · show q 0 = 0; linarith
    · show q 1 = 0; linarith

example : program (fun _ => none) none 20 (fun _ => some "Inequalities:\n1 2 <= 5\n-3 5 1\nEND\n".toList) exampleArgs =
    some (.finished 0 "Vertices:\n27/11 14/11 \nRays:\n -5 -3\n  2 -1\n".toList) := by decide +kernel

end Panda
