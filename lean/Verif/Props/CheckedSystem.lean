import Verif.Props.CheckedMain
import Verif.Props.ReducedSystem

/-! # C69: the option `-c` on files with inequalities -/

namespace Panda

/-- the checks of the inequalities succeed -/
def CheckOkI (d : InequalityData) : Prop := checkValidityOfClasses d.inequalities d.maps .facet = .ok ()

/-- how the loop with checks ends -/
def CheckedEndI (s : Stream) (d d' : InequalityData) : Prop :=
  ∃ o, Ends (inequalitySection true) s d o ∧ (o = .ub ∨ (o = .thrown ∧ ¬ CheckOkI d') ∨ (o = .ok d' ∧ CheckOkI d'))

theorem inequalitySection_end' (b : Bool) (fuel : Nat) (k : List Char) (s : Stream) (d : InequalityData) (h : isKeywordEnd k = true) :
    inequalitySection b fuel k s d = some (.ok ((getLine s).1, d)) := by
  obtain ⟨h1, h2, h3, -, -, -, -, h4, h5, h6⟩ := (header_kind (end_keyword h)).2.2.2.2.2.2.2.2.2 h
  unfold inequalitySection
  simp only [h1, h2, h3, h4, h5, h6, Bool.false_eq_true, if_false]

theorem orderedInequalityFile_reads {c c' : Spec.InequalityContent} {text : List Char} (h : Spec.OrderedInequalityFile c text c') :
    ∀ {d : InequalityData}, IHolds c d → ∃ d', IHolds c' d' ∧ Reads (inequalitySection false) ⟨text, false, false⟩ d d' ∧
      (c.inequalities ≠ [] → d'.maps = d.maps ∧ d'.inequalities = d.inequalities) ∧
      (CheckOkI d → CheckedEndI ⟨text, false, false⟩ d d') := by
  induction h with
  | nil => intro d hd; exact ⟨d, hd, reads_nil false d, fun _ => ⟨rfl, rfl⟩, fun h => ⟨.ok d, reads_nil false d, Or.inr (Or.inr ⟨rfl, h⟩)⟩⟩
  | @other c c' w l r hl hh _ ih =>
    intro d hd
    obtain ⟨d', h1, h2, p, h3⟩ := ih hd
    have key : ∀ {b o}, Ends (inequalitySection b) ⟨r, false, false⟩ d o → Ends (inequalitySection b) ⟨w, false, false⟩ d o := by
      intro b o ho
      by_cases hk : isKeyword (trimWhitespace l) = true
      · refine reads_other hl hk (fun fuel s => ?_) ho
        have hn : ∀ {ws : List String}, (∀ k ∈ ws, k ∈ Spec.inequalityFileWords) → ¬ Spec.Header ws l := fun h h' => hh (h'.mono h)
        unfold inequalitySection
        rw [if_neg (by rw [header_dimension]; exact hn (by decide +kernel)), if_neg (by rw [header_names]; exact hn (by decide +kernel)),
          if_neg (by rw [header_maps]; exact hn (by decide +kernel)), if_neg (by rw [header_equations]; exact hn (by decide +kernel)),
          if_neg (by rw [header_inequalities]; exact hn (by decide +kernel)),
          if_neg (by rw [header_reducedInequalities]; exact hn (by decide +kernel))]
      · exact reads_skip hl (by simpa using hk) ho
    exact ⟨d', h1, key h2, p, fun h => by obtain ⟨o, g1, g2⟩ := h3 h; exact ⟨o, key g1, g2⟩⟩
  | @names c c' k t w names hk hkw ht hw hm hi he _ ih =>
    intro d hd
    obtain ⟨e1, e2, e3, e4, e5, e6, e7, e8⟩ := hd
    obtain ⟨d', h1, h2, p, h3⟩ := ih (d := { d with names := names }) ⟨rfl, namesBody_keyword ht, by
        show List.Forall₂ _ c.maps d.maps
        rw [hm, forall₂_nil e3 hm]; exact .nil, by
        show List.Forall₂ _ c.inequalities d.inequalities
        rw [hi, forall₂_nil e4 hi]; exact .nil, by
        show List.Forall₂ _ c.equations d.equations
        rw [he, forall₂_nil e5 he]; exact .nil, e6, by
        show ∀ a ∈ c.inequalities, _
        rw [hi]; simp, by
        show ∀ a ∈ c.equations, _
        rw [he]; simp⟩
    have key : ∀ {b o}, Ends (inequalitySection b) ⟨w, false, false⟩ { d with names := names } o →
        Ends (inequalitySection b) ⟨k ++ '\n' :: (t ++ w), false, false⟩ d o := by
      intro b o ho
      have hkn := (header_names k).2 hkw
      have hkk := (header_keyword k).2 (hkw.mono (by decide +kernel))
      obtain ⟨ws, s, g1, g2, g3, g4⟩ := readNames_body hk hkn (sectionRest_end hw).section ht
      refine reads_section (firstLine_line hk) hkk ⟨0, fun fuel _ => ?_⟩ (reads_after_names g2 g3 g4 ho)
      unfold inequalitySection
      simp only [(header_kind hkk).1 hkn, hkn, Bool.false_eq_true, if_false, if_true, g1, Run.bind]
    exact ⟨d', h1, key h2, p, fun h => by obtain ⟨o, g1, g2⟩ := h3 h; exact ⟨o, key g1, g2⟩⟩
  | @maps c c' k t w maps hk hkw ht hw hi0 _ ih =>
    intro d hd
    obtain ⟨e1, e2, e3, e4, e5, e6, e7, e8⟩ := hd
    have hkn := (header_maps k).2 hkw
    have hkk := (header_keyword k).2 (hkw.mono (by decide +kernel))
    obtain ⟨N, hN⟩ := C53_sections e2 ht hk hkn (sectionRest_end hw)
    obtain ⟨⟨s, ms⟩, ⟨hP1, hP2⟩, M, hM⟩ := run_fixed (f := fun fuel => readMaps c.names fuel ⟨k ++ '\n' :: (t ++ w), false, false⟩)
      (fun n r => readMaps_mono _ _ n r)
      (P := fun a => List.Forall₂ (Spec.DoesImages c.names) maps a.2 ∧
        Spec.AfterSection w a.1.rest a.1.eof a.1.fail (fun k => isKeywordEnd (firstWord k)))
      ⟨N, fun fuel hf => by obtain ⟨s, ms, h1, h2, h3⟩ := hN fuel hf; exact ⟨(s, ms), h1, h2, h3⟩⟩
    obtain ⟨d', h1, h2, p, h3⟩ := ih (d := { d with maps := ms }) ⟨e1, e2, hP1, e4, e5, e6, e7, e8⟩
    have key : ∀ {b o}, Ends (inequalitySection b) ⟨w, false, false⟩ { d with maps := ms } o →
        Ends (inequalitySection b) ⟨k ++ '\n' :: (t ++ w), false, false⟩ d o := by
      intro b o ho
      refine reads_section (firstLine_line hk) hkk ⟨M, fun fuel hf => ?_⟩
        (reads_after (sectionRest_end hw).section (fun fuel k s hk => inequalitySection_end' b fuel k s _ hk) hP2 ho)
      unfold inequalitySection
      obtain ⟨n1, n2⟩ := (header_kind hkk).2.1 hkn
      simp only [n1, n2, hkn, Bool.false_eq_true, if_false, if_true, e1, hM fuel hf, Run.bind]
    refine ⟨d', h1, key h2, fun h => (h hi0).elim, fun _ => ?_⟩
    obtain ⟨o, g1, g2⟩ := h3 (by
      unfold CheckOkI
      dsimp only
      rw [forall₂_nil e4 hi0]
      exact checkClasses_nil _ _)
    exact ⟨o, key g1, g2⟩
  | @equations c c' k t w cs hk hkw ht hw _ ih =>
    intro d hd
    obtain ⟨e1, e2, e3, e4, e5, e6, e7, e8⟩ := hd
    have hkn := (header_equations k).2 hkw
    have hkk := (header_keyword k).2 (hkw.mono (by decide +kernel))
    obtain ⟨N, hN⟩ := constraints_lines (P := Spec.ConstraintText true c.names) (R := Spec.Constraint.HasRow c.names)
      (fun t a h => constraintText_read (equation := true) h) ht hk
      (by unfold sectionKeyword; simpa using hkn) (sectionRest_end hw)
    obtain ⟨⟨s, rows⟩, ⟨hP1, hP2⟩, M, hM⟩ := run_fixed (f := fun fuel => constraints true c.names fuel ⟨k ++ '\n' :: (t ++ w), false, false⟩)
      (fun n r => constraints_mono _ _ _ n r)
      (P := fun a => List.Forall₂ (Spec.Constraint.HasRow c.names) cs a.2 ∧
        Spec.AfterSection w a.1.rest a.1.eof a.1.fail (fun k => isKeywordEnd (firstWord k)))
      ⟨N, fun fuel hf => by obtain ⟨s, ms, h1, h2, h3⟩ := hN fuel hf; exact ⟨(s, ms), h1, h2, h3⟩⟩
    obtain ⟨d', h1, h2, p, h3⟩ := ih (d := { d with equations := rows }) ⟨e1, e2, e3, e4, hP1, e6, e7, lines_all ht⟩
    have key : ∀ {b o}, Ends (inequalitySection b) ⟨w, false, false⟩ { d with equations := rows } o →
        Ends (inequalitySection b) ⟨k ++ '\n' :: (t ++ w), false, false⟩ d o := by
      intro b o ho
      refine reads_section (firstLine_line hk) hkk ⟨M, fun fuel hf => ?_⟩
        (reads_after (sectionRest_end hw).section (fun fuel k s hk => inequalitySection_end' b fuel k s _ hk) hP2 ho)
      unfold inequalitySection
      obtain ⟨n1, n2, n3⟩ := (header_kind hkk).2.2.2.2.2.2.1 hkn
      simp only [n1, n2, n3, hkn, Bool.false_eq_true, if_false, if_true, e1, hM fuel hf, Run.bind]
    exact ⟨d', h1, key h2, p, fun h => by obtain ⟨o, g1, g2⟩ := h3 h; exact ⟨o, key g1, g2⟩⟩
  | @inequalities c c' k t w cs hk hkw ht hw hi0 _ ih =>
    intro d hd
    obtain ⟨e1, e2, e3, e4, e5, e6, e7, e8⟩ := hd
    have hkn := (header_inequalities k).2 hkw
    have hkk := (header_keyword k).2 (hkw.mono (by decide +kernel))
    obtain ⟨N, hN⟩ := constraints_lines (P := Spec.ConstraintText false c.names) (R := Spec.Constraint.HasRow c.names)
      (fun t a h => constraintText_read (equation := false) h) ht hk
      (by unfold sectionKeyword; simp [hkn]) (sectionRest_end hw)
    obtain ⟨⟨s, rows⟩, ⟨hP1, hP2⟩, M, hM⟩ := run_fixed (f := fun fuel => constraints false c.names fuel ⟨k ++ '\n' :: (t ++ w), false, false⟩)
      (fun n r => constraints_mono _ _ _ n r)
      (P := fun a => List.Forall₂ (Spec.Constraint.HasRow c.names) cs a.2 ∧
        Spec.AfterSection w a.1.rest a.1.eof a.1.fail (fun k => isKeywordEnd (firstWord k)))
      ⟨N, fun fuel hf => by obtain ⟨s, ms, h1, h2, h3⟩ := hN fuel hf; exact ⟨(s, ms), h1, h2, h3⟩⟩
    have htx := lines_all ht
    have hint : IntEntries rows := by
      intro r hr
      obtain ⟨a, -, ⟨t, ht⟩, har⟩ := forall₂_right hP1 htx r hr
      exact hasRow_int ht har
    obtain ⟨d', h1, h2, p, h3⟩ := ih (d := { d with inequalities := rows }) ⟨e1, e2, e3, hP1, e5, e6, htx, e8⟩
    have hsec : ∀ b, ∀ fuel ≥ M, inequalitySection b fuel (trimWhitespace k) ⟨k ++ '\n' :: (t ++ w), false, false⟩ d =
        if b then Run.bind (some (Typed.checkValidityOfClasses (fixedArith 32) rows d.maps .facet)) fun _ =>
          some (.ok (s, { d with inequalities := rows })) else some (.ok (s, { d with inequalities := rows })) := by
      intro b fuel hf
      unfold inequalitySection
      obtain ⟨n1, n2, n3, n4⟩ := (header_kind hkk).2.2.2.2.2.2.2.1 hkn
      simp only [n1, n2, n3, n4, hkn, Bool.false_eq_true, if_false, if_true, e1, hM fuel hf]
      cases b <;> simp [Run.bind]
    have hne : checkValidityOfClasses rows d.maps .facet = .thrown → cs ≠ [] := by
      rintro e rfl
      cases hP1
      rw [checkClasses_nil] at e
      cases e
    refine ⟨d', h1, reads_section (firstLine_line hk) hkk ⟨M, fun fuel hf => by rw [hsec false fuel hf]; rfl⟩
      (reads_after (sectionRest_end hw).section (fun fuel k s hk => inequalitySection_end fuel k s _ hk) hP2 h2),
      fun h => (h hi0).elim, fun _ => ?_⟩
    have hub : Typed.checkValidityOfClasses (fixedArith 32) rows d.maps .facet = .ub →
        CheckedEndI ⟨k ++ '\n' :: (t ++ w), false, false⟩ d d' := fun e =>
      ⟨.ub, ends_ub (firstLine_line hk) hkk ⟨M, fun fuel hf => by rw [hsec true fuel hf]; simp [e, Run.bind]⟩, Or.inl rfl⟩
    rcases typed_check (tag := .facet) hint e3 with e | e
    · match e' : checkValidityOfClasses rows d.maps .facet with
      | .ok () =>
        obtain ⟨o, ho, h⟩ := h3 e'
        refine ⟨o, reads_section (firstLine_line hk) hkk ⟨M, fun fuel hf => ?_⟩
          (reads_after (sectionRest_end hw).section (fun fuel k s hk => inequalitySection_end' true fuel k s _ hk) hP2 ho), h⟩
        rw [hsec true fuel hf]
        simp [e, e', Run.bind]
      | .thrown =>
        refine ⟨.thrown, ends_thrown (firstLine_line hk) hkk ⟨M, fun fuel hf => by rw [hsec true fuel hf]; simp [e, e', Run.bind]⟩,
          Or.inr (Or.inl ⟨rfl, fun hh => ?_⟩)⟩
        obtain ⟨q1, q2⟩ := p (hne e')
        unfold CheckOkI at hh
        rw [q1, q2] at hh
        exact absurd (hh.symm.trans e') (by simp)
      | .ub => exact hub (e.trans e')
    · exact hub e
  | @dimension c c' k b n b' w hk hkw hb hb' hn hd0 hv _ ih =>
    intro d hd
    obtain ⟨e1, e2, e3, e4, e5, e6, e7, e8⟩ := hd
    obtain ⟨d', h1, h2, p, h3⟩ := ih (d := { d with dimension := some (Spec.decimal n) }) ⟨e1, e2, e3, e4, e5, rfl, e7, e8⟩
    have key : ∀ {bb o}, Ends (inequalitySection bb) ⟨w, false, false⟩ { d with dimension := some (Spec.decimal n) } o →
        Ends (inequalitySection bb) ⟨k ++ '\n' :: (b ++ (n ++ (b' ++ '\n' :: w))), false, false⟩ d o := by
      intro bb o ho
      have hkn := (header_dimension k).2 (hkw.mono (by decide +kernel))
      have hkk := (header_keyword k).2 (hkw.mono (by decide +kernel))
      have hbn := blanks_no_newline hb'
      refine reads_section (firstLine_line hk) hkk ⟨0, fun fuel hf => ?_⟩
        (reads_skip (firstLine_line hbn) (by rw [trim_blanks hb']; exact isKeyword_nil) ho)
      unfold inequalitySection
      simp only [hkn, if_true, readDimension_line hkw hb hb' hn hd0 hv, Run.bind]
    exact ⟨d', h1, key h2, p, fun h => by obtain ⟨o, g1, g2⟩ := h3 h; exact ⟨o, key g1, g2⟩⟩

theorem orderedInequalityFile_file {c c' : Spec.InequalityContent} {text : List Char} (h : Spec.OrderedInequalityFile c text c') :
    Spec.InequalityFile c text c' := by
  induction h with
  | nil => exact .nil
  | other h1 h2 _ ih => exact .other h1 h2 ih
  | names h1 h2 h3 h4 h5 h6 h7 _ ih => exact .names h1 h2 h3 h4 h5 h6 h7 ih
  | maps h1 h2 h3 h4 _ _ ih => exact .maps h1 h2 h3 h4 ih
  | equations h1 h2 h3 h4 _ ih => exact .equations h1 h2 h3 h4 ih
  | inequalities h1 h2 h3 h4 _ _ ih => exact .inequalities h1 h2 h3 h4 ih
  | dimension h1 h2 h3 h4 h5 h6 h7 _ ih => exact .dimension h1 h2 h3 h4 h5 h6 h7 ih

/-! ## what the check means -/

section
variable {n : Nat} {names : Names} {ls : List (List (Option (List Char) × Int))} {m : SymMap}

/-- linear forms that agree at all points of the plane at height one agree -/
theorem forms_eq {x y : Fin (n + 1) → ℚ} (h : ∀ p : Fin n → ℚ, ∑ i, x i * hom n p i = ∑ i, y i * hom n p i) : x = y := by
  have h' : ∀ p : Fin n → ℚ, ∑ i : Fin n, x i.castSucc * p i + x (Fin.last n) = ∑ i : Fin n, y i.castSucc * p i + y (Fin.last n) := by
    intro p
    have := h p
    simpa only [Fin.sum_univ_castSucc, hom_castSucc, hom_last, mul_one] using this
  have h0 : x (Fin.last n) = y (Fin.last n) := by simpa using h' 0
  funext i
  refine Fin.lastCases h0 (fun j => ?_) i
  have := h' (Pi.single j 1)
  rw [h0] at this
  simpa [Pi.single_apply] using this

theorem value_pulled (hn : names.Nodup) (hl : names.length = n) (hls : ls.length = n) (h : Spec.DoesImages names ls m) (a : Row) (p : Fin n → ℚ) :
    Spec.value n a (Spec.mapPoint names ls p) = ∑ i, Spec.pulled (n + 1) m (Spec.vec (n + 1) a) i * hom n p i := by
  rw [value_eq, ev_as_sum, ← pushed_hom hn hl hls h]
  exact (pulled_dual (n + 1) m (Spec.vec (n + 1) a) (hom n p)).symm

theorem symmetry_inequalities (hn : names.Nodup) (hl : names.length = n) (hls : ls.length = n) (h : Spec.DoesImages names ls m) (A : Matrix) :
    Spec.IsSystemSymmetry (n + 1) A m ↔ Spec.PermutesInequalities names n ls A := by
  have hmap : Spec.IsMap (n + 1) m := by subst hl; exact h.1
  have key : ∀ (a b : Row) (s : ℚ), Spec.pulled (n + 1) m (Spec.vec (n + 1) a) = s • Spec.vec (n + 1) b ↔
      ∀ p : Fin n → ℚ, Spec.value n a (Spec.mapPoint names ls p) = s * Spec.value n b p := by
    intro a b s
    have e : ∀ p : Fin n → ℚ, s * Spec.value n b p = ∑ i, (s • Spec.vec (n + 1) b) i * hom n p i := by
      intro p
      rw [value_eq, ev_as_sum, Finset.mul_sum]
      exact Finset.sum_congr rfl fun i _ => by
        show s * (Spec.vec (n + 1) b i * _) = s * Spec.vec (n + 1) b i * _
        ring
    constructor
    · intro h' p
      rw [value_pulled hn hl hls h, e, h']
    · intro h'
      refine forms_eq fun p => ?_
      rw [← value_pulled hn hl hls h, ← e, h' p]
  constructor
  · rintro ⟨-, h1, h2⟩
    exact ⟨fun a ha => by obtain ⟨b, hb, s, hs, e⟩ := h1 a ha; exact ⟨b, hb, s, hs, (key a b s).1 e⟩,
      fun b hb => by obtain ⟨a, ha, s, hs, e⟩ := h2 b hb; exact ⟨a, ha, s, hs, (key a b s).1 e⟩⟩
  · rintro ⟨h1, h2⟩
    exact ⟨hmap, fun a ha => by obtain ⟨b, hb, s, hs, e⟩ := h1 a ha; exact ⟨b, hb, s, hs, (key a b s).2 e⟩,
      fun b hb => by obtain ⟨a, ha, s, hs, e⟩ := h2 b hb; exact ⟨a, ha, s, hs, (key a b s).2 e⟩⟩

end

theorem checkClassesI_iff {n : Nat} {names : Names} {lss : List (List (List (Option (List Char) × Int)))} {maps : Maps} {A : Matrix}
    (hn : names.Nodup) (hl : lss ≠ [] → names.length = n) (hlss : ∀ ls ∈ lss, ls.length = n)
    (hd : List.Forall₂ (Spec.DoesImages names) lss maps) (hA : ∀ r ∈ A, r.length = n + 1) :
    checkValidityOfClasses A maps .facet = .ok () ↔
      (lss ≠ [] → (∀ ls ∈ lss, Spec.PermutesInequalities names n ls A) ∧ Spec.CanonicalRows A) := by
  rw [C40_all_maps]
  obtain ⟨g1, g2⟩ := forall₂_both hd
  have key : ∀ {ls m}, ls ∈ lss → Spec.DoesImages names ls m →
      (checkValidityMap A m .facet = .ok () ↔ Spec.CanonicalRows A ∧ Spec.PermutesInequalities names n ls A) := by
    intro ls m hls hm
    have hl' := hl (List.ne_nil_of_mem hls)
    have := (C40_inequality_maps (n := n + 1) (m := m) (A := A) (by rw [← hl']; exact hm.1) hA).1
    rw [this, symmetry_inequalities hn hl' (hlss ls hls) hm]
    unfold Spec.CanonicalRows
    tauto
  constructor
  · intro h hne
    refine ⟨fun ls hls => ?_, ?_⟩
    · obtain ⟨m, hm, hdm⟩ := g1 ls hls
      exact ((key hls hdm).1 (h m hm)).2
    · obtain ⟨ls, rest, e⟩ := List.exists_cons_of_ne_nil hne
      obtain ⟨m, hm, hdm⟩ := g1 ls (by rw [e]; simp)
      exact ((key (by rw [e]; simp) hdm).1 (h m hm)).1
  · intro h m hm
    obtain ⟨ls, hls, hdm⟩ := g2 m hm
    obtain ⟨h1, h2⟩ := h (List.ne_nil_of_mem hls)
    exact (key hls hdm).2 ⟨h2, h1 ls hls⟩

/-- **C69** Reading a file with inequalities and equations, maps before the inequalities, with `-c`.  If every map permutes the
inequalities (up to positive factors) and their rows are different and in lowest terms, the rows, names and maps handed to the
algorithms are those without `-c`; otherwise the program reports an error.  The only other end is undefined behaviour by
overflow of `int`.  Equations are not checked. -/
theorem C69_inequalities {args : List Arg} {f text : List Char} {files : Files} {order : InputOrder} {c : Spec.InequalityContent} {n : Nat}
    (ha : Spec.CheckedCommand args f) (hf : files f = some text) (ho : getInputOrder args = .ok order)
    (h20 : Spec.EarlyHeader 20 text) (h : Spec.OrderedInequalityFile {} text c) (hc : c.Consistent n) (hn : c.names.Nodup)
    (hne : c.maps ≠ [] → c.names ≠ []) :
    ∃ (rows A : Matrix) (maps : Maps) (o : Outcome (Matrix × Names × Maps × Matrix)),
      List.Forall₂ (Spec.Constraint.HasRow c.names) c.inequalities rows ∧
      (∀ a ∈ A, a.length = n + 1) ∧ (∀ a ∈ A, ∀ x ∈ a, Spec.IsInt x) ∧ List.replicate n 0 ++ [-1] ∈ A ∧
      (∀ p : Fin n → ℚ, Spec.Solves n A p ↔ c.Solution p) ∧
      List.Forall₂ (Spec.DoesImages c.names) c.maps maps ∧
      (∃ N, ∀ fuel ≥ N, inputInequalities fuel files args = some o) ∧
      (o = .ub ∨ (o = .thrown ∧ ¬ c.Accepted n rows) ∨ (o = .ok (A, c.names, maps, []) ∧ c.Accepted n rows)) ∧
      ∀ (args' : List Arg) (files' : Files) (f' : List Char), Spec.PlainCommand args' f' → files' f' = some text →
        getInputOrder args' = .ok order → ∃ N, ∀ fuel ≥ N, inputInequalities fuel files' args' = some (.ok (A, c.names, maps, [])) := by
  obtain ⟨d, ⟨e1, -, e3, e4, e5, e6, e7, e8⟩, ⟨M, hM⟩, -, hend⟩ := orderedInequalityFile_reads h (d := {})
    ⟨rfl, by intro x hx; simp at hx, .nil, .nil, .nil, rfl, by intro x hx; simp at hx, by intro x hx; simp at hx⟩
  obtain ⟨o, ⟨N, hN⟩, hcase⟩ := hend (checkClasses_nil _ _)
  obtain ⟨c1, c2, c3, c4, c5, c6⟩ := hc
  have hl : c.maps ≠ [] → c.names.length = n := fun h => c4 (hne h)
  have hlss : ∀ ls ∈ c.maps, ls.length = n := fun ls hls => by
    rw [inequalityFile_maps (orderedInequalityFile_file h) (by simp) ls hls, hl (List.ne_nil_of_mem hls)]
  have l1 : ∀ r ∈ d.inequalities, r.length = n + 1 := by
    intro r hr
    obtain ⟨a, ha, ⟨t, ht⟩, har⟩ := forall₂_right e4 e7 r hr
    exact (hasRow_meaning ht har (c2 a ha) 0).1
  have l2 : ∀ r ∈ d.equations, r.length = n + 1 := by
    intro r hr
    obtain ⟨a, ha, ⟨t, ht⟩, har⟩ := forall₂_right e5 e8 r hr
    exact (hasRow_meaning ht har (c3 a ha) 0).1
  have l3 : ∀ r ∈ d.equations, ∀ x ∈ r, x ≠ -2147483648 := by
    intro r hr
    obtain ⟨a, ha, ⟨t, ht⟩, har⟩ := forall₂_right e5 e8 r hr
    exact hasRow_min ht har fun r' e => c6 r' (e ▸ ha)
  have hcons : Spec.ConsistentInequalities d.inequalities d.names d.dimension := by
    refine ⟨?_, n + 1, l1, ?_, ?_⟩
    · intro h0; rw [h0] at e4; exact c1 (List.forall₂_nil_right_iff.1 e4)
    · intro hne; rw [e1] at hne ⊢; rw [c4 hne]
    · intro k hk; rw [e6] at hk; rw [c5 k hk]
  have i1 : ∀ r ∈ d.inequalities, ∀ x ∈ r, Spec.IsInt x := by
    intro r hr
    obtain ⟨a, ha, ⟨t, ht⟩, har⟩ := forall₂_right e4 e7 r hr
    exact hasRow_int ht har
  have i2 : ∀ r ∈ d.equations, ∀ x ∈ r, Spec.IsInt x := by
    intro r hr
    obtain ⟨a, ha, ⟨t, ht⟩, har⟩ := forall₂_right e5 e8 r hr
    exact hasRow_int ht har
  have hacc : CheckOkI d ↔ c.Accepted n d.inequalities := checkClassesI_iff hn hl hlss e3 l1
  obtain ⟨A, a1, a2, a3, a4, a5⟩ := C46_assembled ho hcons l1 l2 l3
  have ha1 : ∀ args' : List Arg, getInputOrder args' = .ok order →
      assembleInequalities args' d.inequalities d.equations d.names d.dimension = .ok A := fun args' ho' => by
    rw [← a1]
    unfold assembleInequalities sort
    rw [ho, ho']
  refine ⟨d.inequalities, A, d.maps, o.bind fun d => .ok (A, d.names, d.maps, []), e4, a2, ?_, a3, fun p => ?_, e3, ⟨N, fun fuel hfu => ?_⟩, ?_,
    fun args' files' f' hp hf' ho' => ⟨M, fun fuel hfu => ?_⟩⟩
  · intro a ha x hx
    rcases a5 a ha with h | ⟨e, he, rfl | rfl⟩ | rfl
    · exact i1 a h x hx
    · exact i2 _ he x hx
    · obtain ⟨y, hy, rfl⟩ := List.mem_map.1 hx
      have := i2 e he y hy
      have := l3 e he y hy
      unfold Spec.IsInt at *; omega
    · rcases List.mem_append.1 hx with hx | hx
      · rw [(List.mem_replicate.1 hx).2]; unfold Spec.IsInt; decide
      · rw [List.mem_singleton.1 hx]; unfold Spec.IsInt; decide
  · unfold Spec.InequalityContent.Solution
    rw [a4 p, ← rows_meaning e4 e7 c2 p, ← rows_meaning e5 e8 c3 p]
    simp only [Bool.false_eq_true, if_false, if_true]
  · unfold inputInequalities
    rw [(C55_filename ha.1).1 f rfl]
    simp only [Run.bind, hf]
    rw [if_neg (by rw [show containsKeywords text = true from containsKeywords_early.1 h20]; simp), checkOption_given ha.2.1,
      inequalityFileLoop_eq, hN fuel hfu]
    rcases hcase with rfl | ⟨rfl, -⟩ | ⟨rfl, -⟩
    · rfl
    · rfl
    · simp only [a1, Outcome.bind]
      unfold knownVertices
      rw [known_absent false args ha.2.2]
      simp [Run.bind, Typed.checkValidityOfVertices]
  · rcases hcase with rfl | ⟨rfl, h⟩ | ⟨rfl, h⟩
    · exact Or.inl rfl
    · exact Or.inr (Or.inl ⟨rfl, fun h' => h (hacc.2 h')⟩)
    · exact Or.inr (Or.inr ⟨by simp only [Outcome.bind]; rw [e1], hacc.1 h⟩)
  · unfold inputInequalities
    rw [(C55_filename hp.1).1 f' rfl]
    simp only [Run.bind, hf']
    rw [if_neg (by rw [show containsKeywords text = true from containsKeywords_early.1 h20]; simp), checkOption_plain hp,
      inequalityFileLoop_eq, hM fuel hfu]
    simp only [ha1 args' ho']
    unfold knownVertices
    rw [known_absent false args' hp.2.2.2]
    simp [Run.bind, e1]

/-- **C69** A map that permutes the inequalities of a file without equations, whose solution set is not empty and contains no line, is a
symmetry of the solution set. -/
theorem C69_system_symmetry {n : Nat} {names : Names} {m : List (List (Option (List Char) × Int))} {A : Matrix}
    (hm : Spec.PermutesInequalities names n m A) (hsat : ∃ p, Spec.Solves n A p) (hline : ¬ Spec.Line (Spec.Solves n A)) :
    Spec.MapsOnto names m (Spec.Solves n A) := by
  have e : ∀ p : Fin n → ℚ, Spec.mapPoint names m p = directionMap names n m p + Spec.mapPoint names m 0 := fun p => by
    show _ = Spec.mapPoint names m p - Spec.mapPoint names m 0 + _
    abel
  have back : ∀ p : Fin n → ℚ, Spec.Solves n A (Spec.mapPoint names m p) → Spec.Solves n A p := by
    intro p hp b hb
    obtain ⟨a, ha, s, hs, h⟩ := hm.2 b hb
    have := hp a ha
    rw [h] at this
    exact nonpos_of_mul_nonpos_right this hs
  have hinj : Function.Injective (directionMap names n m) := by
    rw [← LinearMap.ker_eq_bot, LinearMap.ker_eq_bot']
    intro q hq
    by_contra hne
    obtain ⟨p, hp⟩ := hsat
    refine hline ⟨p, q, hne, fun t => back _ ?_⟩
    have : Spec.mapPoint names m (p + t • q) = Spec.mapPoint names m p := by
      rw [e, e p, map_add, map_smul, hq]; simp
    rw [this]
    intro a ha
    obtain ⟨b, hb, s, hs, h⟩ := hm.1 a ha
    rw [h]
    exact mul_nonpos_of_nonneg_of_nonpos hs.le (hp b hb)
  have hsurj : Function.Surjective (directionMap names n m) := LinearMap.injective_iff_surjective.1 hinj
  constructor
  · intro p hp a ha
    obtain ⟨b, hb, s, hs, h⟩ := hm.1 a ha
    rw [h]
    exact mul_nonpos_of_nonneg_of_nonpos hs.le (hp b hb)
  · intro p hp
    obtain ⟨q, hq⟩ := hsurj (p - Spec.mapPoint names m 0)
    have eq : Spec.mapPoint names m q = p := by rw [e, hq, sub_add_cancel]
    exact ⟨q, back q (by rw [eq]; exact hp), eq⟩

/-- some check fails: a map does not permute the inequalities of the file, or their rows are not different and in lowest terms -/
def Spec.InequalityContent.Rejected (c : Spec.InequalityContent) (n : Nat) : Prop :=
  ∃ rows, List.Forall₂ (Spec.Constraint.HasRow c.names) c.inequalities rows ∧ ¬ c.Accepted n rows

/-- all maps permute the inequalities -/
def Spec.InequalityContent.MapsPermute (c : Spec.InequalityContent) (n : Nat) : Prop :=
  ∃ rows, List.Forall₂ (Spec.Constraint.HasRow c.names) c.inequalities rows ∧ ∀ m ∈ c.maps, Spec.PermutesInequalities c.names n m rows

/-- a run in which reading the inequalities throws -/
theorem ad_thrown_vertices {hardware : Nat} {help : Option ProgramResult} {files : Files} {args : List Arg} {ty : IntegerType}
    (e1 : ∀ ad fuel, program ad help fuel files args = ad false) (t1 : integerType args = .ok ty) {N : Nat}
    (hN : ∀ fuel ≥ N, inputInequalities fuel files args = some .thrown) :
    (∃ r, ProgramEnds hardware help files args r) ∧ ∀ r, ProgramEnds hardware help files args r → r = .failed := by
  have key : ∀ fuel ≥ N, adProgramVertices hardware fuel files args = some .thrown := by
    intro fuel hf
    unfold adProgramVertices
    rw [t1]
    simp only [Run.lift, Run.bind, hN fuel hf]
  constructor
  · refine ⟨.failed, N, fun facets => if facets then none else some .failed, ?_, by rw [e1]; rfl⟩
    intro facets x hx
    cases facets with
    | true => simp at hx
    | false =>
      obtain rfl : x = .failed := by simpa using hx.symm
      refine ⟨N, fun fuel hf => ?_⟩
      simp only [Bool.false_eq_true, if_false, key fuel hf]
  · rintro r ⟨fuel, ad, h1, h2⟩
    rw [e1] at h2
    obtain ⟨M, hM⟩ := h1 false r h2
    have := hM (max M N) (le_max_left _ _)
    simp only [Bool.false_eq_true, if_false, key (max M N) (le_max_right _ _)] at this
    exact this

/-- what a file with inequalities is read as, with `-c` -/
theorem checked_system {args : List Arg} {f text : List Char} {files : Files} {order : InputOrder} {c : Spec.InequalityContent} {n : Nat}
    (ha : Spec.CheckedCommand args f) (hf : files f = some text) (ho : getInputOrder args = .ok order)
    (h20 : Spec.EarlyHeader 20 text) (h : Spec.OrderedInequalityFile {} text c) (hc : c.Consistent n) (hn : c.names.Nodup)
    (hne : c.names ≠ []) (hm : c.maps ≠ []) (heq : c.equations = [])
    (hsat : ∃ p : Fin n → ℚ, c.Solution p) (hline : ¬ Spec.Line (d := n) c.Solution) :
    (∃ N, ∀ fuel ≥ N, inputInequalities fuel files args = some .ub) ∨
      ((∃ N, ∀ fuel ≥ N, inputInequalities fuel files args = some .thrown) ∧ c.Rejected n) ∨
      (ReadsSystem files args n c.names c.maps c.Solution ∧ c.MapsPermute n ∧ ∀ m ∈ c.maps, Spec.MapsOnto (d := n) c.names m c.Solution) := by
  obtain ⟨rows, A, maps, o, h1, h2, h3, h4, h5, h6, ⟨N, hN⟩, hcase, -⟩ := C69_inequalities ha hf ho h20 h hc hn fun _ => hne
  rcases hcase with rfl | ⟨rfl, hr⟩ | ⟨rfl, hr⟩
  · exact Or.inl ⟨N, hN⟩
  · exact Or.inr (Or.inl ⟨⟨N, hN⟩, rows, h1, hr⟩)
  · obtain ⟨hp, -⟩ := hr hm
    refine Or.inr (Or.inr ⟨⟨A, maps, N, hN, h6, h2, h3, h4, h5⟩, ⟨rows, h1, hp⟩, fun m hmm => ?_⟩)
    obtain ⟨d, ⟨e1, -, e3, e4, e5, e6, e7, e8⟩, -⟩ := orderedInequalityFile_reads h (d := {})
      ⟨rfl, by intro x hx; simp at hx, .nil, .nil, .nil, rfl, by intro x hx; simp at hx, by intro x hx; simp at hx⟩
    have hS : Spec.Solves n rows = c.Solution := funext fun p => propext (by
      unfold Spec.InequalityContent.Solution
      rw [heq, ← rows_meaning h1 e7 hc.2.1 p]
      simp [Spec.Solves])
    have := C69_system_symmetry (hp m hmm) (by rw [hS]; exact hsat) (by rw [hS]; exact hline)
    rwa [hS] at this

/-- **C69** (double description) Vertex enumeration with `-c` on a file without equations, maps before the inequalities; the maps need not be
symmetries.  If the solution set is not empty and contains no line: if the program finishes, every map permutes the inequalities
(so it maps the solution set onto itself), and the program prints exactly one vertex of every orbit of vertices and one direction of every orbit of
extreme directions; the solution set is the hull of their images.  The program always ends; it reports an error only if a
check fails or (with checked integers) an operation overflows. -/
theorem C69_vertices_dd {ad : Bool → Option ProgramResult} {help : Option ProgramResult} {args : List Arg} {f text : List Char}
    {files : Files} {order : InputOrder} {c : Spec.InequalityContent} {n : Nat}
    (ha : Spec.CheckedCommand args f) (hf : files f = some text) (ho : getInputOrder args = .ok order)
    (hd : Spec.UsesDD args) (hi : Spec.UsesChecked args ∨ Spec.UsesInt args) (hh : Spec.NoHelp args)
    (hw : Spec.HasWordLine Spec.inequalityWords text) (hw' : ¬ Spec.HasWordLine Spec.hullWords text)
    (h20 : Spec.EarlyHeader 20 text) (h : Spec.OrderedInequalityFile {} text c) (hc : c.Consistent n) (h0 : 0 < n) (hm : c.maps ≠ [])
    (hn : Spec.AdmissibleNames c.names) (hne : c.names ≠ []) (heq : c.equations = [])
    (hsat : ∃ p : Fin n → ℚ, c.Solution p) (hline : ¬ Spec.Line (d := n) c.Solution) :
    ∃ N, ∀ fuel ≥ N, ∃ r, program ad help fuel files args = some r ∧
      ((r = .failed ∧ (Spec.UsesChecked args ∨ c.Rejected n)) ∨ r = .undefined ∨
        ∃ (out : List Char) (points rays : List (List (Int × Int))), r = .finished 0 out ∧ Spec.PrintedReducedPoints out points rays ∧
          (∀ q ∈ points ++ rays, q.length = n) ∧ c.MapsPermute n ∧ (∀ m ∈ c.maps, Spec.MapsOnto (d := n) c.names m c.Solution) ∧
          Spec.OnePerOrbit (d := n) c.names c.maps c.Solution (points.map (Spec.point n)) (rays.map (Spec.point n)) ∧
          ∀ p : Fin n → ℚ, c.Solution p ↔ Spec.HullOf (Spec.ImageOf c.names c.maps (points.map (Spec.point n)))
            (Spec.DirectionImageOf c.names c.maps (rays.map (Spec.point n))) p) := by
  have hl : c.names.length = n := hc.2.2.2.1 hne
  have hlss : ∀ ls ∈ c.maps, ls.length = n := fun ls hls => by
    rw [inequalityFile_maps (orderedInequalityFile_file h) (by simp) ls hls, hl]
  have run : ∀ {fuel o}, (∀ x, o ≠ .ok x) → inputInequalities fuel files args = some o →
      program ad help fuel files args = some (match o with | .thrown => .failed | .ub => .undefined | .ok _ => .undefined) := by
    intro fuel o hne hN
    obtain ⟨ty, t1, -⟩ := uses_type hi
    unfold program
    rw [detect_vertices ha.1 hf hh hw hw']
    simp only [enumeration, usesDD_method hd, if_true]
    unfold verticesDD
    rw [t1]
    simp only [Run.lift, Run.bind]
    rw [hN]
    cases o with
    | ok x => exact (hne x rfl).elim
    | thrown => rfl
    | ub => rfl
  rcases checked_system ha hf ho h20 h hc hn.1 hne hm heq hsat hline with ⟨N, hN⟩ | ⟨⟨N, hN⟩, hr⟩ | ⟨hr, hperm, hsym⟩
  · exact ⟨N, fun fuel hfu => ⟨_, run (by simp) (hN fuel hfu), Or.inr (Or.inl rfl)⟩⟩
  · exact ⟨N, fun fuel hfu => ⟨_, run (by simp) (hN fuel hfu), Or.inl ⟨rfl, Or.inr hr⟩⟩⟩
  · obtain ⟨N, hN⟩ := system_vertices_dd (ad := ad) (help := help) ha.1 hf hr hl hlss hd hi hh hw hw' h0 hm hn hsat hline hsym
    refine ⟨N, fun fuel hfu => ?_⟩
    obtain ⟨r, h1, h2⟩ := hN fuel hfu
    refine ⟨r, h1, ?_⟩
    rcases h2 with ⟨h2, h3⟩ | ⟨h2, -⟩ | ⟨out, points, rays, g1, g2, g3, g4⟩
    · exact Or.inl ⟨h2, Or.inl h3⟩
    · exact Or.inr (Or.inl h2)
    · exact Or.inr (Or.inr ⟨out, points, rays, g1, g2, g3, hperm, hsym, g4⟩)

/-- **C69** (adjacency decomposition) The same for every run of every number of threads, up to the missed edges of the method: every printed
row is a vertex or an extreme direction, at most one of every orbit; one of every orbit if no edge of the solution set runs
away from the origin through its vertex. -/
theorem C69_vertices_ad {hardware : Nat} {help : Option ProgramResult} {args : List Arg} {f text : List Char}
    {files : Files} {order : InputOrder} {c : Spec.InequalityContent} {n : Nat}
    (ha : Spec.CheckedCommand args f) (hf : files f = some text) (ho : getInputOrder args = .ok order)
    (hd : Spec.UsesAD args) (hi : Spec.UsesChecked args ∨ Spec.UsesInt args) (ht : Spec.ThreadsOk args) (hh : Spec.NoHelp args)
    (hw : Spec.HasWordLine Spec.inequalityWords text) (hw' : ¬ Spec.HasWordLine Spec.hullWords text)
    (h20 : Spec.EarlyHeader 20 text) (h : Spec.OrderedInequalityFile {} text c) (hc : c.Consistent n) (h0 : 0 < n) (hm : c.maps ≠ [])
    (hn : Spec.AdmissibleNames c.names) (hne : c.names ≠ []) (heq : c.equations = [])
    (hsat : ∃ p : Fin n → ℚ, c.Solution p) (hline : ¬ Spec.Line (d := n) c.Solution) :
    (∃ r, ProgramEnds hardware help files args r) ∧ ∀ r, ProgramEnds hardware help files args r →
      (r = .failed ∧ (Spec.UsesChecked args ∨ c.Rejected n)) ∨ r = .undefined ∨
        ∃ (out : List Char) (rows : List (List Int)), r = .finished 0 out ∧ Spec.PrintedReducedRows out rows ∧ rows.Nodup ∧
          c.MapsPermute n ∧ (∀ m ∈ c.maps, Spec.MapsOnto (d := n) c.names m c.Solution) ∧
          (∀ r ∈ rows, Spec.VertexRow (d := n) c.Solution r) ∧
          (∀ r ∈ rows, ∀ r' ∈ rows, 0 < r.getD n 0 → 0 < r'.getD n 0 →
            Spec.Moved c.names c.maps (Spec.coord n r) (Spec.coord n r') → r = r') ∧
          (∀ r ∈ rows, ∀ r' ∈ rows, r.getD n 0 = 0 → r'.getD n 0 = 0 → ∀ s : ℚ, 0 < s →
            Spec.MovedDirection c.names c.maps (Spec.coord n r) (s • Spec.coord n r') → r = r') ∧
          ((∀ v : Fin n → ℚ, Spec.Vertex c.Solution v → ∀ t : ℚ, 0 < t → ¬ Spec.Edge c.Solution v (t • Spec.outward v)) →
            Spec.OnePerOrbit (d := n) c.names c.maps c.Solution (Spec.pointsOf n rows) (Spec.directionsOf n rows) ∧
            ∀ p : Fin n → ℚ, c.Solution p ↔ Spec.HullOf (Spec.ImageOf c.names c.maps (Spec.pointsOf n rows))
              (Spec.DirectionImageOf c.names c.maps (Spec.directionsOf n rows)) p) := by
  have hl : c.names.length = n := hc.2.2.2.1 hne
  have hlss : ∀ ls ∈ c.maps, ls.length = n := fun ls hls => by
    rw [inequalityFile_maps (orderedInequalityFile_file h) (by simp) ls hls, hl]
  have e1 : ∀ ad fuel, program ad help fuel files args = ad false := by
    intro ad fuel
    unfold program
    rw [detect_vertices ha.1 hf hh hw hw']
    simp only [enumeration, usesAD_method hd]
  obtain ⟨ty, t1, -⟩ := uses_type hi
  rcases checked_system ha hf ho h20 h hc hn.1 hne hm heq hsat hline with ⟨N, hN⟩ | ⟨⟨N, hN⟩, hr⟩ | ⟨hr, hperm, hsym⟩
  · obtain ⟨h1, h2⟩ := ad_ub_vertices (hardware := hardware) e1 t1 hN
    exact ⟨h1, fun r hr => Or.inr (Or.inl (h2 r hr))⟩
  · obtain ⟨h1, h2⟩ := ad_thrown_vertices (hardware := hardware) e1 t1 hN
    exact ⟨h1, fun r hr' => Or.inl ⟨h2 r hr', Or.inr hr⟩⟩
  · obtain ⟨h1, h2⟩ := system_vertices_ad (hardware := hardware) (help := help) ha.1 hf hr hl hlss hd hi ht hh hw hw' h0 hm hn hsat hline hsym
    refine ⟨h1, fun r hr => ?_⟩
    rcases h2 r hr with ⟨h2, h3⟩ | ⟨h2, -⟩ | ⟨out, rows, g1, g2, g3, g4⟩
    · exact Or.inl ⟨h2, Or.inl h3⟩
    · exact Or.inr (Or.inl h2)
    · exact Or.inr (Or.inr ⟨out, rows, g1, g2, g3, hperm, hsym, g4⟩)

/-- **C69** (termination) In the situation of `C69_vertices_ad`: the threads start or the program ends before; the threads are never
stuck, and there is no infinite run, if `std::condition_variable` wakes no thread without reason. -/
theorem C69_vertices_terminate {hardware : Nat} {args : List Arg} {f text : List Char}
    {files : Files} {order : InputOrder} {c : Spec.InequalityContent} {n : Nat}
    (ha : Spec.CheckedCommand args f) (hf : files f = some text) (ho : getInputOrder args = .ok order)
    (hi : Spec.UsesChecked args ∨ Spec.UsesInt args) (ht : Spec.ThreadsOk args)
    (h20 : Spec.EarlyHeader 20 text) (h : Spec.OrderedInequalityFile {} text c) (hc : c.Consistent n) (h0 : 0 < n) (hm : c.maps ≠ [])
    (hn : Spec.AdmissibleNames c.names) (hne : c.names ≠ []) (heq : c.equations = [])
    (hsat : ∃ p : Fin n → ℚ, c.Solution p) (hline : ¬ Spec.Line (d := n) c.Solution) :
    ∃ N, ∀ fuel ≥ N, adProgramVertices hardware fuel files args ≠ none ∧
      ∀ a ty, adProgramVertices hardware fuel files args = some (.ok a) → integerType args = .ok ty →
        (∀ s out, ADReach (selectArith ty) a (.running s out) → ¬ s.Finished → ∃ σ, ADStep (selectArith ty) a (.running s out) σ ∧
          ∀ s' out', σ = .running s' out' → Progress (adProgramConfig (selectArith ty) a) s s') ∧
        ∀ f : Nat → ADState (Fin a.threads), f 0 = ADState.init (selectArith ty) a → (∀ n, ADStep (selectArith ty) a (f n) (f (n + 1))) →
          ∃ n s s' out out', f n = .running s out ∧ f (n + 1) = .running s' out' ∧ Spurious s s' := by
  obtain ⟨ty, t1, -⟩ := uses_type hi
  have hl : c.names.length = n := hc.2.2.2.1 hne
  have hlss : ∀ ls ∈ c.maps, ls.length = n := fun ls hls => by
    rw [inequalityFile_maps (orderedInequalityFile_file h) (by simp) ls hls, hl]
  have stop : ∀ {o N}, (∀ x, o ≠ .ok x) → (∀ fuel ≥ N, inputInequalities fuel files args = some o) →
      ∀ fuel ≥ N, adProgramVertices hardware fuel files args ≠ none ∧ ∀ a, adProgramVertices hardware fuel files args ≠ some (.ok a) := by
    intro o N hne hN fuel hf
    unfold adProgramVertices
    rw [t1]
    simp only [Run.lift, Run.bind, hN fuel hf]
    cases o with
    | ok x => exact (hne x rfl).elim
    | thrown => exact ⟨by simp, fun a => by simp⟩
    | ub => exact ⟨by simp, fun a => by simp⟩
  rcases checked_system ha hf ho h20 h hc hn.1 hne hm heq hsat hline with ⟨N, hN⟩ | ⟨⟨N, hN⟩, hr⟩ | ⟨hr, hperm, hsym⟩
  · exact ⟨N, fun fuel hf => ⟨(stop (by simp) hN fuel hf).1, fun a _ h => ((stop (by simp) hN fuel hf).2 a h).elim⟩⟩
  · exact ⟨N, fun fuel hf => ⟨(stop (by simp) hN fuel hf).1, fun a _ h => ((stop (by simp) hN fuel hf).2 a h).elim⟩⟩
  · exact system_vertices_terminate hr hl hlss hi ht h0 hm hn hsat hline hsym

end Panda
