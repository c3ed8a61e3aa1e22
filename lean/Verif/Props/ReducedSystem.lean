import Verif.Proofs.ExpandFacets
import Verif.Props.ReducedFile

/-! # C68: files that list one inequality of every orbit -/

namespace Panda

/-- what has been read agrees with the content -/
structure SHolds {d : Nat} (c : Spec.SystemContent d) (data : InequalityData) : Prop where
  names : data.names = c.names
  noKeyword : ∀ x ∈ c.names, isKeyword x = false
  maps : List.Forall₂ (Spec.DoesImages c.names) c.maps data.maps
  images : ∀ ls ∈ c.maps, ls.length = c.names.length
  length : ∀ r ∈ data.inequalities, r.length = d + 1
  range : IntEntries data.inequalities
  meaning : ∀ p, c.inequalities p ↔ ∀ r ∈ data.inequalities, Spec.value d r p ≤ 0
  given : c.given → data.inequalities ≠ []
  equations : List.Forall₂ (Spec.Constraint.HasRow c.names) c.equations data.equations
  texts : ∀ a ∈ c.equations, ∃ t, Spec.ConstraintText true c.names t a
  sizes : ∀ a ∈ c.equations, a.HasSize c.names d
  dimension : data.dimension = c.dimension

/-- the maps can be applied to the representatives with `int`, except for overflows (only if `u`) -/
def FacetFitting (d : Nat) (Q : List (List (List (Option (List Char) × Int))) → Prop) (u : Prop) : Prop :=
  ∀ (names : Names) (lss : List (List (List (Option (List Char) × Int)))) (maps : Maps) (cs : List Spec.Constraint) (rows : Matrix),
    Q lss → names ≠ [] → names.Nodup → names.length = d → (∀ ls ∈ lss, ls.length = d) → List.Forall₂ (Spec.DoesImages names) lss maps →
    (∀ a ∈ cs, ∃ t, Spec.ConstraintText false names t a) → List.Forall₂ (Spec.Constraint.HasRow names) cs rows →
    ∃ P : Row → Prop, StepsFit maps .facet (d + 1) u P ∧ ∀ r ∈ rows, P r

theorem facetFitting_all (d : Nat) : FacetFitting d (fun _ => True) True := by
  intro names lss maps cs rows _ _ hn hl hls hdo ht hr
  refine ⟨RowR Spec.IsInt, stepsFit_int (fun m hm => ?_) (fun x hx m hm => ?_), fun r h => ?_⟩
  · obtain ⟨ls, -, hd⟩ := (forall₂_both hdo).2 m hm
    exact hd.2.2.1
  · obtain ⟨y, h1, h2, -⟩ := facet_step_exists hn hl hls hdo x hx m hm
    exact ⟨y, h1, h2⟩
  · obtain ⟨a, ha, ⟨t, ht⟩, har⟩ := forall₂_right hr ht r h
    exact hasRow_int ht har

theorem facetFitting_signed (d : Nat) : FacetFitting d (fun lss => ∀ ls ∈ lss, Spec.SignedPermutation ls) False := by
  intro names lss maps cs rows hQ hne hn hl hls hdo ht hr
  refine ⟨RowR SymInt, stepsFit_sparse (fun m hm => ?_) (fun x hx m hm => ?_), fun r h x hx => ?_⟩
  · obtain ⟨ls, hls', hd⟩ := (forall₂_both hdo).2 m hm
    exact ⟨by have := hd.1; rwa [hl] at this, sparse_facet hn hl (hls ls hls') hd (hQ ls hls')⟩
  · obtain ⟨y, h1, h2, -⟩ := facet_step_exists hn hl hls hdo x hx m hm
    exact ⟨y, h1, h2⟩
  · obtain ⟨a, ha, ⟨t, ht⟩, har⟩ := forall₂_right hr ht r h
    have h1 := hasRow_int ht har x hx
    have h2 := hasRow_min ht har (fun row e => by subst e; exact absurd ht.1 hne) x hx
    unfold Spec.IsInt at h1
    unfold SymInt
    omega

theorem rows_length {names : Names} {d : Nat} {eq : Bool} {cs : List Spec.Constraint} {rows : Matrix}
    (h : List.Forall₂ (Spec.Constraint.HasRow names) cs rows) (ht : ∀ a ∈ cs, ∃ t, Spec.ConstraintText eq names t a)
    (hs : ∀ a ∈ cs, a.HasSize names d) : ∀ r ∈ rows, r.length = d + 1 ∧ ∀ x ∈ r, Spec.IsInt x := by
  intro r hr
  obtain ⟨a, ha, ⟨t, ht⟩, har⟩ := forall₂_right h ht r hr
  exact ⟨(hasRow_meaning ht har (hs a ha) 0).1, hasRow_int ht har⟩

theorem rows_ne_nil {names : Names} {cs : List Spec.Constraint} {rows : Matrix}
    (h : List.Forall₂ (Spec.Constraint.HasRow names) cs rows) (hne : cs ≠ []) : rows ≠ [] := fun e => by
  rw [e] at h; exact hne (List.forall₂_nil_right_iff.1 h)

theorem systemFile_reads {dim : Nat} {Q : List (List (List (Option (List Char) × Int))) → Prop} {u : Prop}
    (hQ : FacetFitting dim Q u) {c c' : Spec.SystemContent dim} {text : List Char} (h : Spec.SystemFile Q c text c') :
    ∀ {d : InequalityData}, SHolds c d → (u ∧ Ends (inequalitySection false) ⟨text, false, false⟩ d .ub) ∨
      ∃ d', SHolds c' d' ∧ Reads (inequalitySection false) ⟨text, false, false⟩ d d' := by
  induction h with
  | nil => intro d hd; exact Or.inr ⟨d, hd, reads_nil false d⟩
  | @other c c' w l r hl hh _ ih =>
    intro d hd
    have key : ∀ {o}, Ends (inequalitySection false) ⟨r, false, false⟩ d o → Ends (inequalitySection false) ⟨w, false, false⟩ d o := by
      intro o h2
      by_cases hk : isKeyword (trimWhitespace l) = true
      · refine reads_other hl hk (fun fuel s => ?_) h2
        have hn : ∀ {ws : List String}, (∀ k ∈ ws, k ∈ Spec.inequalityFileWords) → ¬ Spec.Header ws l := fun h h' => hh (h'.mono h)
        unfold inequalitySection
        rw [if_neg (by rw [header_dimension]; exact hn (by decide +kernel)), if_neg (by rw [header_names]; exact hn (by decide +kernel)),
          if_neg (by rw [header_maps]; exact hn (by decide +kernel)), if_neg (by rw [header_equations]; exact hn (by decide +kernel)),
          if_neg (by rw [header_inequalities]; exact hn (by decide +kernel)),
          if_neg (by rw [header_reducedInequalities]; exact hn (by decide +kernel))]
      · exact reads_skip hl (by simpa using hk) h2
    rcases ih hd with ⟨hu, h2⟩ | ⟨d', h1, h2⟩
    · exact Or.inl ⟨hu, key h2⟩
    · exact Or.inr ⟨d', h1, key h2⟩
  | @names c c' k t w names hk hkw ht hw hm he _ ih =>
    intro d hd
    have hdm : d.maps = [] := forall₂_nil hd.maps hm
    have hde : d.equations = [] := forall₂_nil hd.equations he
    have hkn := (header_names k).2 hkw
    have hkk := (header_keyword k).2 (hkw.mono (by decide +kernel))
    obtain ⟨ws, s, g1, g2, g3, g4⟩ := readNames_body hk hkn (sectionRest_end hw).section ht
    have key : ∀ {o}, Ends (inequalitySection false) ⟨w, false, false⟩ { d with names := names } o →
        Ends (inequalitySection false) ⟨k ++ '\n' :: (t ++ w), false, false⟩ d o := by
      intro o h2
      refine reads_section (firstLine_line hk) hkk ⟨0, fun fuel _ => ?_⟩ (reads_after_names g2 g3 g4 h2)
      unfold inequalitySection
      simp only [(header_kind hkk).1 hkn, hkn, Bool.false_eq_true, if_false, if_true, g1, Run.bind]
    have hd' : SHolds { c with names := names } { d with names := names } := by
      refine ⟨rfl, namesBody_keyword ht, ?_, ?_, hd.length, hd.range, hd.meaning, hd.given, ?_, ?_, ?_, hd.dimension⟩
      · show List.Forall₂ _ c.maps d.maps
        rw [hm, hdm]; exact .nil
      · show ∀ ls ∈ c.maps, _
        rw [hm]; simp
      · show List.Forall₂ _ c.equations d.equations
        rw [he, hde]; exact .nil
      · show ∀ a ∈ c.equations, _
        rw [he]; simp
      · show ∀ a ∈ c.equations, _
        rw [he]; simp
    rcases ih hd' with ⟨hu, h2⟩ | ⟨d', h1, h2⟩
    · exact Or.inl ⟨hu, key h2⟩
    · exact Or.inr ⟨d', h1, key h2⟩
  | @maps c c' k t w maps hk hkw ht hw _ ih =>
    intro d hd
    have hkn := (header_maps k).2 hkw
    have hkk := (header_keyword k).2 (hkw.mono (by decide +kernel))
    obtain ⟨N, hN⟩ := C53_sections hd.noKeyword ht hk hkn (sectionRest_end hw)
    obtain ⟨⟨s, ms⟩, ⟨hP1, hP2⟩, M, hM⟩ := run_fixed (f := fun fuel => readMaps c.names fuel ⟨k ++ '\n' :: (t ++ w), false, false⟩)
      (fun n r => readMaps_mono _ _ n r)
      (P := fun a => List.Forall₂ (Spec.DoesImages c.names) maps a.2 ∧
        Spec.AfterSection w a.1.rest a.1.eof a.1.fail (fun k => isKeywordEnd (firstWord k)))
      ⟨N, fun fuel hf => by obtain ⟨s, ms, h1, h2, h3⟩ := hN fuel hf; exact ⟨(s, ms), h1, h2, h3⟩⟩
    have key : ∀ {o}, Ends (inequalitySection false) ⟨w, false, false⟩ { d with maps := ms } o →
        Ends (inequalitySection false) ⟨k ++ '\n' :: (t ++ w), false, false⟩ d o := by
      intro o h2
      refine reads_section (firstLine_line hk) hkk ⟨M, fun fuel hf => ?_⟩
        (reads_after (sectionRest_end hw).section (fun fuel k s hk => inequalitySection_end fuel k s _ hk) hP2 h2)
      unfold inequalitySection
      obtain ⟨n1, n2⟩ := (header_kind hkk).2.1 hkn
      simp only [n1, n2, hkn, Bool.false_eq_true, if_false, if_true, hd.names, hM fuel hf, Run.bind]
    have hd' : SHolds { c with maps := maps } { d with maps := ms } :=
      ⟨hd.names, hd.noKeyword, hP1, fun ls hls => by obtain ⟨_, h⟩ := lines_all ht ls hls; exact h.2.1, hd.length, hd.range,
        hd.meaning, hd.given, hd.equations, hd.texts, hd.sizes, hd.dimension⟩
    rcases ih hd' with ⟨hu, h2⟩ | ⟨d', h1, h2⟩
    · exact Or.inl ⟨hu, key h2⟩
    · exact Or.inr ⟨d', h1, key h2⟩
  | @equations c c' k t w cs hk hkw ht hs hw _ ih =>
    intro d hd
    have hkn := (header_equations k).2 hkw
    have hkk := (header_keyword k).2 (hkw.mono (by decide +kernel))
    obtain ⟨N, hN⟩ := constraints_lines (P := Spec.ConstraintText true c.names) (R := Spec.Constraint.HasRow c.names)
      (fun t a h => constraintText_read (equation := true) h) ht hk
      (by unfold sectionKeyword; simpa using hkn) (sectionRest_end hw)
    obtain ⟨⟨s, rows⟩, ⟨hP1, hP2⟩, M, hM⟩ := run_fixed (f := fun fuel => constraints true c.names fuel ⟨k ++ '\n' :: (t ++ w), false, false⟩)
      (fun n r => constraints_mono _ _ _ n r)
      (P := fun a => List.Forall₂ (Spec.Constraint.HasRow c.names) cs a.2 ∧
        Spec.AfterSection w a.1.rest a.1.eof a.1.fail (fun k => isKeywordEnd (firstWord k)))
      ⟨N, fun fuel hf => by obtain ⟨s, ms, h1, h2, h3⟩ := hN fuel hf; exact ⟨(s, ms), h1, h2, h3⟩⟩
    have key : ∀ {o}, Ends (inequalitySection false) ⟨w, false, false⟩ { d with equations := rows } o →
        Ends (inequalitySection false) ⟨k ++ '\n' :: (t ++ w), false, false⟩ d o := by
      intro o h2
      refine reads_section (firstLine_line hk) hkk ⟨M, fun fuel hf => ?_⟩
        (reads_after (sectionRest_end hw).section (fun fuel k s hk => inequalitySection_end fuel k s _ hk) hP2 h2)
      unfold inequalitySection
      obtain ⟨n1, n2, n3⟩ := (header_kind hkk).2.2.2.2.2.2.1 hkn
      simp only [n1, n2, n3, hkn, Bool.false_eq_true, if_false, if_true, hd.names, hM fuel hf, Run.bind]
    have hd' : SHolds { c with equations := cs } { d with equations := rows } :=
      ⟨hd.names, hd.noKeyword, hd.maps, hd.images, hd.length, hd.range, hd.meaning, hd.given, hP1, lines_all ht, hs, hd.dimension⟩
    rcases ih hd' with ⟨hu, h2⟩ | ⟨d', h1, h2⟩
    · exact Or.inl ⟨hu, key h2⟩
    · exact Or.inr ⟨d', h1, key h2⟩
  | @inequalities c c' k t w cs hk hkw ht hs hw _ ih =>
    intro d hd
    have hkn := (header_inequalities k).2 hkw
    have hkk := (header_keyword k).2 (hkw.mono (by decide +kernel))
    obtain ⟨N, hN⟩ := constraints_lines (P := Spec.ConstraintText false c.names) (R := Spec.Constraint.HasRow c.names)
      (fun t a h => constraintText_read (equation := false) h) ht hk
      (by unfold sectionKeyword; simp [hkn]) (sectionRest_end hw)
    obtain ⟨⟨s, rows⟩, ⟨hP1, hP2⟩, M, hM⟩ := run_fixed (f := fun fuel => constraints false c.names fuel ⟨k ++ '\n' :: (t ++ w), false, false⟩)
      (fun n r => constraints_mono _ _ _ n r)
      (P := fun a => List.Forall₂ (Spec.Constraint.HasRow c.names) cs a.2 ∧
        Spec.AfterSection w a.1.rest a.1.eof a.1.fail (fun k => isKeywordEnd (firstWord k)))
      ⟨N, fun fuel hf => by obtain ⟨s, ms, h1, h2, h3⟩ := hN fuel hf; exact ⟨(s, ms), h1, h2, h3⟩⟩
    have key : ∀ {o}, Ends (inequalitySection false) ⟨w, false, false⟩ { d with inequalities := rows } o →
        Ends (inequalitySection false) ⟨k ++ '\n' :: (t ++ w), false, false⟩ d o := by
      intro o h2
      refine reads_section (firstLine_line hk) hkk ⟨M, fun fuel hf => ?_⟩
        (reads_after (sectionRest_end hw).section (fun fuel k s hk => inequalitySection_end fuel k s _ hk) hP2 h2)
      unfold inequalitySection
      obtain ⟨n1, n2, n3, n4⟩ := (header_kind hkk).2.2.2.2.2.2.2.1 hkn
      simp only [n1, n2, n3, n4, hkn, Bool.false_eq_true, if_false, if_true, hd.names, hM fuel hf, Run.bind]
    have hl := rows_length hP1 (lines_all ht) hs
    have hd' : SHolds (d := dim) { c with given := cs ≠ [], inequalities := fun p => ∀ a ∈ cs, a.HoldsAt false c.names p }
        { d with inequalities := rows } := by
      refine ⟨hd.names, hd.noKeyword, hd.maps, hd.images, fun r hr => (hl r hr).1, fun r hr => (hl r hr).2, fun p => ?_, rows_ne_nil hP1,
        hd.equations, hd.texts, hd.sizes, hd.dimension⟩
      have := rows_meaning hP1 (lines_all ht) hs p
      simp only [Bool.false_eq_true, if_false] at this
      exact this.symm
    rcases ih hd' with ⟨hu, h2⟩ | ⟨d', h1, h2⟩
    · exact Or.inl ⟨hu, key h2⟩
    · exact Or.inr ⟨d', h1, key h2⟩
  | @reducedInequalities c c' k t w cs hk hkw ht hw hm0 hn0 hnd hnl he hpl hq _ ih =>
    intro d hd
    have hde : d.equations = [] := forall₂_nil hd.equations he
    have hkn := (header_reducedInequalities k).2 hkw
    have hkk := (header_keyword k).2 (hkw.mono (by decide +kernel))
    obtain ⟨N, hN⟩ := constraints_lines (P := Spec.ConstraintText false c.names) (R := Spec.Constraint.HasRow c.names)
      (fun t a h => constraintText_read (equation := false) h) ht hk
      (by unfold sectionKeyword; simp [hkn]) (sectionRest_end hw)
    obtain ⟨⟨s, rows⟩, ⟨hP1, hP2⟩, M, hM⟩ := run_fixed (f := fun fuel => constraints false c.names fuel ⟨k ++ '\n' :: (t ++ w), false, false⟩)
      (fun n r => constraints_mono _ _ _ n r)
      (P := fun a => List.Forall₂ (Spec.Constraint.HasRow c.names) cs a.2 ∧
        Spec.AfterSection w a.1.rest a.1.eof a.1.fail (fun k => isKeywordEnd (firstWord k)))
      ⟨N, fun fuel hf => by obtain ⟨s, ms, h1, h2, h3⟩ := hN fuel hf; exact ⟨(s, ms), h1, h2, h3⟩⟩
    have hls : ∀ ls ∈ c.maps, ls.length = dim := fun ls h => by rw [hd.images ls h, hnl]
    have hs : ∀ a ∈ cs, a.HasSize c.names dim := fun a ha => by
      obtain ⟨t, ht⟩ := lines_all ht a ha
      cases a with
      | named _ _ _ => exact hnl
      | unnamed _ _ _ => exact absurd ht.1 hn0
      | raw _ => exact absurd ht.1 hn0
    have hl := rows_length hP1 (lines_all ht) hs
    obtain ⟨mm, hmm, hdo⟩ := typedNormalizeMaps_does (fixedArith 32) hd.maps hpl
    obtain ⟨P, hst, hP⟩ := hQ c.names c.maps mm cs rows hq hn0 hnd hnl hls hdo (lines_all ht) hP1
    have hmne : mm ≠ [] := fun e => by
      rw [e] at hdo
      exact hm0 (List.forall₂_nil_right_iff.1 hdo)
    obtain ⟨n1, n2, n3, n4, n5⟩ := (header_kind hkk).2.2.2.2.2.2.2.2.1 hkn
    rcases typedExpandLoop_ends hst rows (fun r hr => ⟨hP r hr, (hl r hr).1⟩) with ⟨hu, K, hK⟩ | ⟨B, ⟨K, hK⟩, b1, b2⟩
    · refine Or.inl ⟨hu, ends_ub (firstLine_line hk) hkk ⟨max M K, fun fuel hf => ?_⟩⟩
      unfold inequalitySection Typed.expand
      simp only [n1, n2, n3, n4, n5, hkn, Bool.false_eq_true, if_false, if_true, hd.names, hM fuel (le_trans (le_max_left _ _) hf), Run.bind,
        hde, hmm, if_neg hmne, hK fuel (le_trans (le_max_right _ _) hf)]
    · have key : ∀ {o}, Ends (inequalitySection false) ⟨w, false, false⟩ { d with inequalities := B } o →
          Ends (inequalitySection false) ⟨k ++ '\n' :: (t ++ w), false, false⟩ d o := by
        intro o h2
        refine reads_section (firstLine_line hk) hkk ⟨max M K, fun fuel hf => ?_⟩
          (reads_after (sectionRest_end hw).section (fun fuel k s hk => inequalitySection_end fuel k s _ hk) hP2 h2)
        unfold inequalitySection Typed.expand
        simp only [n1, n2, n3, n4, n5, hkn, Bool.false_eq_true, if_false, if_true, hd.names, hM fuel (le_trans (le_max_left _ _) hf), Run.bind,
          hde, hmm, if_neg hmne, hK fuel (le_trans (le_max_right _ _) hf)]
      have hd' : SHolds (d := dim) { c with given := cs ≠ [], inequalities := fun p => ∀ p', Spec.Moved c.names c.maps p p' → ∀ a ∈ cs, a.HoldsAt false c.names p' }
          { d with inequalities := B } := by
        have hmean : ∀ p, (∀ r ∈ rows, Spec.value dim r p ≤ 0) ↔ ∀ a ∈ cs, a.HoldsAt false c.names p := fun p => by
          have := rows_meaning hP1 (lines_all ht) hs p
          simpa only [Bool.false_eq_true, if_false] using this
        refine ⟨hd.names, hd.noKeyword, hd.maps, hd.images, fun r hr => (b1 r hr).2, fun r hr => (hst r (b1 r hr).1 (b1 r hr).2).1,
          fun p => ?_, fun hne => ?_, hd.equations, hd.texts, hd.sizes, hd.dimension⟩
        · constructor
          · intro h r hr
            obtain ⟨a, ha, hre⟩ := (b2 r).1 hr
            obtain ⟨-, h2⟩ := reach_facet hnd hnl hls hdo hre (hl a ha).1
            obtain ⟨p', h3, s, hs, e⟩ := h2 p
            rw [e]
            exact mul_nonpos_of_nonneg_of_nonpos hs.le ((hmean p').2 (h p' h3) a ha)
          · intro h p' hp'
            rw [← hmean p']
            intro a ha
            obtain ⟨y, y1, y2, s, hs, e⟩ := moved_reach_facet hnd hnl hls hdo (hl a ha).1 hp'
            have := h y ((b2 y).2 ⟨a, ha, y1⟩)
            rw [e] at this
            by_contra hlt
            exact absurd this (not_le.2 (mul_pos hs (not_le.1 hlt)))
        · obtain ⟨r, hr⟩ := List.exists_mem_of_ne_nil _ (rows_ne_nil hP1 hne)
          exact List.ne_nil_of_mem ((b2 r).2 ⟨r, hr, .refl⟩)
      rcases ih hd' with ⟨hu, h2⟩ | ⟨d', h1, h2⟩
      · exact Or.inl ⟨hu, key h2⟩
      · exact Or.inr ⟨d', h1, key h2⟩
  | @dimension c c' k b n b' w hk hkw hb hb' hn hd0 hv _ ih =>
    intro d hd
    have hkn := (header_dimension k).2 (hkw.mono (by decide +kernel))
    have hkk := (header_keyword k).2 (hkw.mono (by decide +kernel))
    have hbn := blanks_no_newline hb'
    have key : ∀ {o}, Ends (inequalitySection false) ⟨w, false, false⟩ { d with dimension := some (Spec.decimal n) } o →
        Ends (inequalitySection false) ⟨k ++ '\n' :: (b ++ (n ++ (b' ++ '\n' :: w))), false, false⟩ d o := by
      intro o h2
      refine reads_section (firstLine_line hk) hkk ⟨0, fun fuel hf => ?_⟩
        (reads_skip (firstLine_line hbn) (by rw [trim_blanks hb']; exact isKeyword_nil) h2)
      unfold inequalitySection
      simp only [hkn, if_true, readDimension_line hkw hb hb' hn hd0 hv, Run.bind]
    rcases ih (d := { d with dimension := some (Spec.decimal n) }) ⟨hd.names, hd.noKeyword, hd.maps, hd.images, hd.length, hd.range,
      hd.meaning, hd.given, hd.equations, hd.texts, hd.sizes, rfl⟩ with ⟨hu, h2⟩ | ⟨d', h1, h2⟩
    · exact Or.inl ⟨hu, key h2⟩
    · exact Or.inr ⟨d', h1, key h2⟩

theorem system_reading {d : Nat} {Q : List (List (List (Option (List Char) × Int))) → Prop} {u : Prop}
    (hQ : FacetFitting d Q u) {args : List Arg} {f text : List Char} {files : Files} {order : InputOrder} {c : Spec.SystemContent d}
    (ha : Spec.PlainCommand args f) (hf : files f = some text) (ho : getInputOrder args = .ok order)
    (h20 : Spec.EarlyHeader 20 text) (h : Spec.SystemFile Q {} text c) (hc : c.Consistent) :
    (u ∧ ∃ N, ∀ fuel ≥ N, inputInequalities fuel files args = some .ub) ∨ ReadsSystem files args d c.names c.maps c.Solution := by
  have hstart : ∀ fuel, inputInequalities fuel files args = Run.bind (fileLoop (inequalitySection false) fuel ⟨text, false, false⟩ {}) fun data =>
      Run.bind (some (assembleInequalities args data.inequalities data.equations data.names data.dimension)) fun rows =>
          some (.ok (rows, data.names, data.maps, [])) := by
    intro fuel
    unfold inputInequalities
    rw [(C55_filename ha.1).1 f rfl]
    simp only [Run.bind, hf]
    rw [if_neg (by rw [show containsKeywords text = true from containsKeywords_early.1 h20]; simp), checkOption_plain ha,
      inequalityFileLoop_eq]
    unfold knownVertices
    rw [known_absent false args ha.2.2.2]
    simp [Run.bind]
  have h0 : SHolds ({} : Spec.SystemContent d) {} :=
    ⟨rfl, by intro x hx; simp at hx, .nil, by intro x hx; simp at hx, by intro x hx; simp at hx, by intro x hx; simp at hx,
      fun p => ⟨fun _ r hr => by simp at hr, fun _ => trivial⟩, fun h => h.elim, .nil, by intro x hx; simp at hx, by intro x hx; simp at hx, rfl⟩
  rcases systemFile_reads hQ h h0 with ⟨hu, N, hN⟩ | ⟨data, hd, N, hN⟩
  · refine Or.inl ⟨hu, N, fun fuel hfu => ?_⟩
    rw [hstart, hN fuel hfu]
    rfl
  right
  obtain ⟨c1, c2, c3, c4⟩ := hc
  have hl2 := rows_length hd.equations hd.texts hd.sizes
  have l3 : ∀ r ∈ data.equations, ∀ x ∈ r, x ≠ -2147483648 := by
    intro r hr
    obtain ⟨a, ha, ⟨t, ht⟩, har⟩ := forall₂_right hd.equations hd.texts r hr
    exact hasRow_min ht har fun r' e => c4 r' (e ▸ ha)
  have hcons : Spec.ConsistentInequalities data.inequalities data.names data.dimension := by
    refine ⟨hd.given c1, d + 1, hd.length, ?_, ?_⟩
    · intro hne; rw [hd.names] at hne ⊢; rw [c2 hne]
    · intro k hk; rw [hd.dimension] at hk; rw [c3 k hk]
  obtain ⟨A, a1, a2, a3, a4, a5⟩ := C46_assembled ho hcons hd.length (fun r hr => (hl2 r hr).1) l3
  refine ⟨A, data.maps, N, fun fuel hfu => ?_, hd.maps, a2, ?_, a3, fun p => ?_⟩
  · rw [hstart, hN fuel hfu]
    simp only [Run.bind]
    rw [a1, ← hd.names]
  · intro a ha x hx
    rcases a5 a ha with h | ⟨e, he, rfl | rfl⟩ | rfl
    · exact hd.range a h x hx
    · exact (hl2 _ he).2 x hx
    · obtain ⟨y, hy, rfl⟩ := List.mem_map.1 hx
      have := (hl2 e he).2 y hy
      have := l3 e he y hy
      unfold Spec.IsInt at *; omega
    · rcases List.mem_append.1 hx with hx | hx
      · rw [(List.mem_replicate.1 hx).2]; unfold Spec.IsInt; decide
      · rw [List.mem_singleton.1 hx]; unfold Spec.IsInt; decide
  · have := rows_meaning hd.equations hd.texts hd.sizes p
    simp only [if_true] at this
    rw [a4 p, ← hd.meaning p, this]
    rfl

/-- every map of a file has an image for every variable -/
theorem systemFile_maps {d : Nat} {Q : List (List (List (Option (List Char) × Int))) → Prop} {c c' : Spec.SystemContent d} {text : List Char}
    (h : Spec.SystemFile Q c text c') (hc : ∀ ls ∈ c.maps, ls.length = c.names.length) : ∀ ls ∈ c'.maps, ls.length = c'.names.length := by
  induction h with
  | nil => exact hc
  | names _ _ _ _ hm _ _ ih => exact ih (by rw [hm]; simp)
  | maps _ _ hl _ _ ih => exact ih fun ls hls => by obtain ⟨_, h⟩ := lines_all hl ls hls; exact h.2.1
  | other _ _ _ ih => exact ih hc
  | equations _ _ _ _ _ _ ih => exact ih hc
  | inequalities _ _ _ _ _ _ ih => exact ih hc
  | reducedInequalities _ _ _ _ _ _ _ _ _ _ _ _ ih => exact ih hc
  | dimension _ _ _ _ _ _ _ _ ih => exact ih hc

/-- **C68** A file that lists one inequality of every orbit ("Reduced Inequalities") after the names and the maps, and no equations
before: the rows handed to the algorithms have as solutions exactly the points such that all their images under products of
the maps satisfy the listed inequalities, and which satisfy the equations.  The only other possibility is that numbers exceed the
range of `int` while the images are computed; this is undefined behaviour. -/
theorem C68_reading {d : Nat} {args : List Arg} {f text : List Char} {files : Files} {order : InputOrder} {c : Spec.SystemContent d}
    (ha : Spec.PlainCommand args f) (hf : files f = some text) (ho : getInputOrder args = .ok order)
    (h20 : Spec.EarlyHeader 20 text) (h : Spec.SystemFile (fun _ => True) {} text c) (hc : c.Consistent) :
    (∃ N, ∀ fuel ≥ N, inputInequalities fuel files args = some .ub) ∨
    ∃ (A : Matrix) (maps : Maps) (N : Nat), (∀ fuel ≥ N, inputInequalities fuel files args = some (.ok (A, c.names, maps, []))) ∧
      List.Forall₂ (Spec.DoesImages c.names) c.maps maps ∧ (∀ a ∈ A, a.length = d + 1) ∧ (∀ a ∈ A, ∀ x ∈ a, Spec.IsInt x) ∧
      List.replicate d 0 ++ [-1] ∈ A ∧ ∀ p : Fin d → ℚ, Spec.Solves d A p ↔ c.Solution p := by
  rcases system_reading (facetFitting_all d) ha hf ho h20 h hc with ⟨-, h⟩ | h
  · exact Or.inl h
  · exact Or.inr h

/-- **C68** (no overflow) If the maps exchange coordinates and change signs, the file is always read. -/
theorem C68_defined {d : Nat} {args : List Arg} {f text : List Char} {files : Files} {order : InputOrder} {c : Spec.SystemContent d}
    (ha : Spec.PlainCommand args f) (hf : files f = some text) (ho : getInputOrder args = .ok order)
    (h20 : Spec.EarlyHeader 20 text) (h : Spec.SystemFile (fun maps => ∀ m ∈ maps, Spec.SignedPermutation m) {} text c) (hc : c.Consistent) :
    ∃ (A : Matrix) (maps : Maps) (N : Nat), (∀ fuel ≥ N, inputInequalities fuel files args = some (.ok (A, c.names, maps, []))) ∧
      List.Forall₂ (Spec.DoesImages c.names) c.maps maps ∧ (∀ a ∈ A, a.length = d + 1) ∧ (∀ a ∈ A, ∀ x ∈ a, Spec.IsInt x) ∧
      List.replicate d 0 ++ [-1] ∈ A ∧ ∀ p : Fin d → ℚ, Spec.Solves d A p ↔ c.Solution p := by
  rcases system_reading (facetFitting_signed d) ha hf ho h20 h hc with ⟨h, -⟩ | h
  · exact h.elim
  · exact h

/-- **C68** (symmetry) If the inequalities are given by representatives, without equations, every map of finite order maps the
solution set onto itself. -/
theorem C68_symmetry {d : Nat} {c : Spec.SystemContent d} {cs : List Spec.Constraint} (he : c.equations = [])
    (hi : ∀ p, c.inequalities p ↔ ∀ p', Spec.Moved c.names c.maps p p' → ∀ a ∈ cs, a.HoldsAt false c.names p')
    {m : List (List (Option (List Char) × Int))} (hm : m ∈ c.maps) {k : Nat} (hk : 0 < k)
    (ho : (Spec.mapPoint (d := d) c.names m)^[k] = id) : Spec.MapsOnto (d := d) c.names m c.Solution := by
  have h1 : ∀ p : Fin d → ℚ, c.Solution p → c.Solution (Spec.mapPoint c.names m p) := by
    rintro p ⟨h, -⟩
    exact ⟨(hi _).2 fun p' hp' => (hi p).1 h p' (Relation.ReflTransGen.head ⟨m, hm, rfl⟩ hp'), by rw [he]; simp⟩
  have h2 : ∀ (j : Nat) (p : Fin d → ℚ), c.Solution p → c.Solution ((Spec.mapPoint c.names m)^[j] p) := by
    intro j
    induction j with
    | zero => exact fun p h => h
    | succ j ih => intro p h; rw [Function.iterate_succ_apply' (f := Spec.mapPoint c.names m)]; exact h1 _ (ih p h)
  refine ⟨h1, fun p hp => ⟨(Spec.mapPoint c.names m)^[k - 1] p, h2 _ p hp, ?_⟩⟩
  rw [← Function.iterate_succ_apply' (f := Spec.mapPoint c.names m), show (k - 1).succ = k by omega, ho]; rfl

theorem ad_ub_vertices {hardware : Nat} {help : Option ProgramResult} {files : Files} {args : List Arg} {ty : IntegerType}
    (e1 : ∀ ad fuel, program ad help fuel files args = ad false) (t1 : integerType args = .ok ty) {N : Nat}
    (hN : ∀ fuel ≥ N, inputInequalities fuel files args = some .ub) :
    (∃ r, ProgramEnds hardware help files args r) ∧ ∀ r, ProgramEnds hardware help files args r → r = .undefined := by
  have key : ∀ fuel ≥ N, adProgramVertices hardware fuel files args = some .ub := by
    intro fuel hf
    unfold adProgramVertices
    rw [t1]
    simp only [Run.lift, Run.bind, hN fuel hf]
  constructor
  · refine ⟨.undefined, N, fun facets => if facets then none else some .undefined, ?_, by rw [e1]; rfl⟩
    intro facets x hx
    cases facets with
    | true => simp at hx
    | false =>
      obtain rfl : x = .undefined := by simpa using hx.symm
      refine ⟨N, fun fuel hf => ?_⟩
      simp only [Bool.false_eq_true, if_false, key fuel hf]
  · rintro r ⟨fuel, ad, h1, h2⟩
    rw [e1] at h2
    obtain ⟨M, hM⟩ := h1 false r h2
    have := hM (max M N) (le_max_left _ _)
    simp only [Bool.false_eq_true, if_false, key (max M N) (le_max_right _ _)] at this
    exact this

/-- **C68** (double description) Running the vertex enumeration (double description, with checked or 32-bit integers) on a file that
lists one inequality of every orbit, where the solution set is not empty and contains no line and every map maps it onto
itself: if the program finishes, it prints exactly one vertex of every orbit of vertices and one direction of every orbit of
extreme directions; the solution set is the hull of their images under products of the maps.  It always ends; the other ends
are the reported overflow of checked integers and undefined behaviour. -/
theorem C68_vertices_dd {ad : Bool → Option ProgramResult} {help : Option ProgramResult} {args : List Arg} {f text : List Char}
    {files : Files} {order : InputOrder} {n : Nat} {c : Spec.SystemContent n}
    (ha : Spec.PlainCommand args f) (hf : files f = some text) (ho : getInputOrder args = .ok order)
    (hd : Spec.UsesDD args) (hi : Spec.UsesChecked args ∨ Spec.UsesInt args) (hh : Spec.NoHelp args)
    (hw : Spec.HasWordLine Spec.inequalityWords text) (hw' : ¬ Spec.HasWordLine Spec.hullWords text)
    (h20 : Spec.EarlyHeader 20 text) (h : Spec.SystemFile (fun _ => True) {} text c) (hc : c.Consistent) (h0 : 0 < n) (hm : c.maps ≠ [])
    (hn : Spec.AdmissibleNames c.names) (hne : c.names ≠ [])
    (hsat : ∃ p : Fin n → ℚ, c.Solution p) (hline : ¬ Spec.Line (d := n) c.Solution)
    (hsym : ∀ m ∈ c.maps, Spec.MapsOnto (d := n) c.names m c.Solution) :
    ∃ N, ∀ fuel ≥ N, ∃ r, program ad help fuel files args = some r ∧
      ((r = .failed ∧ Spec.UsesChecked args) ∨
        r = .undefined ∨
        ∃ (out : List Char) (points rays : List (List (Int × Int))), r = .finished 0 out ∧ Spec.PrintedReducedPoints out points rays ∧
          (∀ q ∈ points ++ rays, q.length = n) ∧
          Spec.OnePerOrbit (d := n) c.names c.maps c.Solution (points.map (Spec.point n)) (rays.map (Spec.point n)) ∧
          ∀ p : Fin n → ℚ, c.Solution p ↔ Spec.HullOf (Spec.ImageOf c.names c.maps (points.map (Spec.point n)))
            (Spec.DirectionImageOf c.names c.maps (rays.map (Spec.point n))) p) := by
  have hl : c.names.length = n := hc.2.1 hne
  have hlss : ∀ ls ∈ c.maps, ls.length = n := fun ls hls => by rw [systemFile_maps h (by simp) ls hls, hl]
  rcases system_reading (facetFitting_all n) ha hf ho h20 h hc with ⟨-, N, hN⟩ | hr
  · obtain ⟨ty, t1, -⟩ := uses_type hi
    refine ⟨N, fun fuel hfuel => ⟨.undefined, ?_, Or.inr (Or.inl rfl)⟩⟩
    unfold program
    rw [detect_vertices ha.1 hf hh hw hw']
    simp only [enumeration, usesDD_method hd]
    unfold verticesDD
    rw [t1]
    simp only [Run.lift, Run.bind, hN fuel hfuel]
    rfl
  · obtain ⟨N, hN⟩ := system_vertices_dd (ad := ad) (help := help) ha.1 hf hr hl hlss hd hi hh hw hw' h0 hm hn hsat hline hsym
    refine ⟨N, fun fuel hfuel => ?_⟩
    obtain ⟨r, h1, h2 | h2 | h2⟩ := hN fuel hfuel
    · exact ⟨r, h1, Or.inl h2⟩
    · exact ⟨r, h1, Or.inr (Or.inl h2.1)⟩
    · exact ⟨r, h1, Or.inr (Or.inr h2)⟩

/-- **C68** (double description, no overflow while reading) If the maps exchange coordinates and change signs, undefined behaviour is
possible only with unchecked integers or if the solution set contains a point `v / w` with `v, w` coprime and `-2^31` among
the entries of `v`. -/
theorem C68_vertices_dd_defined {ad : Bool → Option ProgramResult} {help : Option ProgramResult} {args : List Arg} {f text : List Char}
    {files : Files} {order : InputOrder} {n : Nat} {c : Spec.SystemContent n}
    (ha : Spec.PlainCommand args f) (hf : files f = some text) (ho : getInputOrder args = .ok order)
    (hd : Spec.UsesDD args) (hi : Spec.UsesChecked args ∨ Spec.UsesInt args) (hh : Spec.NoHelp args)
    (hw : Spec.HasWordLine Spec.inequalityWords text) (hw' : ¬ Spec.HasWordLine Spec.hullWords text)
    (h20 : Spec.EarlyHeader 20 text) (h : Spec.SystemFile (fun maps => ∀ m ∈ maps, Spec.SignedPermutation m) {} text c) (hc : c.Consistent) (h0 : 0 < n) (hm : c.maps ≠ [])
    (hn : Spec.AdmissibleNames c.names) (hne : c.names ≠ [])
    (hsat : ∃ p : Fin n → ℚ, c.Solution p) (hline : ¬ Spec.Line (d := n) c.Solution)
    (hsym : ∀ m ∈ c.maps, Spec.MapsOnto (d := n) c.names m c.Solution) :
    ∃ N, ∀ fuel ≥ N, ∃ r, program ad help fuel files args = some r ∧
      ((r = .failed ∧ Spec.UsesChecked args) ∨
        (r = .undefined ∧ (¬ Spec.UsesChecked args ∨ ∃ v : List Int, v.length = n + 1 ∧ Spec.PrimitiveRow v ∧ 0 < v.getD n 0 ∧
          (-2147483648 : Int) ∈ v ∧ c.Solution (Spec.coord n v))) ∨
        ∃ (out : List Char) (points rays : List (List (Int × Int))), r = .finished 0 out ∧ Spec.PrintedReducedPoints out points rays ∧
          (∀ q ∈ points ++ rays, q.length = n) ∧
          Spec.OnePerOrbit (d := n) c.names c.maps c.Solution (points.map (Spec.point n)) (rays.map (Spec.point n)) ∧
          ∀ p : Fin n → ℚ, c.Solution p ↔ Spec.HullOf (Spec.ImageOf c.names c.maps (points.map (Spec.point n)))
            (Spec.DirectionImageOf c.names c.maps (rays.map (Spec.point n))) p) := by
  have hl : c.names.length = n := hc.2.1 hne
  have hlss : ∀ ls ∈ c.maps, ls.length = n := fun ls hls => by rw [systemFile_maps h (by simp) ls hls, hl]
  rcases system_reading (facetFitting_signed n) ha hf ho h20 h hc with ⟨h, -⟩ | hr
  · exact h.elim
  · exact system_vertices_dd ha.1 hf hr hl hlss hd hi hh hw hw' h0 hm hn hsat hline hsym

/-- **C68** (adjacency decomposition) The same with adjacency decomposition (the default method) and any number of threads: whatever the
threads do, if the program finishes, it prints one line for each of some vertices and extreme directions of the solution set, in
lowest terms and none twice, at most one of every orbit.  If moreover no edge of the solution set leads straight away from the origin
(from the origin: in direction of decreasing last coordinate), it prints exactly one of every orbit, and the solution set is the
hull of their images.  Other ends are the reported overflow of checked integers, and undefined behaviour. -/
theorem C68_vertices_ad {hardware : Nat} {help : Option ProgramResult} {args : List Arg} {f text : List Char}
    {files : Files} {order : InputOrder} {n : Nat} {c : Spec.SystemContent n}
    (ha : Spec.PlainCommand args f) (hf : files f = some text) (ho : getInputOrder args = .ok order)
    (hd : Spec.UsesAD args) (hi : Spec.UsesChecked args ∨ Spec.UsesInt args) (ht : Spec.ThreadsOk args) (hh : Spec.NoHelp args)
    (hw : Spec.HasWordLine Spec.inequalityWords text) (hw' : ¬ Spec.HasWordLine Spec.hullWords text)
    (h20 : Spec.EarlyHeader 20 text) (h : Spec.SystemFile (fun _ => True) {} text c) (hc : c.Consistent) (h0 : 0 < n) (hm : c.maps ≠ [])
    (hn : Spec.AdmissibleNames c.names) (hne : c.names ≠ [])
    (hsat : ∃ p : Fin n → ℚ, c.Solution p) (hline : ¬ Spec.Line (d := n) c.Solution)
    (hsym : ∀ m ∈ c.maps, Spec.MapsOnto (d := n) c.names m c.Solution) :
    (∃ r, ProgramEnds hardware help files args r) ∧ ∀ r, ProgramEnds hardware help files args r →
      (r = .failed ∧ Spec.UsesChecked args) ∨ r = .undefined ∨
        ∃ (out : List Char) (rows : List (List Int)), r = .finished 0 out ∧ Spec.PrintedReducedRows out rows ∧ rows.Nodup ∧
          (∀ r ∈ rows, Spec.VertexRow (d := n) c.Solution r) ∧
          (∀ r ∈ rows, ∀ r' ∈ rows, 0 < r.getD n 0 → 0 < r'.getD n 0 →
            Spec.Moved c.names c.maps (Spec.coord n r) (Spec.coord n r') → r = r') ∧
          (∀ r ∈ rows, ∀ r' ∈ rows, r.getD n 0 = 0 → r'.getD n 0 = 0 → ∀ s : ℚ, 0 < s →
            Spec.MovedDirection c.names c.maps (Spec.coord n r) (s • Spec.coord n r') → r = r') ∧
          ((∀ v : Fin n → ℚ, Spec.Vertex c.Solution v → ∀ t : ℚ, 0 < t → ¬ Spec.Edge c.Solution v (t • Spec.outward v)) →
            Spec.OnePerOrbit (d := n) c.names c.maps c.Solution (Spec.pointsOf n rows) (Spec.directionsOf n rows) ∧
            ∀ p : Fin n → ℚ, c.Solution p ↔ Spec.HullOf (Spec.ImageOf c.names c.maps (Spec.pointsOf n rows))
              (Spec.DirectionImageOf c.names c.maps (Spec.directionsOf n rows)) p) := by
  have hl : c.names.length = n := hc.2.1 hne
  have hlss : ∀ ls ∈ c.maps, ls.length = n := fun ls hls => by rw [systemFile_maps h (by simp) ls hls, hl]
  rcases system_reading (facetFitting_all n) ha hf ho h20 h hc with ⟨-, N, hN⟩ | hr
  · obtain ⟨ty, t1, -⟩ := uses_type hi
    have e1 : ∀ ad fuel, program ad help fuel files args = ad false := by
      intro ad fuel
      unfold program
      rw [detect_vertices ha.1 hf hh hw hw']
      simp only [enumeration, usesAD_method hd]
    obtain ⟨h1, h2⟩ := ad_ub_vertices (hardware := hardware) e1 t1 hN
    exact ⟨h1, fun r hr => Or.inr (Or.inl (h2 r hr))⟩
  · obtain ⟨h1, h2⟩ := system_vertices_ad (hardware := hardware) (help := help) ha.1 hf hr hl hlss hd hi ht hh hw hw' h0 hm hn hsat hline hsym
    refine ⟨h1, fun r hr => ?_⟩
    rcases h2 r hr with h | h | h
    · exact Or.inl h
    · exact Or.inr (Or.inl h.1)
    · exact Or.inr (Or.inr h)

/-- **C68** (adjacency decomposition, no overflow while reading) If the maps exchange coordinates and change signs, undefined behaviour is
possible only with unchecked integers. -/
theorem C68_vertices_ad_defined {hardware : Nat} {help : Option ProgramResult} {args : List Arg} {f text : List Char}
    {files : Files} {order : InputOrder} {n : Nat} {c : Spec.SystemContent n}
    (ha : Spec.PlainCommand args f) (hf : files f = some text) (ho : getInputOrder args = .ok order)
    (hd : Spec.UsesAD args) (hi : Spec.UsesChecked args ∨ Spec.UsesInt args) (ht : Spec.ThreadsOk args) (hh : Spec.NoHelp args)
    (hw : Spec.HasWordLine Spec.inequalityWords text) (hw' : ¬ Spec.HasWordLine Spec.hullWords text)
    (h20 : Spec.EarlyHeader 20 text) (h : Spec.SystemFile (fun maps => ∀ m ∈ maps, Spec.SignedPermutation m) {} text c) (hc : c.Consistent) (h0 : 0 < n) (hm : c.maps ≠ [])
    (hn : Spec.AdmissibleNames c.names) (hne : c.names ≠ [])
    (hsat : ∃ p : Fin n → ℚ, c.Solution p) (hline : ¬ Spec.Line (d := n) c.Solution)
    (hsym : ∀ m ∈ c.maps, Spec.MapsOnto (d := n) c.names m c.Solution) :
    (∃ r, ProgramEnds hardware help files args r) ∧ ∀ r, ProgramEnds hardware help files args r →
      (r = .failed ∧ Spec.UsesChecked args) ∨ (r = .undefined ∧ ¬ Spec.UsesChecked args) ∨
        ∃ (out : List Char) (rows : List (List Int)), r = .finished 0 out ∧ Spec.PrintedReducedRows out rows ∧ rows.Nodup ∧
          (∀ r ∈ rows, Spec.VertexRow (d := n) c.Solution r) ∧
          (∀ r ∈ rows, ∀ r' ∈ rows, 0 < r.getD n 0 → 0 < r'.getD n 0 →
            Spec.Moved c.names c.maps (Spec.coord n r) (Spec.coord n r') → r = r') ∧
          (∀ r ∈ rows, ∀ r' ∈ rows, r.getD n 0 = 0 → r'.getD n 0 = 0 → ∀ s : ℚ, 0 < s →
            Spec.MovedDirection c.names c.maps (Spec.coord n r) (s • Spec.coord n r') → r = r') ∧
          ((∀ v : Fin n → ℚ, Spec.Vertex c.Solution v → ∀ t : ℚ, 0 < t → ¬ Spec.Edge c.Solution v (t • Spec.outward v)) →
            Spec.OnePerOrbit (d := n) c.names c.maps c.Solution (Spec.pointsOf n rows) (Spec.directionsOf n rows) ∧
            ∀ p : Fin n → ℚ, c.Solution p ↔ Spec.HullOf (Spec.ImageOf c.names c.maps (Spec.pointsOf n rows))
              (Spec.DirectionImageOf c.names c.maps (Spec.directionsOf n rows)) p) := by
  have hl : c.names.length = n := hc.2.1 hne
  have hlss : ∀ ls ∈ c.maps, ls.length = n := fun ls hls => by rw [systemFile_maps h (by simp) ls hls, hl]
  rcases system_reading (facetFitting_signed n) ha hf ho h20 h hc with ⟨h, -⟩ | hr
  · exact h.elim
  · exact system_vertices_ad ha.1 hf hr hl hlss hd hi ht hh hw hw' h0 hm hn hsat hline hsym

/-- **C68** (termination) In the situation of `C68_vertices_ad`: the threads start or the program ends before; the threads are never
stuck, and there is no infinite run, if `std::condition_variable` wakes no thread without reason. -/
theorem C68_terminates {hardware : Nat} {args : List Arg} {f text : List Char}
    {files : Files} {order : InputOrder} {n : Nat} {c : Spec.SystemContent n}
    (ha : Spec.PlainCommand args f) (hf : files f = some text) (ho : getInputOrder args = .ok order)
    (hi : Spec.UsesChecked args ∨ Spec.UsesInt args) (ht : Spec.ThreadsOk args)
    (h20 : Spec.EarlyHeader 20 text) (h : Spec.SystemFile (fun _ => True) {} text c) (hc : c.Consistent) (h0 : 0 < n) (hm : c.maps ≠ [])
    (hn : Spec.AdmissibleNames c.names) (hne : c.names ≠ [])
    (hsat : ∃ p : Fin n → ℚ, c.Solution p) (hline : ¬ Spec.Line (d := n) c.Solution)
    (hsym : ∀ m ∈ c.maps, Spec.MapsOnto (d := n) c.names m c.Solution) :
    ∃ N, ∀ fuel ≥ N, adProgramVertices hardware fuel files args ≠ none ∧
      ∀ a ty, adProgramVertices hardware fuel files args = some (.ok a) → integerType args = .ok ty →
        (∀ s out, ADReach (selectArith ty) a (.running s out) → ¬ s.Finished → ∃ σ, ADStep (selectArith ty) a (.running s out) σ ∧
          ∀ s' out', σ = .running s' out' → Progress (adProgramConfig (selectArith ty) a) s s') ∧
        ∀ f : Nat → ADState (Fin a.threads), f 0 = ADState.init (selectArith ty) a → (∀ n, ADStep (selectArith ty) a (f n) (f (n + 1))) →
          ∃ n s s' out out', f n = .running s out ∧ f (n + 1) = .running s' out' ∧ Spurious s s' := by
  have hl : c.names.length = n := hc.2.1 hne
  have hlss : ∀ ls ∈ c.maps, ls.length = n := fun ls hls => by rw [systemFile_maps h (by simp) ls hls, hl]
  rcases system_reading (facetFitting_all n) ha hf ho h20 h hc with ⟨-, N, hN⟩ | hr
  · obtain ⟨ty, t1, -⟩ := uses_type hi
    have key : ∀ fuel ≥ N, adProgramVertices hardware fuel files args = some .ub := by
      intro fuel hf
      unfold adProgramVertices
      rw [t1]
      simp only [Run.lift, Run.bind, hN fuel hf]
    refine ⟨N, fun fuel hfuel => ⟨by rw [key fuel hfuel]; simp, fun a ty ha => ?_⟩⟩
    rw [key fuel hfuel] at ha; cases ha
  · exact system_vertices_terminate hr hl hlss hi ht h0 hm hn hsat hline hsym

end Panda
