import Verif.Props.InputFile

/-! # C59: files with known facets or vertices -/

namespace Panda

/-- **C59** The option for known data: not given, no file; `-k f`, `-k=f`, `--known-data=f` and `--known-facets=f` (facet
enumeration) or `--known-vertices=f` (vertex enumeration) select the file `f`; anything else that looks like it is rejected. -/
theorem C59_option (facets : Bool) (args : List Arg) :
    (Spec.Absent 'k' args → knownFilename facets args = .ok []) ∧
    (∀ f, Spec.KnownGiven (if facets then "--known-facets=".toList else "--known-vertices=".toList) args f →
      knownFilename facets args = .ok f) ∧
    (¬ Spec.Absent 'k' args →
      (¬ ∃ f, Spec.KnownGiven (if facets then "--known-facets=".toList else "--known-vertices=".toList) args f) →
      knownFilename facets args = .thrown) := by
  have skip : ∀ (a : Arg) (rest : List Arg), ¬ Spec.LooksLike 'k' a → knownFilename facets (a :: rest) = knownFilename facets rest := by
    intro a rest ha
    have n1 : ∀ {p : List Char}, ['-', 'k'] <+: p → ¬ p.isPrefixOf a = true := by
      intro p hp hh
      exact ha (Or.inl (hp.trans (List.isPrefixOf_iff_prefix.1 hh)))
    have n2 : ∀ {p : List Char}, ['-', '-', 'k'] <+: p → ¬ p.isPrefixOf a = true := by
      intro p hp hh
      exact ha (Or.inr (hp.trans (List.isPrefixOf_iff_prefix.1 hh)))
    rw [knownFilename, if_neg (by rintro rfl; exact ha (Or.inl ⟨[], rfl⟩)),
      if_neg (show ¬ "-k=".toList.isPrefixOf a = true from n1 ⟨['='], by decide +kernel⟩),
      if_neg (show ¬ "--known-data=".toList.isPrefixOf a = true from n2 ⟨"nown-data=".toList, by decide +kernel⟩),
      if_neg (show ¬ "--known-facets=".toList.isPrefixOf a = true from n2 ⟨"nown-facets=".toList, by decide +kernel⟩),
      if_neg (show ¬ "--known-vertices=".toList.isPrefixOf a = true from n2 ⟨"nown-vertices=".toList, by decide +kernel⟩),
      if_neg (show ¬ ("-k".toList.isPrefixOf a || "--k".toList.isPrefixOf a) = true by
        rw [Bool.or_eq_true]
        rintro (hh | hh)
        · exact n1 ⟨[], by decide +kernel⟩ hh
        · exact n2 ⟨[], by decide +kernel⟩ hh)]
  have skips : ∀ (pre rest : List Arg), (∀ a ∈ pre, ¬ Spec.LooksLike 'k' a) → knownFilename facets (pre ++ rest) = knownFilename facets rest := by
    intro pre rest
    induction pre with
    | nil => intro _; rfl
    | cons a pre ih => intro h; rw [List.cons_append, skip a _ (h a (by simp)), ih fun b hb => h b (by simp [hb])]
  -- how a long argument starts decides among the patterns
  have pfx : ∀ (p q f : List Char), q.length ≤ p.length → (q.isPrefixOf (p ++ f) = true ↔ q <+: p) := by
    intro p q f hl
    rw [List.isPrefixOf_iff_prefix]
    constructor
    · intro h
      have := List.prefix_of_prefix_length_le h (List.prefix_append p f) hl
      exact this
    · intro h; exact h.trans (List.prefix_append p f)
  have neq : ∀ (p f : List Char), 3 ≤ p.length → p ++ f ≠ "-k".toList := by
    intro p f hl e
    have : (p ++ f).length = 2 := by rw [e]; decide +kernel
    simp at this; omega
  refine ⟨fun h => known_absent facets args h, ?_, ?_⟩
  · rintro f ⟨pre, rest, hpre, rfl | ⟨o, ho, rfl⟩⟩
    · rw [skips _ _ hpre, knownFilename, if_pos (by decide +kernel), if_neg (by simp)]; rfl
    · rw [skips _ _ hpre]
      simp only [List.mem_cons, List.not_mem_nil, or_false] at ho
      have drop : ∀ p : List Char, (p ++ f).drop p.length = f := fun p => by simp
      rcases ho with rfl | rfl | rfl
      · rw [knownFilename, if_neg (neq _ _ (by decide +kernel)), if_pos ((pfx _ _ _ (by decide +kernel)).2 (by decide +kernel))]
        exact congrArg Outcome.ok (drop "-k=".toList)
      · rw [knownFilename, if_neg (neq _ _ (by decide +kernel)),
          if_neg (show ¬ "-k=".toList.isPrefixOf _ = true by rw [pfx _ _ _ (by decide +kernel)]; decide +kernel),
          if_pos ((pfx _ _ _ (by decide +kernel)).2 (by decide +kernel))]
        exact congrArg Outcome.ok (drop "--known-data=".toList)
      · cases facets with
        | true =>
          simp only [if_true]
          rw [knownFilename, if_neg (neq _ _ (by decide +kernel)),
            if_neg (show ¬ "-k=".toList.isPrefixOf _ = true by rw [pfx _ _ _ (by decide +kernel)]; decide +kernel),
            if_neg (show ¬ "--known-data=".toList.isPrefixOf _ = true by rw [pfx _ _ _ (by decide +kernel)]; decide +kernel),
            if_pos ((pfx _ _ _ (by decide +kernel)).2 (by decide +kernel))]
          exact congrArg Outcome.ok (drop "--known-facets=".toList)
        | false =>
          simp only [Bool.false_eq_true, if_false]
          rw [knownFilename, if_neg (neq _ _ (by decide +kernel)),
            if_neg (show ¬ "-k=".toList.isPrefixOf _ = true by rw [pfx _ _ _ (by decide +kernel)]; decide +kernel),
            if_neg (show ¬ "--known-data=".toList.isPrefixOf _ = true by rw [pfx _ _ _ (by decide +kernel)]; decide +kernel),
            if_neg (show ¬ "--known-facets=".toList.isPrefixOf _ = true by rw [pfx _ _ _ (by decide +kernel)]; decide +kernel),
            if_pos ((pfx _ _ _ (by decide +kernel)).2 (by decide +kernel))]
          exact congrArg Outcome.ok (drop "--known-vertices=".toList)
  · intro h
    induction args with
    | nil => exact absurd (fun a ha => absurd ha (by simp)) h
    | cons a rest ih =>
      intro hn
      by_cases ha : Spec.LooksLike 'k' a
      · have none_of : ∀ o ∈ ["-k=".toList, "--known-data=".toList,
            if facets then "--known-facets=".toList else "--known-vertices=".toList], ¬ o.isPrefixOf a = true := by
          intro o ho hh
          obtain ⟨f, rfl⟩ := List.isPrefixOf_iff_prefix.1 hh
          exact hn ⟨f, [], rest, by simp, Or.inr ⟨o, ho, rfl⟩⟩
        rw [knownFilename]
        by_cases hk : a = "-k".toList
        · rw [if_pos hk]
          cases rest with
          | nil => rfl
          | cons f rest => exact absurd ⟨f, [], rest, by simp, Or.inl (by rw [hk]; rfl)⟩ hn
        · rw [if_neg hk, if_neg (none_of _ (.head _)), if_neg (none_of _ (.tail _ (.head _)))]
          have h3 := none_of (if facets then "--known-facets=".toList else "--known-vertices=".toList) (.tail _ (.tail _ (.head _)))
          have h4 : ("-k".toList.isPrefixOf a || "--k".toList.isPrefixOf a) = true := by
            rw [Bool.or_eq_true, List.isPrefixOf_iff_prefix, List.isPrefixOf_iff_prefix]
            exact ha
          cases facets with
          | true =>
            rw [if_neg (show ¬ "--known-facets=".toList.isPrefixOf a = true from h3)]
            split
            · rfl
            · rfl
          | false =>
            split
            · rfl
            · rw [if_neg (show ¬ "--known-vertices=".toList.isPrefixOf a = true from h3)]
      · rw [skip a rest ha]
        refine ih (fun hr => h fun b hb => ?_) ?_
        · rcases List.mem_cons.1 hb with rfl | hb
          · exact ha
          · exact hr b hb
        · rintro ⟨f, pre, rest', hp, hh⟩
          refine hn ⟨f, a :: pre, rest', ?_, ?_⟩
          · intro b hb
            rcases List.mem_cons.1 hb with rfl | hb
            · exact ha
            · exact hp b hb
          · rcases hh with rfl | ⟨o, ho, rfl⟩
            · exact Or.inl rfl
            · exact Or.inr ⟨o, ho, rfl⟩

/-- **C59** A file with known facets: lines without headers, then a section of inequalities; its rows are those written there. -/
theorem C59_facets {args : List Arg} {f text : List Char} {files : Files} {names : Names} {cs : List Spec.Constraint}
    (ha : Spec.KnownGiven "--known-facets=".toList args f) (hne : f ≠ []) (hf : files f = some text)
    (h : Spec.KnownFacetFile names text cs) :
    ∃ rows : Matrix, List.Forall₂ (Spec.Constraint.HasRow names) cs rows ∧
      ∃ N, ∀ fuel ≥ N, knownFacets fuel files args names = some (.ok rows) := by
  have key : ∀ {text cs}, Spec.KnownFacetFile names text cs → ∃ rows : Matrix, List.Forall₂ (Spec.Constraint.HasRow names) cs rows ∧
      ∃ N, ∀ fuel ≥ N, (isKeywordInequalities (advanceToNextKeyword ⟨text, false, false⟩).2 = true ∧
        ∃ s, constraints false names fuel (advanceToNextKeyword ⟨text, false, false⟩).1 = some (.ok (s, rows))) := by
    intro text cs h
    induction h with
    | @other w l r cs hl hh h' ih =>
      obtain ⟨rows, h1, N, h2⟩ := ih
      obtain ⟨e, he, her⟩ := advance_skip hl (Bool.eq_false_iff.2 (mt (header_keyword l).1 hh))
      refine ⟨rows, h1, N, fun fuel hfu => ?_⟩
      have : e = false := by
        rcases e with _ | _
        · rfl
        · have hr := her rfl
          exfalso
          have h3 := (h2 N (le_refl _)).1
          rw [hr] at h3
          revert h3; decide +kernel
      rw [he, this]
      exact h2 fuel hfu
    | @inequalities k t w cs hk hkw ht hw =>
      have hkn := (header_inequalities k).2 hkw
      have hkk := (header_keyword k).2 (hkw.mono (by decide +kernel))
      obtain ⟨N, hN⟩ := constraints_lines (P := Spec.ConstraintText false names) (R := Spec.Constraint.HasRow names)
        (fun t a h => constraintText_read (equation := false) h) ht hk (by unfold sectionKeyword; simp [hkn]) (sectionRest_end hw)
      obtain ⟨⟨s, rows⟩, hP, M, hM⟩ := run_fixed (f := fun fuel => constraints false names fuel ⟨k ++ '\n' :: (t ++ w), false, false⟩)
        (fun n r => constraints_mono _ _ _ n r) (P := fun a => List.Forall₂ (Spec.Constraint.HasRow names) cs a.2)
        ⟨N, fun fuel hf => by obtain ⟨s, ms, h1, h2, h3⟩ := hN fuel hf; exact ⟨(s, ms), h1, h2⟩⟩
      refine ⟨rows, hP, M, fun fuel hfu => ?_⟩
      rw [advance_header (firstLine_line hk) hkk]
      exact ⟨hkn, s, hM fuel hfu⟩
  obtain ⟨rows, h1, N, h2⟩ := key h
  refine ⟨rows, h1, N, fun fuel hfu => ?_⟩
  obtain ⟨h3, s, h4⟩ := h2 fuel hfu
  unfold knownFacets
  rw [(C59_option true args).2.1 f ha]
  simp only [Run.bind, hne, if_false, hf, h3, if_true, h4]

/-- one round of the loop in `knownVertices`, in the form of the other loops -/
def knownSection (fuel : Nat) (token : List Char) (s : Stream) (d : Matrix × Matrix) : Run (Stream × Matrix × Matrix) :=
  if isKeywordConvexHull token then Run.bind (verticesConvex fuel s) fun r => some (.ok (r.1, r.2, d.2))
  else if isKeywordConicalHull token then Run.bind (verticesConical fuel s) fun r => some (.ok (r.1, d.1, r.2))
  else some (.ok ((getLine s).1, d))

theorem knownVerticesLoop_eq : ∀ fuel s (d : Matrix × Matrix), knownVerticesLoop fuel s d.1 d.2 = fileLoop knownSection fuel s d := by
  intro fuel
  induction fuel with
  | zero => intro s d; rfl
  | succ n ih =>
    intro s d
    rw [knownVerticesLoop, fileLoop]
    by_cases hf : s.fail = true
    · rw [if_pos hf]
      have : (advanceToNextKeyword s).1.fail = true := advanceLoop_failed _ hf
      simp only [this, if_true]
    · rw [if_neg hf]
      by_cases h0 : (advanceToNextKeyword s).1.fail = true
      · simp only [h0, if_true]
      · simp only [h0, if_false]
        unfold knownSection
        by_cases h1 : isKeywordConvexHull (advanceToNextKeyword s).2 = true
        · simp only [h1, if_true]
          cases verticesConvex n (advanceToNextKeyword s).1 with
          | none => rfl
          | some o => cases o with
            | ok r => exact ih r.1 (r.2, d.2)
            | thrown => rfl
            | ub => rfl
        · simp only [h1]
          by_cases h2 : isKeywordConicalHull (advanceToNextKeyword s).2 = true
          · simp only [h2, if_true]
            cases verticesConical n (advanceToNextKeyword s).1 with
            | none => rfl
            | some o => cases o with
              | ok r => exact ih r.1 (d.1, r.2)
              | thrown => rfl
              | ub => rfl
          · simp only [h2]
            exact ih _ d

theorem knownSection_end (fuel : Nat) (k : List Char) (s : Stream) (d : Matrix × Matrix) (h : isKeywordEnd k = true) :
    knownSection fuel k s d = some (.ok ((getLine s).1, d)) := by
  obtain ⟨h1, h2, h3, h4, h5, h6, h7, -⟩ := (header_kind (end_keyword h)).2.2.2.2.2.2.2.2.2 h
  unfold knownSection
  simp only [h4, h6, Bool.false_eq_true, if_false]

theorem knownVertexFile_reads {c c' : List (List (Int × Int)) × List (List (Int × Int))} {text : List Char}
    (h : Spec.KnownVertexFile c text c') : ∀ {d : Matrix × Matrix},
    List.Forall₂ Spec.PointRow c.1 d.1 → List.Forall₂ Spec.RayRow c.2 d.2 →
    ∃ d', List.Forall₂ Spec.PointRow c'.1 d'.1 ∧ List.Forall₂ Spec.RayRow c'.2 d'.2 ∧
      Reads knownSection ⟨text, false, false⟩ d d' := by
  induction h with
  | nil => intro d h1 h2; exact ⟨d, h1, h2, reads_nil false d⟩
  | @other c c' w l r hl hh _ ih =>
    intro d g1 g2
    obtain ⟨d', h1, h2, h3⟩ := ih g1 g2
    refine ⟨d', h1, h2, ?_⟩
    by_cases hk : isKeyword (trimWhitespace l) = true
    · refine reads_other hl hk (fun fuel s => ?_) h3
      have hn : ∀ {ws : List String}, (∀ k ∈ ws, k ∈ Spec.pointWords ++ Spec.rayWords) → ¬ Spec.Header ws l :=
        fun h h' => hh (h'.mono h)
      unfold knownSection
      rw [if_neg (by rw [header_points]; exact hn (by decide +kernel)), if_neg (by rw [header_rays]; exact hn (by decide +kernel))]
    · exact reads_skip hl (by simpa using hk) h3
  | @points c c' k t w vs hk hkw ht hw _ ih =>
    intro d g1 g2
    have hkn := (header_points k).2 hkw
    have hkk := (header_keyword k).2 (hkw.mono (by decide +kernel))
    obtain ⟨N, hN⟩ := C41_sections ht.1 hk (sectionRest_end hw).section ht.2
    obtain ⟨⟨s, rows⟩, ⟨hP1, hP2⟩, M, hM⟩ := run_fixed (f := fun fuel => verticesConvex fuel ⟨k ++ '\n' :: (t ++ w), false, false⟩)
      (fun n r => verticesConvex_mono _ n r)
      (P := fun a => List.Forall₂ Spec.PointRow vs a.2 ∧
        Spec.AfterSection w a.1.rest a.1.eof a.1.fail (fun k => isKeywordEnd (firstWord k)))
      ⟨N, fun fuel hf => by
        obtain ⟨s, ms, h1, h2, h3⟩ := (hN fuel hf).1 (by rw [hkn]; rfl); exact ⟨(s, ms), h1, h2, h3⟩⟩
    obtain ⟨d', h1, h2, h3⟩ := ih (d := (rows, d.2)) hP1 g2
    refine ⟨d', h1, h2, reads_section (firstLine_line hk) hkk ⟨M, fun fuel hf => ?_⟩
      (reads_after (sectionRest_end hw).section (fun fuel k s hk => knownSection_end fuel k s _ hk) hP2 h3)⟩
    unfold knownSection
    simp only [hkn, if_true, hM fuel hf, Run.bind]
  | @rays c c' k t w vs hk hkw ht hw _ ih =>
    intro d g1 g2
    have hkn := (header_rays k).2 hkw
    have hkk := (header_keyword k).2 (hkw.mono (by decide +kernel))
    obtain ⟨N, hN⟩ := C41_sections ht.1 hk (sectionRest_end hw).section ht.2
    obtain ⟨⟨s, rows⟩, ⟨hP1, hP2⟩, M, hM⟩ := run_fixed (f := fun fuel => verticesConical fuel ⟨k ++ '\n' :: (t ++ w), false, false⟩)
      (fun n r => verticesConical_mono _ n r)
      (P := fun a => List.Forall₂ Spec.RayRow vs a.2 ∧
        Spec.AfterSection w a.1.rest a.1.eof a.1.fail (fun k => isKeywordEnd (firstWord k)))
      ⟨N, fun fuel hf => by
        obtain ⟨s, ms, h1, h2, h3⟩ := (hN fuel hf).2 (by rw [hkn]; rfl); exact ⟨(s, ms), h1, h2, h3⟩⟩
    obtain ⟨d', h1, h2, h3⟩ := ih (d := (d.1, rows)) g1 hP1
    refine ⟨d', h1, h2, reads_section (firstLine_line hk) hkk ⟨M, fun fuel hf => ?_⟩
      (reads_after (sectionRest_end hw).section (fun fuel k s hk => knownSection_end fuel k s _ hk) hP2 h3)⟩
    unfold knownSection
    obtain ⟨n1, n2, n3, n4, n5⟩ := (header_kind hkk).2.2.2.2.1 hkn
    simp only [n4, hkn, Bool.false_eq_true, if_false, if_true, hM fuel hf, Run.bind]

/-- **C59** A file with known vertices and rays: the rows are the points, then the rays written there. -/
theorem C59_vertices {args : List Arg} {f text : List Char} {files : Files} {points rays : List (List (Int × Int))}
    (ha : Spec.KnownGiven "--known-vertices=".toList args f) (hne : f ≠ []) (hf : files f = some text)
    (h : Spec.KnownVertexFile ([], []) text (points, rays)) :
    ∃ P R : Matrix, List.Forall₂ Spec.PointRow points P ∧ List.Forall₂ Spec.RayRow rays R ∧
      ∃ N, ∀ fuel ≥ N, knownVertices fuel files args = some (.ok (P ++ R)) := by
  obtain ⟨⟨P, R⟩, h1, h2, N, h3⟩ := knownVertexFile_reads h (d := ([], [])) .nil .nil
  refine ⟨P, R, h1, h2, N, fun fuel hfu => ?_⟩
  unfold knownVertices
  rw [(C59_option false args).2.1 f ha]
  simp only [Run.bind, hne, if_false, hf]
  rw [knownVerticesLoop_eq fuel _ ([], []), h3 fuel hfu]

/-- **C59** does not extend to the files the program writes: a list of facets that starts with equations is rejected. -/
theorem C59_equations_false (fuel : Nat) : knownFacets fuel (fun _ => some "Equations:\nx + y = 1\n\nInequalities:\nx <= 1\n".toList)
    ["-k".toList, "f".toList] ["x".toList, "y".toList] = some .thrown := by
  have h1 : knownFilename true ["-k".toList, "f".toList] = .ok "f".toList := by decide +kernel
  unfold knownFacets
  rw [h1]
  have h2 : isKeywordInequalities
      (advanceToNextKeyword ⟨"Equations:\nx + y = 1\n\nInequalities:\nx <= 1\n".toList, false, false⟩).2 = false := by decide +kernel
  simp only [Run.bind, h2]
  rfl

end Panda
