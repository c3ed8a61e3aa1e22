import Verif.Spec.Checked
import Verif.Proofs.ValidityTyped
import Verif.Props.Validity
import Verif.Props.ReducedFile

/-! # C69: the option `-c` on files with points and rays -/

namespace Panda

theorem ends_thrown {D : Type} {sec : Nat → List Char → Stream → D → Run (Stream × D)} {w l r : List Char} {d : D} (hl : Spec.FirstLine w l r)
    (hk : isKeyword (trimWhitespace l) = true)
    (hsec : ∃ N, ∀ fuel ≥ N, sec fuel (trimWhitespace l) ⟨w, false, false⟩ d = some .thrown) : Ends sec ⟨w, false, false⟩ d .thrown := by
  obtain ⟨N1, h1⟩ := hsec
  refine ⟨N1 + 1, fun fuel hf => ?_⟩
  obtain ⟨fuel, rfl⟩ : ∃ k, fuel = k + 1 := ⟨fuel - 1, by omega⟩
  rw [fileLoop, if_neg (by simp), advance_header hl hk, if_neg (by simp), h1 fuel (by omega)]
  rfl

theorem checkOption_given {args : List (List Char)} (h : "-c".toList ∈ args ∨ "--check".toList ∈ args) : checkOption args = true := by
  unfold checkOption
  rw [List.any_eq_true]
  rcases h with h | h
  · exact ⟨_, h, by simp⟩
  · exact ⟨_, h, by simp⟩

theorem checkClasses_nil (maps : Maps) (tag : Tag) : checkValidityOfClasses [] maps tag = .ok () := by
  rw [C40_all_maps]
  intro m _
  rfl

/-- the check with `int` is the exact one, or undefined -/
theorem typed_check {rows : Matrix} {names : Names} {lss : List (List (List (Option (List Char) × Int)))} {maps : Maps} {tag : Tag}
    (hi : IntEntries rows) (hd : List.Forall₂ (Spec.DoesImages names) lss maps) :
    Typed.checkValidityOfClasses (fixedArith 32) rows maps tag = checkValidityOfClasses rows maps tag ∨
      Typed.checkValidityOfClasses (fixedArith 32) rows maps tag = .ub := by
  have := checkValidityOfClasses_sim (fixed32_law False) fixed32_ofInt (matrix := rows) (maps := maps) (tag := tag)
    (fun m hm => by
      obtain ⟨ls, -, h⟩ := (forall₂_both hd).2 m hm
      exact h.2.2.1) hi
  rcases this with ⟨h, -⟩ | ⟨h, -⟩ | ⟨-, h⟩
  · exact Or.inl h
  · exact h.elim
  · exact Or.inr h

/-- what has been read agrees with the content -/
structure CHolds (c : Spec.VertexContent) (d : VertexData) : Prop where
  holds : VHolds c d
  points : List.Forall₂ Spec.LeastPoint c.points d.conv
  rays : List.Forall₂ Spec.LeastRay c.rays d.cone

/-- all checks succeed -/
def CheckOk (d : VertexData) : Prop :=
  checkValidityOfClasses d.conv d.maps .vertex = .ok () ∧ checkValidityOfClasses d.cone d.maps .vertex = .ok ()

/-- how the loop with checks ends: undefined behaviour, an exception because a check fails, or with the same data as without -/
def CheckedEnd (s : Stream) (d d' : VertexData) : Prop :=
  ∃ o, Ends (vertexSection true) s d o ∧ (o = .ub ∨ (o = .thrown ∧ ¬ CheckOk d') ∨ (o = .ok d' ∧ CheckOk d'))

theorem vertexSection_end' (b : Bool) (fuel : Nat) (k : List Char) (s : Stream) (d : VertexData) (h : isKeywordEnd k = true) :
    vertexSection b fuel k s d = some (.ok ((getLine s).1, d)) := by
  obtain ⟨h1, h2, h3, h4, h5, h6, h7, -⟩ := (header_kind (end_keyword h)).2.2.2.2.2.2.2.2.2 h
  unfold vertexSection
  simp only [h1, h2, h3, h4, h5, h6, h7, Bool.false_eq_true, if_false]

/-- after a section with all rows has been read -/
theorem checked_section {k t w : List Char} {c : Spec.VertexContent} {d d1 d' : VertexData} {s : Stream} {rows : Matrix}
    (hk : '\n' ∉ k) (hkk : isKeyword (trimWhitespace k) = true) (hw : Spec.SectionRest w)
    (ha : Spec.AfterSection w s.rest s.eof s.fail (fun k => isKeywordEnd (firstWord k)))
    (hi : IntEntries rows) (hd : List.Forall₂ (Spec.DoesImages c.names) c.maps d.maps)
    (hsec : ∃ M, ∀ b, ∀ fuel ≥ M, vertexSection b fuel (trimWhitespace k) ⟨k ++ '\n' :: (t ++ w), false, false⟩ d =
      Run.bind (readAllRows b d.maps (some (.ok (s, rows)))) fun r => some (.ok (r.1, d1)))
    (hbad : checkValidityOfClasses rows d.maps .vertex = .thrown → ¬ CheckOk d')
    (hgood : checkValidityOfClasses rows d.maps .vertex = .ok () → CheckedEnd ⟨w, false, false⟩ d1 d') :
    CheckedEnd ⟨k ++ '\n' :: (t ++ w), false, false⟩ d d' := by
  obtain ⟨M, hM⟩ := hsec
  have hub : Typed.checkValidityOfClasses (fixedArith 32) rows d.maps .vertex = .ub →
      CheckedEnd ⟨k ++ '\n' :: (t ++ w), false, false⟩ d d' := fun e =>
    ⟨.ub, ends_ub (firstLine_line hk) hkk ⟨M, fun fuel hf => by rw [hM true fuel hf]; simp [readAllRows, e, Run.bind]⟩, Or.inl rfl⟩
  rcases typed_check (tag := .vertex) hi hd with e | e
  · match e' : checkValidityOfClasses rows d.maps .vertex with
    | .ok () =>
      obtain ⟨o, ho, h⟩ := hgood e'
      refine ⟨o, reads_section (firstLine_line hk) hkk ⟨M, fun fuel hf => ?_⟩
        (reads_after (sectionRest_end hw).section (fun fuel k s hk => vertexSection_end' true fuel k s _ hk) ha ho), h⟩
      rw [hM true fuel hf]
      simp [readAllRows, e, e', Run.bind]
    | .thrown =>
      exact ⟨.thrown, ends_thrown (firstLine_line hk) hkk ⟨M, fun fuel hf => by rw [hM true fuel hf]; simp [readAllRows, e, e', Run.bind]⟩,
        Or.inr (Or.inl ⟨rfl, hbad e'⟩)⟩
    | .ub => exact hub (e.trans e')
  · exact hub e

theorem orderedVertexFile_reads {c c' : Spec.VertexContent} {text : List Char} (h : Spec.OrderedVertexFile c text c') : ∀ {d : VertexData},
    CHolds c d → ∃ d', CHolds c' d' ∧ Reads (vertexSection false) ⟨text, false, false⟩ d d' ∧
      (c.points ≠ [] ∨ c.rays ≠ [] → d'.maps = d.maps) ∧ (c.points ≠ [] → d'.conv = d.conv) ∧ (c.rays ≠ [] → d'.cone = d.cone) ∧
      (CheckOk d → CheckedEnd ⟨text, false, false⟩ d d') := by
  induction h with
  | nil =>
    intro d hd
    exact ⟨d, hd, reads_nil false d, fun _ => rfl, fun _ => rfl, fun _ => rfl, fun h => ⟨.ok d, reads_nil false d, Or.inr (Or.inr ⟨rfl, h⟩)⟩⟩
  | @other c c' w l r hl hh _ ih =>
    intro d hd
    obtain ⟨d', h1, h2, p1, p2, p3, h3⟩ := ih hd
    have key : ∀ {b o}, Ends (vertexSection b) ⟨r, false, false⟩ d o → Ends (vertexSection b) ⟨w, false, false⟩ d o := by
      intro b o ho
      by_cases hk : isKeyword (trimWhitespace l) = true
      · refine reads_other hl hk (fun fuel s => ?_) ho
        have hn : ∀ {ws : List String}, (∀ k ∈ ws, k ∈ Spec.vertexFileWords) → ¬ Spec.Header ws l := fun h h' => hh (h'.mono h)
        unfold vertexSection
        rw [if_neg (by rw [header_dimension]; exact hn (by decide +kernel)), if_neg (by rw [header_names]; exact hn (by decide +kernel)),
          if_neg (by rw [header_maps]; exact hn (by decide +kernel)), if_neg (by rw [header_points]; exact hn (by decide +kernel)),
          if_neg (by rw [header_reducedPoints]; exact hn (by decide +kernel)), if_neg (by rw [header_rays]; exact hn (by decide +kernel)),
          if_neg (by rw [header_reducedRays]; exact hn (by decide +kernel))]
      · exact reads_skip hl (by simpa using hk) ho
    exact ⟨d', h1, key h2, p1, p2, p3, fun h => by obtain ⟨o, g1, g2⟩ := h3 h; exact ⟨o, key g1, g2⟩⟩
  | @names c c' k t w names hk hkw ht hw hm _ ih =>
    intro d hd
    obtain ⟨⟨e1, e2, e3, e4, e5, e6, i1, i2⟩, l1, l2⟩ := hd
    rw [hm] at e3
    obtain ⟨d', h1, h2, p1, p2, p3, h3⟩ := ih (d := { d with names := names }) ⟨⟨rfl, namesBody_keyword ht, by
      have hd : d.maps = [] := by
        generalize d.maps = m at e3
        cases e3
        rfl
      show List.Forall₂ _ c.maps d.maps
      rw [hm, hd]; exact .nil, e4, e5, e6, i1, i2⟩, l1, l2⟩
    have key : ∀ {b o}, Ends (vertexSection b) ⟨w, false, false⟩ { d with names := names } o →
        Ends (vertexSection b) ⟨k ++ '\n' :: (t ++ w), false, false⟩ d o := by
      intro b o ho
      have hkn := (header_names k).2 hkw
      have hkk := (header_keyword k).2 (hkw.mono (by decide +kernel))
      obtain ⟨ws, s, g1, g2, g3, g4⟩ := readNames_body hk hkn (sectionRest_end hw).section ht
      refine reads_section (firstLine_line hk) hkk ⟨0, fun fuel _ => ?_⟩ (reads_after_names g2 g3 g4 ho)
      unfold vertexSection
      simp only [(header_kind hkk).1 hkn, hkn, Bool.false_eq_true, if_false, if_true, g1, Run.bind]
    exact ⟨d', h1, key h2, p1, p2, p3, fun h => by obtain ⟨o, g1, g2⟩ := h3 h; exact ⟨o, key g1, g2⟩⟩
  | @maps c c' k t w maps hk hkw ht hw hp0 hr0 _ ih =>
    intro d hd
    obtain ⟨⟨e1, e2, e3, e4, e5, e6, i1, i2⟩, l1, l2⟩ := hd
    have hkn := (header_maps k).2 hkw
    have hkk := (header_keyword k).2 (hkw.mono (by decide +kernel))
    obtain ⟨N, hN⟩ := C53_sections e2 ht hk hkn (sectionRest_end hw)
    obtain ⟨⟨s, ms⟩, ⟨hP1, hP2⟩, M, hM⟩ := run_fixed (f := fun fuel => readMaps c.names fuel ⟨k ++ '\n' :: (t ++ w), false, false⟩)
      (fun n r => readMaps_mono _ _ n r)
      (P := fun a => List.Forall₂ (Spec.DoesImages c.names) maps a.2 ∧
        Spec.AfterSection w a.1.rest a.1.eof a.1.fail (fun k => isKeywordEnd (firstWord k)))
      ⟨N, fun fuel hf => by obtain ⟨s, ms, h1, h2, h3⟩ := hN fuel hf; exact ⟨(s, ms), h1, h2, h3⟩⟩
    obtain ⟨d', h1, h2, p1, p2, p3, h3⟩ := ih (d := { d with maps := ms }) ⟨⟨e1, e2, hP1, e4, e5, e6, i1, i2⟩, l1, l2⟩
    have key : ∀ {b o}, Ends (vertexSection b) ⟨w, false, false⟩ { d with maps := ms } o →
        Ends (vertexSection b) ⟨k ++ '\n' :: (t ++ w), false, false⟩ d o := by
      intro b o ho
      refine reads_section (firstLine_line hk) hkk ⟨M, fun fuel hf => ?_⟩
        (reads_after (sectionRest_end hw).section (fun fuel k s hk => vertexSection_end' b fuel k s _ hk) hP2 ho)
      unfold vertexSection
      obtain ⟨n1, n2⟩ := (header_kind hkk).2.1 hkn
      simp only [n1, n2, hkn, Bool.false_eq_true, if_false, if_true, e1, hM fuel hf, Run.bind]
    refine ⟨d', h1, key h2, fun h => (h.elim (fun h => h hp0) (fun h => h hr0)).elim, p2, p3, fun _ => ?_⟩
    obtain ⟨o, g1, g2⟩ := h3 (by
      unfold CheckOk
      dsimp only
      rw [forall₂_nil e4 hp0, forall₂_nil e5 hr0]
      exact ⟨checkClasses_nil _ _, checkClasses_nil _ _⟩)
    exact ⟨o, key g1, g2⟩
  | @points c c' k t w vs hk hkw ht hw hp0 _ ih =>
    intro d hd
    obtain ⟨⟨e1, e2, e3, e4, e5, e6, i1, i2⟩, l1, l2⟩ := hd
    have hkn := (header_points k).2 hkw
    have hkk := (header_keyword k).2 (hkw.mono (by decide +kernel))
    obtain ⟨N, hN⟩ := sections_least ht.1 hk (sectionRest_end hw).section ht.2
    obtain ⟨⟨s, rows⟩, ⟨hP1, hP2⟩, M, hM⟩ := run_fixed (f := fun fuel => verticesConvex fuel ⟨k ++ '\n' :: (t ++ w), false, false⟩)
      (fun n r => verticesConvex_mono _ n r)
      (P := fun a => List.Forall₂ (fun cs row => Spec.PointRow cs row ∧ Spec.LeastPoint cs row) vs a.2 ∧
        Spec.AfterSection w a.1.rest a.1.eof a.1.fail (fun k => isKeywordEnd (firstWord k)))
      ⟨N, fun fuel hf => by
        obtain ⟨s, ms, h1, h2, h3⟩ := (hN fuel hf).1 (by rw [hkn]; rfl); exact ⟨(s, ms), h1, h2, h3⟩⟩
    have hint := verticesConvex_int (hM M (le_refl _))
    obtain ⟨d', h1, h2, p1, p2, p3, h3⟩ := ih (d := { d with conv := rows })
      ⟨⟨e1, e2, e3, hP1.imp fun _ _ h => h.1, e5, e6, hint, i2⟩, hP1.imp fun _ _ h => h.2, l2⟩
    have hsec : ∃ M, ∀ b, ∀ fuel ≥ M, vertexSection b fuel (trimWhitespace k) ⟨k ++ '\n' :: (t ++ w), false, false⟩ d =
        Run.bind (readAllRows b d.maps (some (.ok (s, rows)))) fun r => some (.ok (r.1, { d with conv := rows })) := by
      refine ⟨M, fun b fuel hf => ?_⟩
      unfold vertexSection
      obtain ⟨n1, n2, n3⟩ := (header_kind hkk).2.2.1 hkn
      simp only [n1, n2, n3, hkn, Bool.false_eq_true, if_false, if_true, hM fuel hf]
      cases b with
      | false => simp [readAllRows, Run.bind]
      | true =>
        unfold readAllRows
        simp only [Run.bind, if_true]
        cases Typed.checkValidityOfClasses (fixedArith 32) rows d.maps .vertex <;> rfl
    have hne : checkValidityOfClasses rows d.maps .vertex = .thrown → vs ≠ [] := by
      rintro e rfl
      cases hP1
      rw [checkClasses_nil] at e
      cases e
    refine ⟨d', h1, ?_, fun h => ?_, fun h => (h hp0).elim, p3, fun h => ?_⟩
    · obtain ⟨M, hM⟩ := hsec
      exact reads_section (firstLine_line hk) hkk ⟨M, fun fuel hf => by rw [hM false fuel hf]; simp [readAllRows, Run.bind]⟩
        (reads_after (sectionRest_end hw).section (fun fuel k s hk => vertexSection_end fuel k s _ hk) hP2 h2)
    · exact p1 (h.elim (fun h => (h hp0).elim) Or.inr)
    · refine checked_section (c := c) (d1 := { d with conv := rows }) hk hkk hw hP2 hint e3 hsec (fun e hh => ?_) (fun e => h3 ⟨e, h.2⟩)
      have hv := hne e
      have q1 := p1 (Or.inl hv)
      have q2 := p2 hv
      have := hh.1
      rw [q1, q2] at this
      exact absurd (this.symm.trans e) (by simp)
  | @rays c c' k t w vs hk hkw ht hw hr0 _ ih =>
    intro d hd
    obtain ⟨⟨e1, e2, e3, e4, e5, e6, i1, i2⟩, l1, l2⟩ := hd
    have hkn := (header_rays k).2 hkw
    have hkk := (header_keyword k).2 (hkw.mono (by decide +kernel))
    obtain ⟨N, hN⟩ := sections_least ht.1 hk (sectionRest_end hw).section ht.2
    obtain ⟨⟨s, rows⟩, ⟨hP1, hP2⟩, M, hM⟩ := run_fixed (f := fun fuel => verticesConical fuel ⟨k ++ '\n' :: (t ++ w), false, false⟩)
      (fun n r => verticesConical_mono _ n r)
      (P := fun a => List.Forall₂ (fun cs row => Spec.RayRow cs row ∧ Spec.LeastRay cs row) vs a.2 ∧
        Spec.AfterSection w a.1.rest a.1.eof a.1.fail (fun k => isKeywordEnd (firstWord k)))
      ⟨N, fun fuel hf => by
        obtain ⟨s, ms, h1, h2, h3⟩ := (hN fuel hf).2 (by rw [hkn]; rfl); exact ⟨(s, ms), h1, h2, h3⟩⟩
    have hint := verticesConical_int (hM M (le_refl _))
    obtain ⟨d', h1, h2, p1, p2, p3, h3⟩ := ih (d := { d with cone := rows })
      ⟨⟨e1, e2, e3, e4, hP1.imp fun _ _ h => h.1, e6, i1, hint⟩, l1, hP1.imp fun _ _ h => h.2⟩
    have hsec : ∃ M, ∀ b, ∀ fuel ≥ M, vertexSection b fuel (trimWhitespace k) ⟨k ++ '\n' :: (t ++ w), false, false⟩ d =
        Run.bind (readAllRows b d.maps (some (.ok (s, rows)))) fun r => some (.ok (r.1, { d with cone := rows })) := by
      refine ⟨M, fun b fuel hf => ?_⟩
      unfold vertexSection
      obtain ⟨n1, n2, n3, n4, n5⟩ := (header_kind hkk).2.2.2.2.1 hkn
      simp only [n1, n2, n3, n4, n5, hkn, Bool.false_eq_true, if_false, if_true, hM fuel hf]
      cases b with
      | false => simp [readAllRows, Run.bind]
      | true =>
        unfold readAllRows
        simp only [Run.bind, if_true]
        cases Typed.checkValidityOfClasses (fixedArith 32) rows d.maps .vertex <;> rfl
    have hne : checkValidityOfClasses rows d.maps .vertex = .thrown → vs ≠ [] := by
      rintro e rfl
      cases hP1
      rw [checkClasses_nil] at e
      cases e
    refine ⟨d', h1, ?_, fun h => ?_, p2, fun h => (h hr0).elim, fun h => ?_⟩
    · obtain ⟨M, hM⟩ := hsec
      exact reads_section (firstLine_line hk) hkk ⟨M, fun fuel hf => by rw [hM false fuel hf]; simp [readAllRows, Run.bind]⟩
        (reads_after (sectionRest_end hw).section (fun fuel k s hk => vertexSection_end fuel k s _ hk) hP2 h2)
    · exact p1 (h.elim Or.inl (fun h => (h hr0).elim))
    · refine checked_section (c := c) (d1 := { d with cone := rows }) hk hkk hw hP2 hint e3 hsec (fun e hh => ?_) (fun e => h3 ⟨h.1, e⟩)
      have hv := hne e
      have q1 := p1 (Or.inr hv)
      have q2 := p3 hv
      have := hh.2
      rw [q1, q2] at this
      exact absurd (this.symm.trans e) (by simp)
  | @dimension c c' k b n b' w hk hkw hb hb' hn hd0 hv _ ih =>
    intro d hd
    obtain ⟨⟨e1, e2, e3, e4, e5, e6, i1, i2⟩, l1, l2⟩ := hd
    obtain ⟨d', h1, h2, p1, p2, p3, h3⟩ := ih (d := { d with dimension := some (Spec.decimal n) }) ⟨⟨e1, e2, e3, e4, e5, rfl, i1, i2⟩, l1, l2⟩
    have key : ∀ {bb o}, Ends (vertexSection bb) ⟨w, false, false⟩ { d with dimension := some (Spec.decimal n) } o →
        Ends (vertexSection bb) ⟨k ++ '\n' :: (b ++ (n ++ (b' ++ '\n' :: w))), false, false⟩ d o := by
      intro bb o ho
      have hkn := (header_dimension k).2 (hkw.mono (by decide +kernel))
      have hkk := (header_keyword k).2 (hkw.mono (by decide +kernel))
      have hbn := blanks_no_newline hb'
      refine reads_section (firstLine_line hk) hkk ⟨0, fun fuel hf => ?_⟩
        (reads_skip (firstLine_line hbn) (by rw [trim_blanks hb']; exact isKeyword_nil) ho)
      unfold vertexSection
      simp only [hkn, if_true, readDimension_line hkw hb hb' hn hd0 hv, Run.bind]
    exact ⟨d', h1, key h2, p1, p2, p3, fun h => by obtain ⟨o, g1, g2⟩ := h3 h; exact ⟨o, key g1, g2⟩⟩

/-! ## what the checks mean -/

section
variable {n : Nat} {names : Names} {ls : List (List (Option (List Char) × Int))} {m : SymMap}

theorem pushed_smul (n : Nat) (m : SymMap) (c : ℚ) (x : Fin n → ℚ) : Spec.pushed n m (c • x) = c • Spec.pushed n m x :=
  (pushedL n m).map_smul c x

theorem hom_smul_eq {s t : ℚ} {p q : Fin n → ℚ} (hs : s ≠ 0) (h : s • hom n p = t • hom n q) : p = q := by
  have e := congrFun h (Fin.last n)
  simp only [Pi.smul_apply, hom_last, smul_eq_mul, mul_one] at e
  subst e
  funext i
  have e := congrFun h i.castSucc
  simp only [Pi.smul_apply, hom_castSucc, smul_eq_mul] at e
  exact mul_left_cancel₀ hs e

theorem symmetry_points (hn : names.Nodup) (hl : names.length = n) (hls : ls.length = n) (h : Spec.DoesImages names ls m)
    {pts : List (List (Int × Int))} {P : Matrix} (hP : List.Forall₂ Spec.PointRow pts P) (hp : ∀ q ∈ pts, q.length = n) :
    Spec.IsSymmetry (n + 1) P m ↔ Spec.PermutesPoints names ls (pts.map (Spec.point n)) := by
  have hmap : Spec.IsMap (n + 1) m := by subst hl; exact h.1
  obtain ⟨g1, g2⟩ := forall₂_both hP
  have key : ∀ {q q' v w}, q ∈ pts → q' ∈ pts → Spec.PointRow q v → Spec.PointRow q' w →
      ((∃ s : ℚ, 0 < s ∧ Spec.pushed (n + 1) m (Spec.vec (n + 1) v) = s • Spec.vec (n + 1) w) ↔
        Spec.mapPoint names ls (Spec.point n q) = Spec.point n q') := by
    intro q q' v w hq hq' hv hw
    obtain ⟨D, hD, eD⟩ := pointRow_vec hv (hp q hq)
    obtain ⟨D', hD', eD'⟩ := pointRow_vec hw (hp q' hq')
    rw [eD, eD', pushed_smul, pushed_hom hn hl hls h]
    constructor
    · rintro ⟨s, -, e⟩
      rw [smul_smul] at e
      exact hom_smul_eq hD.ne' e
    · intro e
      exact ⟨D / D', div_pos hD hD', by rw [e, smul_smul, div_mul_cancel₀ _ hD'.ne']⟩
  constructor
  · rintro ⟨-, h1, h2⟩
    constructor
    · intro p hp'
      obtain ⟨q, hq, rfl⟩ := List.mem_map.1 hp'
      obtain ⟨v, hv, hqv⟩ := g1 q hq
      obtain ⟨w, hw, hs⟩ := h1 v hv
      obtain ⟨q', hq', hqw⟩ := g2 w hw
      exact List.mem_map.2 ⟨q', hq', ((key hq hq' hqv hqw).1 hs).symm⟩
    · intro p hp'
      obtain ⟨q', hq', rfl⟩ := List.mem_map.1 hp'
      obtain ⟨w, hw, hqw⟩ := g1 q' hq'
      obtain ⟨v, hv, hs⟩ := h2 w hw
      obtain ⟨q, hq, hqv⟩ := g2 v hv
      exact ⟨_, List.mem_map.2 ⟨q, hq, rfl⟩, (key hq hq' hqv hqw).1 hs⟩
  · rintro ⟨h1, h2⟩
    refine ⟨hmap, fun v hv => ?_, fun w hw => ?_⟩
    · obtain ⟨q, hq, hqv⟩ := g2 v hv
      obtain ⟨q', hq', e⟩ := List.mem_map.1 (h1 _ (List.mem_map.2 ⟨q, hq, rfl⟩))
      obtain ⟨w, hw, hqw⟩ := g1 q' hq'
      exact ⟨w, hw, (key hq hq' hqv hqw).2 e.symm⟩
    · obtain ⟨q', hq', hqw⟩ := g2 w hw
      obtain ⟨p, hp', e⟩ := h2 _ (List.mem_map.2 ⟨q', hq', rfl⟩)
      obtain ⟨q, hq, rfl⟩ := List.mem_map.1 hp'
      obtain ⟨v, hv, hqv⟩ := g1 q hq
      exact ⟨v, hv, (key hq hq' hqv hqw).2 e⟩

theorem symmetry_rays (hn : names.Nodup) (hl : names.length = n) (hls : ls.length = n) (h : Spec.DoesImages names ls m)
    {pts : List (List (Int × Int))} {P : Matrix} (hP : List.Forall₂ Spec.RayRow pts P) (hp : ∀ q ∈ pts, q.length = n) :
    Spec.IsSymmetry (n + 1) P m ↔ Spec.PermutesRays names ls (pts.map (Spec.point n)) := by
  have hmap : Spec.IsMap (n + 1) m := by subst hl; exact h.1
  obtain ⟨g1, g2⟩ := forall₂_both hP
  have key : ∀ {q q' v w}, q ∈ pts → q' ∈ pts → Spec.RayRow q v → Spec.RayRow q' w →
      ((∃ s : ℚ, 0 < s ∧ Spec.pushed (n + 1) m (Spec.vec (n + 1) v) = s • Spec.vec (n + 1) w) ↔
        ∃ s : ℚ, 0 < s ∧ Spec.mapDirection names ls (Spec.point n q) = s • Spec.point n q') := by
    intro q q' v w hq hq' hv hw
    obtain ⟨D, hD, eD⟩ := rayRow_vec hv (hp q hq)
    obtain ⟨D', hD', eD'⟩ := rayRow_vec hw (hp q' hq')
    rw [eD, eD', pushed_smul, pushed_dir hn hl hls h]
    simp only [smul_smul, ← dir_smul]
    constructor
    · rintro ⟨s, hs, e⟩
      refine ⟨D⁻¹ * (s * D'), by positivity, ?_⟩
      rw [← smul_smul, ← dir_inj e, smul_smul, inv_mul_cancel₀ hD.ne', one_smul]
    · rintro ⟨s, hs, e⟩
      refine ⟨D * s / D', by positivity, ?_⟩
      rw [e, smul_smul, div_mul_cancel₀ _ hD'.ne']
  constructor
  · rintro ⟨-, h1, h2⟩
    constructor
    · intro p hp'
      obtain ⟨q, hq, rfl⟩ := List.mem_map.1 hp'
      obtain ⟨v, hv, hqv⟩ := g1 q hq
      obtain ⟨w, hw, hs⟩ := h1 v hv
      obtain ⟨q', hq', hqw⟩ := g2 w hw
      exact ⟨_, List.mem_map.2 ⟨q', hq', rfl⟩, (key hq hq' hqv hqw).1 hs⟩
    · intro p hp'
      obtain ⟨q', hq', rfl⟩ := List.mem_map.1 hp'
      obtain ⟨w, hw, hqw⟩ := g1 q' hq'
      obtain ⟨v, hv, hs⟩ := h2 w hw
      obtain ⟨q, hq, hqv⟩ := g2 v hv
      exact ⟨_, List.mem_map.2 ⟨q, hq, rfl⟩, (key hq hq' hqv hqw).1 hs⟩
  · rintro ⟨h1, h2⟩
    refine ⟨hmap, fun v hv => ?_, fun w hw => ?_⟩
    · obtain ⟨q, hq, hqv⟩ := g2 v hv
      obtain ⟨p, hp', e⟩ := h1 _ (List.mem_map.2 ⟨q, hq, rfl⟩)
      obtain ⟨q', hq', rfl⟩ := List.mem_map.1 hp'
      obtain ⟨w, hw, hqw⟩ := g1 q' hq'
      exact ⟨w, hw, (key hq hq' hqv hqw).2 e⟩
    · obtain ⟨q', hq', hqw⟩ := g2 w hw
      obtain ⟨p, hp', e⟩ := h2 _ (List.mem_map.2 ⟨q', hq', rfl⟩)
      obtain ⟨q, hq, rfl⟩ := List.mem_map.1 hp'
      obtain ⟨v, hv, hqv⟩ := g1 q hq
      exact ⟨v, hv, (key hq hq' hqv hqw).2 e⟩

end

/-- the check of all maps on rows of points or rays -/
theorem checkClasses_iff {n : Nat} {names : Names} {lss : List (List (List (Option (List Char) × Int)))} {maps : Maps} {P : Matrix}
    {T : List (List (Option (List Char) × Int)) → Prop}
    (hl : lss ≠ [] → names.length = n) (hd : List.Forall₂ (Spec.DoesImages names) lss maps) (hP : ∀ r ∈ P, r.length = n + 1)
    (hT : ∀ ls ∈ lss, ∀ m, Spec.DoesImages names ls m → (Spec.IsSymmetry (n + 1) P m ↔ T ls)) :
    checkValidityOfClasses P maps .vertex = .ok () ↔ (lss ≠ [] → Spec.CanonicalRows P) ∧ ∀ ls ∈ lss, T ls := by
  rw [C40_all_maps]
  obtain ⟨g1, g2⟩ := forall₂_both hd
  have key : ∀ {ls m}, ls ∈ lss → Spec.DoesImages names ls m →
      (checkValidityMap P m .vertex = .ok () ↔ Spec.CanonicalRows P ∧ T ls) := by
    intro ls m hls hm
    have := (C40_vertex_maps (n := n + 1) (m := m) (A := P) (by rw [← hl (List.ne_nil_of_mem hls)]; exact hm.1) hP).1
    rw [this, hT ls hls m hm]
    unfold Spec.CanonicalRows
    tauto
  constructor
  · intro h
    refine ⟨fun hne => ?_, fun ls hls => ?_⟩
    · obtain ⟨ls, rest, e⟩ := List.exists_cons_of_ne_nil hne
      obtain ⟨m, hm, hdm⟩ := g1 ls (by rw [e]; simp)
      exact ((key (by rw [e]; simp) hdm).1 (h m hm)).1
    · obtain ⟨m, hm, hdm⟩ := g1 ls hls
      exact ((key hls hdm).1 (h m hm)).2
  · rintro ⟨h1, h2⟩ m hm
    obtain ⟨ls, hls, hdm⟩ := g2 m hm
    exact (key hls hdm).2 ⟨h1 (List.ne_nil_of_mem hls), h2 ls hls⟩

theorem orderedVertexFile_file {c c' : Spec.VertexContent} {text : List Char} (h : Spec.OrderedVertexFile c text c') :
    Spec.VertexFile c text c' := by
  induction h with
  | nil => exact .nil
  | other h1 h2 _ ih => exact .other h1 h2 ih
  | names h1 h2 h3 h4 h5 _ ih => exact .names h1 h2 h3 h4 h5 ih
  | maps h1 h2 h3 h4 _ _ _ ih => exact .maps h1 h2 h3 h4 ih
  | points h1 h2 h3 h4 _ _ ih => exact .points h1 h2 h3 h4 ih
  | rays h1 h2 h3 h4 _ _ ih => exact .rays h1 h2 h3 h4 ih
  | dimension h1 h2 h3 h4 h5 h6 h7 _ ih => exact .dimension h1 h2 h3 h4 h5 h6 h7 ih

/-- reading a file with points and rays, maps before them, with `-c` and known facets -/
theorem checked_read {args : List Arg} {f text : List Char} {files : Files} {order : InputOrder} {c : Spec.VertexContent} {n : Nat} {known : Matrix}
    (ha : Spec.CommandLine args [f]) (hcheck : "-c".toList ∈ args ∨ "--check".toList ∈ args)
    (hf : files f = some text) (ho : getInputOrder args = .ok order)
    (hk : ∃ M, ∀ fuel ≥ M, knownFacets fuel files args c.names = some (.ok known))
    (h20 : Spec.EarlyHeader 20 text) (h : Spec.OrderedVertexFile {} text c) (hc : c.Consistent n) (hn : c.names.Nodup) :
    ∃ (points rays : Matrix) (maps : Maps) (o : Outcome (Matrix × Names × Maps × Matrix)), List.Forall₂ Spec.LeastPoint c.points points ∧
      List.Forall₂ Spec.LeastRay c.rays rays ∧ List.Forall₂ Spec.PointRow c.points points ∧ List.Forall₂ Spec.RayRow c.rays rays ∧
      (∀ r ∈ points ++ rays, ∀ x ∈ r, Spec.IsInt x) ∧ List.Forall₂ (Spec.DoesImages c.names) c.maps maps ∧
      (∃ N, ∀ fuel ≥ N, inputVertices fuel files args = some o) ∧
      (o = .ub ∨ (o = .thrown ∧ ¬ c.Accepted n points rays) ∨
        (o = (Typed.checkValidityOfInequalities (fixedArith 32) (sortRows order rays ++ sortRows order points) known).bind (fun _ =>
            .ok (sortRows order rays ++ sortRows order points, c.names, maps, known)) ∧ c.Accepted n points rays)) ∧
      ∀ (args' : List Arg) (files' : Files) (f' : List Char), Spec.PlainCommand args' f' → files' f' = some text →
        getInputOrder args' = .ok order → ∃ N, ∀ fuel ≥ N, inputVertices fuel files' args' =
          some (.ok (sortRows order rays ++ sortRows order points, c.names, maps, [])) := by
  obtain ⟨d, ⟨⟨e1, -, e3, e4, e5, e6, i1, i2⟩, l1, l2⟩, ⟨M, hM⟩, -, -, -, hend⟩ := orderedVertexFile_reads h (d := {})
    ⟨⟨rfl, by intro x hx; simp at hx, .nil, .nil, .nil, rfl, by intro r hr; simp at hr, by intro r hr; simp at hr⟩, .nil, .nil⟩
  obtain ⟨o, ⟨N, hN⟩, hcase⟩ := hend ⟨checkClasses_nil _ _, checkClasses_nil _ _⟩
  have hlss : ∀ ls ∈ c.maps, ls.length = n := fun ls hls => by
    rw [vertexFile_maps (orderedVertexFile_file h) (by simp) ls hls, hc.2.2.2.1 (Or.inr (List.ne_nil_of_mem hls))]
  obtain ⟨c1, c2, c3, c4, c5⟩ := hc
  have lP := forall₂_length (n := n) List.length List.length e4 c2 (fun a _ b hb hn => by rw [hb.1, hn])
  have lR := forall₂_length (n := n) List.length List.length e5 c3 (fun a _ b hb hn => by rw [hb.1, hn])
  have hl : c.maps ≠ [] → c.names.length = n := fun h => c4 (Or.inr h)
  have hacc : CheckOk d ↔ c.Accepted n d.conv d.cone := by
    unfold CheckOk Spec.VertexContent.Accepted
    rw [checkClasses_iff hl e3 lP (T := fun ls => Spec.PermutesPoints c.names ls (c.points.map (Spec.point n)))
        fun ls hls m hm => symmetry_points hn (hl (List.ne_nil_of_mem hls)) (hlss ls hls) hm e4 c2,
      checkClasses_iff hl e3 lR (T := fun ls => Spec.PermutesRays c.names ls (c.rays.map (Spec.point n)))
        fun ls hls m hm => symmetry_rays hn (hl (List.ne_nil_of_mem hls)) (hlss ls hls) hm e5 c3]
    unfold Spec.VertexContent.MapsPermute
    constructor
    · rintro ⟨⟨a1, a2⟩, a3, a4⟩ hne
      exact ⟨fun m hm => ⟨a2 m hm, a4 m hm⟩, a1 hne, a3 hne⟩
    · intro a
      exact ⟨⟨fun hne => (a hne).2.1, fun m hm => ((a (List.ne_nil_of_mem hm)).1 m hm).1⟩,
        fun hne => (a hne).2.2, fun m hm => ((a (List.ne_nil_of_mem hm)).1 m hm).2⟩
  have hcons : Spec.ConsistentVertices d.conv d.cone d.names (d.maps.map List.length) d.dimension := by
    refine ⟨?_, n + 1, lP, lR, ?_, ?_, ?_⟩
    · rcases c1 with h | h
      · left; intro h0; rw [h0] at e4; exact h (List.forall₂_nil_right_iff.1 e4)
      · right; intro h0; rw [h0] at e5; exact h (List.forall₂_nil_right_iff.1 e5)
    · intro k hk
      obtain ⟨m, hm, rfl⟩ := List.mem_map.1 hk
      exact forall₂_length (n := c.names.length) (fun _ => c.names.length) List.length e3 (fun _ _ => rfl)
        (fun a ha b hb _ => by rw [hb.1.1, c4 (Or.inr (List.ne_nil_of_mem ha))]) m hm
    · intro hne; rw [e1] at hne ⊢; rw [c4 (Or.inl hne)]
    · intro k hk; rw [e6] at hk; rw [c5 k hk]
  have hknown : ∀ (args : List Arg) (files : Files) fuel, Spec.Absent 'k' args → knownFacets fuel files args d.names = some (.ok []) := fun args files fuel hk => by
    unfold knownFacets
    rw [known_absent true args hk]
    simp [Run.bind]
  obtain ⟨K, hK⟩ := hk
  have hrun : ∀ fuel ≥ max N K, inputVertices fuel files args = some (o.bind fun d =>
      (Typed.checkValidityOfInequalities (fixedArith 32) (sortRows order d.cone ++ sortRows order d.conv) known).bind fun _ =>
        .ok (sortRows order d.cone ++ sortRows order d.conv, d.names, d.maps, known)) := by
    intro fuel hfu
    unfold inputVertices
    rw [(C55_filename ha).1 f rfl]
    simp only [Run.bind, hf]
    rw [if_neg (by rw [show containsKeywords text = true from containsKeywords_early.1 h20]; simp), checkOption_given hcheck,
      vertexFileLoop_eq, hN fuel (le_trans (le_max_left _ _) hfu)]
    rcases hcase with rfl | ⟨rfl, -⟩ | ⟨rfl, -⟩
    · rfl
    · rfl
    · simp only
      unfold assembleVertices
      rw [(C48_vertices _ _ _ _ _).1 hcons]
      simp only [sort, ho, Outcome.bind]
      rw [e1, hK fuel (le_trans (le_max_right _ _) hfu)]
      simp only [if_true]
      cases Typed.checkValidityOfInequalities (fixedArith 32) (sortRows order d.cone ++ sortRows order d.conv) known <;> rfl
  refine ⟨d.conv, d.cone, d.maps, _, l1, l2, e4, e5, fun r hr => (List.mem_append.1 hr).elim (i1 r) (i2 r), e3, ⟨_, hrun⟩, ?_, fun args' files' f' hp hf' ho' => ⟨M, fun fuel hfu => ?_⟩⟩
  · rcases hcase with rfl | ⟨rfl, h⟩ | ⟨rfl, h⟩
    · exact Or.inl rfl
    · exact Or.inr (Or.inl ⟨rfl, fun h' => h (hacc.2 h')⟩)
    · exact Or.inr (Or.inr ⟨by simp only [Outcome.bind]; rw [e1], hacc.1 h⟩)
  · unfold inputVertices
    rw [(C55_filename hp.1).1 f' rfl]
    simp only [Run.bind, hf']
    rw [if_neg (by rw [show containsKeywords text = true from containsKeywords_early.1 h20]; simp), checkOption_plain hp,
      vertexFileLoop_eq, hM fuel hfu]
    simp only
    unfold assembleVertices
    rw [(C48_vertices _ _ _ _ _).1 hcons]
    simp only [sort, ho', Outcome.bind]
    rw [hknown args' files' fuel hp.2.2.2]
    simp [e1]

/-- **C69** Reading a file with points and rays, maps before them, with `-c`: the rows of the points and rays are those over the least common
denominator.  If every map permutes the points and the rays and the rows are different and in lowest terms, the rows, names and maps
handed to the algorithms are those without `-c`; otherwise the program reports an error.  The only other end is undefined
behaviour by overflow of `int`. -/
theorem C69_vertices {args : List Arg} {f text : List Char} {files : Files} {order : InputOrder} {c : Spec.VertexContent} {n : Nat}
    (ha : Spec.CheckedCommand args f) (hf : files f = some text) (ho : getInputOrder args = .ok order)
    (h20 : Spec.EarlyHeader 20 text) (h : Spec.OrderedVertexFile {} text c) (hc : c.Consistent n) (hn : c.names.Nodup) :
    ∃ (points rays : Matrix) (maps : Maps) (o : Outcome (Matrix × Names × Maps × Matrix)), List.Forall₂ Spec.LeastPoint c.points points ∧
      List.Forall₂ Spec.LeastRay c.rays rays ∧ List.Forall₂ Spec.PointRow c.points points ∧ List.Forall₂ Spec.RayRow c.rays rays ∧
      (∀ r ∈ points ++ rays, ∀ x ∈ r, Spec.IsInt x) ∧ List.Forall₂ (Spec.DoesImages c.names) c.maps maps ∧
      (∃ N, ∀ fuel ≥ N, inputVertices fuel files args = some o) ∧
      (o = .ub ∨ (o = .thrown ∧ ¬ c.Accepted n points rays) ∨
        (o = .ok (sortRows order rays ++ sortRows order points, c.names, maps, []) ∧ c.Accepted n points rays)) ∧
      ∀ (args' : List Arg) (files' : Files) (f' : List Char), Spec.PlainCommand args' f' → files' f' = some text →
        getInputOrder args' = .ok order → ∃ N, ∀ fuel ≥ N, inputVertices fuel files' args' =
          some (.ok (sortRows order rays ++ sortRows order points, c.names, maps, [])) := by
  obtain ⟨P, R, maps, o, h1, h2, k1, k2, k3, h3, h4, hcase, h5⟩ := checked_read (known := []) ha.1 ha.2.1 hf ho ⟨0, fun fuel _ => by
    unfold knownFacets
    rw [known_absent true args ha.2.2]
    simp [Run.bind]⟩ h20 h hc hn
  refine ⟨P, R, maps, o, h1, h2, k1, k2, k3, h3, h4, ?_, h5⟩
  rcases hcase with h | h | ⟨h, h'⟩
  · exact Or.inl h
  · exact Or.inr (Or.inl h)
  · exact Or.inr (Or.inr ⟨by simpa [Typed.checkValidityOfInequalities, Outcome.bind] using h, h'⟩)

end Panda
