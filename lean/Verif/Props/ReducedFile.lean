import Verif.Proofs.SignedMaps
import Verif.Spec.ReducedFile
import Verif.Props.FileExamples
import Verif.Props.MainVertexMaps
import Verif.Proofs.ClosedMaps

/-! # C67: files that list one point or ray of every orbit -/

namespace Panda

/-- what has been read agrees with the content -/
structure HHolds {d : Nat} (c : Spec.HullContent d) (data : VertexData) : Prop where
  names : data.names = c.names
  noKeyword : ∀ x ∈ c.names, isKeyword x = false
  maps : List.Forall₂ (Spec.DoesImages c.names) c.maps data.maps
  images : ∀ ls ∈ c.maps, ls.length = c.names.length
  conv : ∀ r ∈ data.conv, r.length = d + 1 ∧ 0 < r.getD d 0 ∧ c.points (Spec.coord d r)
  point : ∀ x, c.points x → ∃ r ∈ data.conv, Spec.coord d r = x
  cone : ∀ r ∈ data.cone, r.length = d + 1 ∧ r.getD d 0 = 0 ∧ ∃ s : ℚ, 0 < s ∧ c.rays (s • Spec.coord d r)
  ray : ∀ x, c.rays x → ∃ r ∈ data.cone, ∃ s : ℚ, 0 < s ∧ x = s • Spec.coord d r
  dimension : data.dimension = c.dimension
  convInt : IntEntries data.conv
  coneInt : IntEntries data.cone

theorem ends_ub {D : Type} {sec : Nat → List Char → Stream → D → Run (Stream × D)} {w l r : List Char} {d : D} (hl : Spec.FirstLine w l r)
    (hk : isKeyword (trimWhitespace l) = true)
    (hsec : ∃ N, ∀ fuel ≥ N, sec fuel (trimWhitespace l) ⟨w, false, false⟩ d = some .ub) : Ends sec ⟨w, false, false⟩ d .ub := by
  obtain ⟨N1, h1⟩ := hsec
  refine ⟨N1 + 1, fun fuel hf => ?_⟩
  obtain ⟨fuel, rfl⟩ : ∃ k, fuel = k + 1 := ⟨fuel - 1, by omega⟩
  rw [fileLoop, if_neg (by simp), advance_header hl hk, if_neg (by simp), h1 fuel (by omega)]
  rfl

/-- the maps can be applied to the representatives with `int`, except for overflows (only if `u`) -/
def Fitting (d : Nat) (Q : List (List (List (Option (List Char) × Int))) → List (List (Int × Int)) → Prop) (u : Prop) : Prop :=
  ∀ (names : Names) (lss : List (List (List (Option (List Char) × Int)))) (maps : Maps) (vs : List (List (Int × Int))) (rows : Matrix),
    Q lss vs → names.Nodup → names.length = d → (∀ ls ∈ lss, ls.length = d) → List.Forall₂ (Spec.DoesImages names) lss maps →
    (List.Forall₂ Spec.LeastPoint vs rows ∨ List.Forall₂ Spec.LeastRay vs rows) → IntEntries rows →
    ∃ P : Row → Prop, StepsFit maps .vertex (d + 1) u P ∧ ∀ r ∈ rows, P r

theorem fitting_all (d : Nat) : Fitting d (fun _ _ => True) True := by
  intro names lss maps vs rows _ hn hl hls hdo _ hi
  refine ⟨RowR Spec.IsInt, stepsFit_int (fun m hm => ?_) (fun x hx m hm => ?_), hi⟩
  · obtain ⟨ls, -, hd⟩ := (forall₂_both hdo).2 m hm
    exact hd.2.2.1
  · obtain ⟨y, h1, h2, -⟩ := step_exists hl hdo x hx m hm
    exact ⟨y, h1, h2⟩

theorem fitting_harmless (d : Nat) : Fitting d Spec.HarmlessExpansion False := by
  intro names lss maps vs rows hQ hn hl hls hdo hrows hi
  refine ⟨RowR SymInt, stepsFit_sparse (fun m hm => ?_) (fun x hx m hm => ?_), fun r hr x hx => ?_⟩
  · obtain ⟨ls, hls', hd⟩ := (forall₂_both hdo).2 m hm
    exact ⟨by have := hd.1; rwa [hl] at this, sparse_vertex hn hl (hls ls hls') hd (hQ.1 ls hls')⟩
  · obtain ⟨y, h1, h2, -⟩ := step_exists hl hdo x hx m hm
    exact ⟨y, h1, h2⟩
  · have hint := hi r hr x hx
    have hne : x ≠ -2147483648 := by
      rcases hrows with hrows | hrows
      · obtain ⟨v, hv, L, hL, rfl⟩ := (forall₂_both hrows).2 r hr
        rcases List.mem_append.1 hx with h | h
        · obtain ⟨q, hq, rfl⟩ := List.mem_map.1 h
          exact hQ.2 v hv L hL q hq
        · rw [List.mem_singleton.1 h]
          have := hL.1; omega
      · obtain ⟨v, hv, L, hL, rfl⟩ := (forall₂_both hrows).2 r hr
        rcases List.mem_append.1 hx with h | h
        · obtain ⟨q, hq, rfl⟩ := List.mem_map.1 h
          exact hQ.2 v hv L hL q hq
        · rw [List.mem_singleton.1 h]; decide
    unfold Spec.IsInt at hint
    unfold SymInt
    omega

theorem hullFile_reads {dim : Nat} {Q : List (List (List (Option (List Char) × Int))) → List (List (Int × Int)) → Prop} {u : Prop}
    (hQ : Fitting dim Q u) {c c' : Spec.HullContent dim} {text : List Char} (h : Spec.HullFile Q c text c') : ∀ {d : VertexData},
    HHolds c d → (u ∧ Ends (vertexSection false) ⟨text, false, false⟩ d .ub) ∨
      ∃ d', HHolds c' d' ∧ Reads (vertexSection false) ⟨text, false, false⟩ d d' := by
  induction h with
  | nil => intro d hd; exact Or.inr ⟨d, hd, reads_nil false d⟩
  | @other c c' w l r hl hh _ ih =>
    intro d hd
    have key : ∀ {o}, Ends (vertexSection false) ⟨r, false, false⟩ d o → Ends (vertexSection false) ⟨w, false, false⟩ d o := by
      intro o h2
      by_cases hk : isKeyword (trimWhitespace l) = true
      · refine reads_other hl hk (fun fuel s => ?_) h2
        have hn : ∀ {ws : List String}, (∀ k ∈ ws, k ∈ Spec.vertexFileWords) → ¬ Spec.Header ws l := fun h h' => hh (h'.mono h)
        unfold vertexSection
        rw [if_neg (by rw [header_dimension]; exact hn (by decide +kernel)), if_neg (by rw [header_names]; exact hn (by decide +kernel)),
          if_neg (by rw [header_maps]; exact hn (by decide +kernel)), if_neg (by rw [header_points]; exact hn (by decide +kernel)),
          if_neg (by rw [header_reducedPoints]; exact hn (by decide +kernel)), if_neg (by rw [header_rays]; exact hn (by decide +kernel)),
          if_neg (by rw [header_reducedRays]; exact hn (by decide +kernel))]
      · exact reads_skip hl (by simpa using hk) h2
    rcases ih hd with ⟨hu, h2⟩ | ⟨d', h1, h2⟩
    · exact Or.inl ⟨hu, key h2⟩
    · exact Or.inr ⟨d', h1, key h2⟩
  | @names c c' k t w names hk hkw ht hw hm _ ih =>
    intro d hd
    have hdm : d.maps = [] := by
      have := hd.maps
      rw [hm] at this
      exact List.forall₂_nil_left_iff.1 this
    have hkn := (header_names k).2 hkw
    have hkk := (header_keyword k).2 (hkw.mono (by decide +kernel))
    obtain ⟨ws, s, g1, g2, g3, g4⟩ := readNames_body hk hkn (sectionRest_end hw).section ht
    have key : ∀ {o}, Ends (vertexSection false) ⟨w, false, false⟩ { d with names := names } o →
        Ends (vertexSection false) ⟨k ++ '\n' :: (t ++ w), false, false⟩ d o := by
      intro o h2
      refine reads_section (firstLine_line hk) hkk ⟨0, fun fuel _ => ?_⟩ (reads_after_names g2 g3 g4 h2)
      unfold vertexSection
      simp only [(header_kind hkk).1 hkn, hkn, Bool.false_eq_true, if_false, if_true, g1, Run.bind]
    have hd' : HHolds { c with names := names } { d with names := names } :=
      ⟨rfl, namesBody_keyword ht, by show List.Forall₂ _ c.maps d.maps; rw [hm, hdm]; exact .nil,
        by intro ls hls; rw [show ({ c with names := names } : Spec.HullContent dim).maps = [] from hm] at hls; simp at hls,
        hd.conv, hd.point, hd.cone, hd.ray, hd.dimension, hd.convInt, hd.coneInt⟩
    rcases ih hd' with ⟨hu, h2⟩ | ⟨d', h1, h2⟩
    · exact Or.inl ⟨hu, key h2⟩
    · exact Or.inr ⟨d', h1, key h2⟩
  | @maps c c' k t w maps hk hkw ht hw _ ih =>
    intro d hd
    have hkn := (header_maps k).2 hkw
    have hkk := (header_keyword k).2 (hkw.mono (by decide +kernel))
    obtain ⟨N, hN⟩ := C53_sections hd.noKeyword ht hk hkn (sectionRest_end hw)
    obtain ⟨⟨s, ms⟩, ⟨hP1, hP2⟩, M, hM⟩ := run_fixed (f := fun fuel => readMaps c.names fuel ⟨k ++ '\n' :: (t ++ w), false, false⟩)
      (fun n r => readMaps_mono _ _ n r)
      (P := fun a => List.Forall₂ (Spec.DoesImages c.names) maps a.2 ∧
        Spec.AfterSection w a.1.rest a.1.eof a.1.fail (fun k => isKeywordEnd (firstWord k)))
      ⟨N, fun fuel hf => by obtain ⟨s, ms, h1, h2, h3⟩ := hN fuel hf; exact ⟨(s, ms), h1, h2, h3⟩⟩
    have key : ∀ {o}, Ends (vertexSection false) ⟨w, false, false⟩ { d with maps := ms } o →
        Ends (vertexSection false) ⟨k ++ '\n' :: (t ++ w), false, false⟩ d o := by
      intro o h2
      refine reads_section (firstLine_line hk) hkk ⟨M, fun fuel hf => ?_⟩
        (reads_after (sectionRest_end hw).section (fun fuel k s hk => vertexSection_end fuel k s _ hk) hP2 h2)
      unfold vertexSection
      obtain ⟨n1, n2⟩ := (header_kind hkk).2.1 hkn
      simp only [n1, n2, hkn, Bool.false_eq_true, if_false, if_true, hd.names, hM fuel hf, Run.bind]
    have hd' : HHolds { c with maps := maps } { d with maps := ms } :=
      ⟨hd.names, hd.noKeyword, hP1, fun ls hls => by obtain ⟨_, h⟩ := lines_all ht ls hls; exact h.2.1, hd.conv, hd.point, hd.cone, hd.ray, hd.dimension, hd.convInt, hd.coneInt⟩
    rcases ih hd' with ⟨hu, h2⟩ | ⟨d', h1, h2⟩
    · exact Or.inl ⟨hu, key h2⟩
    · exact Or.inr ⟨d', h1, key h2⟩
  | @points c c' k t w vs hk hkw ht hlen hw _ ih =>
    intro d hd
    have hkn := (header_points k).2 hkw
    have hkk := (header_keyword k).2 (hkw.mono (by decide +kernel))
    obtain ⟨N, hN⟩ := C41_sections ht.1 hk (sectionRest_end hw).section ht.2
    obtain ⟨⟨s, rows⟩, ⟨hP1, hP2⟩, M, hM⟩ := run_fixed (f := fun fuel => verticesConvex fuel ⟨k ++ '\n' :: (t ++ w), false, false⟩)
      (fun n r => verticesConvex_mono _ n r)
      (P := fun a => List.Forall₂ Spec.PointRow vs a.2 ∧
        Spec.AfterSection w a.1.rest a.1.eof a.1.fail (fun k => isKeywordEnd (firstWord k)))
      ⟨N, fun fuel hf => by
        obtain ⟨s, ms, h1, h2, h3⟩ := (hN fuel hf).1 (by rw [hkn]; rfl); exact ⟨(s, ms), h1, h2, h3⟩⟩
    have key : ∀ {o}, Ends (vertexSection false) ⟨w, false, false⟩ { d with conv := rows } o →
        Ends (vertexSection false) ⟨k ++ '\n' :: (t ++ w), false, false⟩ d o := by
      intro o h2
      refine reads_section (firstLine_line hk) hkk ⟨M, fun fuel hf => ?_⟩
        (reads_after (sectionRest_end hw).section (fun fuel k s hk => vertexSection_end fuel k s _ hk) hP2 h2)
      unfold vertexSection readAllRows
      obtain ⟨n1, n2, n3⟩ := (header_kind hkk).2.2.1 hkn
      simp only [n1, n2, n3, hkn, Bool.false_eq_true, if_false, if_true, hM fuel hf, Run.bind]
    have hd' : HHolds { c with points := fun x => ∃ v ∈ vs, x = Spec.point dim v } { d with conv := rows } :=
      ⟨hd.names, hd.noKeyword, hd.maps, hd.images,
        fun r hr => by
          obtain ⟨v, hv, h⟩ := (forall₂_both hP1).2 r hr
          exact ⟨by rw [h.1, hlen v hv], by rw [← hlen v hv]; exact h.2.1, v, hv, (pointRow_coord h (hlen v hv)).2⟩,
        fun x hx => by
          obtain ⟨v, hv, rfl⟩ := hx
          obtain ⟨r, hr, h⟩ := (forall₂_both hP1).1 v hv
          exact ⟨r, hr, (pointRow_coord h (hlen v hv)).2⟩,
        hd.cone, hd.ray, hd.dimension, verticesConvex_int (hM M (le_refl _)), hd.coneInt⟩
    rcases ih hd' with ⟨hu, h2⟩ | ⟨d', h1, h2⟩
    · exact Or.inl ⟨hu, key h2⟩
    · exact Or.inr ⟨d', h1, key h2⟩
  | @reducedPoints c c' k t w vs hk hkw ht hlen hw hex hq _ ih =>
    intro d hd
    have hkn := (header_reducedPoints k).2 hkw
    have hkk := (header_keyword k).2 (hkw.mono (by decide +kernel))
    obtain ⟨N, hN⟩ := sections_least ht.1 hk (sectionRest_end hw).section ht.2
    obtain ⟨⟨s, rows⟩, ⟨hP1, hP2⟩, M, hM⟩ := run_fixed (f := fun fuel => verticesConvex fuel ⟨k ++ '\n' :: (t ++ w), false, false⟩)
      (fun n r => verticesConvex_mono _ n r)
      (P := fun a => List.Forall₂ (fun cs row => Spec.PointRow cs row ∧ Spec.LeastPoint cs row) vs a.2 ∧
        Spec.AfterSection w a.1.rest a.1.eof a.1.fail (fun k => isKeywordEnd (firstWord k)))
      ⟨N, fun fuel hf => by
        obtain ⟨s, ms, h1, h2, h3⟩ := (hN fuel hf).1 (by rw [hkn, Bool.or_true]); exact ⟨(s, ms), h1, h2, h3⟩⟩
    obtain ⟨hm0, hnd, hnl⟩ := hex
    have hls : ∀ ls ∈ c.maps, ls.length = dim := fun ls h => by rw [hd.images ls h, hnl]
    have hPR : List.Forall₂ Spec.PointRow vs rows := hP1.imp fun _ _ h => h.1
    obtain ⟨P, hst, hP⟩ := hQ c.names c.maps d.maps vs rows hq hnd hnl hls hd.maps (Or.inl (hP1.imp fun _ _ h => h.2))
      (verticesConvex_int (hM M (le_refl _)))
    have hrow : ∀ r ∈ rows, r.length = dim + 1 ∧ 0 < r.getD dim 0 ∧ ∃ v ∈ vs, Spec.coord dim r = Spec.point dim v := fun r hr => by
      obtain ⟨v, hv, h⟩ := (forall₂_both hPR).2 r hr
      exact ⟨by rw [h.1, hlen v hv], by rw [← hlen v hv]; exact h.2.1, v, hv, (pointRow_coord h (hlen v hv)).2⟩
    have hdm : d.maps ≠ [] := fun e => by
      have := hd.maps; rw [e] at this
      exact hm0 (List.forall₂_nil_right_iff.1 this)
    obtain ⟨n1, n2, n3, n4⟩ := (header_kind hkk).2.2.2.1 hkn
    rcases typedExpandLoop_ends hst rows (fun r hr => ⟨hP r hr, (hrow r hr).1⟩) with ⟨hu, K, hK⟩ | ⟨B, ⟨K, hK⟩, b1, b2⟩
    · refine Or.inl ⟨hu, ends_ub (firstLine_line hk) hkk ⟨max M K, fun fuel hf => ?_⟩⟩
      unfold vertexSection readReducedRows Typed.expand
      simp only [n1, n2, n3, n4, hkn, Bool.false_eq_true, if_false, if_true, hM fuel (le_trans (le_max_left _ _) hf), Run.bind, if_neg hdm,
        hK fuel (le_trans (le_max_right _ _) hf)]
    · have key : ∀ {o}, Ends (vertexSection false) ⟨w, false, false⟩ { d with conv := B } o →
          Ends (vertexSection false) ⟨k ++ '\n' :: (t ++ w), false, false⟩ d o := by
        intro o h2
        refine reads_section (firstLine_line hk) hkk ⟨max M K, fun fuel hf => ?_⟩
          (reads_after (sectionRest_end hw).section (fun fuel k s hk => vertexSection_end fuel k s _ hk) hP2 h2)
        unfold vertexSection readReducedRows Typed.expand
        simp only [n1, n2, n3, n4, hkn, Bool.false_eq_true, if_false, if_true, hM fuel (le_trans (le_max_left _ _) hf), Run.bind, if_neg hdm,
          hK fuel (le_trans (le_max_right _ _) hf)]
      have hd' : HHolds { c with points := fun x => ∃ v ∈ vs, Spec.Moved c.names c.maps (Spec.point dim v) x } { d with conv := B } :=
        ⟨hd.names, hd.noKeyword, hd.maps, hd.images,
          fun r hr => by
            obtain ⟨a, ha, hre⟩ := (b2 r).1 hr
            obtain ⟨r1, r2, v, hv, r3⟩ := hrow a ha
            obtain ⟨k1, k2, k3⟩ := reach_point hnd hnl hls hd.maps hre r2 r1
            exact ⟨k1, k2, v, hv, by rw [← r3]; exact k3⟩,
          fun x hx => by
            obtain ⟨v, hv, hmv⟩ := hx
            obtain ⟨a, ha, h⟩ := (forall₂_both hPR).1 v hv
            obtain ⟨r1, r2, -⟩ := hrow a ha
            rw [← (pointRow_coord h (hlen v hv)).2] at hmv
            obtain ⟨y, y1, y2⟩ := moved_reach hnd hnl hls hd.maps r2 r1 hmv
            exact ⟨y, (b2 y).2 ⟨a, ha, y1⟩, y2⟩,
          hd.cone, hd.ray, hd.dimension, fun r hr => (hst r (b1 r hr).1 (b1 r hr).2).1, hd.coneInt⟩
      rcases ih hd' with ⟨hu, h2⟩ | ⟨d', h1, h2⟩
      · exact Or.inl ⟨hu, key h2⟩
      · exact Or.inr ⟨d', h1, key h2⟩
  | @rays c c' k t w vs hk hkw ht hlen hw _ ih =>
    intro d hd
    have hkn := (header_rays k).2 hkw
    have hkk := (header_keyword k).2 (hkw.mono (by decide +kernel))
    obtain ⟨N, hN⟩ := C41_sections ht.1 hk (sectionRest_end hw).section ht.2
    obtain ⟨⟨s, rows⟩, ⟨hP1, hP2⟩, M, hM⟩ := run_fixed (f := fun fuel => verticesConical fuel ⟨k ++ '\n' :: (t ++ w), false, false⟩)
      (fun n r => verticesConical_mono _ n r)
      (P := fun a => List.Forall₂ Spec.RayRow vs a.2 ∧
        Spec.AfterSection w a.1.rest a.1.eof a.1.fail (fun k => isKeywordEnd (firstWord k)))
      ⟨N, fun fuel hf => by
        obtain ⟨s, ms, h1, h2, h3⟩ := (hN fuel hf).2 (by rw [hkn]; rfl); exact ⟨(s, ms), h1, h2, h3⟩⟩
    have key : ∀ {o}, Ends (vertexSection false) ⟨w, false, false⟩ { d with cone := rows } o →
        Ends (vertexSection false) ⟨k ++ '\n' :: (t ++ w), false, false⟩ d o := by
      intro o h2
      refine reads_section (firstLine_line hk) hkk ⟨M, fun fuel hf => ?_⟩
        (reads_after (sectionRest_end hw).section (fun fuel k s hk => vertexSection_end fuel k s _ hk) hP2 h2)
      unfold vertexSection readAllRows
      obtain ⟨n1, n2, n3, n4, n5⟩ := (header_kind hkk).2.2.2.2.1 hkn
      simp only [n1, n2, n3, n4, n5, hkn, Bool.false_eq_true, if_false, if_true, hM fuel hf, Run.bind]
    have hd' : HHolds { c with rays := fun x => ∃ v ∈ vs, x = Spec.point dim v } { d with cone := rows } :=
      ⟨hd.names, hd.noKeyword, hd.maps, hd.images, hd.conv, hd.point,
        fun r hr => by
          obtain ⟨v, hv, h⟩ := (forall₂_both hP1).2 r hr
          obtain ⟨h0, s, hs, e⟩ := rayRow_coord h (hlen v hv)
          exact ⟨by rw [h.1, hlen v hv], h0, s⁻¹, inv_pos.2 hs, v, hv, by rw [e, smul_smul, inv_mul_cancel₀ hs.ne', one_smul]⟩,
        fun x hx => by
          obtain ⟨v, hv, rfl⟩ := hx
          obtain ⟨r, hr, h⟩ := (forall₂_both hP1).1 v hv
          obtain ⟨h0, s, hs, e⟩ := rayRow_coord h (hlen v hv)
          exact ⟨r, hr, s⁻¹, inv_pos.2 hs, by rw [e, smul_smul, inv_mul_cancel₀ hs.ne', one_smul]⟩,
        hd.dimension, hd.convInt, verticesConical_int (hM M (le_refl _))⟩
    rcases ih hd' with ⟨hu, h2⟩ | ⟨d', h1, h2⟩
    · exact Or.inl ⟨hu, key h2⟩
    · exact Or.inr ⟨d', h1, key h2⟩
  | @reducedRays c c' k t w vs hk hkw ht hlen hw hex hq _ ih =>
    intro d hd
    have hkn := (header_reducedRays k).2 hkw
    have hkk := (header_keyword k).2 (hkw.mono (by decide +kernel))
    obtain ⟨N, hN⟩ := sections_least ht.1 hk (sectionRest_end hw).section ht.2
    obtain ⟨⟨s, rows⟩, ⟨hP1, hP2⟩, M, hM⟩ := run_fixed (f := fun fuel => verticesConical fuel ⟨k ++ '\n' :: (t ++ w), false, false⟩)
      (fun n r => verticesConical_mono _ n r)
      (P := fun a => List.Forall₂ (fun cs row => Spec.RayRow cs row ∧ Spec.LeastRay cs row) vs a.2 ∧
        Spec.AfterSection w a.1.rest a.1.eof a.1.fail (fun k => isKeywordEnd (firstWord k)))
      ⟨N, fun fuel hf => by
        obtain ⟨s, ms, h1, h2, h3⟩ := (hN fuel hf).2 (by rw [hkn, Bool.or_true]); exact ⟨(s, ms), h1, h2, h3⟩⟩
    obtain ⟨hm0, hnd, hnl⟩ := hex
    have hls : ∀ ls ∈ c.maps, ls.length = dim := fun ls h => by rw [hd.images ls h, hnl]
    have hPR : List.Forall₂ Spec.RayRow vs rows := hP1.imp fun _ _ h => h.1
    obtain ⟨P, hst, hP⟩ := hQ c.names c.maps d.maps vs rows hq hnd hnl hls hd.maps (Or.inr (hP1.imp fun _ _ h => h.2))
      (verticesConical_int (hM M (le_refl _)))
    have hrow : ∀ r ∈ rows, r.length = dim + 1 ∧ r.getD dim 0 = 0 ∧ ∃ v ∈ vs, ∃ s : ℚ, 0 < s ∧ Spec.point dim v = s • Spec.coord dim r :=
      fun r hr => by
        obtain ⟨v, hv, h⟩ := (forall₂_both hPR).2 r hr
        obtain ⟨h0, s, hs, e⟩ := rayRow_coord h (hlen v hv)
        exact ⟨by rw [h.1, hlen v hv], h0, v, hv, s⁻¹, inv_pos.2 hs, by rw [e, smul_smul, inv_mul_cancel₀ hs.ne', one_smul]⟩
    have hdm : d.maps ≠ [] := fun e => by
      have := hd.maps; rw [e] at this
      exact hm0 (List.forall₂_nil_right_iff.1 this)
    obtain ⟨n1, n2, n3, n4, n5, n6⟩ := (header_kind hkk).2.2.2.2.2.1 hkn
    have hml : ∀ {s : ℚ} {p q : Fin dim → ℚ}, 0 < s → Spec.MovedDirection c.names c.maps p q →
        Spec.MovedDirection c.names c.maps (s • p) (s • q) := fun {s p q} hs h =>
      movedDirection_smul hnd hnl hls hd.maps h s
    rcases typedExpandLoop_ends hst rows (fun r hr => ⟨hP r hr, (hrow r hr).1⟩) with ⟨hu, K, hK⟩ | ⟨B, ⟨K, hK⟩, b1, b2⟩
    · refine Or.inl ⟨hu, ends_ub (firstLine_line hk) hkk ⟨max M K, fun fuel hf => ?_⟩⟩
      unfold vertexSection readReducedRows Typed.expand
      simp only [n1, n2, n3, n4, n5, n6, hkn, Bool.false_eq_true, if_false, if_true, hM fuel (le_trans (le_max_left _ _) hf), Run.bind, if_neg hdm,
        hK fuel (le_trans (le_max_right _ _) hf)]
    · have key : ∀ {o}, Ends (vertexSection false) ⟨w, false, false⟩ { d with cone := B } o →
          Ends (vertexSection false) ⟨k ++ '\n' :: (t ++ w), false, false⟩ d o := by
        intro o h2
        refine reads_section (firstLine_line hk) hkk ⟨max M K, fun fuel hf => ?_⟩
          (reads_after (sectionRest_end hw).section (fun fuel k s hk => vertexSection_end fuel k s _ hk) hP2 h2)
        unfold vertexSection readReducedRows Typed.expand
        simp only [n1, n2, n3, n4, n5, n6, hkn, Bool.false_eq_true, if_false, if_true, hM fuel (le_trans (le_max_left _ _) hf), Run.bind, if_neg hdm,
          hK fuel (le_trans (le_max_right _ _) hf)]
      have hd' : HHolds { c with rays := fun x => ∃ v ∈ vs, Spec.MovedDirection c.names c.maps (Spec.point dim v) x } { d with cone := B } :=
        ⟨hd.names, hd.noKeyword, hd.maps, hd.images, hd.conv, hd.point,
          fun r hr => by
            obtain ⟨a, ha, hre⟩ := (b2 r).1 hr
            obtain ⟨r1, r2, v, hv, s, hs, r3⟩ := hrow a ha
            obtain ⟨k1, k2, s', hs', k3⟩ := reach_dir hnd hnl hls hd.maps hre r2 r1
            refine ⟨k1, k2, s * s', mul_pos hs hs', v, hv, ?_⟩
            rw [r3, ← smul_smul]; exact hml hs k3,
          fun x hx => by
            obtain ⟨v, hv, hmv⟩ := hx
            obtain ⟨a, ha, h⟩ := (forall₂_both hPR).1 v hv
            obtain ⟨r1, r2, -⟩ := hrow a ha
            obtain ⟨-, s, hs, e⟩ := rayRow_coord h (hlen v hv)
            have hmv' := hml hs hmv
            rw [← e] at hmv'
            obtain ⟨y, y1, s', hs', y2⟩ := movedDirection_reach hnd hnl hls hd.maps r2 r1 hmv'
            exact ⟨y, (b2 y).2 ⟨a, ha, y1⟩, s⁻¹ * s', by positivity, by rw [← smul_smul, ← y2, smul_smul, inv_mul_cancel₀ hs.ne', one_smul]⟩,
          hd.dimension, hd.convInt, fun r hr => (hst r (b1 r hr).1 (b1 r hr).2).1⟩
      rcases ih hd' with ⟨hu, h2⟩ | ⟨d', h1, h2⟩
      · exact Or.inl ⟨hu, key h2⟩
      · exact Or.inr ⟨d', h1, key h2⟩
  | @dimension c c' k b n b' w hk hkw hb hb' hn hd0 hv _ ih =>
    intro d hd
    have hkn := (header_dimension k).2 (hkw.mono (by decide +kernel))
    have hkk := (header_keyword k).2 (hkw.mono (by decide +kernel))
    have hbn := blanks_no_newline hb'
    have key : ∀ {o}, Ends (vertexSection false) ⟨w, false, false⟩ { d with dimension := some (Spec.decimal n) } o →
        Ends (vertexSection false) ⟨k ++ '\n' :: (b ++ (n ++ (b' ++ '\n' :: w))), false, false⟩ d o := by
      intro o h2
      refine reads_section (firstLine_line hk) hkk ⟨0, fun fuel hf => ?_⟩
        (reads_skip (firstLine_line hbn) (by rw [trim_blanks hb']; exact isKeyword_nil) h2)
      unfold vertexSection
      simp only [hkn, if_true, readDimension_line hkw hb hb' hn hd0 hv, Run.bind]
    rcases ih (d := { d with dimension := some (Spec.decimal n) }) ⟨hd.names, hd.noKeyword, hd.maps, hd.images, hd.conv, hd.point, hd.cone,
      hd.ray, rfl, hd.convInt, hd.coneInt⟩ with ⟨hu, h2⟩ | ⟨d', h1, h2⟩
    · exact Or.inl ⟨hu, key h2⟩
    · exact Or.inr ⟨d', h1, key h2⟩

/-! ## the hull -/

theorem wcomb_add {d : Nat} {l : List (ℚ × (Fin d → ℚ))} {s t : ℚ} {p q : Fin d → ℚ} (h1 : WComb d l s p) (h2 : WComb d l t q) :
    WComb d l (s + t) (p + q) := by
  obtain ⟨a, a1, rfl, rfl⟩ := h1
  obtain ⟨b, b1, rfl, rfl⟩ := h2
  refine ⟨fun j => a j + b j, fun j => add_nonneg (a1 j) (b1 j), ?_, ?_⟩
  · rw [← Finset.sum_add_distrib]; exact Finset.sum_congr rfl fun j _ => add_mul _ _ _
  · rw [← Finset.sum_add_distrib]; exact Finset.sum_congr rfl fun j _ => (add_smul _ _ _).symm

theorem wcomb_zero {d : Nat} (l : List (ℚ × (Fin d → ℚ))) : WComb d l 0 0 :=
  ⟨fun _ => 0, fun _ => le_rfl, by simp, by simp⟩

theorem wcomb_mem {d : Nat} : ∀ {l : List (ℚ × (Fin d → ℚ))} {x : ℚ × (Fin d → ℚ)} (_ : x ∈ l) {a : ℚ} (_ : 0 ≤ a), WComb d l (a * x.1) (a • x.2)
  | y :: l, x, h, a, ha => by
    rw [wcomb_cons]
    rcases List.mem_cons.1 h with rfl | h
    · exact ⟨a, ha, by simpa using wcomb_zero l⟩
    · exact ⟨0, le_rfl, by simpa using wcomb_mem h ha⟩

/-- converse of `hullOf_of_inPolyhedron` -/
theorem inPolyhedron_of_hullOf {n : Nat} {W : Matrix} {X D : (Fin n → ℚ) → Prop}
    (hX : ∀ x, X x → ∃ w ∈ W, w.getD n 0 ≠ 0 ∧ Spec.coord n w = x)
    (hD : ∀ x, D x → ∃ w ∈ W, w.getD n 0 = 0 ∧ ∃ s : ℚ, 0 < s ∧ x = s • Spec.coord n w)
    {p : Fin n → ℚ} (h : Spec.HullOf X D p) : Spec.InPolyhedron n W p := by
  rw [inPolyhedron_wcomb]
  obtain ⟨k, l, a, x, b, y, h1, h2, h3, rfl⟩ := h
  have e : (1 : ℚ) = ∑ i, a i + 0 := by rw [h3, add_zero]
  refine Eq.mpr (congrArg (fun t => WComb n _ t _) e) (wcomb_add ?_ ?_)
  · have : ∀ s : Finset (Fin k), WComb n (W.map fun r => ((if r.getD n 0 = 0 then 0 else 1 : ℚ), Spec.coord n r)) (∑ i ∈ s, a i) (∑ i ∈ s, a i • x i) := by
      intro s
      induction s using Finset.induction_on with
      | empty => simpa using wcomb_zero _
      | insert i s hi ih =>
        rw [Finset.sum_insert hi, Finset.sum_insert hi]
        refine wcomb_add ?_ ih
        obtain ⟨w, hw, h0, e⟩ := hX _ (h1 i).2
        have := wcomb_mem (List.mem_map.2 ⟨w, hw, rfl⟩ : ((if w.getD n 0 = 0 then 0 else 1 : ℚ), Spec.coord n w) ∈
          W.map fun r => ((if r.getD n 0 = 0 then 0 else 1 : ℚ), Spec.coord n r)) (h1 i).1
        rwa [if_neg h0, mul_one, e] at this
    exact this _
  · have : ∀ s : Finset (Fin l), WComb n (W.map fun r => ((if r.getD n 0 = 0 then 0 else 1 : ℚ), Spec.coord n r)) 0 (∑ i ∈ s, b i • y i) := by
      intro s
      induction s using Finset.induction_on with
      | empty => simpa using wcomb_zero _
      | insert i s hi ih =>
        rw [Finset.sum_insert hi]
        refine Eq.mpr (congrArg (fun t => WComb n _ t _) (add_zero (0 : ℚ)).symm) (wcomb_add ?_ ih)
        obtain ⟨w, hw, h0, s, hs, e⟩ := hD _ (h2 i).2
        have := wcomb_mem (List.mem_map.2 ⟨w, hw, rfl⟩ : ((if w.getD n 0 = 0 then 0 else 1 : ℚ), Spec.coord n w) ∈
          W.map fun r => ((if r.getD n 0 = 0 then 0 else 1 : ℚ), Spec.coord n r)) (mul_nonneg (h2 i).1 hs.le)
        rwa [if_pos h0, mul_zero, mul_smul, ← e] at this
    exact this _

/-- the input read from a file -/
def ReadsAs {d : Nat} (files : Files) (args : List Arg) (c : Spec.HullContent d) : Prop :=
  ∃ (V : Matrix) (maps : Maps) (N : Nat), (∀ fuel ≥ N, inputVertices fuel files args = some (.ok (V, c.names, maps, []))) ∧
    List.Forall₂ (Spec.DoesImages c.names) c.maps maps ∧ (∀ v ∈ V, v.length = d + 1) ∧ IntMatrix V ∧
    (∀ v ∈ V, (0 < v.getD d 0 ∧ c.points (Spec.coord d v)) ∨ (v.getD d 0 = 0 ∧ ∃ s : ℚ, 0 < s ∧ c.rays (s • Spec.coord d v))) ∧
    (∀ x, c.points x → ∃ v ∈ V, 0 < v.getD d 0 ∧ Spec.coord d v = x) ∧
    (∀ x, c.rays x → ∃ v ∈ V, v.getD d 0 = 0 ∧ ∃ s : ℚ, 0 < s ∧ x = s • Spec.coord d v)

theorem hull_reading {d : Nat} {Q : List (List (List (Option (List Char) × Int))) → List (List (Int × Int)) → Prop} {u : Prop}
    (hQ : Fitting d Q u) {args : List Arg} {f text : List Char} {files : Files} {order : InputOrder} {c : Spec.HullContent d}
    (ha : Spec.PlainCommand args f) (hf : files f = some text) (ho : getInputOrder args = .ok order)
    (h20 : Spec.EarlyHeader 20 text) (h : Spec.HullFile Q {} text c) (hc : c.Consistent) :
    (u ∧ ∃ N, ∀ fuel ≥ N, inputVertices fuel files args = some .ub) ∨ ReadsAs files args c := by
  have hstart : ∀ fuel, inputVertices fuel files args = Run.bind (fileLoop (vertexSection false) fuel ⟨text, false, false⟩ {}) fun data =>
      Run.bind (some (assembleVertices args data.conv data.cone data.names data.maps data.dimension)) fun vertices =>
          some (.ok (vertices, data.names, data.maps, [])) := by
    intro fuel
    unfold inputVertices
    rw [(C55_filename ha.1).1 f rfl]
    simp only [Run.bind, hf]
    rw [if_neg (by rw [show containsKeywords text = true from containsKeywords_early.1 h20]; simp), checkOption_absent ha.2.1 ha.2.2.1,
      vertexFileLoop_eq]
    unfold knownFacets
    rw [known_absent true args ha.2.2.2]
    simp [Run.bind]
  have h0 : HHolds ({} : Spec.HullContent d) {} :=
    ⟨rfl, by intro x hx; simp at hx, .nil, by intro x hx; simp at hx, by intro x hx; simp at hx, fun x hx => hx.elim,
      by intro x hx; simp at hx, fun x hx => hx.elim, rfl, by intro x hx; simp at hx, by intro x hx; simp at hx⟩
  rcases hullFile_reads hQ h h0 with ⟨hu, N, hN⟩ | ⟨data, hd, N, hN⟩
  · refine Or.inl ⟨hu, N, fun fuel hfu => ?_⟩
    rw [hstart, hN fuel hfu]
    rfl
  right
  obtain ⟨c1, c2, c3⟩ := hc
  have hcons : Spec.ConsistentVertices data.conv data.cone data.names (data.maps.map List.length) data.dimension := by
    refine ⟨?_, d + 1, fun r hr => (hd.conv r hr).1, fun r hr => (hd.cone r hr).1, ?_, ?_, ?_⟩
    · rcases c1 with ⟨x, hx⟩ | ⟨x, hx⟩
      · obtain ⟨r, hr, -⟩ := hd.point x hx
        exact Or.inl (List.ne_nil_of_mem hr)
      · obtain ⟨r, hr, -⟩ := hd.ray x hx
        exact Or.inr (List.ne_nil_of_mem hr)
    · intro k hk
      obtain ⟨m, hm, rfl⟩ := List.mem_map.1 hk
      obtain ⟨ls, hls, hdo⟩ := (forall₂_both hd.maps).2 m hm
      rw [hdo.1.1, c2 (Or.inr (List.ne_nil_of_mem hls))]
    · intro hne; rw [hd.names] at hne ⊢; rw [c2 (Or.inl hne)]
    · intro k hk; rw [hd.dimension] at hk; rw [c3 k hk]
  have hmem : ∀ v, v ∈ sortRows order data.cone ++ sortRows order data.conv ↔ v ∈ data.cone ∨ v ∈ data.conv := by
    intro v
    rw [List.mem_append, (sortRows_perm order data.cone).mem_iff, (sortRows_perm order data.conv).mem_iff]
  refine ⟨sortRows order data.cone ++ sortRows order data.conv, data.maps, N, fun fuel hfu => ?_, hd.maps, fun v hv => ?_, fun v hv => ?_,
    fun v hv => ?_, fun x hx => ?_, fun x hx => ?_⟩
  · rw [hstart, hN fuel hfu]
    unfold assembleVertices
    simp only [Run.bind]
    rw [(C48_vertices _ _ _ _ _).1 hcons]
    simp only [sort, ho, Outcome.bind, hd.names]
  · rcases (hmem v).1 hv with hv | hv
    · exact (hd.cone v hv).1
    · exact (hd.conv v hv).1
  · rcases (hmem v).1 hv with hv | hv
    · exact hd.coneInt v hv
    · exact hd.convInt v hv
  · rcases (hmem v).1 hv with hv | hv
    · exact Or.inr (hd.cone v hv).2
    · exact Or.inl (hd.conv v hv).2
  · obtain ⟨r, hr, h1⟩ := hd.point x hx
    exact ⟨r, (hmem r).2 (Or.inr hr), (hd.conv r hr).2.1, h1⟩
  · obtain ⟨r, hr, h1⟩ := hd.ray x hx
    exact ⟨r, (hmem r).2 (Or.inl hr), (hd.cone r hr).2.1, h1⟩

/-- the hull of the rows is the hull of the content -/
theorem readsAs_hull {d : Nat} {c : Spec.HullContent d} {V : Matrix} (hlen : ∀ v ∈ V, v.length = d + 1)
    (h1 : ∀ v ∈ V, (0 < v.getD d 0 ∧ c.points (Spec.coord d v)) ∨ (v.getD d 0 = 0 ∧ ∃ s : ℚ, 0 < s ∧ c.rays (s • Spec.coord d v)))
    (h2 : ∀ x, c.points x → ∃ v ∈ V, 0 < v.getD d 0 ∧ Spec.coord d v = x)
    (h3 : ∀ x, c.rays x → ∃ v ∈ V, v.getD d 0 = 0 ∧ ∃ s : ℚ, 0 < s ∧ x = s • Spec.coord d v) :
    (∀ p, Spec.InPolyhedron d V p ↔ Spec.HullOf c.points c.rays p) ∧ ((∃ x, c.points x) → Spec.IsVInput d V) := by
  refine ⟨fun p => ⟨fun h => hullOf_of_inPolyhedron (fun w hw h0 => ?_) (fun w hw h0 => ?_) h,
    fun h => inPolyhedron_of_hullOf (fun x hx => ?_) h3 h⟩, ?_⟩
  · rcases h1 w hw with h | h
    · exact h.2
    · exact absurd h.1 h0
  · rcases h1 w hw with h | h
    · exact absurd h0 h.1.ne'
    · exact h.2
  · obtain ⟨v, hv, a, b⟩ := h2 x hx
    exact ⟨v, hv, a.ne', b⟩
  · rintro ⟨x, hx⟩
    obtain ⟨v, hv, a, b⟩ := h2 x hx
    refine ⟨hlen, fun w hw => ?_, v, hv, a⟩
    rcases h1 w hw with h | h
    · exact h.1.le
    · exact h.1.ge

/-- **C67** A file that lists, for its points or its rays, one of every orbit ("Reduced Vertices", "Reduced Rays") after the names
and the maps is read as the points and rays which are images of the listed ones under products of the maps, each at least
once, and no others; the polyhedron handed to the algorithms is the convex hull of all these points plus the cone of all
these rays.  The only other possibility is that numbers exceed the range of `int` while the images are computed; this is
undefined behaviour. -/
theorem C67_reading {d : Nat} {args : List Arg} {f text : List Char} {files : Files} {order : InputOrder} {c : Spec.HullContent d}
    (ha : Spec.PlainCommand args f) (hf : files f = some text) (ho : getInputOrder args = .ok order)
    (h20 : Spec.EarlyHeader 20 text) (h : Spec.HullFile (fun _ _ => True) {} text c) (hc : c.Consistent) :
    (∃ N, ∀ fuel ≥ N, inputVertices fuel files args = some .ub) ∨
    ∃ (V : Matrix) (maps : Maps) (N : Nat), (∀ fuel ≥ N, inputVertices fuel files args = some (.ok (V, c.names, maps, []))) ∧
      List.Forall₂ (Spec.DoesImages c.names) c.maps maps ∧ (∀ v ∈ V, v.length = d + 1 ∧ ∀ x ∈ v, Spec.IsInt x) ∧
      (∀ v ∈ V, (0 < v.getD d 0 ∧ c.points (Spec.coord d v)) ∨ (v.getD d 0 = 0 ∧ ∃ s : ℚ, 0 < s ∧ c.rays (s • Spec.coord d v))) ∧
      (∀ x, c.points x → ∃ v ∈ V, 0 < v.getD d 0 ∧ Spec.coord d v = x) ∧
      (∀ x, c.rays x → ∃ v ∈ V, v.getD d 0 = 0 ∧ ∃ s : ℚ, 0 < s ∧ x = s • Spec.coord d v) ∧
      ∀ p, Spec.InPolyhedron d V p ↔ Spec.HullOf c.points c.rays p := by
  rcases hull_reading (fitting_all d) ha hf ho h20 h hc with ⟨-, h⟩ | ⟨V, maps, N, h1, h2, h3, h4, h5, h6, h7⟩
  · exact Or.inl h
  · exact Or.inr ⟨V, maps, N, h1, h2, fun v hv => ⟨h3 v hv, h4 v hv⟩, h5, h6, h7, (readsAs_hull h3 h5 h6 h7).1⟩

/-- **C67** (no overflow) If every coordinate of an image is a coordinate of the point or its negative, and no listed coordinate over
the least common denominator is the smallest `int`, the file is always read. -/
theorem C67_defined {d : Nat} {args : List Arg} {f text : List Char} {files : Files} {order : InputOrder} {c : Spec.HullContent d}
    (ha : Spec.PlainCommand args f) (hf : files f = some text) (ho : getInputOrder args = .ok order)
    (h20 : Spec.EarlyHeader 20 text) (h : Spec.HullFile Spec.HarmlessExpansion {} text c) (hc : c.Consistent) :
    ∃ (V : Matrix) (maps : Maps) (N : Nat), (∀ fuel ≥ N, inputVertices fuel files args = some (.ok (V, c.names, maps, []))) ∧
      List.Forall₂ (Spec.DoesImages c.names) c.maps maps ∧ (∀ v ∈ V, v.length = d + 1 ∧ ∀ x ∈ v, Spec.IsInt x) ∧
      (∀ v ∈ V, (0 < v.getD d 0 ∧ c.points (Spec.coord d v)) ∨ (v.getD d 0 = 0 ∧ ∃ s : ℚ, 0 < s ∧ c.rays (s • Spec.coord d v))) ∧
      (∀ x, c.points x → ∃ v ∈ V, 0 < v.getD d 0 ∧ Spec.coord d v = x) ∧
      (∀ x, c.rays x → ∃ v ∈ V, v.getD d 0 = 0 ∧ ∃ s : ℚ, 0 < s ∧ x = s • Spec.coord d v) ∧
      ∀ p, Spec.InPolyhedron d V p ↔ Spec.HullOf c.points c.rays p := by
  rcases hull_reading (fitting_harmless d) ha hf ho h20 h hc with ⟨h, -⟩ | ⟨V, maps, N, h1, h2, h3, h4, h5, h6, h7⟩
  · exact h.elim
  · exact ⟨V, maps, N, h1, h2, fun v hv => ⟨h3 v hv, h4 v hv⟩, h5, h6, h7, (readsAs_hull h3 h5 h6 h7).1⟩

/-! ## the program -/

/-- the maps of a content that has been read have an image for every variable -/
theorem hullFile_images {d : Nat} {Q : List (List (List (Option (List Char) × Int))) → List (List (Int × Int)) → Prop}
    {c c' : Spec.HullContent d} {text : List Char} (h : Spec.HullFile Q c text c') (hc : ∀ ls ∈ c.maps, ls.length = c.names.length) :
    ∀ ls ∈ c'.maps, ls.length = c'.names.length := by
  induction h with
  | nil => exact hc
  | other _ _ _ ih => exact ih hc
  | names _ _ _ _ hm _ ih => exact ih (by rw [hm]; simp)
  | maps _ _ hl _ _ ih =>
    refine ih fun ls hls => ?_
    obtain ⟨_, h⟩ := lines_all hl ls hls
    exact h.2.1
  | points _ _ _ _ _ _ ih => exact ih hc
  | reducedPoints _ _ _ _ _ _ _ _ ih => exact ih hc
  | rays _ _ _ _ _ _ ih => exact ih hc
  | reducedRays _ _ _ _ _ _ _ _ ih => exact ih hc
  | dimension _ _ _ _ _ _ _ _ ih => exact ih hc

/-- a file that has been read is the hull, and its symmetries are symmetries -/
theorem readsHull_reduced {d : Nat} {files : Files} {args : List Arg} {c : Spec.HullContent d} (h : ReadsAs files args c)
    (hp : ∃ x, c.points x) : ReadsHull files args d c.names c.maps (Spec.HullOf c.points c.rays) ∧
      ∀ m, c.Symmetry m → Spec.MapsOnto c.names m (Spec.HullOf c.points c.rays) := by
  obtain ⟨V, maps, N, h1, h2, h3, h4, h5, h6, h7⟩ := h
  refine ⟨⟨V, maps, N, h1, h4, h2, (readsAs_hull h3 h5 h6 h7).2 hp, (readsAs_hull h3 h5 h6 h7).1⟩, ?_⟩
  rintro m (hm | ⟨hm1, hm2⟩)
  · exact hm
  · refine mapsOnto_of_closed (X := V.map (Spec.coord d)) (D := V.map (Spec.coord d)) (fun x hx => ?_) (fun x hx => ?_) hm1 hm2
    · obtain ⟨v, hv, -, e⟩ := h6 x hx
      exact List.mem_map.2 ⟨v, hv, e⟩
    · obtain ⟨v, hv, -, s, hs, e⟩ := h7 x hx
      exact ⟨_, List.mem_map.2 ⟨v, hv, rfl⟩, s, hs, e⟩

/-- images of representatives are images of representatives -/
theorem closed_moved {d : Nat} {names : Names} {lss : List (List (List (Option (List Char) × Int)))} {m : List (List (Option (List Char) × Int))}
    (hm : m ∈ lss) {P R : List (List (Int × Int))} {dim : Option Nat} :
    ({ names := names, maps := lss, points := fun x => ∃ v ∈ P, Spec.Moved names lss (Spec.point d v) x,
       rays := fun x => ∃ v ∈ R, Spec.MovedDirection names lss (Spec.point d v) x, dimension := dim } : Spec.HullContent d).ClosedUnder m := by
  refine ⟨?_, ?_⟩
  · rintro x ⟨v, hv, h⟩
    exact ⟨v, hv, h.tail ⟨m, hm, rfl⟩⟩
  · rintro x ⟨v, hv, h⟩
    exact ⟨1, one_pos, v, hv, by rw [one_smul]; exact h.tail ⟨m, hm, rfl⟩⟩

/-- **C67** (double description) Facet enumeration of a file with representatives: with admissible names and maps that are symmetries of
the hull (invertible maps are, if points and rays are both given by representatives), if the hull is not contained in a
hyperplane and has a point, and no image mentions a variable twice.  If the program finishes, it prints inequalities, none
twice, such that a point is in the hull of all images of the representatives if and only if all its images satisfy them; no
inequality can be left out.  It always ends; the other ends are overflow, reported with checked integers once the file is
read. -/
theorem C67_facets_dd {ad : Bool → Option ProgramResult} {help : Option ProgramResult} {args : List Arg} {f text : List Char}
    {files : Files} {order : InputOrder} {d : Nat} {c : Spec.HullContent d}
    (ha : Spec.PlainCommand args f) (hf : files f = some text) (ho : getInputOrder args = .ok order)
    (hd : Spec.UsesDD args) (hi : Spec.UsesChecked args ∨ Spec.UsesInt args) (hh : Spec.NoHelp args)
    (hw : ¬ Spec.HasWordLine Spec.inequalityWords text)
    (h20 : Spec.EarlyHeader 20 text) (h : Spec.HullFile (fun _ _ => True) {} text c) (hc : c.Consistent) (hp : ∃ x, c.points x)
    (hm : c.maps ≠ []) (hn : Spec.AdmissibleNames c.names) (hsym : ∀ m ∈ c.maps, c.Symmetry m ∧ Spec.PlainImages m)
    (hsolid : Spec.Solid (Spec.HullOf c.points c.rays)) :
    ∃ N, ∀ fuel ≥ N, ∃ r, program ad help fuel files args = some r ∧
      ((r = .failed ∧ Spec.UsesChecked args) ∨ r = .undefined ∨
        ∃ (out : List Char) (ineqs : List Spec.Constraint), r = .finished 0 out ∧ Spec.PrintedReduced c.names out ineqs ∧
          ineqs.Nodup ∧
          (∀ p : Fin d → ℚ, Spec.HullOf c.points c.rays p ↔
            ∀ p', Spec.Moved c.names c.maps p p' → ∀ a ∈ ineqs, a.HoldsAt false c.names p') ∧
          ∀ a ∈ ineqs, ∃ p : Fin d → ℚ, (∀ p', Spec.Moved c.names c.maps p p' → ∀ b ∈ ineqs, b ≠ a → b.HoldsAt false c.names p') ∧
            ¬ Spec.HullOf c.points c.rays p) := by
  have hl : c.names.length = d := hc.2.1 (Or.inr hm)
  rcases hull_reading (fitting_all d) ha hf ho h20 h hc with ⟨-, N, hN⟩ | hr
  · refine ⟨N, fun fuel hfuel => ?_⟩
    obtain ⟨ty, t1, -⟩ := uses_type hi
    refine ⟨.undefined, ?_, Or.inr (Or.inl rfl)⟩
    unfold program
    rw [detect_facets ha.1 hf hh hw]
    simp only [enumeration, usesDD_method hd, if_true]
    unfold facetsDD
    rw [t1]
    simp only [Run.lift, Run.bind]
    rw [hN fuel hfuel]
    rfl
  · obtain ⟨h1, h2⟩ := readsHull_reduced hr hp
    exact hull_facets_dd ha.1 hf hd hi hh hw h1 hl (fun ls hls => by rw [hullFile_images h (by simp) ls hls, hl]) hm hn
      (fun m hmm => ⟨h2 m (hsym m hmm).1, (hsym m hmm).2⟩) hsolid

/-- a run in which reading the input is undefined -/
theorem ad_ub {hardware : Nat} {help : Option ProgramResult} {args : List Arg} {files : Files} {ty : IntegerType}
    (e1 : ∀ ad fuel, program ad help fuel files args = ad true) (t1 : integerType args = .ok ty) {N : Nat}
    (hN : ∀ fuel ≥ N, inputVertices fuel files args = some .ub) :
    (∃ r, ProgramEnds hardware help files args r) ∧ ∀ r, ProgramEnds hardware help files args r → r = .undefined := by
  have key : ∀ fuel ≥ N, adProgramFacets hardware fuel files args = some .ub := by
    intro fuel hf
    unfold adProgramFacets
    rw [t1]
    simp only [Run.lift, Run.bind, hN fuel hf]
  constructor
  · refine ⟨.undefined, N, fun facets => if facets then some .undefined else none, ?_, by rw [e1]; rfl⟩
    intro facets x hx
    cases facets with
    | false => simp at hx
    | true =>
      obtain rfl : x = .undefined := by simpa using hx.symm
      refine ⟨N, fun fuel hf => ?_⟩
      simp only [if_true, key fuel hf]
  · rintro r ⟨fuel, ad, h1, h2⟩
    rw [e1] at h2
    obtain ⟨M, hM⟩ := h1 true r h2
    have := hM (max M N) (le_max_left _ _)
    simp only [if_true, key (max M N) (le_max_right _ _)] at this
    exact this

/-- **C67** (adjacency decomposition) The same with adjacency decomposition (the default method) and any number of threads, if the
hull contains three points that are not on a line, but no line: whatever the threads do, if the program finishes, it prints
inequalities as with double description; at most one more is printed, which holds everywhere.  The run can always be brought
to an end. -/
theorem C67_facets_ad {hardware : Nat} {help : Option ProgramResult} {args : List Arg} {f text : List Char}
    {files : Files} {order : InputOrder} {d : Nat} {c : Spec.HullContent d}
    (ha : Spec.PlainCommand args f) (hf : files f = some text) (ho : getInputOrder args = .ok order)
    (hd : Spec.UsesAD args) (hi : Spec.UsesChecked args ∨ Spec.UsesInt args) (ht : Spec.ThreadsOk args) (hh : Spec.NoHelp args)
    (hw : ¬ Spec.HasWordLine Spec.inequalityWords text)
    (h20 : Spec.EarlyHeader 20 text) (h : Spec.HullFile (fun _ _ => True) {} text c) (hc : c.Consistent) (hp : ∃ x, c.points x)
    (hm : c.maps ≠ []) (hn : Spec.AdmissibleNames c.names) (hsym : ∀ m ∈ c.maps, c.Symmetry m ∧ Spec.PlainImages m)
    (hsolid : Spec.Solid (Spec.HullOf c.points c.rays))
    (hplane : Spec.Plane (Spec.HullOf c.points c.rays)) (hline : ¬ Spec.Line (Spec.HullOf c.points c.rays)) :
    (∃ r, ProgramEnds hardware help files args r) ∧ ∀ r, ProgramEnds hardware help files args r →
      (r = .failed ∧ Spec.UsesChecked args) ∨ r = .undefined ∨
        ∃ (out : List Char) (ineqs : List Spec.Constraint), r = .finished 0 out ∧ Spec.PrintedReduced c.names out ineqs ∧
          ineqs.Nodup ∧
          (∀ p : Fin d → ℚ, Spec.HullOf c.points c.rays p ↔
            ∀ p', Spec.Moved c.names c.maps p p' → ∀ a ∈ ineqs, a.HoldsAt false c.names p') ∧
          ∃ always, (∀ p : Fin d → ℚ, always.HoldsAt false c.names p) ∧ ∀ a ∈ ineqs, a ≠ always → ∃ p : Fin d → ℚ,
            (∀ p', Spec.Moved c.names c.maps p p' → ∀ b ∈ ineqs, b ≠ a → b.HoldsAt false c.names p') ∧
            ¬ Spec.HullOf c.points c.rays p := by
  have hl : c.names.length = d := hc.2.1 (Or.inr hm)
  rcases hull_reading (fitting_all d) ha hf ho h20 h hc with ⟨-, N, hN⟩ | hr
  · obtain ⟨ty, t1, -⟩ := uses_type hi
    have e1 : ∀ ad fuel, program ad help fuel files args = ad true := by
      intro ad fuel
      unfold program
      rw [detect_facets ha.1 hf hh hw]
      simp only [enumeration, usesAD_method hd]
    obtain ⟨h1, h2⟩ := ad_ub (hardware := hardware) e1 t1 hN
    exact ⟨h1, fun r hr => Or.inr (Or.inl (h2 r hr))⟩
  · obtain ⟨h1, h2⟩ := readsHull_reduced hr hp
    exact hull_facets_ad ha.1 hf hd hi ht hh hw h1 hl (fun ls hls => by rw [hullFile_images h (by simp) ls hls, hl]) hm hn
      (fun m hmm => ⟨h2 m (hsym m hmm).1, (hsym m hmm).2⟩) hsolid hplane hline

end Panda
