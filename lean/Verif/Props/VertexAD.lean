import Verif.Props.Adjacency
import Verif.Props.Main
import Verif.Proofs.LostEdge

/-! # C20: when adjacency decomposition finds all vertices

The code discards, for every vertex, the edge that leads straight away from the origin (at the origin: the edge in direction of
decreasing last coordinate), because the row of that edge looks like the trivial inequality `0 ≤ 1`.  If there is no such edge,
the method finds all vertices and extreme directions. -/

namespace Panda

open Cone Relation

variable {d : Nat} {A : Matrix} {maps : Maps} {known : Matrix}

theorem point_step_reach (hA : ∀ a ∈ A, a.length = d + 1) (hmaps : ∀ m ∈ maps, Spec.IsSolutionSymmetry (d+1) A m)
    {R : Matrix} {T : List Nat} (hsp : Split A (d+1) [] R T) {r r' : Row} (hr : NormalFacet (d+1) A [] r) :
    Spec.PointOrbit (d+1) A maps r r' ↔ Reach maps .vertex r r' := by
  obtain ⟨hact, hacts⟩ := vertex_actsOn hmaps
  have hrect : Rect A A.length (d+1) := ⟨rfl, hA⟩
  have hstep : ∀ x y, NormalFacet (d+1) A [] x → NormalFacet (d+1) A [] y → Spec.PointStep (d+1) maps x y → Step maps .vertex x y := by
    rintro x y hx hy ⟨m, hm, t, ht, hxy⟩
    obtain ⟨q, g, q1, q2, q3, -, q5⟩ := hact m hm x hx
    refine ⟨m, hm, ?_⟩
    rw [q1]
    congr 1
    refine (NormalFacet.not_proportional hsp hrect q2 hy (t := t * g) ?_).symm
    have : toV (d+1) y = (t * g) • toV (d+1) q := by
      rw [← vec_eq_toV, hxy, q5, smul_smul]; rfl
    rw [this, sub_self]; exact Submodule.zero_mem _
  constructor
  · intro ho
    induction ho with
    | refl => exact .refl
    | tail _ hs ih => exact ih.tail (hstep _ _ ((normalisedFacet_iff hsp).mp hs.1) ((normalisedFacet_iff hsp).mp hs.2.1) hs.2.2)
  · intro ho
    have key : Spec.PointOrbit (d+1) A maps r r' ∧ NormalFacet (d+1) A [] r' := by
      induction ho with
      | refl => exact ⟨.refl, hr⟩
      | @tail b c _ hs ih =>
        obtain ⟨ih1, ih2⟩ := ih
        obtain ⟨m, hm, hmc⟩ := hs
        obtain ⟨q, g, q1, q2, q3, -, q5⟩ := hact m hm b ih2
        rw [q1] at hmc
        simp only [Outcome.ok.injEq] at hmc
        subst hmc
        refine ⟨ih1.tail ⟨(normalisedFacet_iff hsp).mpr ih2, (normalisedFacet_iff hsp).mpr q2, m, hm, g⁻¹, inv_pos.mpr q3, ?_⟩, q2⟩
        rw [q5, smul_smul, inv_mul_cancel₀ q3.ne', one_smul]
    exact key.1

theorem rank_of_no_annihilator {n : Nat} (hE : ∀ x : Fin n → ℚ, (∀ a ∈ A, ev n a x = 0) → x = 0) : Spec.rank n A = n := by
  have h : Spec.span n A = ⊤ := by
    by_contra hne
    obtain ⟨φ, h1, h2⟩ := Submodule.exists_dual_map_eq_bot_of_lt_top (lt_top_iff_ne_top.mpr hne) inferInstance
    apply h1
    let x : Fin n → ℚ := fun i => φ (Pi.single i 1)
    have hφ : ∀ y : Fin n → ℚ, φ y = ∑ i, y i * x i := by
      intro y
      conv_lhs => rw [pi_eq_sum_univ' y]
      rw [map_sum]
      exact Finset.sum_congr rfl fun i _ => by rw [map_smul]; rfl
    have hx : x = 0 := by
      apply hE
      intro a ha
      have h3 : φ (Spec.vec n a) = 0 := by
        have : φ (Spec.vec n a) ∈ (Spec.span n A).map φ := Submodule.mem_map_of_mem (Submodule.subset_span ⟨a, ha, rfl⟩)
        rw [h2] at this
        simpa using this
      rw [hφ] at h3
      rw [ev_apply]
      rw [← h3]
      exact Finset.sum_congr rfl fun i _ => mul_comm _ _
    refine LinearMap.ext fun y => ?_
    rw [hφ, hx]; simp
  unfold Spec.rank
  rw [h, finrank_top, Module.finrank_fin_fun]

/-- **C20**, completeness: for a solvable system without lines in at least one variable, if no edge leads straight away from the
origin (from the origin: in direction of decreasing last coordinate), then as soon as one thread has left its loop, every vertex
and every extreme ray is equivalent to exactly one printed row. -/
theorem C20_complete_partial (hA : ∀ a ∈ A, a.length = d + 1) (htriv : List.replicate d 0 ++ [-1] ∈ A)
    (hsat : ∃ p, Spec.Solves d A p) (hline : ¬ Spec.HasLine d A) (hd : 0 < d)
    (hmaps : ∀ m ∈ maps, Spec.IsSolutionSymmetry (d+1) A m) (hknown : ∀ k ∈ known, Spec.IsFacet (d+1) A k)
    (hedge : ∀ v, Spec.Vertex (Spec.Solves d A) v → ∀ t : ℚ, 0 < t → ¬ Spec.Edge (Spec.Solves d A) v (t • Spec.outward v)) :
    ∃ a N, (∀ fuel ≥ N, adStartVertices fuel A maps known = some (.ok a)) ∧
      ∀ (ι : Type) [DecidableEq ι] [Fintype ι] (remote : ι → Prop) (s : Pool ι), PoolReach (adConfig remote A .vertex a) s →
        (∃ i, s.pc i = .stopped) → ∀ g, g.length = d + 1 → Spec.PrimitiveRow g → Spec.IsExtremeRay (d+1) A g →
          ∃! r, r ∈ s.printed ∧ Spec.PointOrbit (d+1) A maps r g := by
  obtain ⟨W, heq, hel, hnoE, hE, hlastW⟩ := ve_elim hA htriv hsat hline
  have hrect : Rect A A.length (d+1) := ⟨rfl, hA⟩
  have hm : 0 < A.length := List.length_pos_of_mem htriv
  have hsp := gaussSplit_spec hrect hm (Nat.succ_pos d)
  rw [hnoE] at hsp
  have hr : 2 ≤ Spec.rank (d+1) A := by rw [rank_of_no_annihilator hE]; omega
  have hnz := exists_nonzero_of_rank hA (lt_of_lt_of_le Nat.zero_lt_two hr)
  obtain ⟨hact, hacts⟩ := vertex_actsOn hmaps
  obtain ⟨a, a1, a2, a3, a4, a5, a6, a7, a8⟩ := initializePool_good hsp hnoE.symm hrect hel hacts hm hnz hknown
  refine ⟨a, W.length, fun fuel hf => a1 fuel hf, fun ι _ _ remote s hs ⟨i, hi⟩ g hgl hgp hge => ?_⟩
  have hgn : NormalFacet (d+1) A [] g := ⟨hgl, (primitiveRow_iff g).mp hgp, by simp, extreme_facetP hA hE hge⟩
  have hsafe := adSafe hsp hrect hel hacts hr a3 a4 a5 remote
  have hgood := C26_nothing_else hsafe hs
  obtain ⟨P, p1, p2, p3, -⟩ := C27_stop hsafe hs hi
  have hne : a.initial ≠ [] := a6 ⟨g, hgn⟩
  obtain ⟨r, hrP, hrg, hgr⟩ := search_complete_all hrect hr hsp hel hacts (S := P) (fun f hf => (hgood f (p2 f hf)).1)
    (by obtain ⟨r, hr⟩ := List.exists_mem_of_ne_nil _ hne; exact ⟨r, p1 r hr⟩)
    (fun f hf => by
      obtain ⟨-, m, ⟨fuel, e⟩, hm⟩ := p3 f hf
      rw [a3] at e
      exact ⟨m, fuel, e, hm⟩)
    (fun f hf F1 hF1 r hrF => by
      by_contra hbad
      rw [Bool.not_eq_false] at hbad
      have hfn := (hgood f (p2 f hf)).1
      obtain ⟨hw, t, ht, hedge'⟩ := edge_of_discarded hA hE htriv hr hfn hF1 hrF hbad
      refine hedge _ (vertex_of_extreme hw hA ?_) t ht hedge'
      exact extreme_of_facet hA hE hfn.1 (toV_ne_zero_of_primitive hfn.1 hfn.2.1) hfn.2.2.2) g hgn
  refine ⟨r, ⟨p2 r hrP, (point_step_reach hA hmaps hsp (hgood r (p2 r hrP)).1).mpr hrg⟩, ?_⟩
  rintro r' ⟨hr', ho⟩
  have hr'g := (point_step_reach hA hmaps hsp (hgood r' hr').1).mp ho
  have hgr' := Reach.symm_of_perm (hacts.closed hel) (hacts.inj hsp hrect hel) ((hel.mem r').mpr (hgood r' hr').1) hr'g
  exact (hgood r' hr').2.eq (hgood r (p2 r hrP)).2 (hr'g.trans hgr) (hrg.trans hgr')

/-- C20, completeness for systems that have the origin as a solution: it suffices that one cannot move from the origin in
direction of decreasing last coordinate, or that the origin is not a vertex. -/
theorem C20_complete_origin_partial (hA : ∀ a ∈ A, a.length = d + 1) (htriv : List.replicate d 0 ++ [-1] ∈ A)
    (hline : ¬ Spec.HasLine d A) (hd : 0 < d)
    (hmaps : ∀ m ∈ maps, Spec.IsSolutionSymmetry (d+1) A m) (hknown : ∀ k ∈ known, Spec.IsFacet (d+1) A k)
    (h0 : Spec.Solves d A 0)
    (hstep : Spec.Vertex (Spec.Solves d A) 0 → ∀ t : ℚ, 0 < t → ¬ Spec.Solves d A (fun i => if i.val + 1 = d then -t else 0)) :
    ∃ a N, (∀ fuel ≥ N, adStartVertices fuel A maps known = some (.ok a)) ∧
      ∀ (ι : Type) [DecidableEq ι] [Fintype ι] (remote : ι → Prop) (s : Pool ι), PoolReach (adConfig remote A .vertex a) s →
        (∃ i, s.pc i = .stopped) → ∀ g, g.length = d + 1 → Spec.PrimitiveRow g → Spec.IsExtremeRay (d+1) A g →
          ∃! r, r ∈ s.printed ∧ Spec.PointOrbit (d+1) A maps r g := by
  refine C20_complete_partial hA htriv ⟨0, h0⟩ hline hd hmaps hknown (no_edge_of_origin h0 fun hv t ht hs => hstep hv t ht ?_)
  have e : t • Spec.outward (0 : Fin d → ℚ) = fun i => if i.val + 1 = d then -t else 0 := by
    funext i
    unfold Spec.outward
    rw [if_pos rfl, Pi.smul_apply, smul_eq_mul]
    split <;> simp
  rwa [e] at hs

/-- C20: without symmetries, the printed rows are then exactly those of the vertices and extreme directions of the solution set,
one primitive row for each; they are the rows that double description finds. -/
theorem C20_vertices_partial (hA : ∀ a ∈ A, a.length = d + 1) (htriv : List.replicate d 0 ++ [-1] ∈ A)
    (hsat : ∃ p, Spec.Solves d A p) (hline : ¬ Spec.HasLine d A) (hd : 0 < d)
    (hknown : ∀ k ∈ known, Spec.IsFacet (d+1) A k)
    (hedge : ∀ v, Spec.Vertex (Spec.Solves d A) v → ∀ t : ℚ, 0 < t → ¬ Spec.Edge (Spec.Solves d A) v (t • Spec.outward v)) :
    ∃ a P R N, (∀ fuel ≥ N, adStartVertices fuel A [] known = some (.ok a)) ∧
      (∀ fuel ≥ N, vertexEnumerationDD fuel A [] = some (.ok ⟨false, P, R.map List.dropLast⟩)) ∧
      ∀ (ι : Type) [DecidableEq ι] [Fintype ι] (remote : ι → Prop) (s : Pool ι), PoolReach (adConfig remote A .vertex a) s →
        (∃ i, s.pc i = .stopped) → s.printed.Nodup ∧ (∀ r, r ∈ s.printed ↔ r ∈ R ++ P) ∧
        (∀ r ∈ s.printed, r.length = d + 1 ∧ Spec.PrimitiveRow r ∧
          ((0 < r.getD d 0 ∧ Spec.Vertex (Spec.Solves d A) (Spec.coord d r)) ∨
           (r.getD d 0 = 0 ∧ Spec.ExtremeDirection (Spec.Solves d A) (Spec.coord d r)))) ∧
        (∀ p, Spec.Vertex (Spec.Solves d A) p → ∃ r ∈ s.printed, 0 < r.getD d 0 ∧ Spec.coord d r = p) ∧
        ∀ q, Spec.ExtremeDirection (Spec.Solves d A) q → ∃ r ∈ s.printed, r.getD d 0 = 0 ∧ ∃ c : ℚ, 0 < c ∧ Spec.coord d r = c • q := by
  obtain ⟨P, R, N1, g1, g2, g3, g4, g5, g6, g7, g8⟩ := vertexDD_exact hA htriv hsat hline
  obtain ⟨-, -, -, -, hE, -⟩ := ve_elim hA htriv hsat hline
  have hr : 2 ≤ Spec.rank (d+1) A := by rw [rank_of_no_annihilator hE]; omega
  obtain ⟨a, N2, c1, c2⟩ := C20_complete_partial (maps := []) hA htriv hsat hline hd (by simp) hknown hedge
  obtain ⟨a', N3, c1', c3⟩ := C20_sound_partial (maps := []) hA htriv hsat hline hr (by simp) hknown
  have : a = a' := by
    have e1 := c1 (max N2 N3) (le_max_left _ _)
    have e2 := c1' (max N2 N3) (le_max_right _ _)
    rw [e1] at e2; cases e2; rfl
  subst this
  have horb : ∀ x y, Spec.PointOrbit (d+1) A [] x y → x = y := by
    intro x y h
    induction h with
    | refl => rfl
    | tail _ hs _ => obtain ⟨-, -, m, hm, -⟩ := hs; simp at hm
  refine ⟨a, P, R, max N1 N2, fun fuel hf => c1 fuel (le_trans (le_max_right _ _) hf), fun fuel hf => g1 fuel (le_trans (le_max_left _ _) hf),
    fun ι _ _ remote s hs hi => ?_⟩
  obtain ⟨s1, s2, -⟩ := (c3 ι remote).1 s hs
  have hcomp : ∀ g, g.length = d + 1 → Spec.PrimitiveRow g → Spec.IsExtremeRay (d+1) A g → g ∈ s.printed := by
    intro g h1 h2 h3
    obtain ⟨r, ⟨hr1, hr2⟩, -⟩ := c2 ι remote s hs hi g h1 h2 h3
    rw [horb r g hr2] at hr1; exact hr1
  have hlen : ∀ v ∈ R ++ P, v.length = d + 1 := by
    intro v hv
    rcases List.mem_append.mp hv with h | h
    · exact (g3 v h).1
    · exact (g2 v h).1
  refine ⟨s1, fun r => ⟨fun hrp => ?_, fun hrp => hcomp r (hlen r hrp) (g4 r hrp) (g7 r hrp)⟩, fun r hrp => ?_, fun p hp => ?_, fun q hq => ?_⟩
  · obtain ⟨h1, h2, h3, h4⟩ := s2 r hrp
    -- the row is generated by those of double description, hence one of them
    by_contra hno
    obtain ⟨W, e1, hel, hnoE, -⟩ := ve_elim hA htriv hsat hline
    have hsp := gaussSplit_spec (V := A) (n := d + 1) ⟨rfl, hA⟩ (List.length_pos_of_mem htriv) (Nat.succ_pos d)
    rw [hnoE] at hsp
    have hrW : r ∈ W := (hel.mem r).mpr ⟨h1, (primitiveRow_iff r).mp h3, by simp, extreme_facetP hA hE h4⟩
    obtain ⟨S, N, k1, k2, k3⟩ := classes_nil .vertex W
    have h5 := g1 (max N1 N) (le_max_left _ _)
    unfold vertexEnumerationDD at h5
    rw [e1] at h5
    simp only [Run.lift, Run.bind, k1 (max N1 N) (le_max_right _ _)] at h5
    simp only [Option.some.injEq, Outcome.ok.injEq, VertexOutput.mk.injEq] at h5
    obtain ⟨-, h6, h7⟩ := h5
    have hrS := (k3 r).mpr hrW
    have hlast : r.getLastD 0 = r.getD d 0 := by
      rw [List.getLastD_eq_getLast?, List.getLast?_eq_getElem?, h1, List.getD_eq_getElem?_getD]; rfl
    have hmemS : ∀ v ∈ S, v ∈ W := fun v hv => (k3 v).mp hv
    by_cases hw : r.getD d 0 = 0
    · have h8 : r ∈ (splitVertices S).2 := by
        unfold splitVertices
        exact List.mem_filter.mpr ⟨hrS, by rw [hlast, hw]; rfl⟩
      have h9 : r.dropLast ∈ (splitVertices S).2.map List.dropLast := List.mem_map.mpr ⟨r, h8, rfl⟩
      rw [h7] at h9
      obtain ⟨v, hv, hvr⟩ := List.mem_map.mp h9
      have hrv : r = v := by
        have q1 : r = r.dropLast ++ [r.getD d 0] := by
          rw [← hlast, List.getLastD_eq_getLast?, List.getLast?_eq_some_getLast (List.ne_nil_of_length_pos (by omega))]
          exact (List.dropLast_append_getLast _).symm
        have hvl : v.getLastD 0 = v.getD d 0 := by
          rw [List.getLastD_eq_getLast?, List.getLast?_eq_getElem?, (g3 v hv).1, List.getD_eq_getElem?_getD]; rfl
        have q2 : v = v.dropLast ++ [v.getD d 0] := by
          rw [← hvl, List.getLastD_eq_getLast?, List.getLast?_eq_some_getLast (List.ne_nil_of_length_pos (by rw [(g3 v hv).1]; omega))]
          exact (List.dropLast_append_getLast _).symm
        rw [q1, q2, hvr, hw, (g3 v hv).2]
      exact hno (List.mem_append.mpr (.inl (hrv ▸ hv)))
    · have h8 : r ∈ (splitVertices S).1 := by
        unfold splitVertices
        refine List.mem_filter.mpr ⟨hrS, ?_⟩
        rw [hlast]; simpa using hw
      rw [h6] at h8
      exact hno (List.mem_append.mpr (.inr h8))
  · obtain ⟨h1, h2, h3, h4⟩ := s2 r hrp
    exact ⟨h1, h3, kind_of_extreme h2 hA hsat hline h4⟩
  · obtain ⟨r, h1, h2, h3, h4, h5⟩ := extreme_of_vertex hA htriv hp
    exact ⟨r, hcomp r h1 h2 h5, h3, h4⟩
  · obtain ⟨r, h1, h2, h3, h4, h5⟩ := extreme_of_direction hA htriv hsat hq
    exact ⟨r, hcomp r h1 h2 h5, h3, h4⟩

/-! ## the triangle `x, y ≥ 0`, `x + y ≤ 2` -/

/-- its system of inequalities -/
def triangle : Matrix := [[-1, 0, 0], [0, -1, 0], [1, 1, -2], [0, 0, -1]]

theorem triangle_iff (p : Fin 2 → ℚ) : Spec.Solves 2 triangle p ↔ 0 ≤ p 0 ∧ 0 ≤ p 1 ∧ p 0 + p 1 ≤ 2 := by
  unfold Spec.Solves triangle Spec.value
  simp [Fin.sum_univ_two]

theorem triangle_no_line : ¬ Spec.HasLine 2 triangle := by
  rintro ⟨p, q, hq, h⟩
  apply hq
  have h0 : q 0 = 0 := by
    by_contra hne
    have := ((triangle_iff _).mp (h (-(p 0 + 1) / q 0))).1
    simp only [Pi.add_apply, Pi.smul_apply, smul_eq_mul] at this
    rw [div_mul_cancel₀ _ hne] at this
    linarith
  have h1 : q 1 = 0 := by
    by_contra hne
    have := ((triangle_iff _).mp (h (-(p 1 + 1) / q 1))).2.1
    simp only [Pi.add_apply, Pi.smul_apply, smul_eq_mul] at this
    rw [div_mul_cancel₀ _ hne] at this
    linarith
  funext i; fin_cases i
  · exact h0
  · exact h1

theorem triangle_swap : ∀ m ∈ [[[(1, 1)], [(0, 1)], [(2, 1)]]], Spec.IsSolutionSymmetry 3 triangle m := by
  intro m hm
  rw [List.mem_singleton] at hm; subst hm
  exact swap_symmetry (by decide)

theorem triangle_step (t : ℚ) (ht : 0 < t) : ¬ Spec.Solves 2 triangle (fun i => if i.val + 1 = 2 then -t else 0) := by
  rw [triangle_iff]; rintro ⟨-, h, -⟩; simp at h; linarith

/-- the hypotheses of C20_complete_origin_partial hold for it, with the swap of the coordinates: the origin is a vertex, but
the last coordinate cannot decrease -/
example : ∃ a N, (∀ fuel ≥ N, adStartVertices fuel triangle [[[(1, 1)], [(0, 1)], [(2, 1)]]] [] = some (.ok a)) := by
  obtain ⟨a, N, h, -⟩ := C20_complete_origin_partial (d := 2) (A := triangle) (maps := [[[(1, 1)], [(0, 1)], [(2, 1)]]]) (known := [])
    (by decide) (by decide) triangle_no_line (by norm_num) triangle_swap (by simp)
    ((triangle_iff 0).mpr (by simp)) (fun _ => triangle_step)
  exact ⟨a, N, h⟩

theorem triangle_no_edge : ∀ v, Spec.Vertex (Spec.Solves 2 triangle) v → ∀ t : ℚ, 0 < t → ¬ Spec.Edge (Spec.Solves 2 triangle) v (t • Spec.outward v) := by
  refine no_edge_of_origin ((triangle_iff 0).mpr (by simp)) fun _ t ht h => triangle_step t ht ?_
  have e : t • Spec.outward (0 : Fin 2 → ℚ) = fun i => if i.val + 1 = 2 then -t else 0 := by
    funext i
    unfold Spec.outward
    rw [if_pos rfl, Pi.smul_apply, smul_eq_mul]
    split <;> simp
  rwa [e] at h

/-- the hypotheses of C20_complete_partial and C20_vertices_partial hold for it -/
example : ∃ a N, (∀ fuel ≥ N, adStartVertices fuel triangle [] [] = some (.ok a)) := by
  obtain ⟨a, P, R, N, h, -⟩ := C20_vertices_partial (d := 2) (A := triangle) (known := []) (by decide) (by decide)
    ⟨0, (triangle_iff 0).mpr (by simp)⟩ triangle_no_line (by norm_num) (by simp) triangle_no_edge
  exact ⟨a, N, h⟩

/-- the condition fails for the quadrilateral of C20_adjacency_vertices_false: the edge from (1, 1) to (2, 2) -/
theorem quadrilateral_edge : Spec.Edge (Spec.Solves 2 [[-1, 0, 1], [-1, 1, 0], [-1, -1, 0], [1, 0, -2], [0, 0, -1]]) (fun _ => 1)
    ((1 : ℚ) • Spec.outward fun _ => 1) := by
  have hne : ¬ (fun _ : Fin 2 => (1 : ℚ)) = 0 := fun h => by have := congrFun h 0; simp at this
  have e : ((1 : ℚ) • Spec.outward fun _ : Fin 2 => (1 : ℚ)) = fun _ => 1 := by
    unfold Spec.outward; rw [if_neg hne, one_smul]
  rw [e]
  have hS : ∀ p : Fin 2 → ℚ, Spec.Solves 2 [[-1, 0, 1], [-1, 1, 0], [-1, -1, 0], [1, 0, -2], [0, 0, -1]] p ↔
      1 ≤ p 0 ∧ p 1 ≤ p 0 ∧ -p 0 ≤ p 1 ∧ p 0 ≤ 2 := by
    intro p
    unfold Spec.Solves Spec.value
    simp [Fin.sum_univ_two]
  refine ⟨hne, (hS _).mpr (by norm_num), (hS _).mpr (by norm_num), ?_⟩
  rintro x y t hx hy h0 h1 ⟨s, hs⟩
  rw [hS] at hx hy
  have e0 := congrFun hs 0
  have e1 := congrFun hs 1
  simp only [Pi.add_apply, Pi.smul_apply, smul_eq_mul, mul_one] at e0 e1
  have hx1 := mul_nonneg h0.le (sub_nonneg.mpr hx.2.1)
  have hy1 := mul_nonneg (by linarith : (0:ℚ) ≤ 1 - t) (sub_nonneg.mpr hy.2.1)
  have hx2 : t * (x 0 - x 1) = 0 := by nlinarith
  have hy2 : (1 - t) * (y 0 - y 1) = 0 := by nlinarith
  have hx3 := (mul_eq_zero.mp hx2).resolve_left h0.ne'
  have hy3 := (mul_eq_zero.mp hy2).resolve_left (by linarith : (0:ℚ) < 1 - t).ne'
  refine ⟨⟨x 0 - 1, ?_⟩, ⟨y 0 - 1, ?_⟩⟩
  · funext i; fin_cases i <;> simp; linarith
  · funext i; fin_cases i <;> simp; linarith

end Panda
