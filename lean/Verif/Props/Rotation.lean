import Verif.Proofs.ThreeDim

/-! # Properties C16 and C17: rotation, nearest and furthest vertices -/

namespace Panda

open Cone

/-! ## C17 -/

/-- **C17** `furthestVertex` returns the first vertex of maximal distance (the distance of `v` from the
hyperplane of `a` is `-a·v`). -/
theorem C17_furthest {vs : Matrix} (a : Row) (h : vs ≠ []) :
    ∃ pre v post, vs = pre ++ v :: post ∧ furthestVertex vs a = .ok v ∧
      (∀ u ∈ pre, -Spec.ip a u < -Spec.ip a v) ∧ ∀ u ∈ post, -Spec.ip a u ≤ -Spec.ip a v := by
  obtain ⟨pre, v, post, h1, h2, h3, h4⟩ := extremalVertex_spec (better := fun a b => decide (a > b)) (ineq := a)
    (f := fun v => -(dot a v)) (fun u v => by simp [distance, dot_comm]) h
  refine ⟨pre, v, post, h1, h2, fun u hu => ?_, fun u hu => ?_⟩
  · rw [ip_eq_dot, ip_eq_dot]; exact h3 u hu
  · rw [ip_eq_dot, ip_eq_dot]; exact h4 u hu

/-- **C17** `nearestVertex` returns the first vertex of minimal distance. -/
theorem C17_nearest {vs : Matrix} (a : Row) (h : vs ≠ []) :
    ∃ pre v post, vs = pre ++ v :: post ∧ nearestVertex vs a = .ok v ∧
      (∀ u ∈ pre, -Spec.ip a v < -Spec.ip a u) ∧ ∀ u ∈ post, -Spec.ip a v ≤ -Spec.ip a u := by
  obtain ⟨pre, v, post, h1, h2, h3, h4⟩ := extremalVertex_spec (better := fun a b => decide (a < b)) (ineq := a)
    (f := fun v => dot a v) (fun u v => by simp [distance, dot_comm]) h
  refine ⟨pre, v, post, h1, h2, fun u hu => ?_, fun u hu => ?_⟩
  · have := h3 u hu; rw [ip_eq_dot, ip_eq_dot]; omega
  · have := h4 u hu; rw [ip_eq_dot, ip_eq_dot]; omega

/-- ties are resolved in favour of the first -/
example : furthestVertex [[0, 1], [3, 1], [1, 1], [3, 1]] [-1, 0] = .ok [3, 1] ∧
    nearestVertex [[2, 1], [1, 1], [1, 2]] [-1, 0] = .ok [1, 1] ∧ furthestVertex [] [1, 0] = .ub := by decide

/-! ## C16 -/

section
variable {V E R : Matrix} {T : List Nat} {n d : Nat} {tag : Tag}

theorem filter_onFacet (f g : Row) :
    V.filter (fun v => decide (Spec.ip f v = 0 ∧ Spec.ip g v = 0)) = (onFacet V f).filter fun v => decide (Spec.ip g v = 0) := by
  unfold onFacet verticesWithZeroDistance
  rw [List.filter_filter]
  apply List.filter_congr
  intro v _
  rw [ip_eq_dot, ip_eq_dot, distance, dot_comm v f]
  by_cases h1 : dot f v = 0 <;> by_cases h2 : dot g v = 0 <;> simp [h1, h2]

theorem rank_onFacet {f : Row} (hf : Spec.IsFacet n V f) : Spec.rank n (onFacet V f) + 1 = Spec.rank n V := by
  rw [← hf.2.2]
  congr 2
  unfold onFacet verticesWithZeroDistance
  apply List.filter_congr
  intro v _
  rw [ip_eq_dot, distance, dot_comm v f]; simp

/-- a facet `g` of `V` is adjacent to `f` iff it is a facet of the facet `f` -/
theorem adjacent_iff {f g : Row} (hf : Spec.IsFacet n V f) (hg : Spec.IsFacet n V g) :
    Spec.rank n (V.filter fun v => decide (Spec.ip f v = 0 ∧ Spec.ip g v = 0)) + 2 = Spec.rank n V ↔
      Spec.IsFacet n (onFacet V f) g := by
  have h1 := rank_onFacet hf
  unfold Spec.IsFacet
  rw [filter_onFacet]
  constructor
  · intro h
    exact ⟨hg.1, fun v hv => hg.2.1 v (mem_onFacet.mp hv).1, by omega⟩
  · rintro ⟨-, -, h⟩
    omega

theorem classes_no_maps (rows : Matrix) :
    ∃ R N, (∀ fuel ≥ N, classes fuel rows [] tag = some (.ok R)) ∧ R.Nodup ∧ ∀ x, x ∈ R ↔ x ∈ rows := by
  obtain ⟨R, N, h1, h2, h3, h4, -⟩ := C21_classes_partition (maps := []) (tag := tag) (S := rows) (by simp) (by simp)
  refine ⟨R, N, h1, h2, fun x => ⟨h3 x, fun hx => ?_⟩⟩
  obtain ⟨r, ⟨hr, hre⟩, -⟩ := h4 x hx
  have : x = r := by
    cases hre with
    | refl => rfl
    | tail _ hs => obtain ⟨m, hm, -⟩ := hs; simp at hm
  rw [this]; exact hr

/-- **C16** `rotation` terminates on every facet `f` of a polyhedron that is not a point, and, without
symmetries, returns exactly the facets adjacent to `f`, each once: valid, primitive, normalised, different
from `f` and meeting it in a face of codimension two with a vertex. -/
theorem C16_rotation (hV : Spec.IsVInput d V) (hr : 2 ≤ Spec.rank (d+1) V) (hE : extractEquations V = .ok E) {f : Row}
    (hf : Spec.NormalisedFacet (d+1) V E f) (hft : f ≠ List.replicate d 0 ++ [-1]) :
    ∃ R N, (∀ fuel ≥ N, rotation fuel V f [] tag = some (.ok R)) ∧ R.Nodup ∧
      ∀ g, g ∈ R ↔ Spec.NormalisedFacet (d+1) V E g ∧ g ≠ f ∧ Spec.Adjacent (d+1) V f g := by
  obtain ⟨E', F0, h1, rfl, hsp, hel, -⟩ := dd_ok hV
  rw [hE] at h1; cases h1
  have hrect := (IsVInput.rect hV).1
  have hn : 0 < d + 1 := Nat.succ_pos d
  have hfn := (normalisedFacet_iff hsp).mp hf
  obtain ⟨F1, ridges, rows, r1, r2, r3, r4, r5, r6⟩ := rotation_rows hsp hrect hn hfn (onFacet_nonzero hrect hfn.1 hfn.2.2.2 hr)
  obtain ⟨R, N, q1, q2, q3⟩ := classes_no_maps (tag := tag) rows
  have hIf := onFacet_vertex hV hsp hfn hft
  obtain ⟨E2, F2, -, rfl, hsp2, hel2, heq2⟩ := dd_ok hIf
  have r2' : fourierMotzkinElimination (onFacet V f) = .ok ridges := r2
  rw [heq2] at r2'
  injection r2' with r2'
  have hmemr : ∀ r, r ∈ ridges ↔ NormalFacet (d+1) (onFacet V f) (gaussSplit (onFacet V f)).1 r ∧ r ≠ trivialRow d := by
    intro r
    rw [← r2', List.mem_filter, hel2.mem]
    refine and_congr_right fun ha => ?_
    have := isBadRow_eq_trivialRow ha.1
    cases hb : isBadRow r <;> simp_all
  have hrect2 := onFacet_rect hrect f
  -- a ridge other than the trivial one contains a vertex
  have hvert : ∀ r, NormalFacet (d+1) (onFacet V f) (gaussSplit (onFacet V f)).1 r →
      (r ≠ trivialRow d ↔ ∃ v ∈ onFacet V f, 0 < v.getD d 0 ∧ dot r v = 0) := by
    intro r hr
    constructor
    · intro hne
      obtain ⟨v, hv, hpos⟩ := (onFacet_vertex hIf hsp2 hr hne).vertex
      obtain ⟨hv1, hv2⟩ := mem_onFacet.mp hv
      exact ⟨v, hv1, hpos, hv2⟩
    · rintro ⟨v, -, hpos, h0⟩ rfl
      rw [dot_trivialRow] at h0; omega
  refine ⟨R, max N (V.length + 1), fun fuel hfu => ?_, q2, fun g => ?_⟩
  · rw [r4 fuel [] tag (by have := le_max_right N (V.length+1); omega)]
    exact q1 fuel (le_trans (le_max_left _ _) hfu)
  · rw [q3, normalisedFacet_iff hsp]
    constructor
    · intro hg
      obtain ⟨g1, g2, r, hr, c, l, hc, hcl⟩ := r5 g hg
      obtain ⟨hrn, hrt⟩ := (hmemr r).mp hr
      have hval : ∀ v ∈ onFacet V f, (dot r v : ℚ) = c * dot g v := by
        intro v hv
        rw [hcl v, (mem_onFacet.mp hv).2]; simp
      have hgF : FacetP (d+1) (onFacet V f) g := by
        refine ⟨fun v hv => g1.2.2.2.valid v (mem_onFacet.mp hv).1, ?_, ?_⟩
        · obtain ⟨v, hv, hne⟩ := hrn.2.2.2.strict
          refine ⟨v, hv, fun h0 => ?_⟩
          have := hval v hv
          rw [h0, Int.cast_zero, mul_zero] at this
          exact hne (by exact_mod_cast this)
        · intro b hb hbz
          obtain ⟨t, ht⟩ := hrn.2.2.2.tight b hb (fun v hv h0 => hbz v hv (by
            have := hval v hv
            rw [h0, Int.cast_zero] at this
            exact_mod_cast (mul_eq_zero.mp this.symm).resolve_left hc.ne'))
          refine ⟨t * c, fun v hv => ?_⟩
          rw [ht v hv, hval v hv]; ring
      refine ⟨g1, g2, (adjacent_iff hf.1 (isFacet_iff.mpr ⟨g1.1, g1.2.2.2⟩)).mpr (isFacet_iff.mpr ⟨g1.1, hgF⟩), ?_⟩
      obtain ⟨v, hv, hpos, h0⟩ := (hvert r hrn).mp hrt
      have := hval v hv
      rw [h0, Int.cast_zero] at this
      obtain ⟨hv1, hv2⟩ := mem_onFacet.mp hv
      refine ⟨v, hv1, by simpa using hpos, by rw [ip_eq_dot]; exact hv2, by
        rw [ip_eq_dot]; exact_mod_cast (mul_eq_zero.mp this.symm).resolve_left hc.ne'⟩
    · rintro ⟨g1, g2, hadj, v, hv, hpos, hv1, hv2⟩
      rw [ip_eq_dot] at hv1 hv2
      have hgF := (isFacet_iff.mp ((adjacent_iff hf.1 (isFacet_iff.mpr ⟨g1.1, g1.2.2.2⟩)).mp hadj)).2
      obtain ⟨r, -, hrn, s, hs, hval, -⟩ := FacetP.exists_normal hsp2 g1.1 hgF
      have hrt : r ≠ trivialRow d := (hvert r hrn).mpr ⟨v, mem_onFacet.mpr ⟨hv, hv1⟩, by simpa using hpos, by
        have := hval v (mem_onFacet.mpr ⟨hv, hv1⟩)
        rw [hv2, Int.cast_zero, mul_zero] at this
        exact_mod_cast this⟩
      obtain ⟨ρ, hρ, hrot⟩ := r6 r ((hmemr r).mpr ⟨hrn, hrt⟩)
      obtain ⟨p1, p2, -⟩ := r5 ρ hρ
      have := rotated_unique hsp hrect hfn g1 g2 p1 p2 hrot hs (fun v hv h0 => hval v (mem_onFacet.mpr ⟨hv, h0⟩))
      rw [← this]; exact hρ

/-- the unit square with the redundant point `(1/2, 0)` (written `(1, 0, 2)`): the facet `y ≥ 0` has the
neighbours `x ≥ 0` and `x ≤ 1` -/
example : Spec.IsVInput 2 [[0, 0, 1], [1, 0, 1], [0, 1, 1], [1, 1, 1], [1, 0, 2]] ∧
    extractEquations [[0, 0, 1], [1, 0, 1], [0, 1, 1], [1, 1, 1], [1, 0, 2]] = .ok [] ∧
    rotation 10 [[0, 0, 1], [1, 0, 1], [0, 1, 1], [1, 1, 1], [1, 0, 2]] [0, -1, 0] [] .facet =
      some (.ok [[-1, 0, 0], [1, 0, -1]]) :=
  ⟨⟨by decide, by decide, by decide⟩, by decide, by decide⟩

/-- **C16**, the part that also holds for vertex enumeration and pure cones: every row found is a valid,
primitive, normalised facet other than `f` (for any maps, the result is `classes` of these rows).  The
converse fails there: a ridge may be discarded, see `C20_adjacency_vertices_false`. -/
theorem C16_rotation_any_partial (hV : ∀ v ∈ V, v.length = n) (hr : 2 ≤ Spec.rank n V) (hE : extractEquations V = .ok E) {f : Row}
    (hf : Spec.NormalisedFacet n V E f) :
    ∃ rows, (∀ fuel maps tag, V.length < fuel → rotation fuel V f maps tag = classes fuel rows maps tag) ∧
      ∀ g ∈ rows, Spec.NormalisedFacet n V E g ∧ g ≠ f ∧
        Spec.rank n (V.filter fun v => decide (Spec.ip f v = 0 ∧ Spec.ip g v = 0)) + 2 = Spec.rank n V := by
  obtain ⟨v, hv, x, hx, hx0⟩ := exists_nonzero_of_rank hV (by omega : 0 < Spec.rank n V)
  have h0 : V ≠ [] := List.ne_nil_of_mem hv
  have hn : 0 < n := by rw [← hV v hv]; exact List.length_pos_of_mem hx
  obtain ⟨e1, hsp, hrect⟩ := extractEquations_ok hV h0 hn
  rw [hE] at e1; cases e1
  have hfn := (normalisedFacet_iff hsp).mp hf
  obtain ⟨F1, ridges, rows, r1, r2, r3, r4, r5, r6⟩ := rotation_rows hsp hrect hn hfn (onFacet_nonzero hrect hfn.1 hfn.2.2.2 hr)
  refine ⟨rows, r4, fun g hg => ?_⟩
  obtain ⟨g1, g2, r, hr, c, l, hc, hcl⟩ := r5 g hg
  rw [r3] at hr
  have hrn := (r1.mem r).mp (List.mem_of_mem_filter hr)
  have hval : ∀ v ∈ onFacet V f, (dot r v : ℚ) = c * dot g v := by
    intro v hv
    rw [hcl v, (mem_onFacet.mp hv).2]; simp
  refine ⟨(normalisedFacet_iff hsp).mpr g1, g2, (adjacent_iff hf.1 (isFacet_iff.mpr ⟨g1.1, g1.2.2.2⟩)).mpr (isFacet_iff.mpr ⟨g1.1, ?_⟩)⟩
  refine ⟨fun v hv => g1.2.2.2.valid v (mem_onFacet.mp hv).1, ?_, ?_⟩
  · obtain ⟨v, hv, hne⟩ := hrn.2.2.2.strict
    refine ⟨v, hv, fun h0 => ?_⟩
    have := hval v hv
    rw [h0, Int.cast_zero, mul_zero] at this
    exact hne (by exact_mod_cast this)
  · intro b hb hbz
    obtain ⟨t, ht⟩ := hrn.2.2.2.tight b hb (fun v hv h0 => hbz v hv (by
      have := hval v hv
      rw [h0, Int.cast_zero] at this
      exact_mod_cast (mul_eq_zero.mp this.symm).resolve_left hc.ne'))
    refine ⟨t * c, fun v hv => ?_⟩
    rw [ht v hv, hval v hv]; ring

/-- the positive orthant, written as a pure cone: one of the two neighbours is found -/
example : extractEquations [[1, 0, 0], [0, 1, 0], [0, 0, 1]] = .ok [] ∧
    rotation 10 [[1, 0, 0], [0, 1, 0], [0, 0, 1]] [-1, 0, 0] [] .vertex = some (.ok [[0, -1, 0]]) := by decide

/-- rotation of the only facet of a single point is undefined behaviour -/
theorem C16_point_undefined : rotation 10 [[1, 2, 1]] [0, 0, -1] [] .facet = some .ub := by decide

end

end Panda
