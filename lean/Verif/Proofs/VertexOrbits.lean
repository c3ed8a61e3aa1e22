import Verif.Proofs.MainMaps
import Verif.Props.VertexAD

/-! # Orbits of vertices and directions under the maps of a file -/

namespace Panda

open Cone _root_.Relation

section
variable {names : Names} {n : Nat} {A : Matrix} {lss : List (List (List (Option (List Char) × Int)))} {maps : Maps}

/-- a row with a point -/
theorem vec_point {r : Row} (h : 0 < r.getD n 0) : Spec.vec (n + 1) r = (r.getD n 0 : ℚ) • hom n (Spec.coord n r) :=
  toV_point h.ne'

theorem vec_dir {r : Row} (h : r.getD n 0 = 0) : Spec.vec (n + 1) r = dir n (Spec.coord n r) := toV_dir h

theorem hom_inj {p q : Fin n → ℚ} {s t : ℚ} (hs : s ≠ 0) (h : s • hom n p = t • hom n q) : p = q := by
  have h1 := congrFun h (Fin.last n)
  simp only [Pi.smul_apply, hom_last, smul_eq_mul, mul_one] at h1
  subst h1
  funext i
  have h2 := congrFun h i.castSucc
  simp only [Pi.smul_apply, hom_castSucc, smul_eq_mul] at h2
  exact mul_left_cancel₀ hs h2

theorem dir_inj {p q : Fin n → ℚ} (h : dir n p = dir n q) : p = q := by
  funext i
  have := congrFun h i.castSucc
  simpa [dir_castSucc] using this

/-- one step between rows of points -/
theorem step_point (hn : names.Nodup) (hl : names.length = n) {ls : List (List (Option (List Char) × Int))} {m : SymMap} (hls : ls.length = n)
    (h : Spec.DoesImages names ls m) {x y : Row} {s : ℚ} (hs : 0 < s) (hx : 0 < x.getD n 0)
    (e : Spec.vec (n + 1) y = s • Spec.pushed (n + 1) m (Spec.vec (n + 1) x)) :
    0 < y.getD n 0 ∧ Spec.coord n y = Spec.mapPoint names ls (Spec.coord n x) := by
  have smul : ∀ (c : ℚ) (x : Fin (n + 1) → ℚ), Spec.pushed (n + 1) m (c • x) = c • Spec.pushed (n + 1) m x :=
    fun c x => (pushedL (n + 1) m).map_smul c x
  have hx' : (0 : ℚ) < (x.getD n 0 : ℚ) := by exact_mod_cast hx
  rw [vec_point hx, smul, pushed_hom hn hl hls h, smul_smul] at e
  have h1 := congrFun e (Fin.last n)
  simp only [Pi.smul_apply, hom_last, smul_eq_mul, mul_one, Spec.vec, Fin.val_last] at h1
  have hy : 0 < y.getD n 0 := by
    have : (0 : ℚ) < (y.getD n 0 : ℚ) := by rw [h1]; positivity
    exact_mod_cast this
  refine ⟨hy, ?_⟩
  rw [vec_point hy] at e
  exact hom_inj (by exact_mod_cast hy.ne') e

/-- one step between rows of directions -/
theorem step_dir (hn : names.Nodup) (hl : names.length = n) {ls : List (List (Option (List Char) × Int))} {m : SymMap} (hls : ls.length = n)
    (h : Spec.DoesImages names ls m) {x y : Row} {s : ℚ} (hx : x.getD n 0 = 0)
    (e : Spec.vec (n + 1) y = s • Spec.pushed (n + 1) m (Spec.vec (n + 1) x)) :
    y.getD n 0 = 0 ∧ Spec.coord n y = s • Spec.mapDirection names ls (Spec.coord n x) := by
  rw [vec_dir hx, pushed_dir hn hl hls h, ← dir_smul] at e
  have h1 := congrFun e (Fin.last n)
  simp only [dir_last, Spec.vec, Fin.val_last] at h1
  have hy : y.getD n 0 = 0 := by exact_mod_cast h1
  refine ⟨hy, ?_⟩
  rw [vec_dir hy] at e
  exact dir_inj e

theorem mapDirection_smul (hn : names.Nodup) (hl : names.length = n) {ls : List (List (Option (List Char) × Int))} {m : SymMap} (hls : ls.length = n)
    (h : Spec.DoesImages names ls m) (s : ℚ) (q : Fin n → ℚ) : Spec.mapDirection names ls (s • q) = s • Spec.mapDirection names ls q := by
  apply dir_inj
  rw [dir_smul, ← pushed_dir hn hl hls h, ← pushed_dir hn hl hls h, dir_smul]
  exact (pushedL (n + 1) m).map_smul s _

theorem movedDirection_smul (hn : names.Nodup) (hl : names.length = n) (hlss : ∀ ls ∈ lss, ls.length = n)
    (hdo : List.Forall₂ (Spec.DoesImages names) lss maps) {q q' : Fin n → ℚ} (h : Spec.MovedDirection names lss q q') (s : ℚ) :
    Spec.MovedDirection names lss (s • q) (s • q') := by
  induction h with
  | refl => exact .refl
  | tail _ hst ih =>
    obtain ⟨ls, hls, rfl⟩ := hst
    obtain ⟨m, hm, hd⟩ := (forall₂_both hdo).1 ls hls
    exact ih.tail ⟨ls, hls, (mapDirection_smul hn hl (hlss ls hls) hd s _).symm⟩

/-- orbits of rows are orbits of points -/
theorem orbit_point (hn : names.Nodup) (hl : names.length = n) (hlss : ∀ ls ∈ lss, ls.length = n)
    (hdo : List.Forall₂ (Spec.DoesImages names) lss maps) {x y : Row} (h : Spec.PointOrbit (n + 1) A maps x y) (hx : 0 < x.getD n 0) :
    0 < y.getD n 0 ∧ Spec.Moved names lss (Spec.coord n x) (Spec.coord n y) := by
  induction h with
  | refl => exact ⟨hx, .refl⟩
  | tail _ hst ih =>
    obtain ⟨-, -, m, hm, s, hs, e⟩ := hst
    obtain ⟨ls, hls, hd⟩ := (forall₂_both hdo).2 m hm
    obtain ⟨h1, h2⟩ := step_point hn hl (hlss ls hls) hd hs ih.1 e
    exact ⟨h1, ih.2.tail ⟨ls, hls, h2⟩⟩

theorem orbit_dir (hn : names.Nodup) (hl : names.length = n) (hlss : ∀ ls ∈ lss, ls.length = n)
    (hdo : List.Forall₂ (Spec.DoesImages names) lss maps) {x y : Row} (h : Spec.PointOrbit (n + 1) A maps x y) (hx : x.getD n 0 = 0) :
    y.getD n 0 = 0 ∧ ∃ s : ℚ, 0 < s ∧ Spec.MovedDirection names lss (Spec.coord n x) (s • Spec.coord n y) := by
  induction h with
  | refl => exact ⟨hx, 1, one_pos, by rw [one_smul]; exact .refl⟩
  | tail _ hst ih =>
    obtain ⟨-, -, m, hm, s, hs, e⟩ := hst
    obtain ⟨ls, hls, hd⟩ := (forall₂_both hdo).2 m hm
    obtain ⟨h0, t, ht, h3⟩ := ih
    obtain ⟨h1, h2⟩ := step_dir hn hl (hlss ls hls) hd h0 e
    refine ⟨h1, t * s⁻¹, by positivity, h3.tail ⟨ls, hls, ?_⟩⟩
    rw [h2, smul_smul, mul_assoc, inv_mul_cancel₀ hs.ne', mul_one, mapDirection_smul hn hl (hlss ls hls) hd]

variable {R : Matrix} {T : List Nat}

/-- and conversely -/
theorem moved_orbit (hn : names.Nodup) (hl : names.length = n) (hlss : ∀ ls ∈ lss, ls.length = n)
    (hdo : List.Forall₂ (Spec.DoesImages names) lss maps) (hsp : Split A (n+1) [] R T) (hmaps : ∀ m ∈ maps, Spec.IsSolutionSymmetry (n+1) A m)
    {x : Row} (hx : NormalFacet (n + 1) A [] x) (h0 : 0 < x.getD n 0) {p : Fin n → ℚ} (h : Spec.Moved names lss (Spec.coord n x) p) :
    ∃ y, NormalFacet (n + 1) A [] y ∧ Spec.PointOrbit (n + 1) A maps x y ∧ 0 < y.getD n 0 ∧ Spec.coord n y = p := by
  obtain ⟨hact, -⟩ := vertex_actsOn hmaps
  induction h with
  | refl => exact ⟨x, hx, .refl, h0, rfl⟩
  | tail _ hst ih =>
    obtain ⟨ls, hls, rfl⟩ := hst
    obtain ⟨m, hm, hd⟩ := (forall₂_both hdo).1 ls hls
    obtain ⟨y, y1, y2, y3, rfl⟩ := ih
    obtain ⟨q, g, -, q2, q3, -, q5⟩ := hact m hm y y1
    have e : Spec.vec (n + 1) q = g⁻¹ • Spec.pushed (n + 1) m (Spec.vec (n + 1) y) := by
      rw [q5, smul_smul, inv_mul_cancel₀ q3.ne', one_smul]
    obtain ⟨h1, h2⟩ := step_point hn hl (hlss ls hls) hd (inv_pos.2 q3) y3 e
    exact ⟨q, q2, y2.tail ⟨(normalisedFacet_iff hsp).mpr y1, (normalisedFacet_iff hsp).mpr q2, m, hm, g⁻¹, inv_pos.2 q3, e⟩, h1, h2⟩

theorem movedDirection_orbit (hn : names.Nodup) (hl : names.length = n) (hlss : ∀ ls ∈ lss, ls.length = n)
    (hdo : List.Forall₂ (Spec.DoesImages names) lss maps) (hsp : Split A (n+1) [] R T) (hmaps : ∀ m ∈ maps, Spec.IsSolutionSymmetry (n+1) A m)
    {x : Row} (hx : NormalFacet (n + 1) A [] x) (h0 : x.getD n 0 = 0) {p : Fin n → ℚ} (h : Spec.MovedDirection names lss (Spec.coord n x) p) :
    ∃ y, NormalFacet (n + 1) A [] y ∧ Spec.PointOrbit (n + 1) A maps x y ∧ y.getD n 0 = 0 ∧ ∃ s : ℚ, 0 < s ∧ p = s • Spec.coord n y := by
  obtain ⟨hact, -⟩ := vertex_actsOn hmaps
  induction h with
  | refl => exact ⟨x, hx, .refl, h0, 1, one_pos, (one_smul _ _).symm⟩
  | tail _ hst ih =>
    obtain ⟨ls, hls, rfl⟩ := hst
    obtain ⟨m, hm, hd⟩ := (forall₂_both hdo).1 ls hls
    obtain ⟨y, y1, y2, y3, s, hs, rfl⟩ := ih
    obtain ⟨q, g, -, q2, q3, -, q5⟩ := hact m hm y y1
    have e : Spec.vec (n + 1) q = g⁻¹ • Spec.pushed (n + 1) m (Spec.vec (n + 1) y) := by
      rw [q5, smul_smul, inv_mul_cancel₀ q3.ne', one_smul]
    obtain ⟨h1, h2⟩ := step_dir hn hl (hlss ls hls) hd y3 e
    refine ⟨q, q2, y2.tail ⟨(normalisedFacet_iff hsp).mpr y1, (normalisedFacet_iff hsp).mpr q2, m, hm, g⁻¹, inv_pos.2 q3, e⟩, h1, s * g, by positivity, ?_⟩
    rw [h2, smul_smul, mul_assoc, mul_inv_cancel₀ q3.ne', mul_one, mapDirection_smul hn hl (hlss ls hls) hd]

/-- a row is determined by its point -/
theorem row_of_point (hsp : Split A (n+1) [] R T) (hrect : Rect A A.length (n+1)) {x y : Row} (hx : NormalFacet (n + 1) A [] x)
    (hy : NormalFacet (n + 1) A [] y) (h0 : 0 < x.getD n 0) (h1 : 0 < y.getD n 0) (e : Spec.coord n x = Spec.coord n y) : x = y := by
  have h0' : (0 : ℚ) < (x.getD n 0 : ℚ) := by exact_mod_cast h0
  refine (NormalFacet.not_proportional hsp hrect hx hy (t := (y.getD n 0 : ℚ) * (x.getD n 0 : ℚ)⁻¹) ?_).symm
  rw [← vec_eq_toV, ← vec_eq_toV, vec_point h0, vec_point h1, e, smul_smul, mul_assoc, inv_mul_cancel₀ h0'.ne', mul_one, sub_self]
  exact Submodule.zero_mem _

theorem row_of_dir (hsp : Split A (n+1) [] R T) (hrect : Rect A A.length (n+1)) {x y : Row} (hx : NormalFacet (n + 1) A [] x)
    (hy : NormalFacet (n + 1) A [] y) (h0 : x.getD n 0 = 0) (h1 : y.getD n 0 = 0) {s : ℚ} (e : Spec.coord n y = s • Spec.coord n x) : x = y := by
  refine (NormalFacet.not_proportional hsp hrect hx hy (t := s) ?_).symm
  rw [← vec_eq_toV, ← vec_eq_toV, vec_dir h0, vec_dir h1, e, dir_smul, sub_self]
  exact Submodule.zero_mem _

end

/-- the hull of the points and directions of rows is contained in every hull of sets that contain them -/
theorem hullOf_of_inPolyhedron {n : Nat} {W : Matrix} {X D : (Fin n → ℚ) → Prop}
    (hX : ∀ w ∈ W, w.getD n 0 ≠ 0 → X (Spec.coord n w)) (hD : ∀ w ∈ W, w.getD n 0 = 0 → ∃ s : ℚ, 0 < s ∧ D (s • Spec.coord n w))
    {p : Fin n → ℚ} (h : Spec.InPolyhedron n W p) : Spec.HullOf X D p := by
  rw [inPolyhedron_wcomb] at h
  suffices key : ∀ (W : Matrix), (∀ w ∈ W, w.getD n 0 ≠ 0 → X (Spec.coord n w)) →
      (∀ w ∈ W, w.getD n 0 = 0 → ∃ s : ℚ, 0 < s ∧ D (s • Spec.coord n w)) → ∀ (t : ℚ) (p : Fin n → ℚ),
      WComb n (W.map fun r => ((if r.getD n 0 = 0 then 0 else 1 : ℚ), Spec.coord n r)) t p →
      ∃ (k l : Nat) (a : Fin k → ℚ) (x : Fin k → Fin n → ℚ) (b : Fin l → ℚ) (y : Fin l → Fin n → ℚ),
        (∀ i, 0 ≤ a i ∧ X (x i)) ∧ (∀ j, 0 ≤ b j ∧ D (y j)) ∧ ∑ i, a i = t ∧ p = ∑ i, a i • x i + ∑ j, b j • y j from key W hX hD 1 p h
  intro W
  induction W with
  | nil =>
    intro _ _ t p h
    obtain ⟨rfl, rfl⟩ := wcomb_nil.1 h
    exact ⟨0, 0, Fin.elim0, Fin.elim0, Fin.elim0, Fin.elim0, fun i => i.elim0, fun i => i.elim0, by simp, by simp⟩
  | cons w W ih =>
    intro hX hD t p h
    rw [List.map_cons, wcomb_cons] at h
    obtain ⟨c, hc, h⟩ := h
    obtain ⟨k, l, a, x, b, y, h1, h2, h3, h4⟩ := ih (fun w hw => hX w (List.mem_cons_of_mem _ hw)) (fun w hw => hD w (List.mem_cons_of_mem _ hw)) _ _ h
    by_cases h0 : w.getD n 0 = 0
    · obtain ⟨s, hs, hs'⟩ := hD w (List.mem_cons_self ..) h0
      dsimp only at h3 h4
      rw [if_pos h0] at h3
      refine ⟨k, l + 1, a, x, Fin.cons (c * s⁻¹) b, Fin.cons (s • Spec.coord n w) y, h1, ?_, ?_, ?_⟩
      · intro j
        refine Fin.cases ?_ (fun j => ?_) j
        · simp only [Fin.cons_zero]; exact ⟨by positivity, hs'⟩
        · simp only [Fin.cons_succ]; exact h2 j
      · rw [h3]; ring
      · rw [Fin.sum_univ_succ]
        simp only [Fin.cons_zero, Fin.cons_succ, smul_smul]
        rw [mul_assoc, inv_mul_cancel₀ hs.ne', mul_one, eq_add_of_sub_eq h4]; abel
    · have hs' := hX w (List.mem_cons_self ..) h0
      dsimp only at h3 h4
      rw [if_neg h0] at h3
      refine ⟨k + 1, l, Fin.cons c a, Fin.cons (Spec.coord n w) x, b, y, ?_, h2, ?_, ?_⟩
      · intro j
        refine Fin.cases ?_ (fun j => ?_) j
        · simp only [Fin.cons_zero]; exact ⟨hc, hs'⟩
        · simp only [Fin.cons_succ]; exact h1 j
      · rw [Fin.sum_univ_succ]
        simp only [Fin.cons_zero, Fin.cons_succ, h3]; ring
      · rw [Fin.sum_univ_succ]
        simp only [Fin.cons_zero, Fin.cons_succ]
        rw [eq_add_of_sub_eq h4]; abel

/-- and contained in the solution set, if the sets are -/
theorem solves_of_hullOf {n : Nat} {A : Matrix} (hsat : ∃ p, Spec.Solves n A p) {X D : (Fin n → ℚ) → Prop} (hX : ∀ x, X x → Spec.Solves n A x)
    (hD : ∀ y, D y → Spec.Recession (Spec.Solves n A) y) {p : Fin n → ℚ} (h : Spec.HullOf X D p) : Spec.Solves n A p := by
  obtain ⟨k, l, a, x, b, y, h1, h2, h3, rfl⟩ := h
  rw [solves_iff]
  intro r hr
  have e : hom n (∑ i, a i • x i + ∑ j, b j • y j) = ∑ i, a i • hom n (x i) + ∑ j, b j • dirH n (y j) := by
    funext i
    refine Fin.lastCases ?_ (fun i => ?_) i
    · simp [hom_last, dirH_last, h3]
    · simp [hom_castSucc, dirH_castSucc]
  rw [e, map_add, map_sum, map_sum]
  refine add_nonpos (Finset.sum_nonpos fun i _ => ?_) (Finset.sum_nonpos fun j _ => ?_)
  · rw [map_smul, smul_eq_mul]
    exact mul_nonpos_of_nonneg_of_nonpos (h1 i).1 (solves_iff.1 (hX _ (h1 i).2) r hr)
  · rw [map_smul, smul_eq_mul]
    exact mul_nonpos_of_nonneg_of_nonpos (h2 j).1 ((recession_iff hsat).1 (hD _ (h2 j).2) r hr)

/-- rows that represent every orbit once give points and directions that do -/
theorem onePerOrbit_of_rows {names : Names} {n : Nat} {A : Matrix} {lss : List (List (List (Option (List Char) × Int)))} {maps : Maps} {Q : Matrix}
    (hn : names.Nodup) (hl : names.length = n) (hlss : ∀ ls ∈ lss, ls.length = n) (hdo : List.Forall₂ (Spec.DoesImages names) lss maps)
    (hmaps : ∀ m ∈ maps, Spec.IsSolutionSymmetry (n+1) A m) (hA : ∀ a ∈ A, a.length = n + 1) (htriv : List.replicate n 0 ++ [-1] ∈ A)
    (hsat : ∃ p, Spec.Solves n A p) (hline : ¬ Spec.HasLine n A)
    (hQ : Q.Nodup) (hQn : ∀ r ∈ Q, r.length = n + 1 ∧ Spec.PrimitiveRow r ∧ Spec.IsExtremeRay (n + 1) A r)
    (hU : ∀ g, g.length = n + 1 → Spec.PrimitiveRow g → Spec.IsExtremeRay (n + 1) A g → ∃! r, r ∈ Q ∧ Spec.PointOrbit (n + 1) A maps r g) :
    Spec.OnePerOrbit names lss (Spec.Solves n A) (Spec.pointsOf n Q) (Spec.directionsOf n Q) ∧
      ∀ p, Spec.Solves n A p ↔
        Spec.HullOf (Spec.ImageOf names lss (Spec.pointsOf n Q)) (Spec.DirectionImageOf names lss (Spec.directionsOf n Q)) p := by
  obtain ⟨W, heq, hel, hnoE, hE, hlastW⟩ := ve_elim hA htriv hsat hline
  have hrect : Rect A A.length (n+1) := ⟨rfl, hA⟩
  have hsp := gaussSplit_spec hrect (List.length_pos_of_mem htriv) (Nat.succ_pos n)
  rw [hnoE] at hsp
  have norm : ∀ g : Row, g.length = n + 1 → Spec.PrimitiveRow g → Spec.IsExtremeRay (n+1) A g → NormalFacet (n+1) A [] g :=
    fun g h1 h2 h3 => ⟨h1, (primitiveRow_iff g).mp h2, by simp, extreme_facetP hA hE h3⟩
  have unnorm : ∀ g, NormalFacet (n+1) A [] g → g.length = n + 1 ∧ Spec.PrimitiveRow g ∧ Spec.IsExtremeRay (n+1) A g :=
    fun g h => ⟨h.1, (primitiveRow_iff g).mpr h.2.1, extreme_of_facet hA hE h.1 (toV_ne_zero_of_primitive h.1 h.2.1) h.2.2.2⟩
  have last : ∀ g, NormalFacet (n+1) A [] g → 0 ≤ g.getD n 0 := fun g h => hlastW g ((hel.mem g).mpr h)
  have hQN : ∀ r ∈ Q, NormalFacet (n+1) A [] r := fun r hr => norm r (hQn r hr).1 (hQn r hr).2.1 (hQn r hr).2.2
  have pos : ∀ r ∈ Q, r.getD n 0 ≠ 0 → 0 < r.getD n 0 := fun r hr h => lt_of_le_of_ne (last r (hQN r hr)) (Ne.symm h)
  have hV : ∀ r ∈ Q, r.getD n 0 ≠ 0 → Spec.Vertex (Spec.Solves n A) (Spec.coord n r) := fun r hr h0 =>
    vertex_of_extreme (pos r hr h0) hA (hQn r hr).2.2
  have hD : ∀ r ∈ Q, r.getD n 0 = 0 → Spec.ExtremeDirection (Spec.Solves n A) (Spec.coord n r) := fun r hr h0 =>
    direction_of_extreme h0 hA hsat hline (hQn r hr).2.2
  have nodupP : ((Q.filter fun r => decide (r.getD n 0 ≠ 0)).map (Spec.coord n)).Nodup := by
    refine List.Nodup.map_on (fun x hx y hy e => ?_) (hQ.filter _)
    obtain ⟨x1, x2⟩ := List.mem_filter.1 hx
    obtain ⟨y1, y2⟩ := List.mem_filter.1 hy
    exact row_of_point hsp hrect (hQN x x1) (hQN y y1) (pos x x1 (by simpa using x2)) (pos y y1 (by simpa using y2)) e
  have nodupD : ((Q.filter fun r => decide (r.getD n 0 = 0)).map (Spec.coord n)).Nodup := by
    refine List.Nodup.map_on (fun x hx y hy e => ?_) (hQ.filter _)
    obtain ⟨x1, x2⟩ := List.mem_filter.1 hx
    obtain ⟨y1, y2⟩ := List.mem_filter.1 hy
    exact row_of_dir hsp hrect (hQN x x1) (hQN y y1) (by simpa using x2) (by simpa using y2) (s := 1) (by rw [one_smul, e])
  -- the orbit of a row of either kind
  have back : ∀ r ∈ Q, ∀ g, NormalFacet (n+1) A [] g → Spec.PointOrbit (n+1) A maps r g → (r.getD n 0 = 0 ↔ g.getD n 0 = 0) := by
    intro r hr g hg ho
    constructor
    · intro h0; exact (orbit_dir hn hl hlss hdo ho h0).1
    · intro h0
      by_contra h1
      exact (orbit_point hn hl hlss hdo ho (pos r hr h1)).1.ne' h0
  refine ⟨⟨⟨nodupP, nodupD⟩, ?_, ?_, ?_, ?_⟩, fun p => ⟨fun hp => ?_, fun hp => ?_⟩⟩
  · intro p hp
    obtain ⟨r, hr, rfl⟩ := List.mem_map.1 hp
    obtain ⟨r1, r2⟩ := List.mem_filter.1 hr
    exact hV r r1 (by simpa using r2)
  · intro p hp
    obtain ⟨r, hr, rfl⟩ := List.mem_map.1 hp
    obtain ⟨r1, r2⟩ := List.mem_filter.1 hr
    exact hD r r1 (by simpa using r2)
  · intro v hv
    obtain ⟨g, g1, g2, g3, rfl, g5⟩ := extreme_of_vertex hA htriv hv
    have hg := norm g g1 g2 g5
    obtain ⟨r, ⟨r1, r2⟩, r3⟩ := hU g g1 g2 g5
    have r0 : r.getD n 0 ≠ 0 := fun h => g3.ne' ((back r r1 g hg r2).1 h)
    refine ⟨Spec.coord n r, ⟨List.mem_map.2 ⟨r, List.mem_filter.2 ⟨r1, by simpa using r0⟩, rfl⟩, (orbit_point hn hl hlss hdo r2 (pos r r1 r0)).2⟩, ?_⟩
    rintro q ⟨hq, hm⟩
    obtain ⟨x, hx, rfl⟩ := List.mem_map.1 hq
    obtain ⟨x1, x2⟩ := List.mem_filter.1 hx
    obtain ⟨y, y1, y2, y3, y4⟩ := moved_orbit hn hl hlss hdo hsp hmaps (hQN x x1) (pos x x1 (by simpa using x2)) hm
    rw [row_of_point hsp hrect y1 hg y3 g3 y4] at y2
    rw [r3 x ⟨x1, y2⟩]
  · intro q hq
    obtain ⟨g, g1, g2, g3, ⟨t, ht, g4⟩, g5⟩ := extreme_of_direction hA htriv hsat hq
    have hg := norm g g1 g2 g5
    obtain ⟨r, ⟨r1, r2⟩, r3⟩ := hU g g1 g2 g5
    have r0 : r.getD n 0 = 0 := (back r r1 g hg r2).2 g3
    obtain ⟨-, s, hs, hm⟩ := orbit_dir hn hl hlss hdo r2 r0
    rw [g4, smul_smul] at hm
    refine ⟨Spec.coord n r, ⟨List.mem_map.2 ⟨r, List.mem_filter.2 ⟨r1, by simpa using r0⟩, rfl⟩, s * t, by positivity, hm⟩, ?_⟩
    rintro q' ⟨hq', s', hs', hm'⟩
    obtain ⟨x, hx, rfl⟩ := List.mem_map.1 hq'
    obtain ⟨x1, x2⟩ := List.mem_filter.1 hx
    obtain ⟨y, y1, y2, y3, u, hu, y4⟩ := movedDirection_orbit hn hl hlss hdo hsp hmaps (hQN x x1) (by simpa using x2) hm'
    have e : Spec.coord n g = (t * s'⁻¹ * u) • Spec.coord n y := by
      rw [← smul_smul, ← y4, smul_smul, mul_assoc, inv_mul_cancel₀ hs'.ne', mul_one, g4]
    rw [row_of_dir hsp hrect y1 hg y3 g3 e] at y2
    rw [r3 x ⟨x1, y2⟩]
  · obtain ⟨W', w1, -, w3, w4⟩ := C12_vertex_enumeration hA htriv hsat hline
    refine hullOf_of_inPolyhedron (fun w hw h0 => ?_) (fun w hw h0 => ?_) ((w4 p).1 hp)
    · obtain ⟨k1, k2, k3, k4⟩ := w3 w hw
      obtain ⟨r, ⟨r1, r2⟩, -⟩ := hU w k1 k3 k4
      have r0 : r.getD n 0 ≠ 0 := fun h => h0 ((back r r1 w (norm w k1 k3 k4) r2).1 h)
      exact ⟨_, List.mem_map.2 ⟨r, List.mem_filter.2 ⟨r1, by simpa using r0⟩, rfl⟩, (orbit_point hn hl hlss hdo r2 (pos r r1 r0)).2⟩
    · obtain ⟨k1, k2, k3, k4⟩ := w3 w hw
      obtain ⟨r, ⟨r1, r2⟩, -⟩ := hU w k1 k3 k4
      have r0 : r.getD n 0 = 0 := (back r r1 w (norm w k1 k3 k4) r2).2 h0
      obtain ⟨-, s, hs, hm⟩ := orbit_dir hn hl hlss hdo r2 r0
      exact ⟨s, hs, _, List.mem_map.2 ⟨r, List.mem_filter.2 ⟨r1, by simpa using r0⟩, rfl⟩, hm⟩
  · refine solves_of_hullOf hsat ?_ ?_ hp
    · rintro x ⟨q, hq, hm⟩
      obtain ⟨r, hr, rfl⟩ := List.mem_map.1 hq
      obtain ⟨r1, r2⟩ := List.mem_filter.1 hr
      obtain ⟨y, y1, -, y3, rfl⟩ := moved_orbit hn hl hlss hdo hsp hmaps (hQN r r1) (pos r r1 (by simpa using r2)) hm
      exact (vertex_of_extreme y3 hA (unnorm y y1).2.2).1
    · rintro x ⟨q, hq, hm⟩
      obtain ⟨r, hr, rfl⟩ := List.mem_map.1 hq
      obtain ⟨r1, r2⟩ := List.mem_filter.1 hr
      obtain ⟨y, y1, -, y3, s, hs, rfl⟩ := movedDirection_orbit hn hl hlss hdo hsp hmaps (hQN r r1) (by simpa using r2) hm
      have := (direction_of_extreme y3 hA hsat hline (unnorm y y1).2.2).2.1
      intro p hp t ht
      rw [smul_smul]
      exact this p hp _ (by positivity)

/-- rows of different orbits give points and directions of different orbits -/
theorem differentOrbits_of_rows {names : Names} {n : Nat} {A : Matrix} {lss : List (List (List (Option (List Char) × Int)))} {maps : Maps} {Q : Matrix}
    (hn : names.Nodup) (hl : names.length = n) (hlss : ∀ ls ∈ lss, ls.length = n) (hdo : List.Forall₂ (Spec.DoesImages names) lss maps)
    (hmaps : ∀ m ∈ maps, Spec.IsSolutionSymmetry (n+1) A m) (hA : ∀ a ∈ A, a.length = n + 1) (htriv : List.replicate n 0 ++ [-1] ∈ A)
    (hsat : ∃ p, Spec.Solves n A p) (hline : ¬ Spec.HasLine n A)
    (hQn : ∀ r ∈ Q, r.length = n + 1 ∧ Spec.PrimitiveRow r ∧ Spec.IsExtremeRay (n + 1) A r)
    (hU : ∀ r ∈ Q, ∀ r' ∈ Q, Spec.PointOrbit (n + 1) A maps r r' → r = r') :
    (∀ r ∈ Q, ∀ r' ∈ Q, 0 < r.getD n 0 → 0 < r'.getD n 0 → Spec.Moved names lss (Spec.coord n r) (Spec.coord n r') → r = r') ∧
    ∀ r ∈ Q, ∀ r' ∈ Q, r.getD n 0 = 0 → r'.getD n 0 = 0 → ∀ s : ℚ, 0 < s →
      Spec.MovedDirection names lss (Spec.coord n r) (s • Spec.coord n r') → r = r' := by
  obtain ⟨W, heq, hel, hnoE, hE, hlastW⟩ := ve_elim hA htriv hsat hline
  have hrect : Rect A A.length (n+1) := ⟨rfl, hA⟩
  have hsp := gaussSplit_spec hrect (List.length_pos_of_mem htriv) (Nat.succ_pos n)
  rw [hnoE] at hsp
  have norm : ∀ g : Row, g.length = n + 1 → Spec.PrimitiveRow g → Spec.IsExtremeRay (n+1) A g → NormalFacet (n+1) A [] g :=
    fun g h1 h2 h3 => ⟨h1, (primitiveRow_iff g).mp h2, by simp, extreme_facetP hA hE h3⟩
  have hQN : ∀ r ∈ Q, NormalFacet (n+1) A [] r := fun r hr => norm r (hQn r hr).1 (hQn r hr).2.1 (hQn r hr).2.2
  refine ⟨fun r hr r' hr' h0 h0' hm => ?_, fun r hr r' hr' h0 h0' s hs hm => ?_⟩
  · obtain ⟨y, y1, y2, y3, y4⟩ := moved_orbit hn hl hlss hdo hsp hmaps (hQN r hr) h0 hm
    rw [row_of_point hsp hrect y1 (hQN r' hr') y3 h0' y4] at y2
    exact hU r hr r' hr' y2
  · obtain ⟨y, y1, y2, y3, u, hu, y4⟩ := movedDirection_orbit hn hl hlss hdo hsp hmaps (hQN r hr) h0 hm
    have e : Spec.coord n r' = (s⁻¹ * u) • Spec.coord n y := by
      rw [← smul_smul, ← y4, smul_smul, inv_mul_cancel₀ hs.ne', one_smul]
    rw [row_of_dir hsp hrect y1 (hQN r' hr') y3 h0' e] at y2
    exact hU r hr r' hr' y2

end Panda
