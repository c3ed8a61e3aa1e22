import Verif.Spec.Extreme
import Verif.Proofs.ClosureAll
import Verif.Props.Vertices
import Verif.Props.Validity

/-! # Vertices, extreme directions and edges of the solution set of a system -/

namespace Panda

open Cone

section
variable {d : Nat} {A : Matrix}

/-- a direction as an element of the homogenised space -/
def dirH (d : Nat) (q : Fin d → ℚ) : Fin (d + 1) → ℚ := Fin.snoc q 0

theorem dirH_castSucc (q : Fin d → ℚ) (i : Fin d) : dirH d q i.castSucc = q i := by simp [dirH]
theorem dirH_last (q : Fin d → ℚ) : dirH d q (Fin.last d) = 0 := by simp [dirH]

theorem hom_add_smul (p q : Fin d → ℚ) (t : ℚ) : hom d (p + t • q) = hom d p + t • dirH d q := by
  funext i
  refine Fin.lastCases ?_ (fun i => ?_) i
  · simp [hom_last, dirH_last]
  · simp [hom_castSucc, dirH_castSucc]

theorem solves_iff {p : Fin d → ℚ} : Spec.Solves d A p ↔ ∀ a ∈ A, ev (d+1) a (hom d p) ≤ 0 := by
  unfold Spec.Solves
  simp only [value_eq]

/-- the row of a vertex is a multiple of its homogenised point -/
theorem toV_point {r : Row} (hw : r.getD d 0 ≠ 0) : toV (d+1) r = (r.getD d 0 : ℚ) • hom d (Spec.coord d r) := by
  have hw' : (r.getD d 0 : ℚ) ≠ 0 := by exact_mod_cast hw
  funext i
  refine Fin.lastCases ?_ (fun i => ?_) i
  · simp [hom_last, toV, -List.getD_eq_getElem?_getD]
  · simp only [Pi.smul_apply, hom_castSucc, Spec.coord, if_neg hw, smul_eq_mul, toV, Fin.val_castSucc]
    field_simp

theorem toV_dir {r : Row} (hw : r.getD d 0 = 0) : toV (d+1) r = dirH d (Spec.coord d r) := by
  funext i
  refine Fin.lastCases ?_ (fun i => ?_) i
  · simp only [dirH_last, toV, Fin.val_last]; rw [hw]; simp
  · simp only [dirH_castSucc, Spec.coord, if_pos hw, toV, Fin.val_castSucc]

/-- the directions of the solution set -/
theorem recession_iff (hsat : ∃ p, Spec.Solves d A p) {q : Fin d → ℚ} :
    Spec.Recession (Spec.Solves d A) q ↔ ∀ a ∈ A, ev (d+1) a (dirH d q) ≤ 0 := by
  constructor
  · intro h a ha
    obtain ⟨p, hp⟩ := hsat
    by_contra hcon
    push Not at hcon
    have h1 := solves_iff.mp (h p hp ((1 - ev (d+1) a (hom d p)) / ev (d+1) a (dirH d q))
      (div_nonneg (by have := solves_iff.mp hp a ha; linarith) hcon.le)) a ha
    rw [hom_add_smul, map_add, map_smul, smul_eq_mul, div_mul_cancel₀ _ hcon.ne'] at h1
    linarith
  · intro h p hp t ht
    rw [solves_iff] at hp ⊢
    intro a ha
    rw [hom_add_smul, map_add, map_smul, smul_eq_mul]
    have := mul_nonpos_of_nonneg_of_nonpos ht (h a ha)
    linarith [hp a ha]

/-- an extreme ray of the homogenised cone with positive last entry is a vertex of the solution set -/
theorem vertex_of_extreme {r : Row} (hw : 0 < r.getD d 0) (hA : ∀ a ∈ A, a.length = d + 1) (h : Spec.IsExtremeRay (d+1) A r) :
    Spec.Vertex (Spec.Solves d A) (Spec.coord d r) := by
  obtain ⟨h1, h2, h3⟩ := h
  have hw' : (0 : ℚ) < r.getD d 0 := by exact_mod_cast hw
  have hpt := toV_point (d := d) hw.ne'
  have hS : Spec.Solves d A (Spec.coord d r) := by
    rw [solves_iff]
    intro a ha
    have := h1 a ha
    rw [ip_eq_dot] at this
    have h4 : ev (d+1) a (toV (d+1) r) ≤ 0 := by rw [ev_row (hA a ha)]; exact_mod_cast this
    rw [hpt, map_smul, smul_eq_mul] at h4
    exact nonpos_of_mul_nonpos_right h4 hw'
  refine ⟨hS, fun x y t hx hy ht0 ht1 hxy => ?_⟩
  have hsum : hom d (Spec.coord d r) = t • hom d x + (1 - t) • hom d y := by
    funext i
    refine Fin.lastCases ?_ (fun i => ?_) i
    · simp [hom_last]
    · simp only [hom_castSucc, Pi.add_apply, Pi.smul_apply]; rw [hxy]; rfl
  obtain ⟨⟨s, hs⟩, ⟨s', hs'⟩⟩ := h3 (((r.getD d 0 : ℚ) * t) • hom d x) (((r.getD d 0 : ℚ) * (1 - t)) • hom d y)
    (fun a ha => by
      have e : (∑ i : Fin (d+1), (a.getD i 0 : ℚ) * ((((r.getD d 0 : ℚ) * t) • hom d x) i)) = ev (d+1) a (((r.getD d 0 : ℚ) * t) • hom d x) := lin_eq _ _ _
      rw [e, map_smul, smul_eq_mul]
      exact mul_nonpos_of_nonneg_of_nonpos (by positivity) (solves_iff.mp hx a ha))
    (fun a ha => by
      have e : (∑ i : Fin (d+1), (a.getD i 0 : ℚ) * ((((r.getD d 0 : ℚ) * (1 - t)) • hom d y) i)) = ev (d+1) a (((r.getD d 0 : ℚ) * (1 - t)) • hom d y) := lin_eq _ _ _
      rw [e, map_smul, smul_eq_mul]
      have : (0 : ℚ) < 1 - t := by linarith
      exact mul_nonpos_of_nonneg_of_nonpos (by positivity) (solves_iff.mp hy a ha))
    (by rw [vec_eq_toV, hpt, hsum, smul_add, smul_smul, smul_smul])
  have fin : ∀ (z : Fin d → ℚ) (c s : ℚ), 0 < c → c • hom d z = s • Spec.vec (d+1) r → z = Spec.coord d r := by
    intro z c s hc hz
    rw [vec_eq_toV, hpt, smul_smul] at hz
    have hl := congrFun hz (Fin.last d)
    simp only [Pi.smul_apply, hom_last, smul_eq_mul, mul_one] at hl
    rw [← hl] at hz
    have h5 := smul_right_injective _ hc.ne' hz
    funext i
    have := congrFun h5 i.castSucc
    rwa [hom_castSucc, hom_castSucc] at this
  exact ⟨fin x _ s (by positivity) hs, fin y _ s' (mul_pos hw' (by linarith)) hs'⟩

/-- an extreme ray of the homogenised cone with last entry zero is an extreme direction -/
theorem direction_of_extreme {r : Row} (hw : r.getD d 0 = 0) (hA : ∀ a ∈ A, a.length = d + 1) (hsat : ∃ p, Spec.Solves d A p)
    (hline : ¬ Spec.HasLine d A) (h : Spec.IsExtremeRay (d+1) A r) :
    Spec.ExtremeDirection (Spec.Solves d A) (Spec.coord d r) := by
  obtain ⟨h1, h2, h3⟩ := h
  have hpt := toV_dir (d := d) hw
  have hne : Spec.coord d r ≠ 0 := by
    intro h0
    apply h2
    rw [vec_eq_toV, hpt, h0]
    funext i
    refine Fin.lastCases ?_ (fun i => ?_) i
    · simp [dirH_last]
    · simp [dirH_castSucc]
  have hrec : Spec.Recession (Spec.Solves d A) (Spec.coord d r) := by
    rw [recession_iff hsat]
    intro a ha
    have := h1 a ha
    rw [ip_eq_dot] at this
    rw [← hpt, ev_row (hA a ha)]; exact_mod_cast this
  refine ⟨hne, hrec, fun x y hx hy hxy => ?_⟩
  obtain ⟨⟨s, hs⟩, ⟨s', hs'⟩⟩ := h3 (dirH d x) (dirH d y)
    (fun a ha => by
      have e : (∑ i : Fin (d+1), (a.getD i 0 : ℚ) * (dirH d x i)) = ev (d+1) a (dirH d x) := lin_eq _ _ _
      rw [e]; exact (recession_iff hsat).mp hx a ha)
    (fun a ha => by
      have e : (∑ i : Fin (d+1), (a.getD i 0 : ℚ) * (dirH d y i)) = ev (d+1) a (dirH d y) := lin_eq _ _ _
      rw [e]; exact (recession_iff hsat).mp hy a ha)
    (by
      rw [vec_eq_toV, hpt, hxy]
      funext i
      refine Fin.lastCases ?_ (fun i => ?_) i
      · simp [dirH_last]
      · simp [dirH_castSucc])
  have fin : ∀ (z : Fin d → ℚ) (s : ℚ), Spec.Recession (Spec.Solves d A) z → dirH d z = s • Spec.vec (d+1) r →
      ∃ t : ℚ, 0 ≤ t ∧ z = t • Spec.coord d r := by
    intro z s hz hzs
    have hz' : z = s • Spec.coord d r := by
      rw [vec_eq_toV, hpt] at hzs
      funext i
      have := congrFun hzs i.castSucc
      simpa [dirH_castSucc] using this
    refine ⟨s, ?_, hz'⟩
    by_contra hneg
    push Not at hneg
    obtain ⟨p, hp⟩ := hsat
    apply hline
    refine ⟨p, Spec.coord d r, hne, fun t => ?_⟩
    rcases le_total 0 t with ht | ht
    · exact hrec p hp t ht
    · have := hz p hp (t / s) (div_nonneg_of_nonpos ht hneg.le)
      rwa [hz', smul_smul, div_mul_cancel₀ _ hneg.ne] at this
  exact ⟨fin x s hx hs, fin y s' hy hs'⟩

/-- the point or direction of an extreme ray -/
theorem kind_of_extreme {r : Row} (h0 : 0 ≤ r.getD d 0) (hA : ∀ a ∈ A, a.length = d + 1) (hsat : ∃ p, Spec.Solves d A p)
    (hline : ¬ Spec.HasLine d A) (h : Spec.IsExtremeRay (d+1) A r) :
    (0 < r.getD d 0 ∧ Spec.Vertex (Spec.Solves d A) (Spec.coord d r)) ∨
    (r.getD d 0 = 0 ∧ Spec.ExtremeDirection (Spec.Solves d A) (Spec.coord d r)) := by
  rcases lt_or_eq_of_le h0 with hw | hw
  · exact .inl ⟨hw, vertex_of_extreme hw hA h⟩
  · exact .inr ⟨hw.symm, direction_of_extreme hw.symm hA hsat hline h⟩

/-- the primitive row in the direction of a rational vector -/
theorem exists_primitive_multiple {n : Nat} (x : Fin n → ℚ) (hx : x ≠ 0) :
    ∃ (c : ℚ) (r : Row), 0 < c ∧ r.length = n ∧ Spec.PrimitiveRow r ∧ toV n r = c • x := by
  obtain ⟨N, b, hN, hb, heq⟩ := exists_int_multiple x
  have hN' : (0 : ℚ) < N := by exact_mod_cast hN
  obtain ⟨g, hg, hgb⟩ := toV_makePrimitive n b
  refine ⟨g * N, makePrimitive b, mul_pos hg hN', by rw [makePrimitive_length, hb], ?_, by rw [hgb, heq, smul_smul]⟩
  obtain ⟨_, _, _, h⟩ := makePrimitive_spec b
  refine (primitiveRow_iff _).mpr (h ?_).1
  by_contra hcon
  push Not at hcon
  have h0 := (toV_eq_zero_iff n b hb).mpr hcon
  rw [heq] at h0
  exact hx ((smul_eq_zero.mp h0).resolve_left hN'.ne')

/-- every vertex of the solution set has a row -/
theorem extreme_of_vertex (hA : ∀ a ∈ A, a.length = d + 1) (htriv : trivialRow d ∈ A) {p : Fin d → ℚ}
    (h : Spec.Vertex (Spec.Solves d A) p) :
    ∃ r : Row, r.length = d + 1 ∧ Spec.PrimitiveRow r ∧ 0 < r.getD d 0 ∧ Spec.coord d r = p ∧ Spec.IsExtremeRay (d+1) A r := by
  obtain ⟨hS, hv⟩ := h
  have hne : hom d p ≠ 0 := by
    intro h0; have := congrFun h0 (Fin.last d); simp [hom_last] at this
  obtain ⟨c, r, hc, hl, hprim, heq⟩ := exists_primitive_multiple (hom d p) hne
  have hlast : (r.getD d 0 : ℚ) = c := by
    have := congrFun heq (Fin.last d)
    simpa [toV, hom_last, -List.getD_eq_getElem?_getD] using this
  have hpos : 0 < r.getD d 0 := by have : (0 : ℚ) < r.getD d 0 := by rw [hlast]; exact hc
                                   exact_mod_cast this
  have hcoord : Spec.coord d r = p := by
    have h1 := toV_point (d := d) hpos.ne'
    rw [heq, hlast] at h1
    have h2 := smul_right_injective _ hc.ne' h1
    funext i
    have := congrFun h2 i.castSucc
    rw [hom_castSucc, hom_castSucc] at this
    exact this.symm
  refine ⟨r, hl, hprim, hpos, hcoord, ?_, ?_, ?_⟩
  · intro a ha
    have h1 : ev (d+1) a (toV (d+1) r) ≤ 0 := by
      rw [heq, map_smul, smul_eq_mul]
      exact mul_nonpos_of_nonneg_of_nonpos hc.le (solves_iff.mp hS a ha)
    rw [ev_row (hA a ha)] at h1
    rw [ip_eq_dot]; exact_mod_cast h1
  · rw [vec_eq_toV, heq]; exact smul_ne_zero hc.ne' hne
  · have key : ∀ x y : Fin (d+1) → ℚ, (∀ a ∈ A, ev (d+1) a x ≤ 0) → (∀ a ∈ A, ev (d+1) a y ≤ 0) → toV (d+1) r = x + y →
        ∃ t : ℚ, x = t • toV (d+1) r := by
      intro x y hx hy hxy
      have hx0 : 0 ≤ x (Fin.last d) := by have := hx _ htriv; rw [ev_trivialRow] at this; linarith
      have hy0 : 0 ≤ y (Fin.last d) := by have := hy _ htriv; rw [ev_trivialRow] at this; linarith
      have hsum : x (Fin.last d) + y (Fin.last d) = c := by
        have := congrFun hxy (Fin.last d)
        rw [heq] at this
        simp [hom_last] at this
        exact this.symm
      have hcomp : ∀ i : Fin d, c * p i = x i.castSucc + y i.castSucc := by
        intro i
        have := congrFun hxy i.castSucc
        rw [heq] at this
        simpa [hom_castSucc] using this
      -- a solution from an element of the cone with positive last entry
      have sol : ∀ z : Fin (d+1) → ℚ, (∀ a ∈ A, ev (d+1) a z ≤ 0) → 0 < z (Fin.last d) →
          Spec.Solves d A (fun i => z i.castSucc / z (Fin.last d)) ∧
          z = z (Fin.last d) • hom d (fun i => z i.castSucc / z (Fin.last d)) := by
        intro z hz hz0
        have e : z = z (Fin.last d) • hom d (fun i => z i.castSucc / z (Fin.last d)) := by
          funext i
          refine Fin.lastCases ?_ (fun i => ?_) i
          · simp [hom_last]
          · simp only [Pi.smul_apply, hom_castSucc, smul_eq_mul]; field_simp
        refine ⟨solves_iff.mpr fun a ha => ?_, e⟩
        have := hz a ha
        rw [e, map_smul, smul_eq_mul] at this
        exact nonpos_of_mul_nonpos_right this hz0
      rcases lt_or_eq_of_le hx0 with hx1 | hx1
      · rcases lt_or_eq_of_le hy0 with hy1 | hy1
        · obtain ⟨sx, ex⟩ := sol x hx hx1
          obtain ⟨sy, -⟩ := sol y hy hy1
          have h5 := (hv _ _ (x (Fin.last d) / c) sx sy (div_pos hx1 hc) (by rw [div_lt_one hc]; linarith) (by
            funext i
            have h6 := hcomp i
            simp only [Pi.add_apply, Pi.smul_apply, smul_eq_mul]
            have : 1 - x (Fin.last d) / c = y (Fin.last d) / c := by field_simp; linarith
            rw [this]
            field_simp
            linarith)).1
          refine ⟨x (Fin.last d) / c, ?_⟩
          rw [heq, smul_smul, div_mul_cancel₀ _ hc.ne']
          rw [h5] at ex
          exact ex
        · -- `y` is a direction
          have hxl : x (Fin.last d) = c := by rw [← hy1] at hsum; linarith
          obtain ⟨sx, ex⟩ := sol x hx hx1
          have hrec : Spec.Solves d A (p + (1/c) • fun i => y i.castSucc) := by
            rw [solves_iff]
            intro a ha
            have e : dirH d (fun i => y i.castSucc) = y := by
              funext i
              refine Fin.lastCases ?_ (fun i => ?_) i
              · rw [dirH_last, hy1]
              · rw [dirH_castSucc]
            rw [hom_add_smul, e, map_add, map_smul, smul_eq_mul]
            have := mul_nonpos_of_nonneg_of_nonpos (one_div_pos.mpr hc).le (hy a ha)
            linarith [solves_iff.mp hS a ha]
          have h5 := (hv _ _ (1/2) sx hrec (by norm_num) (by norm_num) (by
            funext i
            have h6 := hcomp i
            simp only [Pi.add_apply, Pi.smul_apply, smul_eq_mul]
            rw [hxl]
            field_simp
            linarith)).1
          refine ⟨1, ?_⟩
          rw [one_smul, heq]
          rw [h5, hxl] at ex
          exact ex
      · -- `x` is a direction
        have hyl : y (Fin.last d) = c := by rw [← hx1] at hsum; linarith
        obtain ⟨sy, ey⟩ := sol y hy (by rw [hyl]; exact hc)
        have e : dirH d (fun i => x i.castSucc) = x := by
          funext i
          refine Fin.lastCases ?_ (fun i => ?_) i
          · rw [dirH_last, hx1]
          · rw [dirH_castSucc]
        have hrec : Spec.Solves d A (p + (1/c) • fun i => x i.castSucc) := by
          rw [solves_iff]
          intro a ha
          rw [hom_add_smul, e, map_add, map_smul, smul_eq_mul]
          have := mul_nonpos_of_nonneg_of_nonpos (one_div_pos.mpr hc).le (hx a ha)
          linarith [solves_iff.mp hS a ha]
        have h5 := (hv _ _ (1/2) sy hrec (by norm_num) (by norm_num) (by
          funext i
          have h6 := hcomp i
          simp only [Pi.add_apply, Pi.smul_apply, smul_eq_mul]
          rw [hyl]
          field_simp
          linarith)).2
        refine ⟨0, ?_⟩
        rw [zero_smul, ← e]
        have h7 : ∀ i : Fin d, x i.castSucc = 0 := by
          intro i
          have := congrFun h5 i
          simp only [Pi.add_apply, Pi.smul_apply, smul_eq_mul] at this
          have h8 : (1 / c) * x i.castSucc = 0 := by linarith
          exact (mul_eq_zero.mp h8).resolve_left (one_div_pos.mpr hc).ne'
        funext i
        refine Fin.lastCases ?_ (fun i => ?_) i
        · rw [dirH_last]; rfl
        · rw [dirH_castSucc, h7]; rfl
    intro x y hx hy hxy
    have hx' : ∀ a ∈ A, ev (d+1) a x ≤ 0 := fun a ha => by rw [← lin_eq]; exact hx a ha
    have hy' : ∀ a ∈ A, ev (d+1) a y ≤ 0 := fun a ha => by rw [← lin_eq]; exact hy a ha
    exact ⟨key x y hx' hy' hxy, key y x hy' hx' (by rw [← vec_eq_toV, hxy, add_comm x y])⟩

/-- every extreme direction of the solution set has a row -/
theorem extreme_of_direction (hA : ∀ a ∈ A, a.length = d + 1) (htriv : trivialRow d ∈ A) (hsat : ∃ p, Spec.Solves d A p)
    {q : Fin d → ℚ} (h : Spec.ExtremeDirection (Spec.Solves d A) q) :
    ∃ r : Row, r.length = d + 1 ∧ Spec.PrimitiveRow r ∧ r.getD d 0 = 0 ∧ (∃ c : ℚ, 0 < c ∧ Spec.coord d r = c • q) ∧
      Spec.IsExtremeRay (d+1) A r := by
  obtain ⟨hq, hS, hv⟩ := h
  have hne : dirH d q ≠ 0 := by
    intro h0; apply hq; funext i; have := congrFun h0 i.castSucc; rwa [dirH_castSucc] at this
  obtain ⟨c, r, hc, hl, hprim, heq⟩ := exists_primitive_multiple (dirH d q) hne
  have hlast : r.getD d 0 = 0 := by
    have := congrFun heq (Fin.last d)
    simp only [toV, dirH_last, Pi.smul_apply, smul_zero, Fin.val_last] at this
    exact_mod_cast this
  have hcoord : Spec.coord d r = c • q := by
    have h1 := toV_dir (d := d) hlast
    rw [heq] at h1
    funext i
    have := congrFun h1 i.castSucc
    simpa [dirH_castSucc] using this.symm
  refine ⟨r, hl, hprim, hlast, ⟨c, hc, hcoord⟩, ?_, ?_, ?_⟩
  · intro a ha
    have h1 : ev (d+1) a (toV (d+1) r) ≤ 0 := by
      rw [heq, map_smul, smul_eq_mul]
      exact mul_nonpos_of_nonneg_of_nonpos hc.le ((recession_iff hsat).mp hS a ha)
    rw [ev_row (hA a ha)] at h1
    rw [ip_eq_dot]; exact_mod_cast h1
  · rw [vec_eq_toV, heq]; exact smul_ne_zero hc.ne' hne
  · have key : ∀ x y : Fin (d+1) → ℚ, (∀ a ∈ A, ev (d+1) a x ≤ 0) → (∀ a ∈ A, ev (d+1) a y ≤ 0) → toV (d+1) r = x + y →
        ∃ t : ℚ, x = t • toV (d+1) r := by
      intro x y hx hy hxy
      have hx0 : 0 ≤ x (Fin.last d) := by have := hx _ htriv; rw [ev_trivialRow] at this; linarith
      have hy0 : 0 ≤ y (Fin.last d) := by have := hy _ htriv; rw [ev_trivialRow] at this; linarith
      have hsum : x (Fin.last d) + y (Fin.last d) = 0 := by
        have := congrFun hxy (Fin.last d)
        rw [heq] at this
        simp [dirH_last] at this
        exact this.symm
      have edir : ∀ z : Fin (d+1) → ℚ, z (Fin.last d) = 0 → dirH d (fun i => c⁻¹ * z i.castSucc) = c⁻¹ • z := by
        intro z hz
        funext i
        refine Fin.lastCases ?_ (fun i => ?_) i
        · rw [dirH_last, Pi.smul_apply, hz, smul_zero]
        · rw [dirH_castSucc]; rfl
      have ex := edir x (by linarith)
      have ey := edir y (by linarith)
      have hrec : ∀ z : Fin (d+1) → ℚ, (∀ a ∈ A, ev (d+1) a z ≤ 0) → dirH d (fun i => c⁻¹ * z i.castSucc) = c⁻¹ • z →
          Spec.Recession (Spec.Solves d A) (fun i => c⁻¹ * z i.castSucc) := by
        intro z hz e
        rw [recession_iff hsat, e]
        intro a ha
        rw [map_smul, smul_eq_mul]
        exact mul_nonpos_of_nonneg_of_nonpos (inv_pos.mpr hc).le (hz a ha)
      obtain ⟨t, -, ht⟩ := (hv _ _ (hrec x hx ex) (hrec y hy ey) (by
        funext i
        have := congrFun hxy i.castSucc
        rw [heq] at this
        simp only [Pi.smul_apply, dirH_castSucc, smul_eq_mul, Pi.add_apply] at this ⊢
        field_simp
        linarith)).1
      refine ⟨t, ?_⟩
      rw [ht] at ex
      rw [heq]
      have h8 : dirH d (t • q) = t • dirH d q := by
        funext i
        refine Fin.lastCases ?_ (fun i => ?_) i
        · simp [dirH_last]
        · simp [dirH_castSucc]
      rw [h8] at ex
      rw [smul_comm, ex, smul_smul, mul_inv_cancel₀ hc.ne', one_smul]
    intro x y hx hy hxy
    have hx' : ∀ a ∈ A, ev (d+1) a x ≤ 0 := fun a ha => by rw [← lin_eq]; exact hx a ha
    have hy' : ∀ a ∈ A, ev (d+1) a y ≤ 0 := fun a ha => by rw [← lin_eq]; exact hy a ha
    exact ⟨key x y hx' hy' hxy, key y x hy' hx' (by rw [← vec_eq_toV, hxy, add_comm x y])⟩

end

end Panda
