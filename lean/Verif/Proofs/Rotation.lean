import Verif.Model.Rotation
import Verif.Proofs.FacetFacts
import Mathlib.Tactic.LinearCombination

/-! # Rotation -/

namespace Panda

open Cone

/-! ## Extremal vertices -/

theorem extremalLoop_spec {better : Int → Int → Bool} {ineq : Row} {f : Row → Int}
    (hb : ∀ u v, better (distance ineq u) (distance ineq v) = true ↔ f v < f u) : ∀ (vs : Matrix) (best : Row),
    (extremalLoop better ineq vs (distance ineq best) best = best ∧ ∀ u ∈ vs, f u ≤ f best) ∨
    ∃ pre post, vs = pre ++ extremalLoop better ineq vs (distance ineq best) best :: post ∧
      f best < f (extremalLoop better ineq vs (distance ineq best) best) ∧
      (∀ u ∈ pre, f u < f (extremalLoop better ineq vs (distance ineq best) best)) ∧
      ∀ u ∈ post, f u ≤ f (extremalLoop better ineq vs (distance ineq best) best) := by
  intro vs
  induction vs with
  | nil => intro best; left; simp [extremalLoop]
  | cons v vs ih =>
    intro best
    by_cases h : better (distance ineq v) (distance ineq best) = true
    · have hlt := (hb v best).mp h
      rw [extremalLoop, if_pos h]
      right
      rcases ih v with ⟨h1, h2⟩ | ⟨pre, post, h1, h2, h3, h4⟩
      · rw [h1]; exact ⟨[], vs, rfl, hlt, by simp, h2⟩
      · refine ⟨v :: pre, post, ?_, hlt.trans h2, ?_, h4⟩
        · rw [List.cons_append, ← h1]
        · intro u hu
          rcases List.mem_cons.mp hu with rfl | hu
          · exact h2
          · exact h3 u hu
    · have hle : f v ≤ f best := by
        by_contra hc; push Not at hc; exact h ((hb v best).mpr hc)
      rw [extremalLoop, if_neg h]
      rcases ih best with ⟨h1, h2⟩ | ⟨pre, post, h1, h2, h3, h4⟩
      · left
        refine ⟨h1, fun u hu => ?_⟩
        rcases List.mem_cons.mp hu with rfl | hu
        · exact hle
        · exact h2 u hu
      · right
        refine ⟨v :: pre, post, ?_, h2, ?_, h4⟩
        · rw [List.cons_append, ← h1]
        · intro u hu
          rcases List.mem_cons.mp hu with rfl | hu
          · exact hle.trans_lt h2
          · exact h3 u hu

theorem extremalVertex_spec {better : Int → Int → Bool} {ineq : Row} {f : Row → Int}
    (hb : ∀ u v, better (distance ineq u) (distance ineq v) = true ↔ f v < f u) {vs : Matrix} (h : vs ≠ []) :
    ∃ pre v post, vs = pre ++ v :: post ∧ extremalVertex better vs ineq = .ok v ∧ (∀ u ∈ pre, f u < f v) ∧ ∀ u ∈ post, f u ≤ f v := by
  cases vs with
  | nil => exact absurd rfl h
  | cons w ws =>
    rcases extremalLoop_spec hb ws w with ⟨h1, h2⟩ | ⟨pre, post, h1, h2, h3, h4⟩
    · exact ⟨[], w, ws, rfl, by rw [extremalVertex, h1], by simp, h2⟩
    · refine ⟨w :: pre, _, post, ?_, rfl, ?_, h4⟩
      · rw [List.cons_append, ← h1]
      · intro u hu
        rcases List.mem_cons.mp hu with rfl | hu
        · exact h2
        · exact h3 u hu

theorem furthestVertex_ok {vs : Matrix} {ineq : Row} (h : vs ≠ []) :
    ∃ v ∈ vs, furthestVertex vs ineq = .ok v ∧ ∀ u ∈ vs, dot ineq v ≤ dot ineq u := by
  obtain ⟨pre, v, post, h1, h2, h3, h4⟩ := extremalVertex_spec (better := fun a b => decide (a > b)) (ineq := ineq)
    (f := fun v => -(dot ineq v)) (fun u v => by simp [distance, dot_comm]) h
  refine ⟨v, by simp [h1], h2, fun u hu => ?_⟩
  rw [h1] at hu
  rcases List.mem_append.mp hu with hu | hu
  · have := h3 u hu; omega
  · rcases List.mem_cons.mp hu with rfl | hu
    · exact le_rfl
    · have := h4 u hu; omega

theorem nearestVertex_ok {vs : Matrix} {ineq : Row} (h : vs ≠ []) :
    ∃ v ∈ vs, nearestVertex vs ineq = .ok v ∧ ∀ u ∈ vs, dot ineq u ≤ dot ineq v := by
  obtain ⟨pre, v, post, h1, h2, h3, h4⟩ := extremalVertex_spec (better := fun a b => decide (a < b)) (ineq := ineq)
    (f := fun v => dot ineq v) (fun u v => by simp [distance, dot_comm]) h
  refine ⟨v, by simp [h1], h2, fun u hu => ?_⟩
  rw [h1] at hu
  rcases List.mem_append.mp hu with hu | hu
  · exact (h3 u hu).le
  · rcases List.mem_cons.mp hu with rfl | hu
    · exact le_rfl
    · exact h4 u hu

/-! ## One step -/

theorem makePrimitive_getD {r : Row} {c : Nat} (h : r.getD c 0 = 0) : (makePrimitive r).getD c 0 = 0 := by
  obtain ⟨g, hg, h1, -⟩ := makePrimitive_spec r
  rw [h1] at h
  rw [List.getD_eq_getElem?_getD, List.getElem?_map] at h
  rw [List.getD_eq_getElem?_getD]
  cases hx : (makePrimitive r)[c]? with
  | none => rfl
  | some x =>
    rw [hx] at h
    simp only [Option.map_some, Option.getD_some, mul_eq_zero] at h ⊢
    exact h.resolve_right hg.ne'

theorem rotateRow_spec {n : Nat} {f r : Row} (hf : f.length = n) (hr : r.length = n) (df dr : Int) :
    (rotateRow f r df dr).length = n ∧
    (∃ s : ℚ, 0 < s ∧ ∀ v, s * (dot (rotateRow f r df dr) v : ℚ) = df * dot r v - dr * dot f v) ∧
    ((∃ y ∈ rotateRow f r df dr, y ≠ 0) → Primitive (rotateRow f r df dr)) ∧
    ∀ c, f.getD c 0 = 0 → r.getD c 0 = 0 → (rotateRow f r df dr).getD c 0 = 0 := by
  -- the division by the gcd
  have hg : ∃ g df' dr' : Int, 0 < g ∧ df = g * df' ∧ dr = g * dr' ∧
      rotateRow f r df dr = makePrimitive (rowSub (rowScale r df') (rowScale f dr')) := by
    unfold rotateRow
    simp only [gcd_eq]
    by_cases h : (Int.gcd df dr : Int) > 1
    · refine ⟨Int.gcd df dr, df.tdiv (Int.gcd df dr), dr.tdiv (Int.gcd df dr), by omega, ?_, ?_, by simp [h]⟩
      · exact (Int.mul_tdiv_cancel' (Int.gcd_dvd_left ..)).symm
      · exact (Int.mul_tdiv_cancel' (Int.gcd_dvd_right ..)).symm
    · exact ⟨1, df, dr, one_pos, by ring, by ring, by simp [h]⟩
  obtain ⟨g, df', dr', hg0, e1, e2, e3⟩ := hg
  set x := rowSub (rowScale r df') (rowScale f dr') with hx
  obtain ⟨k, hk, hk1, hk2⟩ := makePrimitive_spec x
  have hxl : x.length = n := by simp [hx, hf, hr]
  rw [e3]
  refine ⟨by simpa using hxl, ⟨(g * k : Int), by exact_mod_cast mul_pos hg0 hk, fun v => ?_⟩, ?_, ?_⟩
  · have h1 : dot x v = dot r v * df' - dot f v * dr' := by
      rw [hx, dot_rowSub _ _ _ (by simp [hf, hr]), rowScale_eq, rowScale_eq, dot_scale, dot_scale]
    have h2 : dot x v = dot (makePrimitive x) v * k := by
      conv_lhs => rw [hk1]
      rw [dot_scale]
    have h3 : (g * k) * dot (makePrimitive x) v = df * dot r v - dr * dot f v := by
      rw [e1, e2]
      have := h2.symm.trans h1
      linear_combination g * this
    exact_mod_cast h3
  · rintro ⟨y, hy, hy0⟩
    refine (hk2 ⟨y * k, ?_, mul_ne_zero hy0 hk.ne'⟩).1
    rw [hk1]; exact List.mem_map.mpr ⟨y, hy, rfl⟩
  · intro c h1 h2
    apply makePrimitive_getD
    rw [hx]
    rcases Nat.lt_or_ge c n with hc | hc
    · rw [rowSub, getD_zipWith_of_lt (by simpa [hr] using hc) (by simpa [hf] using hc), rowScale_eq, rowScale_eq]
      have key : ∀ (q : Row) (k : Int), q.getD c 0 = 0 → (q.map (· * k)).getD c 0 = 0 := by
        intro q k hq
        rw [List.getD_eq_getElem?_getD] at hq ⊢
        rw [List.getElem?_map]
        cases hq' : q[c]? with
        | none => rfl
        | some y => rw [hq'] at hq; simp only [Option.getD_some] at hq; simp [hq]
      rw [key _ _ h2, key _ _ h1]; rfl
    · rw [List.getD_eq_getElem?_getD, List.getElem?_eq_none (by rw [hxl]; exact hc)]; rfl

/-! ## The loop -/

/-- number of rows violating `ρ` -/
def violated (V : Matrix) (ρ : Row) : Nat := V.countP fun v => decide (0 < dot ρ v)

/-- `ρ` arises from the ridge `r` by adding a multiple of `f` and scaling -/
def Rotated (f r ρ : Row) : Prop := ∃ c l : ℚ, 0 < c ∧ ∀ v, c * (dot ρ v : ℚ) = dot r v + l * dot f v

theorem countP_lt {α : Type} {p q : α → Bool} {l : List α} (h : ∀ x ∈ l, p x = true → q x = true) {a : α} (ha : a ∈ l)
    (hp : p a = false) (hq : q a = true) : l.countP p < l.countP q := by
  induction l with
  | nil => simp at ha
  | cons b l ih =>
    rw [List.countP_cons, List.countP_cons]
    rcases List.mem_cons.mp ha with rfl | ha
    · rw [hp, hq]
      have := List.countP_mono_left (l := l) (p := p) (q := q) fun x hx => h x (by simp [hx])
      simp; omega
    · have := ih (fun x hx => h x (by simp [hx])) ha
      have hb := h b (by simp)
      cases hpb : p b
      · simp; omega
      · rw [hb hpb]; simp; omega

theorem rotateLoop_spec {V : Matrix} {n : Nat} {f r : Row} (hf : f.length = n)
    (hfv : ∀ v ∈ V, dot f v ≤ 0) (hrv : ∀ v ∈ V, dot f v = 0 → dot r v ≤ 0) :
    ∀ (fuel : Nat) (ridge v0 : Row), v0 ∈ V → dot f v0 < 0 → ridge.length = n → Rotated f r ridge →
      violated V (rotateRow f ridge (distance f v0) (distance ridge v0)) < fuel →
      ∃ ρ, rotateLoop V f fuel ridge (distance f v0) (distance ridge v0) = some (.ok ρ) ∧ ρ.length = n ∧
        Rotated f r ρ ∧ (∀ v ∈ V, dot ρ v ≤ 0) ∧ (∃ v ∈ V, dot ρ v = 0 ∧ dot f v < 0) ∧
        ((∃ y ∈ ρ, y ≠ 0) → Primitive ρ) ∧ ∀ c, f.getD c 0 = 0 → ridge.getD c 0 = 0 → ρ.getD c 0 = 0 := by
  intro fuel
  induction fuel with
  | zero => intro ridge v0 _ _ _ _ h; omega
  | succ fuel ih =>
    intro ridge v0 hv0 hfv0 hl hrot hviol
    obtain ⟨s1, ⟨s, hs, s2⟩, s3, s4⟩ := rotateRow_spec (n := n) hf hl (distance f v0) (distance ridge v0)
    set ρ := rotateRow f ridge (distance f v0) (distance ridge v0) with hρ
    have hdf : (0 : ℚ) < (distance f v0 : ℚ) := by
      have : 0 < distance f v0 := by unfold distance; rw [dot_comm]; omega
      exact_mod_cast this
    have hrotρ : Rotated f r ρ := by
      obtain ⟨c, l, hc, h⟩ := hrot
      refine ⟨c * s / distance f v0, l - c * distance ridge v0 / distance f v0, by positivity, fun v => ?_⟩
      have h1 := s2 v
      have h2 := h v
      field_simp
      linear_combination c * h1 + (distance f v0 : ℚ) * h2
    have hzero : dot ρ v0 = 0 := by
      have h1 := s2 v0
      have h2 : ((distance f v0 : ℚ)) * dot ridge v0 - distance ridge v0 * dot f v0 = 0 := by
        unfold distance
        rw [dot_comm v0 f, dot_comm v0 ridge]; push_cast; ring
      rw [h2] at h1
      have := (mul_eq_zero.mp h1).resolve_left hs.ne'
      exact_mod_cast this
    obtain ⟨w, hw, hnear, hmax⟩ := nearestVertex_ok (ineq := ρ) (List.ne_nil_of_mem hv0)
    have hw0 : 0 ≤ dot ρ w := by have := hmax v0 hv0; omega
    have hdist : distance ρ w = -(dot ρ w) := by unfold distance; rw [dot_comm]
    rw [rotateLoop, ← hρ, hnear]
    simp only [Run.bind]
    by_cases h0 : distance ρ w = 0
    · rw [if_pos h0]
      refine ⟨ρ, rfl, s1, hrotρ, fun v hv => ?_, ⟨v0, hv0, hzero, hfv0⟩, s3, s4⟩
      have := hmax v hv; omega
    · rw [if_neg h0]
      have hwpos : 0 < dot ρ w := by omega
      -- the violated vertex is not on the facet
      have hfw : dot f w < 0 := by
        have h1 := hfv w hw
        rcases lt_or_eq_of_le h1 with h | h
        · exact h
        · exfalso
          obtain ⟨c, l, hc, hh⟩ := hrotρ
          have h2 := hh w
          rw [h] at h2
          have h3 : (dot r w : ℚ) ≤ 0 := by exact_mod_cast hrv w hw h
          have h4 : (0 : ℚ) < dot ρ w := by exact_mod_cast hwpos
          have := mul_pos hc h4
          simp at h2
          linarith
      obtain ⟨t1, ⟨t, ht, t2⟩, t3, t4⟩ := rotateRow_spec (n := n) hf s1 (distance f w) (distance ρ w)
      have hdfw : 0 < distance f w := by unfold distance; rw [dot_comm]; omega
      have hlt : violated V (rotateRow f ρ (distance f w) (distance ρ w)) < violated V ρ := by
        unfold violated
        apply countP_lt (a := w) _ hw
        · -- `w` is not violated any more
          have h1 := t2 w
          have h2 : ((distance f w : ℚ)) * dot ρ w - distance ρ w * dot f w = 0 := by
            unfold distance
            rw [dot_comm w f, dot_comm w ρ]; push_cast; ring
          rw [h2] at h1
          have := (mul_eq_zero.mp h1).resolve_left ht.ne'
          have h3 : dot (rotateRow f ρ (distance f w) (distance ρ w)) w = 0 := by exact_mod_cast this
          simp [h3]
        · simpa using hwpos
        · intro u hu hpu
          simp only [decide_eq_true_eq] at hpu ⊢
          by_contra hc
          push Not at hc
          have h1 := t2 u
          have a1 : (dot ρ u : ℚ) ≤ 0 := by exact_mod_cast hc
          have a2 : (dot f u : ℚ) ≤ 0 := by exact_mod_cast hfv u hu
          have a3 : (0 : ℚ) < distance f w := by exact_mod_cast hdfw
          have a4 : (distance ρ w : ℚ) ≤ 0 := by rw [hdist]; push_cast; have : (0 : ℚ) < dot ρ w := by exact_mod_cast hwpos
                                                 linarith
          have a5 : (0 : ℚ) < t * dot (rotateRow f ρ (distance f w) (distance ρ w)) u := mul_pos ht (by exact_mod_cast hpu)
          have a6 := mul_nonpos_of_nonneg_of_nonpos a3.le a1
          have a7 := mul_nonneg_of_nonpos_of_nonpos a4 a2
          linarith
      obtain ⟨ρ', r1, r2, r3, r4, r5, r6, r7⟩ := ih ρ w hw hfw s1 hrotρ (by omega)
      exact ⟨ρ', r1, r2, r3, r4, r5, r6, fun c h1 h2 => r7 c h1 (s4 c h1 h2)⟩

end Panda
