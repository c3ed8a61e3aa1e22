import Verif.Spec.File
import Verif.Props.Assemble
import Mathlib.Tactic.LinearCombination

/-! # Convex and conic combinations of the points and rays of a file -/

namespace Panda

/-- combinations with non-negative coefficients: `s` is the sum of the weights and `p` that of the vectors -/
def WComb (d : Nat) (l : List (ℚ × (Fin d → ℚ))) (s : ℚ) (p : Fin d → ℚ) : Prop :=
  ∃ c : Fin l.length → ℚ, (∀ j, 0 ≤ c j) ∧ ∑ j, c j * l[j].1 = s ∧ p = ∑ j, c j • l[j].2

theorem wcomb_nil {d : Nat} {s : ℚ} {p : Fin d → ℚ} : WComb d [] s p ↔ s = 0 ∧ p = 0 := by
  constructor
  · rintro ⟨c, -, h1, h2⟩; exact ⟨by simpa using h1.symm, by simpa using h2⟩
  · rintro ⟨rfl, rfl⟩; exact ⟨fun j => 0, by simp, by simp, by simp⟩

theorem wcomb_cons {d : Nat} {x : ℚ × (Fin d → ℚ)} {l : List (ℚ × (Fin d → ℚ))} {s : ℚ} {p : Fin d → ℚ} :
    WComb d (x :: l) s p ↔ ∃ a, 0 ≤ a ∧ WComb d l (s - a * x.1) (p - a • x.2) := by
  have key1 : ∀ c : Fin (l.length + 1) → ℚ, ∑ j : Fin (x :: l).length, c j * (x :: l)[j].1 =
      c 0 * x.1 + ∑ j : Fin l.length, c j.succ * l[j].1 := by
    intro c
    show ∑ j : Fin (l.length + 1), _ = _
    rw [Fin.sum_univ_succ]; rfl
  have key2 : ∀ c : Fin (l.length + 1) → ℚ, ∑ j : Fin (x :: l).length, c j • (x :: l)[j].2 =
      c 0 • x.2 + ∑ j : Fin l.length, c j.succ • l[j].2 := by
    intro c
    show ∑ j : Fin (l.length + 1), _ = _
    rw [Fin.sum_univ_succ]; rfl
  constructor
  · rintro ⟨c, h0, h1, h2⟩
    refine ⟨c (0 : Fin (l.length + 1)), h0 _, fun j => c j.succ, fun j => h0 _, ?_, ?_⟩
    · rw [← h1, key1 c]; ring
    · rw [h2, key2 c]; abel
  · rintro ⟨a, ha, c, h0, h1, h2⟩
    refine ⟨Fin.cons (α := fun _ => ℚ) a c, ?_, ?_, ?_⟩
    · intro j
      refine Fin.cases (motive := fun j => 0 ≤ (Fin.cons (α := fun _ => ℚ) a c : Fin (l.length + 1) → ℚ) j) ?_ ?_ j
      · simpa using ha
      · intro j; simpa using h0 j
    · rw [key1]
      simp only [Fin.cons_zero, Fin.cons_succ, h1]; ring
    · rw [key2]
      simp only [Fin.cons_zero, Fin.cons_succ, ← h2]; abel

/-- vectors of weight zero may be replaced by positive multiples -/
def Scaled {d : Nat} (x y : ℚ × (Fin d → ℚ)) : Prop :=
  x.1 = y.1 ∧ (x.2 = y.2 ∨ x.1 = 0 ∧ ∃ t : ℚ, 0 < t ∧ x.2 = t • y.2)

theorem wcomb_scaled {d : Nat} {l l' : List (ℚ × (Fin d → ℚ))} (h : List.Forall₂ Scaled l l') :
    ∀ {s : ℚ} {p : Fin d → ℚ}, WComb d l s p ↔ WComb d l' s p := by
  induction h with
  | nil => exact Iff.rfl
  | @cons x y l l' hxy _ ih =>
    intro s p
    rw [wcomb_cons, wcomb_cons]
    obtain ⟨h1, h2 | ⟨h0, t, ht, h2⟩⟩ := hxy
    · rw [h1, h2]; simp only [ih]
    · have h0' : y.1 = 0 := by rw [← h1, h0]
      simp only [ih, h0, h0', h2, mul_zero, sub_zero]
      constructor
      · rintro ⟨a, ha, h⟩
        exact ⟨a * t, by positivity, by rwa [mul_smul]⟩
      · rintro ⟨a, ha, h⟩
        exact ⟨a / t, by positivity, by rwa [smul_smul, div_mul_cancel₀ _ ht.ne']⟩

theorem wcomb_map {α : Type} {d : Nat} (l : List α) (w : α → ℚ) (x : α → Fin d → ℚ) {s : ℚ} {p : Fin d → ℚ} :
    WComb d (l.map fun a => (w a, x a)) s p ↔
      ∃ c : Fin l.length → ℚ, (∀ j, 0 ≤ c j) ∧ ∑ j, c j * w l[j] = s ∧ p = ∑ j, c j • x l[j] := by
  have e : (l.map fun a => (w a, x a)).length = l.length := List.length_map ..
  constructor
  · rintro ⟨c, h0, h1, h2⟩
    refine ⟨fun j => c (j.cast e.symm), fun j => h0 _, ?_, ?_⟩
    · rw [← h1]
      refine Fintype.sum_equiv (finCongr e.symm) _ _ fun j => ?_
      simp
    · rw [h2]
      refine Fintype.sum_equiv (finCongr e) _ _ fun j => ?_
      simp
  · rintro ⟨c, h0, h1, h2⟩
    refine ⟨fun j => c (j.cast e), fun j => h0 _, ?_, ?_⟩
    · rw [← h1]
      refine Fintype.sum_equiv (finCongr e) _ _ fun j => ?_
      simp
    · rw [h2]
      refine Fintype.sum_equiv (finCongr e.symm) _ _ fun j => ?_
      simp

theorem wcomb_append {d : Nat} {l l' : List (ℚ × (Fin d → ℚ))} : ∀ {s : ℚ} {p : Fin d → ℚ},
    WComb d (l ++ l') s p ↔ ∃ s1 p1, WComb d l s1 p1 ∧ WComb d l' (s - s1) (p - p1) := by
  induction l with
  | nil =>
    intro s p
    simp only [List.nil_append, wcomb_nil]
    constructor
    · intro h; exact ⟨0, 0, ⟨rfl, rfl⟩, by simpa using h⟩
    · rintro ⟨s1, p1, ⟨rfl, rfl⟩, h⟩; simpa using h
  | cons x l ih =>
    intro s p
    simp only [List.cons_append, wcomb_cons, ih]
    constructor
    · rintro ⟨a, ha, s1, p1, h1, h2⟩
      refine ⟨s1 + a * x.1, p1 + a • x.2, ⟨a, ha, by simpa using h1⟩, ?_⟩
      rwa [show s - (s1 + a * x.1) = s - a * x.1 - s1 by ring, show p - (p1 + a • x.2) = p - a • x.2 - p1 by abel]
    · rintro ⟨s1, p1, ⟨a, ha, h1⟩, h2⟩
      refine ⟨a, ha, _, _, h1, ?_⟩
      rwa [show s - a * x.1 - (s1 - a * x.1) = s - s1 by ring, show p - a • x.2 - (p1 - a • x.2) = p - p1 by abel]

theorem inPolyhedron_wcomb {d : Nat} {V : Matrix} {p : Fin d → ℚ} :
    Spec.InPolyhedron d V p ↔ WComb d (V.map fun v => (if v.getD d 0 = 0 then 0 else 1, Spec.coord d v)) 1 p := by
  rw [wcomb_map]
  unfold Spec.InPolyhedron
  have : ∀ c : Fin V.length → ℚ, (∑ j, if V[j].getD d 0 = 0 then 0 else c j) = ∑ j, c j * (if V[j].getD d 0 = 0 then 0 else 1) := by
    intro c
    refine Finset.sum_congr rfl fun j _ => ?_
    split <;> simp
  simp only [this]

theorem inHull_wcomb {d : Nat} {points rays : List (List (Int × Int))} {p : Fin d → ℚ} :
    Spec.InHull d points rays p ↔
      WComb d ((rays.map fun r => ((0 : ℚ), Spec.point d r)) ++ points.map fun r => ((1 : ℚ), Spec.point d r)) 1 p := by
  rw [wcomb_append]
  simp only [wcomb_map, mul_zero, mul_one, Finset.sum_const_zero]
  unfold Spec.InHull
  constructor
  · rintro ⟨a, b, ha, hb, h1, rfl⟩
    exact ⟨0, _, ⟨b, hb, rfl, rfl⟩, a, ha, by simpa using h1, by abel⟩
  · rintro ⟨s1, p1, ⟨b, hb, rfl, rfl⟩, a, ha, h1, h2⟩
    exact ⟨a, b, ha, hb, by simpa using h1, by rw [← h2]; abel⟩

theorem pointRow_coord {d : Nat} {cs : List (Int × Int)} {row : Row} (h : Spec.PointRow cs row) (hd : cs.length = d) :
    row.getD d 0 ≠ 0 ∧ Spec.coord d row = Spec.point d cs := by
  subst hd
  obtain ⟨-, h1, h2⟩ := h
  refine ⟨h1.ne', funext fun i => ?_⟩
  unfold Spec.coord Spec.point
  rw [if_neg h1.ne', h2 i i.2]
  simp

theorem rayRow_coord {d : Nat} {cs : List (Int × Int)} {row : Row} (h : Spec.RayRow cs row) (hd : cs.length = d) :
    row.getD d 0 = 0 ∧ ∃ t : ℚ, 0 < t ∧ Spec.coord d row = t • Spec.point d cs := by
  subst hd
  obtain ⟨-, h1, t, ht, h2⟩ := h
  refine ⟨h1, t, ht, funext fun i => ?_⟩
  unfold Spec.coord Spec.point
  rw [if_pos h1, h2 i i.2]
  simp

theorem forall₂_append {α β : Type} {R : α → β → Prop} {a b : List α} {a' b' : List β} (h : List.Forall₂ R a a')
    (h' : List.Forall₂ R b b') : List.Forall₂ R (a ++ b) (a' ++ b') := by
  induction h with
  | nil => exact h'
  | cons h _ ih => exact .cons h ih

/-- rows of the points and rays of a file describe their hull -/
theorem inPolyhedron_hull {d : Nat} {points rays : List (List (Int × Int))} {P R : Matrix}
    (hP : List.Forall₂ Spec.PointRow points P) (hR : List.Forall₂ Spec.RayRow rays R)
    (h1 : ∀ v ∈ points, v.length = d) (h2 : ∀ v ∈ rays, v.length = d) (p : Fin d → ℚ) :
    Spec.InPolyhedron d (R ++ P) p ↔ Spec.InHull d points rays p := by
  rw [inPolyhedron_wcomb, inHull_wcomb, List.map_append]
  refine wcomb_scaled (forall₂_append ?_ ?_)
  · clear hP h1
    induction hR with
    | nil => exact .nil
    | cons h _ ih =>
      obtain ⟨e1, e2⟩ := rayRow_coord h (h2 _ (by simp))
      refine .cons ⟨if_pos e1, Or.inr ⟨if_pos e1, e2⟩⟩ (ih fun v hv => h2 v (by simp [hv]))
  · clear hR h2
    induction hP with
    | nil => exact .nil
    | cons h _ ih =>
      obtain ⟨e1, e2⟩ := pointRow_coord h (h1 _ (by simp))
      exact .cons ⟨if_neg e1, Or.inl e2⟩ (ih fun v hv => h1 v (by simp [hv]))

/-- the same for the sorted rows -/
theorem inPolyhedron_sorted {d : Nat} (order : InputOrder) {P R : Matrix} (p : Fin d → ℚ) :
    Spec.InPolyhedron d (sortRows order R ++ sortRows order P) p ↔ Spec.InPolyhedron d (R ++ P) p := by
  have h : ∀ v, v ∈ sortRows order R ++ sortRows order P ↔ v ∈ R ++ P := by
    intro v
    rw [List.mem_append, List.mem_append, (sortRows_perm order R).mem_iff, (sortRows_perm order P).mem_iff]
  exact ⟨inPolyhedron_mono fun v hv => (h v).1 hv, inPolyhedron_mono fun v hv => (h v).2 hv⟩

end Panda
