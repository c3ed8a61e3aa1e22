import Verif.Spec.Polyhedron
import Verif.Proofs.Equations

/-! # From the specification to the internal notions -/

namespace Panda

open Cone

theorem ip_eq_dot (a v : Row) : Spec.ip a v = dot a v := (dot_eq a v).symm

theorem vec_eq_toV (n : Nat) (r : Row) : Spec.vec n r = toV n r := rfl

theorem span_eq_rowSpan (n : Nat) (V : Matrix) : Spec.span n V = rowSpan n V := rfl

theorem primitiveRow_iff (r : Row) : Spec.PrimitiveRow r ↔ Primitive r := by
  unfold Spec.PrimitiveRow Primitive
  constructor
  · intro h
    exact (h (listGcd r)).mp fun x hx => listGcd_dvd hx
  · intro h d
    constructor
    · intro hd
      have := dvd_listGcd hd
      rw [h] at this; exact Nat.dvd_one.mp this
    · rintro rfl x _; simp

/-- a functional on `ℚ^n` is, up to a positive factor, an integer row -/
theorem exists_row_of_dual {n : Nat} (g : Module.Dual ℚ (Fin n → ℚ)) :
    ∃ (N : Int) (b : Row), 0 < N ∧ b.length = n ∧ ∀ v : Row, (dot b v : ℚ) = N * g (toV n v) := by
  obtain ⟨N, b, hN, hb, heq⟩ := exists_int_multiple (fun i => g (Pi.single i 1))
  refine ⟨N, b, hN, hb, fun v => ?_⟩
  rw [dot_eq_sum n b v hb.le, heq]
  have : g (toV n v) = ∑ i, toV n v i * g (Pi.single i 1) := by
    conv_lhs => rw [← Finset.univ_sum_single (toV n v)]
    rw [map_sum]
    apply Finset.sum_congr rfl
    intro i _
    rw [← smul_eq_mul, ← map_smul]
    congr 1
    rw [← Pi.single_smul, smul_eq_mul, mul_one]
  rw [this, Finset.mul_sum]
  apply Finset.sum_congr rfl
  intro i _
  simp only [Pi.smul_apply, smul_eq_mul]; ring

/-- the functional of an inequality row -/
theorem ev_row {n : Nat} {a : Row} (ha : a.length = n) (v : Row) : ev n a (toV n v) = (dot a v : ℚ) := by
  rw [ev_apply, dot_eq_sum n a v ha.le]
  exact Finset.sum_congr rfl fun i _ => mul_comm _ _

theorem isFacet_iff {n : Nat} {V : Matrix} {a : Row} :
    Spec.IsFacet n V a ↔ a.length = n ∧ FacetP n V a := by
  unfold Spec.IsFacet Spec.Valid Spec.rank
  constructor
  · rintro ⟨hl, hv, hr⟩
    refine ⟨hl, ?_⟩
    simp only [ip_eq_dot] at hv
    have hset : {x | ∃ v ∈ V.filter (fun v => decide (Spec.ip a v = 0)), x = Spec.vec n v} =
        {s ∈ {x | ∃ v ∈ V, x = toV n v} | ev n a s = 0} := by
      ext x
      simp only [Set.mem_ofPred_eq, List.mem_filter, decide_eq_true_eq, ip_eq_dot, vec_eq_toV]
      constructor
      · rintro ⟨v, ⟨hv, h0⟩, rfl⟩
        exact ⟨⟨v, hv, rfl⟩, by rw [ev_row hl, h0]; simp⟩
      · rintro ⟨⟨v, hv, rfl⟩, h0⟩
        rw [ev_row hl] at h0
        exact ⟨v, ⟨hv, by exact_mod_cast h0⟩, rfl⟩
    unfold Spec.span at hr
    rw [hset] at hr
    have h := (rank_iff {x | ∃ v ∈ V, x = toV n v} (ev n a)).mpr hr
    obtain ⟨⟨s, ⟨v, hvm, rfl⟩, hne⟩, ht⟩ := h
    refine ⟨hv, ⟨v, hvm, ?_⟩, ?_⟩
    · rw [ev_row hl] at hne; exact_mod_cast hne
    · intro b hb hz
      obtain ⟨t, h⟩ := ht (ev n b) (by
        rintro s ⟨v, hv, rfl⟩ h0
        rw [ev_row hl] at h0; rw [ev_row hb, hz v hv (by exact_mod_cast h0)]; simp)
      refine ⟨t, fun v hv => ?_⟩
      have := h _ ⟨v, hv, rfl⟩
      rwa [ev_row hb, ev_row hl] at this
  · rintro ⟨hl, hf⟩
    refine ⟨hl, fun v hv => by rw [ip_eq_dot]; exact hf.valid v hv, ?_⟩
    have hset : {x | ∃ v ∈ V.filter (fun v => decide (Spec.ip a v = 0)), x = Spec.vec n v} =
        {s ∈ {x | ∃ v ∈ V, x = toV n v} | ev n a s = 0} := by
      ext x
      simp only [Set.mem_ofPred_eq, List.mem_filter, decide_eq_true_eq, ip_eq_dot, vec_eq_toV]
      constructor
      · rintro ⟨v, ⟨hv, h0⟩, rfl⟩
        exact ⟨⟨v, hv, rfl⟩, by rw [ev_row hl, h0]; simp⟩
      · rintro ⟨⟨v, hv, rfl⟩, h0⟩
        rw [ev_row hl] at h0
        exact ⟨v, ⟨hv, by exact_mod_cast h0⟩, rfl⟩
    unfold Spec.span
    rw [hset]
    apply (rank_iff {x | ∃ v ∈ V, x = toV n v} (ev n a)).mp
    refine ⟨?_, ?_⟩
    · obtain ⟨v, hv, hne⟩ := hf.strict
      exact ⟨_, ⟨v, hv, rfl⟩, by rw [ev_row hl]; exact_mod_cast hne⟩
    · intro g hg
      obtain ⟨N, b, hN, hb, heq⟩ := exists_row_of_dual g
      have hN' : (N : ℚ) ≠ 0 := by exact_mod_cast hN.ne'
      obtain ⟨t, ht⟩ := hf.tight b hb (by
        intro v hv h0
        have h1 := hg _ ⟨v, hv, rfl⟩ (by rw [ev_row hl, h0]; simp)
        have h2 := heq v
        rw [h1, mul_zero] at h2; exact_mod_cast h2)
      refine ⟨t / N, ?_⟩
      rintro s ⟨v, hv, rfl⟩
      have h1 := ht v hv
      rw [heq v] at h1
      rw [ev_row hl]
      field_simp
      linarith

/-! ## Points and rows -/

/-- the homogenised point -/
def hom (d : Nat) (p : Fin d → ℚ) : Fin (d + 1) → ℚ := Fin.snoc p 1

theorem hom_castSucc (d : Nat) (p : Fin d → ℚ) (i : Fin d) : hom d p i.castSucc = p i := by
  simp [hom]

theorem hom_last (d : Nat) (p : Fin d → ℚ) : hom d p (Fin.last d) = 1 := by simp [hom]

theorem value_eq (d : Nat) (a : Row) (p : Fin d → ℚ) : Spec.value d a p = ev (d + 1) a (hom d p) := by
  rw [ev_apply, Fin.sum_univ_castSucc]
  simp only [hom_castSucc, hom_last, Spec.value, toV, one_mul, Fin.val_last, Fin.val_castSucc]
  congr 1
  exact Finset.sum_congr rfl fun i _ => mul_comm _ _

theorem inPolyhedron_iff {d : Nat} {V : Matrix} (hlast : ∀ v ∈ V, 0 ≤ v.getD d 0) (p : Fin d → ℚ) :
    Spec.InPolyhedron d V p ↔ Spec.InConeOf (d + 1) V (hom d p) := by
  unfold Spec.InPolyhedron Spec.InConeOf
  constructor
  · rintro ⟨c, hc, hsum, hp⟩
    refine ⟨fun j => if V[j].getD d 0 = 0 then c j else c j / (V[j].getD d 0 : ℚ), ?_, ?_⟩
    · intro j
      have h0 : (0 : ℚ) ≤ (V[j].getD d 0 : ℚ) := by exact_mod_cast hlast _ (List.getElem_mem _)
      simp only; split
      · exact hc j
      · exact div_nonneg (hc j) h0
    · funext i
      refine Fin.lastCases ?_ (fun i => ?_) i
      · rw [hom_last, ← hsum, Finset.sum_apply]
        apply Finset.sum_congr rfl
        intro j _
        simp only [Pi.smul_apply, smul_eq_mul, Spec.vec, Fin.val_last]
        split
        · next h => rw [h]; simp
        · next h =>
          have : (V[j].getD d 0 : ℚ) ≠ 0 := by exact_mod_cast h
          exact (div_mul_cancel₀ _ this).symm
      · rw [hom_castSucc, hp, Finset.sum_apply, Finset.sum_apply]
        apply Finset.sum_congr rfl
        intro j _
        simp only [Pi.smul_apply, smul_eq_mul, Spec.vec, Fin.val_castSucc, Spec.coord]
        split
        · rfl
        · ring
  · rintro ⟨c, hc, hx⟩
    refine ⟨fun j => if V[j].getD d 0 = 0 then c j else c j * (V[j].getD d 0 : ℚ), ?_, ?_, ?_⟩
    · intro j
      have h0 : (0 : ℚ) ≤ (V[j].getD d 0 : ℚ) := by exact_mod_cast hlast _ (List.getElem_mem _)
      simp only; split
      · exact hc j
      · exact mul_nonneg (hc j) h0
    · have := congrFun hx (Fin.last d)
      rw [hom_last, Finset.sum_apply] at this
      rw [this]
      apply Finset.sum_congr rfl
      intro j _
      simp only [Pi.smul_apply, smul_eq_mul, Spec.vec, Fin.val_last]
      split
      · next h => rw [h]; simp
      · rfl
    · funext i
      have := congrFun hx i.castSucc
      rw [hom_castSucc, Finset.sum_apply] at this
      rw [this, Finset.sum_apply]
      apply Finset.sum_congr rfl
      intro j _
      simp only [Pi.smul_apply, smul_eq_mul, Spec.vec, Fin.val_castSucc, Spec.coord]
      split
      · rfl
      · next h =>
        have : (V[j].getD d 0 : ℚ) ≠ 0 := by exact_mod_cast h
        rw [mul_assoc, mul_div_cancel₀ _ this]

/-! ## The elimination over rational vectors -/

/-- valid rows are valid on the cone -/
theorem ev_inConeOf {n : Nat} {V : Matrix} {a : Row} (ha : a.length = n) (hv : ∀ v ∈ V, dot a v ≤ 0)
    {x : Fin n → ℚ} (hx : Spec.InConeOf n V x) : ev n a x ≤ 0 := by
  obtain ⟨c, hc, rfl⟩ := hx
  rw [map_sum]
  apply Finset.sum_nonpos
  intro j _
  rw [map_smul, smul_eq_mul, vec_eq_toV, ev_row ha]
  exact mul_nonpos_of_nonneg_of_nonpos (hc j) (by exact_mod_cast hv _ (List.getElem_mem _))

theorem ev_inConeOf_zero {n : Nat} {V : Matrix} {a : Row} (ha : a.length = n) (hv : ∀ v ∈ V, dot a v = 0)
    {x : Fin n → ℚ} (hx : Spec.InConeOf n V x) : ev n a x = 0 := by
  obtain ⟨c, hc, rfl⟩ := hx
  rw [map_sum]
  apply Finset.sum_eq_zero
  intro j _
  rw [map_smul, smul_eq_mul, vec_eq_toV, ev_row ha, hv V[j] (List.getElem_mem _)]; simp

theorem Elim.inConeOf_iff {V : Matrix} {n : Nat} {E F0 : Matrix} (h : Elim V n E F0)
    (hE : ∀ e ∈ E, e.length = n) (hE0 : ∀ e ∈ E, ∀ v ∈ V, dot e v = 0) (x : Fin n → ℚ) :
    Spec.InConeOf n V x ↔ (∀ e ∈ E, ev n e x = 0) ∧ ∀ a ∈ F0, ev n a x ≤ 0 := by
  constructor
  · intro hx
    refine ⟨fun e he => ev_inConeOf_zero (hE e he) (hE0 e he) hx, fun a ha => ?_⟩
    have := (h.mem a).mp ha
    exact ev_inConeOf this.1 this.2.2.2.valid hx
  · rintro ⟨h1, h2⟩
    obtain ⟨N, r, hN, hr, heq⟩ := exists_int_multiple x
    have hN' : (0 : ℚ) < N := by exact_mod_cast hN
    have hd : ∀ a : Row, a.length = n → (dot a r : ℚ) = N * ev n a x := by
      intro a ha
      rw [← ev_row ha, heq, map_smul, smul_eq_mul]
    obtain ⟨c, hc, hsum⟩ := h.cone r hr
      (fun e he => by
        have := hd e (hE e he)
        rw [h1 e he, mul_zero] at this; exact_mod_cast this)
      (fun a ha => by
        have := hd a ((h.mem a).mp ha).1
        have h3 := mul_nonpos_of_nonneg_of_nonpos hN'.le (h2 a ha)
        rw [← this] at h3; exact_mod_cast h3)
    refine ⟨fun j => (N : ℚ)⁻¹ * c j, fun j => mul_nonneg (inv_nonneg.mpr hN'.le) (hc j), ?_⟩
    have : x = (N : ℚ)⁻¹ • toV n r := by rw [heq, smul_smul, inv_mul_cancel₀ hN'.ne', one_smul]
    rw [this, hsum, Finset.smul_sum]
    exact Finset.sum_congr rfl fun j _ => by rw [smul_smul]; rfl

theorem IsVInput.rect {d : Nat} {V : Matrix} (h : Spec.IsVInput d V) :
    Rect V V.length (d + 1) ∧ 0 < V.length ∧ ∃ v ∈ V, v.getD (d + 1 - 1) 0 ≠ 0 := by
  obtain ⟨v, hv, h0⟩ := h.vertex
  exact ⟨⟨rfl, h.size⟩, List.length_pos_of_mem hv, v, hv, by simpa using h0.ne'⟩

end Panda
