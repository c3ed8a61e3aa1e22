import Verif.Spec.Rows
import Verif.Proofs.SpecBridge

namespace Panda

theorem isGcd_pair (a b : Int) : Spec.IsGcd [a, b] (Int.gcd a b) := by
  refine ⟨by simp, ?_, ?_⟩
  · intro x hx
    simp only [List.mem_cons, List.not_mem_nil, or_false] at hx
    rcases hx with rfl | rfl
    · exact Int.gcd_dvd_left ..
    · exact Int.gcd_dvd_right ..
  · intro c hc
    exact Int.dvd_coe_gcd (hc a (by simp)) (hc b (by simp))

theorem isLcm_pair (a b : Int) : Spec.IsLcm [a, b] (Int.lcm a b) := by
  refine ⟨by simp, ?_, ?_⟩
  · intro x hx
    simp only [List.mem_cons, List.not_mem_nil, or_false] at hx
    rcases hx with rfl | rfl
    · exact Int.dvd_lcm_left ..
    · exact Int.dvd_lcm_right ..
  · intro c hc
    exact Int.coe_lcm_dvd (hc a (by simp)) (hc b (by simp))

theorem isGcd_row (r : Row) : Spec.IsGcd r (rowGcd r) := by
  rw [rowGcd_eq]
  refine ⟨by simp, fun x hx => listGcd_dvd hx, fun c hc => ?_⟩
  rw [← Int.natAbs_dvd]
  exact_mod_cast dvd_listGcd fun x hx => by
    rw [Int.natAbs_dvd]; exact hc x hx

theorem rowLcmLoop_spec : ∀ (r : Row) (v : Int), 0 < v → (∀ x ∈ r, x ≠ 0) →
    ∃ L, rowLcmLoop v r = .ok L ∧ 0 < L ∧ v ∣ L ∧ (∀ x ∈ r, x ∣ L) ∧ ∀ c, v ∣ c → (∀ x ∈ r, x ∣ c) → L ∣ c := by
  intro r
  induction r with
  | nil => intro v hv _; exact ⟨v, rfl, hv, dvd_rfl, by simp, fun c h _ => h⟩
  | cons x xs ih =>
    intro v hv hne
    have hx := hne x (by simp)
    have h1 : lcm x v = .ok (Int.lcm x v : Int) := lcm_eq x v (Or.inl hx)
    have hpos : (0 : Int) < (Int.lcm x v : Int) := by
      exact_mod_cast Int.lcm_pos hx hv.ne'
    obtain ⟨L, e, hL, hvL, hd, hmin⟩ := ih (Int.lcm x v : Int) hpos (fun y hy => hne y (by simp [hy]))
    refine ⟨L, by simp only [rowLcmLoop, h1, Outcome.bind]; exact e, hL, (Int.dvd_lcm_right ..).trans hvL, ?_, ?_⟩
    · intro y hy
      rcases List.mem_cons.mp hy with rfl | hy
      · exact (Int.dvd_lcm_left ..).trans hvL
      · exact hd y hy
    · intro c hvc hc
      exact hmin c (Int.coe_lcm_dvd (hc x (by simp)) hvc) (fun y hy => hc y (by simp [hy]))

theorem rowLcm_spec : ∀ (r : Row), (∀ x ∈ r, x ≠ 0) → ∃ L, rowLcm r = .ok L ∧ 0 < L ∧ Spec.IsLcm r L := by
  intro r
  induction r with
  | nil => intro _; exact ⟨1, rfl, by decide, by decide, by simp, fun c _ => one_dvd c⟩
  | cons x xs ih =>
    intro hne
    unfold rowLcm
    split
    · next h =>
      subst h
      obtain ⟨L, e, hL, h0, hd, hmin⟩ := ih (fun y hy => hne y (by simp [hy]))
      refine ⟨L, e, hL, h0, ?_, fun c hc => hmin c fun y hy => hc y (by simp [hy])⟩
      intro y hy
      rcases List.mem_cons.mp hy with rfl | hy
      · exact one_dvd L
      · exact hd y hy
    · next h =>
      have hx := hne x (by simp)
      obtain ⟨L, e, hL, hv, hd, hmin⟩ := rowLcmLoop_spec xs (x.natAbs : Int) (by omega) (fun y hy => hne y (by simp [hy]))
      refine ⟨L, e, hL, hL.le, ?_, fun c hc => hmin c ?_ fun y hy => hc y (by simp [hy])⟩
      · intro y hy
        rcases List.mem_cons.mp hy with rfl | hy
        · exact Int.natAbs_dvd.mp hv
        · exact hd y hy
      · exact Int.natAbs_dvd.mpr (hc x (by simp))

theorem lead_iff {e : Row} {k : Nat} : Spec.Lead e k ↔ firstNonzero e < e.length ∧ firstNonzero e = k := by
  constructor
  · rintro ⟨h0, hz⟩
    have hk : k < e.length := by
      by_contra hge
      apply h0
      simp [List.getD_eq_getElem?_getD, List.getElem?_eq_none (by omega : e.length ≤ k)]
    have := firstNonzero_eq hk h0 hz
    exact ⟨by omega, this⟩
  · rintro ⟨hl, rfl⟩
    exact ⟨firstNonzero_ne hl, fun i hi => firstNonzero_zero e i hi⟩

theorem reducedEchelon_iff {n : Nat} {E : Matrix} : Spec.ReducedEchelon n E ↔ Echelon n E := by
  constructor
  · rintro ⟨hs, hl, ha⟩
    refine ⟨hs, ?_, ?_⟩
    · intro e he
      obtain ⟨k, hk, hp⟩ := hl e he
      obtain ⟨h1, rfl⟩ := lead_iff.mp hk
      exact ⟨by rw [hs e he] at h1; exact h1, hp⟩
    · refine List.Pairwise.imp_of_mem ?_ ha
      intro e e' he he' h
      obtain ⟨k, hk, _⟩ := hl e he
      obtain ⟨k', hk', _⟩ := hl e' he'
      obtain ⟨_, rfl⟩ := lead_iff.mp hk
      obtain ⟨_, rfl⟩ := lead_iff.mp hk'
      exact ⟨(h _).1 hk, (h _).2 hk'⟩
  · rintro ⟨hs, hl, hi⟩
    refine ⟨hs, ?_, ?_⟩
    · intro e he
      exact ⟨firstNonzero e, lead_iff.mpr ⟨by rw [hs e he]; exact (hl e he).1, rfl⟩, (hl e he).2⟩
    · refine hi.imp ?_
      intro e e' h k
      refine ⟨fun hk => ?_, fun hk => ?_⟩
      · obtain ⟨_, rfl⟩ := lead_iff.mp hk; exact h.1
      · obtain ⟨_, rfl⟩ := lead_iff.mp hk; exact h.2

theorem lin_eq (n : Nat) (a : Row) (x : Fin n → ℚ) : Spec.lin n a x = ev n a x := by
  rw [ev_apply]; exact Finset.sum_congr rfl fun i _ => mul_comm _ _

/-- the pairing of two rational vectors is symmetric -/
theorem ev_span_zero {n : Nat} {E : Matrix} {x : Fin n → ℚ} (hx : ∀ e ∈ E, ev n e x = 0)
    {y : Fin n → ℚ} (hy : y ∈ rowSpan n E) : (∑ i, y i * x i) = 0 := by
  let f : Module.Dual ℚ (Fin n → ℚ) :=
    { toFun := fun y => ∑ i, y i * x i
      map_add' := fun a b => by simp [add_mul, Finset.sum_add_distrib]
      map_smul' := fun t a => by simp [Finset.mul_sum, mul_assoc] }
  have : rowSpan n E ≤ LinearMap.ker f := by
    apply Submodule.span_le.mpr
    rintro _ ⟨e, he, rfl⟩
    simp only [SetLike.mem_coe, LinearMap.mem_ker]
    have := hx e he
    rw [ev_apply] at this
    rw [← this]
    show (∑ i, toV n e i * x i) = _
    exact Finset.sum_congr rfl fun i _ => mul_comm (toV n e i) (x i)
  exact LinearMap.mem_ker.mp (this hy)

theorem ev_as_sum (n : Nat) (r : Row) (x : Fin n → ℚ) : ev n r x = ∑ i, toV n r i * x i := by
  rw [ev_apply]; exact Finset.sum_congr rfl fun i _ => mul_comm _ _

theorem normalize_spec {n : Nat} {E : Matrix} {row : Row} (hE : Echelon n E) (hl : row.length = n) :
    ∃ r, normalize row E = .ok r ∧ r.length = n ∧
      (∃ s : ℚ, 0 < s ∧ toV n r - s • toV n row ∈ rowSpan n E) ∧
      (∀ e ∈ E, r.getD (firstNonzero e) 0 = 0) ∧ (Primitive r ∨ ∀ x ∈ r, x = 0) := by
  obtain ⟨r, e, hr, ⟨s, hs, hsp⟩, hz, -⟩ := normalizeLoop_spec E row hE hl
  have hs' : (0 : ℚ) < s := by exact_mod_cast hs
  obtain ⟨g, hg, hgeq⟩ := toV_makePrimitive n r
  refine ⟨makePrimitive r, by simp only [normalize, e, Outcome.bind], by simp [hr], ⟨g * s, mul_pos hg hs', ?_⟩, ?_, ?_⟩
  · rw [hgeq, mul_smul, ← smul_sub]
    exact Submodule.smul_mem _ _ hsp
  · intro e he
    have hc := (hE.lead e he).1
    have := congrFun hgeq ⟨firstNonzero e, hc⟩
    simp only [toV, Pi.smul_apply, smul_eq_mul, hz e he, Int.cast_zero, mul_zero] at this
    exact_mod_cast this
  · by_cases h0 : ∃ x ∈ r, x ≠ 0
    · obtain ⟨_, _, _, h⟩ := makePrimitive_spec r
      exact Or.inl (h h0).1
    · right
      push Not at h0
      obtain ⟨g', hg', heq, _⟩ := makePrimitive_spec r
      intro x hx
      have : x * g' ∈ r := by rw [heq]; exact List.mem_map.mpr ⟨x, hx, rfl⟩
      exact (mul_eq_zero.mp (h0 _ this)).resolve_right hg'.ne'

end Panda
