import Verif.Proofs.SpecBridge

/-! # Irredundancy of the facet rows -/

namespace Panda

open Cone

section
variable {V : Matrix} {n : Nat} {E R : Matrix} {T : List Nat}

theorem Split.annih_zero_rat (h : Split V n E R T) (hV : Rect V V.length n) {x : Fin n → ℚ}
    (hz : ∀ e ∈ E, ∀ hc : firstNonzero e < n, x ⟨firstNonzero e, hc⟩ = 0)
    (hx : ∀ v ∈ V, ev n v x = 0) : x = 0 := by
  obtain ⟨N, r, hN, hr, heq⟩ := exists_int_multiple x
  have hN' : (N : ℚ) ≠ 0 := by exact_mod_cast hN.ne'
  have h0 : toV n r = 0 := by
    apply h.annih_zero hV hr
    · intro e he
      have hc := (h.E_lead e he).1
      have := congrFun heq ⟨firstNonzero e, hc⟩
      rw [Pi.smul_apply, hz e he hc, smul_zero] at this
      simp only [toV] at this; exact_mod_cast this
    · intro v hv
      have := ev_toV n r v hr.le
      rw [heq, map_smul, hx v hv, smul_zero] at this
      exact_mod_cast this.symm
  rw [h0] at heq
  exact (smul_eq_zero.mp heq.symm).resolve_left hN'

/-- two normalised facet rows that are multiples of each other on the input are equal -/
theorem NormalFacet.unique (h : Split V n E R T) (hV : Rect V V.length n) {a b : Row}
    (ha : NormalFacet n V E a) (hb : NormalFacet n V E b) {t : ℚ}
    (ht : ∀ v ∈ V, (dot b v : ℚ) = t * dot a v) : b = a := by
  obtain ⟨v, hv, hne⟩ := hb.2.2.2.strict
  have h1 := hb.2.2.2.valid v hv
  have h2 := ha.2.2.2.valid v hv
  have htpos : 0 < t := by
    have e := ht v hv
    have h1' : (dot b v : ℚ) < 0 := by exact_mod_cast lt_of_le_of_ne h1 hne
    have h2' : (dot a v : ℚ) ≤ 0 := by exact_mod_cast h2
    by_contra hcon
    push Not at hcon
    have := mul_nonneg_of_nonpos_of_nonpos hcon h2'
    linarith
  apply prim_eq hb.1 ha.1 hb.2.1 ha.2.1 htpos
  rw [← sub_eq_zero]
  apply h.annih_zero_rat hV
  · intro e he hc
    simp only [Pi.sub_apply, Pi.smul_apply, toV, hb.2.2.1 e he, ha.2.2.1 e he, Int.cast_zero, smul_zero, sub_zero]
  · intro v hv
    rw [map_sub, map_smul, ev_toV n b v hb.1.le, ev_toV n a v ha.1.le, ht v hv, smul_eq_mul, sub_self]

/-- not even modulo the equations are two facet rows proportional -/
theorem NormalFacet.not_proportional (h : Split V n E R T) (hV : Rect V V.length n) {a b : Row}
    (ha : NormalFacet n V E a) (hb : NormalFacet n V E b) {t : ℚ}
    (ht : toV n b - t • toV n a ∈ rowSpan n E) : b = a := by
  apply ha.unique h hV hb (t := t)
  intro v hv
  have := ev_rowSpan_zero h.E_len (fun e he => h.E_zero e he v hv) ht
  rw [map_sub, map_smul, ev_toV n b v hb.1.le, ev_toV n a v ha.1.le, smul_eq_mul, sub_eq_zero] at this
  exact this

/-- the trivial row `0 ≤ 1` -/
def trivialRow (d : Nat) : Row := List.replicate d 0 ++ [-1]

theorem trivialRow_length (d : Nat) : (trivialRow d).length = d + 1 := by simp [trivialRow]

theorem isBadRow_trivialRow (d : Nat) : isBadRow (trivialRow d) = true := by
  rw [isBadRow_iff]; simp [trivialRow]

theorem isBadRow_eq_trivialRow {d : Nat} {a : Row} (ha : a.length = d + 1) : isBadRow a = true ↔ a = trivialRow d := by
  rw [isBadRow_iff, ha]; simp only [Nat.add_sub_cancel, trivialRow]
  constructor
  · exact fun h => h.2
  · intro h; exact ⟨by rintro rfl; simp at ha, h⟩

theorem trivialRow_getD (d i : Nat) : (trivialRow d).getD i 0 = if i = d then -1 else 0 := by
  unfold trivialRow
  rw [List.getD_eq_getElem?_getD, List.getElem?_append]
  simp only [List.length_replicate]
  split
  · next h => rw [if_neg (by omega), List.getElem?_replicate]; simp [h]
  · next h =>
    by_cases h1 : i = d
    · subst h1; simp
    · rw [if_neg h1]
      have : i - d = i - d - 1 + 1 := by omega
      rw [this]; simp

theorem dot_trivialRow (d : Nat) (v : Row) : dot (trivialRow d) v = -(v.getD d 0) := by
  have h := dot_eq_sum (d + 1) (trivialRow d) v (trivialRow_length d).le
  rw [Finset.sum_eq_single (Fin.last d)] at h
  · simp only [toV, trivialRow_getD, Fin.val_last, if_true] at h
    have h2 : (dot (trivialRow d) v : ℚ) = ((-(v.getD d 0) : Int) : ℚ) := by rw [h]; push_cast; ring
    exact_mod_cast h2
  · intro i _ hi
    have : (i : Nat) ≠ d := by
      intro he; exact hi (Fin.ext (by simpa using he))
    simp only [toV, trivialRow_getD, this, if_false, Int.cast_zero, zero_mul, mul_zero]
  · simp

theorem ev_trivialRow (d : Nat) (x : Fin (d+1) → ℚ) : ev (d+1) (trivialRow d) x = - x (Fin.last d) := by
  rw [ev_apply, Finset.sum_eq_single (Fin.last d)]
  · simp only [toV, trivialRow_getD, Fin.val_last, if_true]; push_cast; ring
  · intro i _ hi
    have : (i : Nat) ≠ d := by
      intro he; exact hi (Fin.ext (by simpa using he))
    simp only [toV, trivialRow_getD, this, if_false, Int.cast_zero, zero_mul, mul_zero]
  · simp

theorem trivialRow_primitive (d : Nat) : Primitive (trivialRow d) := by
  rw [← primitiveRow_iff]
  intro k
  constructor
  · intro h
    have := h (-1) (by simp [trivialRow])
    have h2 : (k : Int) ∣ 1 := by simpa using this
    exact_mod_cast Int.eq_one_of_dvd_one (by omega) h2
  · rintro rfl x _; simp

end

/-- dropping a facet row leaves a point that violates it -/
theorem drop_facet {V : Matrix} {d : Nat} {E R : Matrix} {T : List Nat} (h : Split V (d+1) E R T)
    (hV : Spec.IsVInput d V) {F : Matrix} (hF : ∀ a ∈ F, NormalFacet (d+1) V E a)
    {f : Row} (hf : NormalFacet (d+1) V E f) (hbad : f ≠ trivialRow d) :
    ∃ p : Fin d → ℚ, Spec.Satisfies d E (F.filter fun a => decide (a ≠ f)) p ∧ 0 < Spec.value d f p := by
  have hrect := (IsVInput.rect hV).1
  obtain ⟨v0, hv0, hpos0⟩ := hV.vertex
  -- a tight vertex
  have htight : ∃ v ∈ V, dot f v = 0 ∧ 0 < v.getD d 0 := by
    by_contra hno
    push Not at hno
    obtain ⟨t, ht⟩ := hf.2.2.2.tight (trivialRow d) (trivialRow_length d) (by
      intro v hv h0
      rw [dot_trivialRow, le_antisymm (hno v hv h0) (hV.last v hv)]; simp)
    have hlead := last_not_mem h.echelon h.E_zero ⟨v0, hv0, by simpa using hpos0.ne'⟩
    -- so the trivial row is a normalised facet too
    have hval : ∀ v ∈ V, dot (trivialRow d) v ≤ 0 := fun v hv => by
      rw [dot_trivialRow]; have := hV.last v hv; omega
    have ht0 : t ≠ 0 := by
      rintro rfl
      have := ht v0 hv0
      rw [dot_trivialRow, zero_mul] at this
      have : -(v0.getD d 0) = 0 := by exact_mod_cast this
      omega
    have hnf : NormalFacet (d+1) V E (trivialRow d) := by
      refine ⟨trivialRow_length d, trivialRow_primitive d, ?_, hval, ⟨v0, hv0, by rw [dot_trivialRow]; omega⟩, ?_⟩
      · intro e he
        rw [trivialRow_getD, if_neg]
        have := hlead e he; simpa using this
      · intro b hb hz
        obtain ⟨s, hs⟩ := hf.2.2.2.tight b hb (by
          intro v hv h0
          apply hz v hv
          have := ht v hv
          rw [h0] at this; simp only [Int.cast_zero, mul_zero] at this; exact_mod_cast this)
        refine ⟨s / t, fun v hv => ?_⟩
        rw [hs v hv, ht v hv]; field_simp
    exact hbad (hf.unique h hrect hnf ht).symm
  obtain ⟨v2, hv2, h20, h2pos⟩ := htight
  obtain ⟨v1, hv1, h10⟩ := hf.2.2.2.strict
  have h1neg : dot f v1 < 0 := lt_of_le_of_ne (hf.2.2.2.valid v1 hv1) h10
  -- sum of the tight rows
  set S := V.filter (fun v => decide (dot f v = 0)) with hS
  set y : Fin (d+1) → ℚ := (S.map (toV (d+1))).sum with hy
  have hsum : ∀ a : Row, a.length = d + 1 → ev (d+1) a y = (S.map fun v => (dot a v : ℚ)).sum := by
    intro a ha
    rw [hy, map_list_sum, List.map_map]
    congr 1
    apply List.map_congr_left
    intro v _; exact ev_row ha v
  have hSV : ∀ v ∈ S, v ∈ V ∧ dot f v = 0 := by
    intro v hv; have := List.mem_filter.mp hv; exact ⟨this.1, by simpa using this.2⟩
  have hneg : ∀ a : Row, a.length = d + 1 → (∀ v ∈ V, dot a v ≤ 0) → (∃ v ∈ S, dot a v < 0) → ev (d+1) a y < 0 := by
    intro a ha hval ⟨v, hv, hlt⟩
    rw [hsum a ha]
    have hle : ∀ l : List Row, (∀ u ∈ l, dot a u ≤ 0) → ((l.map fun v => (dot a v : ℚ)).sum ≤ 0 ∧
        ((∃ u ∈ l, dot a u < 0) → (l.map fun v => (dot a v : ℚ)).sum < 0)) := by
      intro l
      induction l with
      | nil => intro _; simp
      | cons u l ih =>
        intro hl
        obtain ⟨i1, i2⟩ := ih (fun u hu => hl u (by simp [hu]))
        have hu : (dot a u : ℚ) ≤ 0 := by exact_mod_cast hl u (by simp)
        simp only [List.map_cons, List.sum_cons]
        refine ⟨by linarith, ?_⟩
        rintro ⟨u', hu', hlt'⟩
        rcases List.mem_cons.mp hu' with rfl | hu'
        · have : (dot a u' : ℚ) < 0 := by exact_mod_cast hlt'
          linarith
        · have := i2 ⟨u', hu', hlt'⟩
          linarith
    exact (hle S fun u hu => hval u (hSV u hu).1).2 ⟨v, hv, hlt⟩
  have hfy : ev (d+1) f y = 0 := by
    rw [hsum f hf.1]
    apply List.sum_eq_zero
    intro x hx
    obtain ⟨v, hv, rfl⟩ := List.mem_map.mp hx
    rw [(hSV v hv).2]; simp
  -- the other facets are strictly satisfied at `y`
  have hother : ∀ a ∈ F.filter (fun a => decide (a ≠ f)), ev (d+1) a y < 0 := by
    intro a ha
    obtain ⟨haF, hne⟩ := List.mem_filter.mp ha
    have hnf := hF a haF
    apply hneg a hnf.1 hnf.2.2.2.valid
    by_contra hno
    push Not at hno
    obtain ⟨t, ht⟩ := hf.2.2.2.tight a hnf.1 (by
      intro v hv h0
      exact le_antisymm (hnf.2.2.2.valid v hv) (hno v (List.mem_filter.mpr ⟨hv, by simpa using h0⟩)))
    exact (by simpa using hne : a ≠ f) (hf.unique h hrect hnf ht)
  have hlasty : ev (d+1) (trivialRow d) y < 0 := by
    apply hneg _ (trivialRow_length d)
    · intro v hv; rw [dot_trivialRow]; have := hV.last v hv; omega
    · exact ⟨v2, List.mem_filter.mpr ⟨hv2, by simpa using h20⟩, by rw [dot_trivialRow]; omega⟩
  -- a small step
  obtain ⟨ε, hε, hstep⟩ := exists_eps (K := ℚ)
    (insert (trivialRow d) (F.filter (fun a => decide (a ≠ f))).toFinset)
    (fun a => ev (d+1) a y) (fun a => - (ev (d+1) a (toV (d+1) v1)))
    (by
      intro a ha
      rcases Finset.mem_insert.mp ha with rfl | ha
      · exact hlasty
      · exact hother a (List.mem_toFinset.mp ha))
  have hstep := hstep ε hε.le le_rfl
  set x : Fin (d+1) → ℚ := y - ε • toV (d+1) v1 with hx
  have hxev : ∀ a : Row, ev (d+1) a x = ev (d+1) a y + ε * -(ev (d+1) a (toV (d+1) v1)) := by
    intro a; rw [hx, map_sub, map_smul, smul_eq_mul]; ring
  have hxlast : 0 < x (Fin.last d) := by
    have h1 := hstep _ (Finset.mem_insert_self _ _)
    rw [← hxev, ev_trivialRow] at h1; linarith
  set p : Fin d → ℚ := fun i => x i.castSucc / x (Fin.last d) with hp
  have hhom : hom d p = (x (Fin.last d))⁻¹ • x := by
    funext i
    refine Fin.lastCases ?_ (fun i => ?_) i
    · rw [hom_last, Pi.smul_apply, smul_eq_mul, inv_mul_cancel₀ hxlast.ne']
    · rw [hom_castSucc, Pi.smul_apply, smul_eq_mul, hp]; exact div_eq_inv_mul _ _
  refine ⟨p, ⟨?_, ?_⟩, ?_⟩
  · intro e he
    rw [value_eq, hhom, map_smul, hxev, hsum e (h.E_len e he), ev_row (h.E_len e he), h.E_zero e he v1 hv1]
    rw [List.sum_eq_zero]
    · simp
    · intro z hz
      obtain ⟨v, hv, rfl⟩ := List.mem_map.mp hz
      rw [h.E_zero e he v (hSV v hv).1]; simp
  · intro a ha
    rw [value_eq, hhom, map_smul, hxev, smul_eq_mul]
    have h1 := hstep a (Finset.mem_insert_of_mem (List.mem_toFinset.mpr ha))
    exact mul_nonpos_of_nonneg_of_nonpos (inv_nonneg.mpr hxlast.le) h1.le
  · rw [value_eq, hhom, map_smul, hxev, hfy, ev_row hf.1, smul_eq_mul, zero_add]
    have : (dot f v1 : ℚ) < 0 := by exact_mod_cast h1neg
    exact mul_pos (inv_pos.mpr hxlast) (mul_pos hε (by linarith))

end Panda
