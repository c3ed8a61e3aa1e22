import Verif.Proofs.Search

/-! # What `rotation` computes -/

namespace Panda

open Cone

section
variable {V : Matrix} {n : Nat} {E R : Matrix} {T : List Nat}

theorem furthest_strict {f : Row} (hf : FacetP n V f) : ∃ v0 ∈ V, furthestVertex V f = .ok v0 ∧ dot f v0 < 0 := by
  obtain ⟨w, hw, hne⟩ := hf.strict
  obtain ⟨v0, h1, h2, h3⟩ := furthestVertex_ok (ineq := f) (List.ne_nil_of_mem hw)
  have h4 := h3 w hw
  have h5 := hf.valid w hw
  exact ⟨v0, h1, h2, by omega⟩

theorem trivialRow_valid {d : Nat} (hV : ∀ v ∈ V, 0 ≤ v.getD d 0) : ∀ v ∈ V, dot (trivialRow d) v ≤ 0 := by
  intro v hv; rw [dot_trivialRow]; have := hV v hv; omega

/-- the rows `rotation` finds before forming classes -/
theorem rotation_rows (hsp : Split V n E R T) (hV : Rect V V.length n) (hn : 0 < n) {f : Row} (hf : NormalFacet n V E f)
    (hnz : ∃ v ∈ onFacet V f, ∃ x ∈ v, x ≠ 0) :
    ∃ F0 ridges rows, Elim (onFacet V f) n (gaussSplit (onFacet V f)).1 F0 ∧ getRidges V f = .ok ridges ∧
      ridges = F0.filter (fun a => !(isBadRow (eraseAll (zeroCols (gaussSplit (onFacet V f)).2.1) a))) ∧
      (∀ fuel maps tag, V.length < fuel → rotation fuel V f maps tag = classes fuel rows maps tag) ∧
      (∀ ρ ∈ rows, NormalFacet n V E ρ ∧ ρ ≠ f ∧ ∃ r ∈ ridges, Rotated f r ρ) ∧
      ∀ r ∈ ridges, ∃ ρ ∈ rows, Rotated f r ρ := by
  have hlen : 0 < (onFacet V f).length := by
    obtain ⟨v, hv, -⟩ := hnz; exact List.length_pos_of_mem hv
  obtain ⟨F0, hel, heq⟩ := fme_elim (onFacet_rect hV f) hlen hn hnz
  obtain ⟨v0, hv0, hfur, hneg⟩ := furthest_strict hf.2.2.2
  have hok : ∀ r ∈ F0, _ := fun r hr => rotate_ok hsp hV hn hf hlen hv0 hneg ((hel.mem r).mp hr)
  obtain ⟨rows, r1, r2, r3⟩ := rotateAll_ok (V := V) (v0 := v0) (f := f) (fuel0 := V.length)
    (ridges := F0.filter (fun a => !(isBadRow (eraseAll (zeroCols (gaussSplit (onFacet V f)).2.1) a)))) (fun r hr => by
      obtain ⟨ρ, hρ, -⟩ := hok r (List.mem_of_mem_filter hr); exact ⟨ρ, hρ⟩)
  have huniq : ∀ r ∈ F0, ∀ ρ, (∀ fuel, V.length < fuel → rotate fuel V v0 f r = some (.ok ρ)) →
      NormalFacet n V E ρ ∧ Rotated f r ρ ∧ ρ ≠ f := by
    intro r hr ρ hρ
    obtain ⟨ρ', h1, h2⟩ := hok r hr
    have := (hρ _ (Nat.lt_succ_self _)).symm.trans (h1 _ (Nat.lt_succ_self _))
    cases this
    exact h2
  refine ⟨F0, _, rows, hel, heq, rfl, ?_, ?_, ?_⟩
  · intro fuel maps tag hfu
    have heq' : getRidges V f = _ := heq
    simp only [rotation, hfur, heq', Run.bind, r1 fuel hfu]
  · intro ρ hρ
    obtain ⟨r, hr, h⟩ := r2 ρ hρ
    obtain ⟨h1, h2, h3⟩ := huniq r (List.mem_of_mem_filter hr) ρ h
    exact ⟨h1, h3, r, hr, h2⟩
  · intro r hr
    obtain ⟨ρ, hρ, h⟩ := r3 r hr
    exact ⟨ρ, hρ, (huniq r (List.mem_of_mem_filter hr) ρ h).2.1⟩

theorem exists_nonzero_of_rank {W : Matrix} (hW : ∀ v ∈ W, v.length = n) (h : 0 < Spec.rank n W) : ∃ v ∈ W, ∃ x ∈ v, x ≠ 0 := by
  by_contra hcon
  push Not at hcon
  have : Spec.span n W = ⊥ := by
    rw [Spec.span, Submodule.span_eq_bot]
    rintro _ ⟨s, hs, rfl⟩
    exact (toV_eq_zero_iff n s (hW s hs)).mpr (hcon s hs)
  rw [Spec.rank, this, finrank_bot] at h
  exact absurd h (lt_irrefl 0)

theorem onFacet_nonzero (hV : Rect V V.length n) {f : Row} (hfl : f.length = n) (hf : FacetP n V f) (hr : 2 ≤ Spec.rank n V) :
    ∃ v ∈ onFacet V f, ∃ x ∈ v, x ≠ 0 := by
  have h := (isFacet_iff.mpr ⟨hfl, hf⟩).2.2
  have h2 : V.filter (fun v => decide (Spec.ip f v = 0)) = onFacet V f := by
    unfold onFacet verticesWithZeroDistance
    apply List.filter_congr
    intro v _
    rw [ip_eq_dot, distance, dot_comm v f]
    simp
  rw [h2] at h
  exact exists_nonzero_of_rank (onFacet_rect hV f).2 (by omega)

/-- a facet other than the trivial one contains a vertex -/
theorem onFacet_vertex {d : Nat} (hI : Spec.IsVInput d V) (hsp : Split V (d+1) E R T) {f : Row}
    (hf : NormalFacet (d+1) V E f) (hbad : f ≠ trivialRow d) : Spec.IsVInput d (onFacet V f) := by
  have hrect := (IsVInput.rect hI).1
  refine ⟨fun v hv => hI.size v (mem_onFacet.mp hv).1, fun v hv => hI.last v (mem_onFacet.mp hv).1, ?_⟩
  by_contra hcon
  push Not at hcon
  have hz : ∀ v ∈ V, dot f v = 0 → dot (trivialRow d) v = 0 := by
    intro v hv h0
    rw [dot_trivialRow]
    have h1 := hcon v (mem_onFacet.mpr ⟨hv, h0⟩)
    have h2 := hI.last v hv
    omega
  obtain ⟨t, ht⟩ := hf.2.2.2.tight (trivialRow d) (trivialRow_length d) hz
  obtain ⟨v, hv, hpos⟩ := hI.vertex
  have hstrict : dot (trivialRow d) v ≠ 0 := by rw [dot_trivialRow]; omega
  have ht0 : t ≠ 0 := by
    rintro rfl
    have := ht v hv
    rw [zero_mul] at this
    exact hstrict (by exact_mod_cast this)
  have hnf : NormalFacet (d+1) V E (trivialRow d) := by
    refine ⟨trivialRow_length d, trivialRow_primitive d, ?_, trivialRow_valid hI.last, ⟨v, hv, hstrict⟩, ?_⟩
    · intro e he
      rw [trivialRow_getD, if_neg]
      exact last_not_mem hsp.echelon (fun e he v hv => hsp.E_zero e he v hv) (IsVInput.rect hI).2.2 e he
    · intro b hb hbz
      obtain ⟨w, hw⟩ := hf.2.2.2.tight b hb (fun v hv h1 => hbz v hv (hz v hv h1))
      refine ⟨w / t, fun v hv => ?_⟩
      rw [hw v hv, ht v hv]; field_simp
  exact hbad (hf.unique hsp hrect hnf (t := t) ht).symm

/-- a facet has a normalised form -/
theorem FacetP.exists_normal (hsp : Split V n E R T) {a : Row} (hl : a.length = n) (hf : FacetP n V a) :
    ∃ r, normalize a E = .ok r ∧ NormalFacet n V E r ∧ ∃ s : ℚ, 0 < s ∧ (∀ v ∈ V, (dot r v : ℚ) = s * dot a v) ∧
      toV n r - s • toV n a ∈ rowSpan n E := by
  obtain ⟨r, hnorm, hr, ⟨s, hs, hsp'⟩, hz, hprim⟩ := normalize_spec hsp.echelon hl
  have hval : ∀ v ∈ V, (dot r v : ℚ) = s * dot a v := by
    intro v hv
    have := ev_rowSpan_zero hsp.E_len (fun e he => hsp.E_zero e he v hv) hsp'
    rw [map_sub, map_smul, ev_toV _ r v hr.le, ev_toV _ a v hl.le, smul_eq_mul, sub_eq_zero] at this
    exact this
  refine ⟨r, hnorm, ?_, s, hs, hval, hsp'⟩
  obtain ⟨v, hv, hne⟩ := hf.strict
  refine ⟨hr, ?_, hz, ?_, ⟨v, hv, ?_⟩, ?_⟩
  · rcases hprim with h | h
    · exact h
    · exfalso
      have h0 : dot r v = 0 := by
        have h6 := (toV_eq_zero_iff n r hr).mpr h
        have := ev_toV n r v hr.le
        rw [h6, map_zero] at this; exact_mod_cast this.symm
      have := hval v hv
      rw [h0] at this
      have h7 : (dot a v : ℚ) ≠ 0 := by exact_mod_cast hne
      exact mul_ne_zero hs.ne' h7 (by simpa using this.symm)
  · intro v hv
    have h6 : (dot a v : ℚ) ≤ 0 := by exact_mod_cast hf.valid v hv
    have : (dot r v : ℚ) ≤ 0 := by rw [hval v hv]; exact mul_nonpos_of_nonneg_of_nonpos hs.le h6
    exact_mod_cast this
  · have h7 : (dot a v : ℚ) ≠ 0 := by exact_mod_cast hne
    have : (dot r v : ℚ) ≠ 0 := by rw [hval v hv]; exact mul_ne_zero hs.ne' h7
    exact_mod_cast this
  · intro b hb hbz
    obtain ⟨t, ht⟩ := hf.tight b hb (fun v hv h0 => hbz v hv (by
      have := hval v hv
      rw [h0] at this; simp only [Int.cast_zero, mul_zero] at this; exact_mod_cast this))
    exact ⟨t / s, fun v hv => by rw [ht v hv, hval v hv]; field_simp⟩

/-- the specification's normalised facets -/
theorem normalisedFacet_iff (hsp : Split V n E R T) {a : Row} : Spec.NormalisedFacet n V E a ↔ NormalFacet n V E a := by
  unfold Spec.NormalisedFacet NormalFacet
  rw [isFacet_iff, primitiveRow_iff]
  have : (∀ e ∈ E, ∀ k, Spec.Lead e k → a.getD k 0 = 0) ↔ ∀ e ∈ E, a.getD (firstNonzero e) 0 = 0 := by
    constructor
    · intro h e he
      exact h e he _ (lead_iff.mpr ⟨by rw [hsp.E_len e he]; exact (hsp.E_lead e he).1, rfl⟩)
    · intro h e he k hk
      obtain ⟨-, rfl⟩ := lead_iff.mp hk
      exact h e he
  rw [this]
  tauto

/-- a facet `g` of the facet `f` is a rotation of `f` around its normalised form -/
theorem rotated_unique (hsp : Split V n E R T) (hV : Rect V V.length n) {f g r ρ : Row} (hf : NormalFacet n V E f)
    (hg : NormalFacet n V E g) (hgf : g ≠ f) (hρ : NormalFacet n V E ρ) (hρf : ρ ≠ f) (hrot : Rotated f r ρ) {s : ℚ} (hs : 0 < s)
    (hr : ∀ v ∈ V, dot f v = 0 → (dot r v : ℚ) = s * dot g v) : ρ = g := by
  obtain ⟨c, l, hc, hcl⟩ := hrot
  -- on the facet, `c ρ = s g`
  have h1 : ∀ v ∈ V, dot f v = 0 → c * (dot ρ v : ℚ) = s * dot g v := by
    intro v hv h0
    rw [hcl v, h0, ← hr v hv h0]; simp
  obtain ⟨t, ht⟩ := FacetP.tight_rat hf.1 hf.2.2.2 (x := s • toV n g - c • toV n ρ) (fun v hv h0 => by
    rw [map_sub, map_smul, map_smul, ev_toV n g v hg.1.le, ev_toV n ρ v hρ.1.le, smul_eq_mul, smul_eq_mul, h1 v hv h0, sub_self])
  have h2 : ∀ v ∈ V, s * (dot g v : ℚ) = c * dot ρ v + t * dot f v := by
    intro v hv
    obtain ⟨j, hj, rfl⟩ := List.getElem_of_mem hv
    have := congrFun ht ⟨j, hj⟩
    rw [map_sub, map_smul, map_smul] at this
    simp only [Pi.sub_apply, Pi.smul_apply, valL_apply, ev_toV n g _ hg.1.le, ev_toV n ρ _ hρ.1.le, ev_toV n f _ hf.1.le, smul_eq_mul] at this
    have h' : s * (dot g V[j] : ℚ) - c * dot ρ V[j] = t * dot f V[j] := this
    linarith
  rcases lt_trichotomy t 0 with ht0 | ht0 | ht0
  · exfalso
    -- `c ρ = s g - t f`, so `f` vanishes where `ρ` does
    obtain ⟨u, hu⟩ := hρ.2.2.2.tight f hf.1 (fun v hv h0 => by
      have h3 := h2 v hv
      rw [h0, Int.cast_zero, mul_zero, zero_add] at h3
      have h4 : (dot g v : ℚ) ≤ 0 := by exact_mod_cast hg.2.2.2.valid v hv
      have h5 : (dot f v : ℚ) ≤ 0 := by exact_mod_cast hf.2.2.2.valid v hv
      have h6 : s * (dot g v : ℚ) ≤ 0 := mul_nonpos_of_nonneg_of_nonpos hs.le h4
      have h7 : 0 ≤ t * (dot f v : ℚ) := mul_nonneg_of_nonpos_of_nonpos ht0.le h5
      have h8 : t * (dot f v : ℚ) = 0 := by linarith
      exact_mod_cast (mul_eq_zero.mp h8).resolve_left ht0.ne)
    exact hρf (hρ.unique hsp hV hf hu).symm
  · rw [ht0] at h2
    apply hg.unique hsp hV hρ (t := s / c)
    intro v hv
    have := h2 v hv
    rw [zero_mul, add_zero] at this
    field_simp; linarith
  · exfalso
    obtain ⟨u, hu⟩ := hg.2.2.2.tight f hf.1 (fun v hv h0 => by
      have h3 := h2 v hv
      rw [h0, Int.cast_zero, mul_zero] at h3
      have h4 : (dot ρ v : ℚ) ≤ 0 := by exact_mod_cast hρ.2.2.2.valid v hv
      have h5 : (dot f v : ℚ) ≤ 0 := by exact_mod_cast hf.2.2.2.valid v hv
      have h6 : c * (dot ρ v : ℚ) ≤ 0 := mul_nonpos_of_nonneg_of_nonpos hc.le h4
      have h7 : t * (dot f v : ℚ) ≤ 0 := mul_nonpos_of_nonneg_of_nonpos ht0.le h5
      have h8 : t * (dot f v : ℚ) = 0 := by linarith
      exact_mod_cast (mul_eq_zero.mp h8).resolve_left ht0.ne')
    exact hgf (hg.unique hsp hV hf hu).symm

end

end Panda
