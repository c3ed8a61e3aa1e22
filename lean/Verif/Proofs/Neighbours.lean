import Verif.Proofs.Rotation
import Verif.Proofs.RowsBridge
import Verif.Props.Facets

/-! # The neighbours of a facet -/

namespace Panda

open Cone

theorem rotateLoop_mono {V : Matrix} {f : Row} {x : Outcome Row} : ∀ (fuel k : Nat) (ridge : Row) (df dr : Int), fuel ≤ k →
    rotateLoop V f fuel ridge df dr = some x → rotateLoop V f k ridge df dr = some x := by
  intro fuel
  induction fuel with
  | zero => intro k ridge df dr _ h; simp [rotateLoop] at h
  | succ fuel ih =>
    intro k ridge df dr hk h
    obtain ⟨k, rfl⟩ : ∃ k', k = k' + 1 := ⟨k - 1, by omega⟩
    rw [rotateLoop] at h ⊢
    cases hn : nearestVertex V (rotateRow f ridge df dr) with
    | ok v =>
      rw [hn] at h
      simp only [Run.bind] at h ⊢
      by_cases h0 : distance (rotateRow f ridge df dr) v = 0
      · rw [if_pos h0] at h ⊢; exact h
      · rw [if_neg h0] at h ⊢
        exact ih k _ _ _ (by omega) h
    | thrown => rw [hn] at h; exact h
    | ub => rw [hn] at h; exact h

theorem violated_le (V : Matrix) (ρ : Row) : violated V ρ ≤ V.length := List.countP_le_length

section
variable {V : Matrix} {n : Nat} {E R : Matrix} {T : List Nat}

/-- the rows on a facet -/
abbrev onFacet (V : Matrix) (f : Row) : Matrix := verticesWithZeroDistance V f

theorem mem_onFacet {V : Matrix} {f v : Row} : v ∈ onFacet V f ↔ v ∈ V ∧ dot f v = 0 := by
  unfold onFacet verticesWithZeroDistance
  rw [List.mem_filter, decide_eq_true_eq]
  unfold distance
  rw [dot_comm]
  constructor <;> rintro ⟨h1, h2⟩ <;> exact ⟨h1, by omega⟩

/-- subtracting rational multiples of rows, as an integer row -/
theorem exists_combination {n : Nat} {b ρ : Row} (hb : b.length = n) (hρ : ρ.length = n) (t : ℚ) :
    ∃ (N : ℚ) (x : Row), 0 < N ∧ x.length = n ∧ ∀ v, (dot x v : ℚ) = N * (dot b v - t * dot ρ v) := by
  obtain ⟨N, x, hN, hx, heq⟩ := exists_int_multiple (n := n) (toV n b - t • toV n ρ)
  refine ⟨N, x, by exact_mod_cast hN, hx, fun v => ?_⟩
  rw [← ev_toV n x v hx.le, heq, map_smul, map_sub, map_smul, ev_toV n b v hb.le, ev_toV n ρ v hρ.le]
  rfl

/-- the result of rotating a facet around a ridge is a facet -/
theorem facetP_rotated {f r ρ : Row} (hf : FacetP n V f) (hr : FacetP n (onFacet V f) r) (hρl : ρ.length = n)
    (hrot : Rotated f r ρ) (hval : ∀ v ∈ V, dot ρ v ≤ 0) (hv : ∃ v ∈ V, dot ρ v = 0 ∧ dot f v < 0) : FacetP n V ρ := by
  obtain ⟨c, l, hc, hcl⟩ := hrot
  have hon : ∀ v, dot f v = 0 → c * (dot ρ v : ℚ) = dot r v := fun v h => by rw [hcl v, h]; simp
  refine ⟨hval, ?_, ?_⟩
  · obtain ⟨u, hu, hne⟩ := hr.strict
    obtain ⟨hu1, hu2⟩ := mem_onFacet.mp hu
    refine ⟨u, hu1, fun h0 => hne ?_⟩
    have := hon u hu2
    rw [h0, Int.cast_zero, mul_zero] at this
    exact_mod_cast this.symm
  · intro b hb hbz
    obtain ⟨s, hs⟩ := hr.tight b hb (fun u hu h0 => by
      obtain ⟨hu1, hu2⟩ := mem_onFacet.mp hu
      apply hbz u hu1
      have := hon u hu2
      rw [h0, Int.cast_zero] at this
      have := (mul_eq_zero.mp this).resolve_left hc.ne'
      exact_mod_cast this)
    obtain ⟨N, x, hN, hx, hxv⟩ := exists_combination hb hρl (s * c)
    obtain ⟨t, ht⟩ := hf.tight x hx (fun u hu h0 => by
      have h1 := hs u (mem_onFacet.mpr ⟨hu, h0⟩)
      have h2 := hxv u
      rw [h1, ← hon u h0] at h2
      have : (dot x u : ℚ) = 0 := by rw [h2]; ring
      exact_mod_cast this)
    obtain ⟨v, hv, hv0, hvf⟩ := hv
    have hvf' : (dot f v : ℚ) ≠ 0 := by exact_mod_cast hvf.ne
    have ht0 : t = 0 := by
      have h1 := ht v hv
      rw [hxv v, hv0, hbz v hv hv0] at h1
      simp at h1
      exact h1.resolve_right (by exact_mod_cast hvf')
    refine ⟨s * c, fun u hu => ?_⟩
    have h1 := ht u hu
    rw [ht0, zero_mul, hxv u] at h1
    have := (mul_eq_zero.mp h1).resolve_left hN.ne'
    linarith

theorem onFacet_rect (hV : Rect V V.length n) (f : Row) : Rect (onFacet V f) (onFacet V f).length n :=
  ⟨rfl, fun v hv => hV.2 v (mem_onFacet.mp hv).1⟩

/-- rotating a normalised facet around one of its ridges -/
theorem rotate_ok (hsp : Split V n E R T) (hV : Rect V V.length n) (hn : 0 < n) {f : Row}
    (hf : NormalFacet n V E f) (hne : 0 < (onFacet V f).length)
    {v0 : Row} (hv0 : v0 ∈ V) (hfv0 : dot f v0 < 0) {r : Row} (hr : NormalFacet n (onFacet V f) (gaussSplit (onFacet V f)).1 r) :
    ∃ ρ, (∀ fuel, V.length < fuel → rotate fuel V v0 f r = some (.ok ρ)) ∧ NormalFacet n V E ρ ∧ Rotated f r ρ ∧ ρ ≠ f := by
  have hsp' := gaussSplit_spec (onFacet_rect hV f) hne hn
  obtain ⟨ρ, h1, h2, h3, h4, h5, h6, h7⟩ := rotateLoop_spec (V := V) (n := n) (r := r) hf.1 hf.2.2.2.valid
    (fun v hv h0 => hr.2.2.2.valid v (mem_onFacet.mpr ⟨hv, h0⟩)) (V.length + 1) r v0 hv0 hfv0 hr.1
    ⟨1, 0, one_pos, fun v => by ring⟩ (Nat.lt_succ_of_le (violated_le V _))
  have hfac := facetP_rotated hf.2.2.2 hr.2.2.2 h2 h3 h4 h5
  refine ⟨ρ, fun fuel hfu => rotateLoop_mono _ _ _ _ _ (by omega) h1, ⟨h2, ?_, ?_, hfac⟩, h3, ?_⟩
  · apply h6
    obtain ⟨v, hv, hne⟩ := hfac.strict
    by_contra hcon
    push Not at hcon
    apply hne
    have := ev_toV n ρ v h2.le
    rw [(toV_eq_zero_iff n ρ h2).mpr hcon, map_zero] at this
    exact_mod_cast this.symm
  · intro e he
    apply h7 _ (hf.2.2.1 e he)
    obtain ⟨e', he', heq⟩ := (hsp'.lead_iff (onFacet_rect hV f) (firstNonzero e)).mpr
      ⟨e, hsp.E_len e he, fun v hv => hsp.E_zero e he v (mem_onFacet.mp hv).1, rfl, (hsp.E_lead e he).1⟩
    rw [← heq]; exact hr.2.2.1 e' he'
  · rintro rfl
    obtain ⟨v, hv, h0, hlt⟩ := h5
    omega

theorem rotateAll_ok {v0 f : Row} {fuel0 : Nat} : ∀ {ridges : Matrix},
    (∀ r ∈ ridges, ∃ ρ, ∀ fuel, fuel0 < fuel → rotate fuel V v0 f r = some (.ok ρ)) →
    ∃ rows, (∀ fuel, fuel0 < fuel → rotateAll fuel V v0 f ridges = some (.ok rows)) ∧
      (∀ ρ ∈ rows, ∃ r ∈ ridges, ∀ fuel, fuel0 < fuel → rotate fuel V v0 f r = some (.ok ρ)) ∧
      ∀ r ∈ ridges, ∃ ρ ∈ rows, ∀ fuel, fuel0 < fuel → rotate fuel V v0 f r = some (.ok ρ)
  | [], _ => ⟨[], fun _ _ => rfl, by simp, by simp⟩
  | r :: rs, h => by
    obtain ⟨ρ, hρ⟩ := h r (by simp)
    obtain ⟨rows, h1, h2, h3⟩ := rotateAll_ok (ridges := rs) fun r hr => h r (by simp [hr])
    refine ⟨ρ :: rows, fun fuel hf => ?_, ?_, ?_⟩
    · simp only [rotateAll, hρ fuel hf, Run.bind, h1 fuel hf]
    · intro ρ' hρ'
      rcases List.mem_cons.mp hρ' with rfl | hρ'
      · exact ⟨r, by simp, hρ⟩
      · obtain ⟨r', hr', h'⟩ := h2 ρ' hρ'; exact ⟨r', by simp [hr'], h'⟩
    · intro r' hr'
      rcases List.mem_cons.mp hr' with rfl | hr'
      · exact ⟨ρ, by simp, hρ⟩
      · obtain ⟨ρ', hρ', h'⟩ := h3 r' hr'; exact ⟨ρ', by simp [hρ'], h'⟩

end

end Panda
