import Verif.Proofs.Adjacency

/-! # `rotation` finds something

In dimension two and above, a facet has a ridge that is not discarded. -/

namespace Panda

open Cone

variable {V E R F0 : Matrix} {T : List Nat} {maps : Maps} {tag : Tag} {d : Nat} {P : ((Fin (d+1) → ℚ) →ₗ[ℚ] (Fin (d+1) → ℚ)) → Prop}

theorem gen_mem_span {n : Nat} {S : Matrix} {y : Fin V.length → ℚ} (h : CV n V S y) {z : Row} (hz : ∀ s ∈ S, s = z) :
    y ∈ Submodule.span ℚ {valL n V (toV n z)} := by
  induction h with
  | zero => exact Submodule.zero_mem _
  | add u y w hu hy _ ih =>
    obtain ⟨s, hs, rfl⟩ := hy
    rw [hz s hs]
    exact Submodule.add_mem _ (Submodule.smul_mem _ _ (Submodule.subset_span rfl)) ih

theorem rot_nonempty (hsp : Split V (d+1) E R T) (hV : Rect V V.length (d+1)) (hel : Elim V (d+1) E F0)
    (hacts : ActsOn (d+1) V E maps tag P) (hD : ThreeDim (d+1) V) {f : Row} (hf : NormalFacet (d+1) V E f) {m : Matrix} {fuel : Nat}
    (h : rotation fuel V f maps tag = some (.ok m)) : m ≠ [] := by
  rintro rfl
  have hnz := hD.onFacet hV hf.1 hf.2.2.2
  obtain ⟨F1, ridges, rows, r1, -, r3, r4, r5, r6⟩ := rotation_rows hsp hV (Nat.succ_pos d) hf hnz
  have hsub := rotation_represented hsp hV hel hacts r4 (fun ρ hρ => (r5 ρ hρ).1) h
  have hridges : ∀ r, r ∉ ridges := by
    intro r hr
    obtain ⟨ρ, hρ, -⟩ := r6 r hr
    obtain ⟨x, hx, -⟩ := hsub.cover ρ hρ
    cases hx
  have hbad : ∀ r ∈ F1, isBadRow (eraseAll (zeroCols (gaussSplit (onFacet V f)).2.1) r) = true := by
    intro r hr
    by_contra hb
    exact hridges r (by rw [r3]; exact List.mem_filter.mpr ⟨hr, by simpa using hb⟩)
  have hun := bad_unique (onFacet_rect hV f) (Nat.succ_pos d) hnz r1
  have hlen : 0 < (onFacet V f).length := by obtain ⟨v, hv, -⟩ := hnz; exact List.length_pos_of_mem hv
  have hsp' := gaussSplit_spec (onFacet_rect hV f) hlen (Nat.succ_pos d)
  have hz : ∃ z, ∀ s ∈ F1, s = z := by
    cases hF : F1 with
    | nil => exact ⟨[], by simp⟩
    | cons z l =>
      rw [hF] at hun hbad
      exact ⟨z, fun s hs => hun s hs z (by simp) (hbad s hs) (hbad z (by simp))⟩
  obtain ⟨z, hz⟩ := hz
  apply hD
  refine ⟨valL (d+1) V (toV (d+1) f), valL (d+1) V (toV (d+1) z), fun a ha => ?_⟩
  obtain ⟨t, ht⟩ := neighbours_gen hf.1 hf.2.2.2 hsp' r1 (rows := []) (Z := F1) (fun r hr => .inl hr) ha
  have h1 := gen_mem_span ht (z := z) (by simpa using hz)
  rw [← sub_add_cancel (valL (d+1) V a) (t • valL (d+1) V (toV (d+1) f))]
  refine Submodule.add_mem _ ?_ (Submodule.smul_mem _ _ (Submodule.subset_span (by simp)))
  exact Submodule.span_mono (by simp) h1

end Panda
