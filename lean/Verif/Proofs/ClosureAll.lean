import Verif.Proofs.Closure

/-! # A set of facets closed under rotation is complete, if no ridge is discarded -/

namespace Panda

open Cone

section
variable {V : Matrix} {d : Nat} {E R : Matrix} {T : List Nat} {maps : Maps} {tag : Tag}

/-- completeness of the search, if no ridge of the facets found is discarded -/
theorem search_complete_all (hV : Rect V V.length (d+1)) (hr : 2 ≤ Spec.rank (d+1) V) (hsp : Split V (d+1) E R T) {F0 : Matrix} (hel : Elim V (d+1) E F0)
    {P : ((Fin (d+1) → ℚ) →ₗ[ℚ] (Fin (d+1) → ℚ)) → Prop} (hacts : ActsOn (d+1) V E maps tag P) {S : Row → Prop}
    (hS : ∀ f, S f → NormalFacet (d+1) V E f) (hne : ∃ f, S f)
    (hcl : ∀ f, S f → ∃ rows fuel, rotation fuel V f maps tag = some (.ok rows) ∧ ∀ r ∈ rows, S r)
    (hkeep : ∀ f, S f → ∀ F1, Elim (onFacet V f) (d+1) (gaussSplit (onFacet V f)).1 F1 → ∀ r ∈ F1,
      isBadRow (eraseAll (zeroCols (gaussSplit (onFacet V f)).2.1) r) = false) :
    ∀ g, NormalFacet (d+1) V E g → ∃ s, S s ∧ Reach maps tag s g ∧ Reach maps tag g s := by
  classical
  have hn : 0 < d + 1 := Nat.succ_pos d
  have hC := hacts.closed hel
  have hinj := hacts.inj hsp hV hel
  -- the facets equivalent to an element of `S`
  let Sb : Matrix := F0.filter fun g => decide (∃ s, S s ∧ Reach maps tag s g)
  have hSb : ∀ g, g ∈ Sb ↔ NormalFacet (d+1) V E g ∧ ∃ s, S s ∧ Reach maps tag s g := by
    intro g; simp only [Sb, List.mem_filter, hel.mem, decide_eq_true_eq]
  have hlen : ∀ s ∈ Sb, s.length = d + 1 := fun s hs => ((hSb s).mp hs).1.1
  -- the property for the elements of `S`
  have hB : ∀ f, S f → LProp (d+1) V Sb f := by
    intro f hf a ha
    have hfn := hS f hf
    have hnzf := onFacet_nonzero hV hfn.1 hfn.2.2.2 hr
    obtain ⟨F1, ridges, rows, r1, r2, r3, r4, r5, r6⟩ := rotation_rows hsp hV hn hfn hnzf
    obtain ⟨res, fuel, hres, hresS⟩ := hcl f hf
    have hsub := rotation_represented hsp hV hel hacts r4 (fun ρ hρ => (r5 ρ hρ).1) hres
    have hsp1 := gaussSplit_spec (onFacet_rect hV f) (by obtain ⟨v, hv, -⟩ := hnzf; exact List.length_pos_of_mem hv) hn
    obtain ⟨t, ht⟩ := neighbours_gen hfn.1 hfn.2.2.2 hsp1 r1 (rows := rows) (Z := []) (fun r hr => by
      right
      obtain ⟨ρ, hρ, h⟩ := r6 r (by rw [r3]; exact List.mem_filter.mpr ⟨hr, by rw [hkeep f hf F1 r1 r hr]; rfl⟩)
      exact ⟨ρ, hρ, (r5 ρ hρ).1.1, h⟩) ha
    refine ⟨t, Gen.mono ?_ ht⟩
    rintro _ ⟨s, hs, rfl⟩
    refine ⟨s, ?_, rfl⟩
    rw [List.nil_append] at hs
    obtain ⟨r, hr, -, h2⟩ := hsub.cover s hs
    exact (hSb s).mpr ⟨(r5 s hs).1, r, hresS r hr, h2⟩
  -- the maps permute the list
  have hperm : ∀ m ∈ maps, ∀ L, Permutes (d+1) V L → (∀ a, NormalFacet (d+1) V E a → ∃ b g, applyMap m a tag = .ok b ∧
      NormalFacet (d+1) V E b ∧ 0 < g ∧ Composed (d+1) V L a b g) →
      ∀ s' ∈ Sb, ∃ s ∈ Sb, ∃ g : ℚ, 0 < g ∧ Composed (d+1) V L s s' g := by
    intro m hm L hP hact s' hs'
    let φ : Row → Row := fun z => match applyMap m z tag with | .ok w => w | _ => z
    have hφ : ∀ a b, applyMap m a tag = .ok b → φ a = b := by intro a b h; simp only [φ, h]
    have hmaps : Set.MapsTo φ (Sb.toFinset : Set Row) (Sb.toFinset : Set Row) := by
      intro a ha
      rw [Finset.mem_coe, List.mem_toFinset] at ha ⊢
      obtain ⟨h1, s, h3, h4⟩ := (hSb a).mp ha
      obtain ⟨b, g, q1, q2, q3, q4⟩ := hact a h1
      rw [hφ a b q1, hSb]
      exact ⟨q2, s, h3, h4.tail ⟨m, hm, q1⟩⟩
    have hinjφ : Set.InjOn φ (Sb.toFinset : Set Row) := by
      intro a ha b hb hab
      rw [Finset.mem_coe, List.mem_toFinset] at ha hb
      have ha1 := ((hSb a).mp ha).1
      have hb1 := ((hSb b).mp hb).1
      obtain ⟨a', -, q1, -⟩ := hact a ha1
      obtain ⟨b', -, q1', -⟩ := hact b hb1
      rw [hφ a a' q1, hφ b b' q1'] at hab
      exact hinj m hm a ((hel.mem a).mpr ha1) b ((hel.mem b).mpr hb1) (by rw [q1, q1', hab])
    have hsurj := Finset.surjOn_of_injOn_of_card_le φ hmaps hinjφ le_rfl
    obtain ⟨s, hs, hss⟩ := hsurj (by rw [Finset.mem_coe, List.mem_toFinset]; exact hs')
    rw [Finset.mem_coe, List.mem_toFinset] at hs
    obtain ⟨b, g, q1, q2, q3, q4⟩ := hact s ((hSb s).mp hs).1
    rw [hφ s b q1] at hss
    subst hss
    exact ⟨s, hs, g, q3, q4⟩
  -- the property for all of `Sb`
  have hCc : ∀ f ∈ Sb, LProp (d+1) V Sb f := by
    intro f hf
    obtain ⟨hfn, s, hs, hsf⟩ := (hSb f).mp hf
    have hfs : Reach maps tag f s := Reach.symm_of_perm hC hinj ((hel.mem s).mpr (hS s hs)) hsf
    have : ∀ x, Reach maps tag x s → NormalFacet (d+1) V E x → LProp (d+1) V Sb x := by
      intro x hx
      induction hx using Relation.ReflTransGen.head_induction_on with
      | refl => intro _; exact hB s hs
      | head hstep _ ih =>
        intro hxn
        obtain ⟨m, hm, hap⟩ := hstep
        obtain ⟨L, h1, h2, h3⟩ := hacts m hm
        obtain ⟨b, g, q1, q2, q3, q4⟩ := h3 _ hxn
        rw [hap] at q1; cases q1
        exact LProp.transport h2 (fun s hs => ⟨hlen s hs, ((hSb s).mp hs).1.2.2.2.valid⟩) (hperm m hm L h2 h3) hxn.1 hxn.2.2.2.valid q2.1 q3 q4 (ih q2)
    exact this f hfs hfn
  obtain ⟨f0, hf0⟩ := hne
  have hf0b : f0 ∈ Sb := (hSb f0).mpr ⟨hS f0 hf0, f0, hf0, .refl⟩
  -- conclusion
  intro g hg
  have hvg : ∀ v ∈ V, ev (d+1) v (toV (d+1) g) ≤ 0 := by
    intro v hv
    rw [ev_toV _ g v hg.1.le]
    exact_mod_cast hg.2.2.2.valid v hv
  have hmem : g ∈ Sb := by
    rcases connect_or (h := valRow V f0) (S := Sb.map (valRow V)) (f0 := valRow V f0)
        (N := fun y => ∃ a : Fin (d+1) → ℚ, (∀ v ∈ V, ev (d+1) v a ≤ 0) ∧ valL (d+1) V a = y)
        (valRow_length _ _) (fun s hs => by
          obtain ⟨s', -, rfl⟩ := List.mem_map.mp hs
          exact valRow_length _ _) (List.mem_map.2 ⟨f0, hf0b, rfl⟩) (by
          rintro f' hf' _ ⟨a, ha, rfl⟩
          obtain ⟨f, hf, rfl⟩ := List.mem_map.mp hf'
          obtain ⟨t, ht⟩ := hCc f hf a ha
          refine ⟨t, ?_⟩
          rw [CV.iff_Cn hlen] at ht
          rw [toV_valRow ((hSb f).mp hf).1.1]
          exact Gen.mono (by rintro _ ⟨s, hs, rfl⟩; exact ⟨s, List.mem_cons_of_mem _ hs, rfl⟩) ht) with h1 | h1
    · have hgen := h1 _ ⟨toV (d+1) g, hvg, rfl⟩
      refine facet_mem_of_gen hsp hV hg (S := Sb) (fun s hs => ?_) ?_
      · have := ((hSb s).mp hs).1
        exact ⟨this.1, this.2.2.2.valid, fun _ => this⟩
      · rw [CV.iff_Cn hlen]
        refine Gen.mono ?_ hgen
        rintro _ ⟨s, hs, rfl⟩
        rcases List.mem_cons.1 hs with rfl | hs
        · exact ⟨_, List.mem_map.2 ⟨f0, hf0b, rfl⟩, rfl⟩
        · exact ⟨s, hs, rfl⟩
    · have h2 := h1 _ ⟨toV (d+1) g, hvg, rfl⟩
      rw [Set.pair_eq_singleton, Submodule.mem_span_singleton] at h2
      obtain ⟨t, ht⟩ := h2
      have hf0n := hS f0 hf0
      rw [toV_valRow hf0n.1] at ht
      have : g = f0 := NormalFacet.unique hsp hV hf0n hg (t := t) (fun v hv => by
        obtain ⟨j, hj, rfl⟩ := List.getElem_of_mem hv
        have h3 := congrFun ht ⟨j, hj⟩
        rw [Pi.smul_apply, valL_apply, valL_apply, ev_toV _ f0 _ hf0n.1.le, ev_toV _ g _ hg.1.le, smul_eq_mul] at h3
        exact h3.symm)
      rw [this]; exact hf0b
  obtain ⟨-, s, hs, hsg⟩ := (hSb g).mp hmem
  exact ⟨s, hs, hsg, Reach.symm_of_perm hC hinj ((hel.mem s).mpr (hS s hs)) hsg⟩

end

end Panda
