import Verif.Proofs.Neighbours

/-! # Connectedness of the search graph

The rows found by the search generate, together with the trivial row, all valid inequalities; see
`connect`.  Everything is expressed in terms of the values that a row takes on the input rows, which
disposes of the equations. -/

namespace Panda

open Cone

/-- the cone generated by the rows -/
abbrev Cn (m : Nat) (S : Matrix) : (Fin m → ℚ) → Prop := Gen ℚ (fun y => ∃ s ∈ S, toV m s = y)

theorem Cn.of_inConeOf {m : Nat} {S : Matrix} {x : Fin m → ℚ} (h : Spec.InConeOf m S x) : Cn m S x := by
  obtain ⟨c, hc, rfl⟩ := h
  have : ∀ s : Finset (Fin S.length), Cn m S (∑ j ∈ s, c j • Spec.vec m S[j]) := by
    intro s
    induction s using Finset.induction with
    | empty => simpa using Gen.zero
    | insert j s hj ih =>
      rw [Finset.sum_insert hj]
      exact Gen.add _ _ _ (hc j) ⟨S[j], List.getElem_mem _, rfl⟩ ih
  exact this Finset.univ

theorem Cn.mem_span {m : Nat} {S : Matrix} {x : Fin m → ℚ} (h : Cn m S x) : x ∈ rowSpan m S := by
  induction h with
  | zero => exact Submodule.zero_mem _
  | add t a b _ ha _ ih =>
    obtain ⟨s, hs, rfl⟩ := ha
    exact Submodule.add_mem _ (Submodule.smul_mem _ _ (Submodule.subset_span ⟨s, hs, rfl⟩)) ih

/-- If every element of `N` is, for every `f ∈ S`, a multiple of `f` plus an element of the cone generated by
`h` and `S`, then it already is in that cone, unless `N` is spanned by `h` and some element of `S`. -/
theorem connect_or {m : Nat} {h : Row} {S : Matrix} (hh : h.length = m) (hS : ∀ s ∈ S, s.length = m) {f0 : Row} (hf0 : f0 ∈ S)
    {N : (Fin m → ℚ) → Prop}
    (hL : ∀ f ∈ S, ∀ a, N a → ∃ t : ℚ, Cn m (h :: S) (a - t • toV m f)) :
    (∀ a, N a → Cn m (h :: S) a) ∨ ∀ a, N a → a ∈ Submodule.span ℚ {toV m h, toV m f0} := by
  by_cases hD : ∀ a, N a → a ∈ Submodule.span ℚ {toV m h, toV m f0}
  · exact Or.inr hD
  left
  have hspan : ∀ a, N a → a ∈ rowSpan m (h :: S) := by
    intro a ha
    obtain ⟨t, ht⟩ := hL f0 hf0 a ha
    have h1 := ht.mem_span
    have h2 : toV m f0 ∈ rowSpan m (h :: S) := Submodule.subset_span ⟨f0, by simp [hf0], rfl⟩
    have := Submodule.add_mem _ h1 (Submodule.smul_mem _ t h2)
    simpa using this
  have hK : ∀ s ∈ h :: S, s.length = m := by
    intro s hs; rcases List.mem_cons.mp hs with rfl | hs
    · exact hh
    · exact hS s hs
  have hnz : ∃ v ∈ h :: S, ∃ x ∈ v, x ≠ 0 := by
    by_contra hcon
    push Not at hcon
    apply hD
    intro a ha
    have h1 : rowSpan m (h :: S) = ⊥ := by
      rw [rowSpan, Submodule.span_eq_bot]
      rintro _ ⟨s, hs, rfl⟩
      exact (toV_eq_zero_iff m s (hK s hs)).mpr (hcon s hs)
    have := hspan a ha
    rw [h1, Submodule.mem_bot] at this
    rw [this]; exact Submodule.zero_mem _
  have hm : 0 < m := by
    obtain ⟨v, hv, x, hx, -⟩ := hnz
    rw [← hK v hv]; exact List.length_pos_of_mem hx
  have hrect : Rect (h :: S) (h :: S).length m := ⟨rfl, hK⟩
  have hsp := gaussSplit_spec hrect (by simp) hm
  obtain ⟨F0, hel, -⟩ := fme_elim hrect (by simp) hm hnz
  intro a ha
  apply Cn.of_inConeOf
  rw [hel.inConeOf_iff hsp.E_len hsp.E_zero]
  constructor
  · intro e he
    have := hspan a ha
    have key : ∀ x ∈ rowSpan m (h :: S), ev m e x = 0 := by
      intro x hx
      refine Submodule.span_induction (p := fun x _ => ev m e x = 0) ?_ (map_zero _) ?_ ?_ hx
      · rintro _ ⟨s, hs, rfl⟩
        rw [ev_row (hsp.E_len e he), hsp.E_zero e he s hs]; simp
      · intro x y _ _ hx hy; rw [map_add, hx, hy, add_zero]
      · intro t x _ hx; rw [map_smul, hx, smul_zero]
    exact key a this
  · intro q hq
    obtain ⟨hql, -, -, hqf⟩ := (hel.mem q).mp hq
    by_cases hex : ∃ f ∈ S, dot q f = 0
    · obtain ⟨f, hf, hf0⟩ := hex
      obtain ⟨t, ht⟩ := hL f hf a ha
      have h1 : ev m q (a - t • toV m f) ≤ 0 := by
        apply Gen.nonpos _ ht
        rintro _ ⟨s, hs, rfl⟩
        rw [ev_row hql]; exact_mod_cast hqf.valid s hs
      rw [map_sub, map_smul, ev_row hql, hf0] at h1
      simpa using h1
    · push Not at hex
      exfalso
      apply hD
      intro a ha
      -- otherwise there is a functional vanishing on `h` and `f0` but not on all of `S`
      have hle : rowSpan m (h :: S) ≤ Submodule.span ℚ {toV m h, toV m f0} := by
        rw [rowSpan, Submodule.span_le]
        rintro _ ⟨s, hs, rfl⟩
        by_contra hcon
        obtain ⟨g, hg1, hg2⟩ := Submodule.exists_le_ker_of_notMem hcon
        obtain ⟨M, b, hM, hb, hbv⟩ := exists_row_of_dual g
        have hM' : (M : ℚ) ≠ 0 := by exact_mod_cast hM.ne'
        have hz : ∀ x ∈ Submodule.span ℚ {toV m h, toV m f0}, g x = 0 := fun x hx => hg2 hx
        have hbh : dot b h = 0 := by
          have := hbv h
          rw [hz _ (Submodule.subset_span (by simp))] at this
          exact_mod_cast (by simpa using this : (dot b h : ℚ) = 0)
        have hbf : dot b f0 = 0 := by
          have := hbv f0
          rw [hz _ (Submodule.subset_span (by simp))] at this
          exact_mod_cast (by simpa using this : (dot b f0 : ℚ) = 0)
        obtain ⟨t, ht⟩ := hqf.tight b hb (fun v hv h0 => by
          rcases List.mem_cons.mp hv with rfl | hv
          · exact hbh
          · exact absurd h0 (hex v hv))
        have h1 := ht f0 (by simp [hf0])
        rw [hbf, Int.cast_zero] at h1
        have h2 : (dot q f0 : ℚ) ≠ 0 := by exact_mod_cast hex f0 hf0
        have ht0 : t = 0 := (mul_eq_zero.mp h1.symm).resolve_right h2
        have h3 := ht s hs
        rw [ht0, zero_mul, hbv s] at h3
        exact hg1 ((mul_eq_zero.mp h3).resolve_left hM')
      exact hle (hspan a ha)

/-- If every element of `N` is, for every `f ∈ S`, a multiple of `f` plus an element of the cone generated by
`h` and `S`, then it already is in that cone, unless `N` has dimension at most two. -/
theorem connect {m : Nat} {h : Row} {S : Matrix} (hh : h.length = m) (hS : ∀ s ∈ S, s.length = m) (hne : S ≠ [])
    {N : (Fin m → ℚ) → Prop}
    (hL : ∀ f ∈ S, ∀ a, N a → ∃ t : ℚ, Cn m (h :: S) (a - t • toV m f))
    (hD : ¬ ∃ x y : Fin m → ℚ, ∀ a, N a → a ∈ Submodule.span ℚ {x, y}) : ∀ a, N a → Cn m (h :: S) a := by
  obtain ⟨f0, hf0⟩ := List.exists_mem_of_ne_nil S hne
  rcases connect_or hh hS hf0 hL with h1 | h1
  · exact h1
  · exact absurd ⟨_, _, h1⟩ hD

/-! ## Values on the input -/

/-- the values of an inequality on the input rows -/
def valRow (V : Matrix) (s : Row) : Row := V.map fun v => dot s v

/-- the values of a rational inequality on the input rows -/
noncomputable def valL (n : Nat) (V : Matrix) : (Fin n → ℚ) →ₗ[ℚ] (Fin V.length → ℚ) := LinearMap.pi fun j => ev n V[j]

theorem valL_apply {n : Nat} {V : Matrix} (a : Fin n → ℚ) (j : Fin V.length) : valL n V a j = ev n V[j] a := rfl

theorem valRow_length (V : Matrix) (s : Row) : (valRow V s).length = V.length := by simp [valRow]

theorem toV_valRow {n : Nat} {V : Matrix} {s : Row} (hs : s.length = n) : toV V.length (valRow V s) = valL n V (toV n s) := by
  funext j
  rw [valL_apply, ev_toV n _ _ hs.le]
  simp [toV, valRow, List.getD_eq_getElem?_getD]

theorem valL_eq {n : Nat} {V : Matrix} {a b : Fin n → ℚ} (h : ∀ v ∈ V, ev n v a = ev n v b) : valL n V a = valL n V b := by
  funext j; exact h _ (List.getElem_mem _)

theorem valL_eq_iff {n : Nat} {V : Matrix} {a b : Fin n → ℚ} : valL n V a = valL n V b ↔ ∀ v ∈ V, ev n v a = ev n v b := by
  refine ⟨fun h v hv => ?_, valL_eq⟩
  obtain ⟨j, hj, rfl⟩ := List.getElem_of_mem hv
  exact congrFun h ⟨j, hj⟩

/-- the cone generated by the values of the rows -/
abbrev CV (n : Nat) (V S : Matrix) : (Fin V.length → ℚ) → Prop := Gen ℚ (fun y => ∃ s ∈ S, valL n V (toV n s) = y)

theorem CV.iff_Cn {n : Nat} {V S : Matrix} (hS : ∀ s ∈ S, s.length = n) (x : Fin V.length → ℚ) :
    CV n V S x ↔ Cn V.length (S.map (valRow V)) x := by
  constructor
  · refine Gen.mono ?_
    rintro _ ⟨s, hs, rfl⟩
    exact ⟨valRow V s, List.mem_map.mpr ⟨s, hs, rfl⟩, toV_valRow (hS s hs)⟩
  · refine Gen.mono ?_
    rintro _ ⟨s', hs', rfl⟩
    obtain ⟨s, hs, rfl⟩ := List.mem_map.mp hs'
    exact ⟨s, hs, (toV_valRow (hS s hs)).symm⟩

section
variable {V : Matrix} {n : Nat} {E R : Matrix} {T : List Nat}

/-- the facet rows generate all valid inequalities, up to the equations -/
theorem Elim.genV {F0 : Matrix} (h : Elim V n E F0) (hsp : Split V n E R T) {a : Fin n → ℚ}
    (ha : ∀ v ∈ V, ev n v a ≤ 0) : CV n V F0 (valL n V a) := by
  obtain ⟨N, x, hN, hx, heq⟩ := exists_int_multiple a
  have hN' : (0 : ℚ) < N := by exact_mod_cast hN
  obtain ⟨r, -, hr, ⟨s, hs, hsp'⟩, hz, -⟩ := normalizeLoop_spec E x hsp.echelon hx
  have hs' : (0 : ℚ) < s := by exact_mod_cast hs
  have hval : ∀ v ∈ V, (dot r v : ℚ) = s * N * ev n v a := by
    intro v hv
    have := ev_rowSpan_zero hsp.E_len (fun e he => hsp.E_zero e he v hv) hsp'
    rw [map_sub, map_smul, heq, map_smul, ev_toV _ r v hr.le, sub_eq_zero, smul_eq_mul, smul_eq_mul] at this
    rw [this]; ring
  obtain ⟨c, hc, hsum⟩ := h.gen r hr hz (fun v hv => by
    have h1 := hval v hv
    have h2 := ha v hv
    have : (dot r v : ℚ) ≤ 0 := by
      rw [h1]; exact mul_nonpos_of_nonneg_of_nonpos (by positivity) h2
    exact_mod_cast this)
  have h1 : valL n V a = (s * N : ℚ)⁻¹ • valL n V (toV n r) := by
    funext j
    rw [Pi.smul_apply, valL_apply, valL_apply, ev_toV n r _ hr.le, hval V[j] (List.getElem_mem j.2), smul_eq_mul]
    field_simp
  rw [h1]
  refine Gen.smul ?_ (by positivity)
  rw [hsum, map_sum]
  have : ∀ t : Finset (Fin F0.length), CV n V F0 (∑ j ∈ t, valL n V (c j • toV n F0[j])) := by
    intro t
    induction t using Finset.induction with
    | empty => simpa using Gen.zero
    | insert j t hj ih =>
      rw [Finset.sum_insert hj, map_smul]
      exact Gen.add _ _ _ (hc j) ⟨F0[j], List.getElem_mem _, rfl⟩ ih
  exact this Finset.univ

/-- a rational inequality vanishing on the facet is a multiple of it -/
theorem FacetP.tight_rat {f : Row} (hfl : f.length = n) (hf : FacetP n V f) {x : Fin n → ℚ}
    (hx : ∀ v ∈ V, dot f v = 0 → ev n v x = 0) : ∃ t : ℚ, valL n V x = t • valL n V (toV n f) := by
  obtain ⟨N, r, hN, hr, heq⟩ := exists_int_multiple x
  have hN' : (N : ℚ) ≠ 0 := by exact_mod_cast hN.ne'
  have hrv : ∀ v, (dot r v : ℚ) = N * ev n v x := fun v => by rw [← ev_toV n r v hr.le, heq, map_smul, smul_eq_mul]
  obtain ⟨t, ht⟩ := hf.tight r hr (fun v hv h0 => by
    have := hrv v
    rw [hx v hv h0, mul_zero] at this
    exact_mod_cast this)
  refine ⟨t / N, ?_⟩
  funext j
  have h1 := ht _ (List.getElem_mem (l := V) (n := j) j.2)
  rw [hrv] at h1
  rw [Pi.smul_apply, valL_apply, valL_apply, ev_toV n f _ hfl.le, smul_eq_mul]
  have h2 : ev n V[j] x = t * dot f V[j] / N := by
    rw [eq_div_iff hN', mul_comm]; exact h1
  rw [h2]; ring

/-- every valid inequality is, for any facet `f`, a multiple of `f` plus a conic combination of rotations of `f`
around its ridges, where the ridges in `Z` need not be rotated -/
theorem neighbours_gen {f : Row} (hfl : f.length = n) (hf : FacetP n V f) {E' R' : Matrix} {T' : List Nat} {F0 rows Z : Matrix}
    (hsp' : Split (onFacet V f) n E' R' T') (hel : Elim (onFacet V f) n E' F0)
    (hrows : ∀ r ∈ F0, r ∈ Z ∨ ∃ ρ ∈ rows, ρ.length = n ∧ Rotated f r ρ) {a : Fin n → ℚ} (ha : ∀ v ∈ V, ev n v a ≤ 0) :
    ∃ t : ℚ, CV n V (Z ++ rows) (valL n V a - t • valL n V (toV n f)) := by
  have h1 := hel.genV hsp' (a := a) (fun v hv => ha v (mem_onFacet.mp hv).1)
  -- lift the combination on the facet to all of the input
  have h2 : ∀ y : Fin (onFacet V f).length → ℚ, CV n (onFacet V f) F0 y → ∃ x : Fin n → ℚ, valL n (onFacet V f) x = y ∧
      ∃ t : ℚ, CV n V (Z ++ rows) (valL n V x - t • valL n V (toV n f)) := by
    intro y hy
    induction hy with
    | zero => exact ⟨0, map_zero _, 0, by simpa using Gen.zero⟩
    | add u y z hu hy _ ih =>
      obtain ⟨r, hr, rfl⟩ := hy
      obtain ⟨x, hx, t, ht⟩ := ih
      refine ⟨u • toV n r + x, by rw [map_add, map_smul, hx], ?_⟩
      have hrl : r.length = n := ((hel.mem r).mp hr).1
      have h3 : ∃ t' : ℚ, CV n V (Z ++ rows) (valL n V (toV n r) - t' • valL n V (toV n f)) := by
        rcases hrows r hr with h | ⟨ρ, hρ, hρl, c, l, hc, hcl⟩
        · exact ⟨0, by rw [zero_smul, sub_zero]; exact Gen.of ⟨r, by simp [h], rfl⟩⟩
        · refine ⟨-l, ?_⟩
          have : valL n V (toV n r) - (-l) • valL n V (toV n f) = c • valL n V (toV n ρ) := by
            funext j
            simp only [Pi.sub_apply, Pi.smul_apply, valL_apply, ev_toV n r _ hrl.le, ev_toV n f _ hfl.le, ev_toV n ρ _ hρl.le,
              smul_eq_mul]
            rw [hcl]; ring
          rw [this]
          exact (Gen.of ⟨ρ, by simp [hρ], rfl⟩).smul hc.le
      obtain ⟨t', ht'⟩ := h3
      refine ⟨u * t' + t, ?_⟩
      have : valL n V (u • toV n r + x) - (u * t' + t) • valL n V (toV n f) =
          u • (valL n V (toV n r) - t' • valL n V (toV n f)) + (valL n V x - t • valL n V (toV n f)) := by
        rw [map_add, map_smul]; module
      rw [this]
      exact (ht'.smul hu).add' ht
  obtain ⟨x, hx, t, ht⟩ := h2 _ h1
  obtain ⟨t', ht'⟩ := FacetP.tight_rat hfl hf (x := a - x) (fun v hv h0 => by
    rw [map_sub, (valL_eq_iff.mp hx) v (mem_onFacet.mpr ⟨hv, h0⟩), sub_self])
  refine ⟨t' + t, ?_⟩
  have : valL n V a - (t' + t) • valL n V (toV n f) = valL n V x - t • valL n V (toV n f) := by
    rw [map_sub] at ht'
    have h4 : valL n V a = t' • valL n V (toV n f) + valL n V x := by rw [← ht']; abel
    rw [h4]; module
  rw [this]; exact ht

/-- a facet is not a conic combination of other facets and the trivial row -/
theorem facet_mem_of_gen {S : Matrix} (hsp : Split V n E R T) (hV : Rect V V.length n) {g : Row}
    (hg : NormalFacet n V E g) (hS : ∀ s ∈ S, s.length = n ∧ (∀ v ∈ V, dot s v ≤ 0) ∧ (FacetP n V s → NormalFacet n V E s))
    (h : CV n V S (valL n V (toV n g))) : g ∈ S := by
  by_contra hcon
  -- every generator occurring with a positive coefficient is a multiple of `g`
  have key : ∀ y, CV n V S y → (∀ v ∈ V, ∀ j : Fin V.length, V[j] = v → dot g v = 0 → y j = 0) → y = 0 := by
    intro y hy
    induction hy with
    | zero => intro _; rfl
    | add u y z hu hy hz ih =>
      obtain ⟨s, hs, rfl⟩ := hy
      intro h0
      obtain ⟨s1, s2, s3⟩ := hS s hs
      have hyv : ∀ j : Fin V.length, u * valL n V (toV n s) j ≤ 0 := by
        intro j
        rw [valL_apply, ev_toV n s _ s1.le]
        exact mul_nonpos_of_nonneg_of_nonpos hu (by exact_mod_cast s2 _ (List.getElem_mem _))
      have hzv : ∀ j : Fin V.length, z j ≤ 0 := by
        intro j
        exact Gen.nonpos (x := LinearMap.proj j) (by
          rintro _ ⟨s, hs, rfl⟩
          rw [LinearMap.proj_apply, valL_apply, ev_toV n s _ (hS s hs).1.le]
          exact_mod_cast (hS s hs).2.1 _ (List.getElem_mem _)) hz
      have hboth : ∀ j : Fin V.length, dot g V[j] = 0 → u * valL n V (toV n s) j = 0 ∧ z j = 0 := by
        intro j hj
        have := h0 _ (List.getElem_mem (l := V) (n := j) j.2) j rfl hj
        simp only [Pi.add_apply, Pi.smul_apply, smul_eq_mul] at this
        have a := hyv j; have b := hzv j
        exact ⟨by linarith, by linarith⟩
      have hz0 : z = 0 := ih (fun v _ j hj hv => (hboth j (by rw [hj]; exact hv)).2)
      rw [hz0, add_zero]
      rcases eq_or_lt_of_le hu with hu0 | hu0
      · rw [← hu0, zero_smul]
      · obtain ⟨t, ht⟩ := FacetP.tight_rat hg.1 hg.2.2.2 (x := toV n s) (fun v hv h1 => by
          obtain ⟨j, hj, rfl⟩ := List.getElem_of_mem hv
          have := (hboth ⟨j, hj⟩ h1).1
          exact (mul_eq_zero.mp this).resolve_left hu0.ne')
        by_cases ht0 : t = 0
        · rw [ht, ht0, zero_smul, smul_zero]
        · exfalso
          have hsv : ∀ v ∈ V, (dot s v : ℚ) = t * dot g v := by
            intro v hv
            obtain ⟨j, hj, rfl⟩ := List.getElem_of_mem hv
            have := congrFun ht ⟨j, hj⟩
            simp only [Pi.smul_apply, valL_apply, ev_toV n s _ s1.le, ev_toV n g _ hg.1.le, smul_eq_mul] at this
            exact this
          have hsf : FacetP n V s := by
            refine ⟨s2, ?_, ?_⟩
            · obtain ⟨v, hv, hne⟩ := hg.2.2.2.strict
              refine ⟨v, hv, fun hc => ?_⟩
              have := hsv v hv
              rw [hc, Int.cast_zero] at this
              exact hne (by exact_mod_cast (mul_eq_zero.mp this.symm).resolve_left ht0)
            · intro b hb hbz
              obtain ⟨w, hw⟩ := hg.2.2.2.tight b hb (fun v hv h1 => hbz v hv (by
                have := hsv v hv
                rw [h1, Int.cast_zero, mul_zero] at this
                exact_mod_cast this))
              refine ⟨w / t, fun v hv => ?_⟩
              rw [hw v hv, hsv v hv]; field_simp
          have : s = g := hg.unique hsp hV (s3 hsf) hsv
          exact hcon (this ▸ hs)
  have h0 := key _ h (fun v _ j hj hv => by rw [valL_apply, ev_toV n g _ hg.1.le, hj, hv]; rfl)
  obtain ⟨v, hv, hne⟩ := hg.2.2.2.strict
  obtain ⟨j, hj, rfl⟩ := List.getElem_of_mem hv
  have := congrFun h0 ⟨j, hj⟩
  rw [valL_apply, ev_toV n g _ hg.1.le, Pi.zero_apply] at this
  have h2 : dot g V[j] = 0 := by exact_mod_cast this
  exact hne h2

end

end Panda
