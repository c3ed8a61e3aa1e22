import Verif.Proofs.Maps
import Verif.Proofs.Search

/-! # Linear maps that permute the facets -/

namespace Panda

open Cone

section
variable {n : Nat} {V : Matrix} {Φ : (Fin n → ℚ) →ₗ[ℚ] (Fin n → ℚ)}

/-- the linear map sends the valid inequalities onto the valid inequalities (modulo those that vanish on `V`) -/
structure Permutes (n : Nat) (V : Matrix) (Φ : (Fin n → ℚ) →ₗ[ℚ] (Fin n → ℚ)) : Prop where
  into : ∀ a, (∀ v ∈ V, ev n v a ≤ 0) → ∀ v ∈ V, ev n v (Φ a) ≤ 0
  onto : ∀ b, (∀ v ∈ V, ev n v b ≤ 0) → ∃ a, (∀ v ∈ V, ev n v a ≤ 0) ∧ ∀ v ∈ V, ev n v (Φ a) = ev n v b

/-- `b` is, up to the positive factor `g`, the image of `a` -/
def Composed (n : Nat) (V : Matrix) (Φ : (Fin n → ℚ) →ₗ[ℚ] (Fin n → ℚ)) (a b : Row) (g : ℚ) : Prop :=
  ∀ v ∈ V, ev n v (Φ (toV n a)) = g * (dot b v : ℚ)

/-- the span of the valid inequalities -/
def validSpan (n : Nat) (V : Matrix) : Submodule ℚ (Fin n → ℚ) := Submodule.span ℚ {a | ∀ v ∈ V, ev n v a ≤ 0}

theorem mem_validSpan {a : Fin n → ℚ} (h : ∀ v ∈ V, ev n v a ≤ 0) : a ∈ validSpan n V := Submodule.subset_span h

/-- such a map keeps the inequalities that vanish on `V` -/
theorem Permutes.null (h : Permutes n V Φ) {a : Fin n → ℚ} (ha : valL n V a = 0) : valL n V (Φ a) = 0 := by
  have hz : ∀ v ∈ V, ev n v a = 0 := fun v hv => by
    have := valL_eq_iff.1 (ha.trans (map_zero (valL n V)).symm) v hv
    rwa [map_zero] at this
  rw [← map_zero (valL n V)]
  refine valL_eq fun v hv => ?_
  rw [map_zero]
  refine le_antisymm (h.into a (fun v hv => (hz v hv).le) v hv) ?_
  have := h.into (-a) (fun v hv => by rw [map_neg, hz v hv, neg_zero]) v hv
  rw [map_neg, map_neg] at this
  linarith

/-- and is injective on the span of the valid inequalities, modulo those -/
theorem Permutes.inj (h : Permutes n V Φ) {a : Fin n → ℚ} (ha : a ∈ validSpan n V) (h0 : valL n V (Φ a) = 0) : valL n V a = 0 := by
  let U := validSpan n V
  let f : U →ₗ[ℚ] (Fin V.length → ℚ) := (valL n V).domRestrict U
  let g : U →ₗ[ℚ] (Fin V.length → ℚ) := ((valL n V).comp Φ).domRestrict U
  have hrange : LinearMap.range f ≤ LinearMap.range g := by
    rw [show LinearMap.range f = U.map (valL n V) from LinearMap.range_domRestrict _ _,
      show LinearMap.range g = U.map ((valL n V).comp Φ) from LinearMap.range_domRestrict _ _]
    rw [show U = Submodule.span ℚ {a | ∀ v ∈ V, ev n v a ≤ 0} from rfl, Submodule.map_span, Submodule.map_span, Submodule.span_le]
    rintro _ ⟨b, hb, rfl⟩
    obtain ⟨a, ha, hab⟩ := h.onto b hb
    exact Submodule.subset_span ⟨a, ha, valL_eq hab⟩
  have hker : LinearMap.ker f ≤ LinearMap.ker g := by
    rintro ⟨x, hx⟩ hxf
    exact h.null hxf
  have e1 := LinearMap.finrank_range_add_finrank_ker f
  have e2 := LinearMap.finrank_range_add_finrank_ker g
  have e3 := Submodule.finrank_mono hrange
  have e4 : LinearMap.ker f = LinearMap.ker g := Submodule.eq_of_le_of_finrank_le hker (by omega)
  have : (⟨a, ha⟩ : U) ∈ LinearMap.ker g := h0
  rw [← e4] at this
  exact this

theorem composed_valL {a b : Row} {g : ℚ} (hb : b.length = n) (h : Composed n V Φ a b g) :
    valL n V (Φ (toV n a)) = g • valL n V (toV n b) := by
  rw [← map_smul]
  refine valL_eq fun v hv => ?_
  rw [h v hv, map_smul, ev_toV n b v hb.le, smul_eq_mul]

/-- a small step in a direction that vanishes where `b` does -/
theorem small_step {b c : Row} (hbv : ∀ v ∈ V, (dot b v : ℚ) ≤ 0) (hz : ∀ v ∈ V, dot b v = 0 → dot c v = 0) :
    ∃ δ : ℚ, 0 < δ ∧ ∀ v ∈ V, (dot b v : ℚ) + δ * dot c v ≤ 0 ∧ (dot b v : ℚ) - δ * dot c v ≤ 0 := by
  let s : Finset (Fin V.length) := Finset.univ.filter fun j => (dot b V[j] : ℚ) < 0
  obtain ⟨ε, e0, e1⟩ := exists_eps s (fun j => (dot b V[j] : ℚ)) (fun j => (dot c V[j] : ℚ)) (fun j hj => (Finset.mem_filter.mp hj).2)
  obtain ⟨η, f0, f1⟩ := exists_eps s (fun j => (dot b V[j] : ℚ)) (fun j => -(dot c V[j] : ℚ)) (fun j hj => (Finset.mem_filter.mp hj).2)
  obtain ⟨δ, hδ, hδ1, hδ2⟩ : ∃ δ : ℚ, 0 < δ ∧ δ ≤ ε ∧ δ ≤ η := ⟨min ε η, lt_min e0 f0, min_le_left _ _, min_le_right _ _⟩
  refine ⟨δ, hδ, fun v hv => ?_⟩
  rcases lt_or_eq_of_le (hbv v hv) with hlt | heq
  · obtain ⟨j, hj, rfl⟩ := List.getElem_of_mem hv
    have hjs : (⟨j, hj⟩ : Fin V.length) ∈ s := by
      refine Finset.mem_filter.mpr ⟨Finset.mem_univ _, ?_⟩
      show ((dot b V[j] : Int) : ℚ) < 0
      exact hlt
    have g1 := e1 _ hδ.le hδ1 _ hjs
    have g2 := f1 _ hδ.le hδ2 _ hjs
    have g1' : (dot b V[j] : ℚ) + δ * dot c V[j] < 0 := g1
    have g2' : (dot b V[j] : ℚ) + δ * -(dot c V[j] : ℚ) < 0 := g2
    exact ⟨g1'.le, by linarith⟩
  · have h0 : dot c v = 0 := hz v hv (by exact_mod_cast heq)
    rw [heq, h0]; simp

/-- facets are sent to facets -/
theorem facetP_composed (hs : Permutes n V Φ) {a b : Row} (hal : a.length = n) (ha : FacetP n V a) (hb : b.length = n)
    {g : ℚ} (hg : 0 < g) (hgb : Composed n V Φ a b g) : FacetP n V b := by
  have hav : ∀ v ∈ V, ev n v (toV n a) ≤ 0 := fun v hv => by rw [ev_toV n a v hal.le]; exact_mod_cast ha.valid v hv
  have hbv : ∀ v ∈ V, (dot b v : ℚ) ≤ 0 := fun v hv => by
    have := hs.into _ hav v hv
    rw [hgb v hv] at this
    exact nonpos_of_mul_nonpos_right this hg
  refine ⟨fun v hv => by exact_mod_cast hbv v hv, ?_, ?_⟩
  · by_contra hcon
    push Not at hcon
    have h0 : valL n V (Φ (toV n a)) = 0 := by
      rw [← map_zero (valL n V)]
      refine valL_eq fun v hv => ?_
      rw [hgb v hv, hcon v hv, map_zero]; simp
    obtain ⟨v, hv, hne⟩ := ha.strict
    have h1 := valL_eq_iff.1 ((hs.inj (mem_validSpan hav) h0).trans (map_zero (valL n V)).symm) v hv
    rw [map_zero, ev_toV n a v hal.le] at h1
    exact hne (by exact_mod_cast h1)
  · intro c hc hz
    obtain ⟨δ, hδ, hval⟩ := small_step hbv hz
    have hev : ∀ (σ : ℚ) (v : Row), ev n v (toV n b + σ • toV n c) = (dot b v : ℚ) + σ * dot c v := by
      intro σ v
      rw [map_add, map_smul, ev_toV n b v hb.le, ev_toV n c v hc.le, smul_eq_mul]
    obtain ⟨x, hx1, hx2⟩ := hs.onto (toV n b + δ • toV n c) (fun v hv => by rw [hev]; exact (hval v hv).1)
    obtain ⟨y, hy1, hy2⟩ := hs.onto (toV n b + (-δ) • toV n c) (fun v hv => by rw [hev]; have := (hval v hv).2; linarith)
    -- `x + y` is a multiple of `a`
    have hsum : valL n V (toV n a) = valL n V ((g / 2) • (x + y)) := by
      rw [← sub_eq_zero, ← map_sub]
      refine hs.inj (Submodule.sub_mem _ (mem_validSpan hav) (Submodule.smul_mem _ _ (Submodule.add_mem _ (mem_validSpan hx1) (mem_validSpan hy1)))) ?_
      rw [← map_zero (valL n V)]
      refine valL_eq fun v hv => ?_
      rw [map_sub, map_smul, map_add, map_sub, map_smul, map_add, hgb v hv, hx2 v hv, hy2 v hv, hev, hev, map_zero, smul_eq_mul]
      ring
    obtain ⟨t, ht⟩ := FacetP.tight_rat hal ha (x := x) (fun v hv h0 => by
      have h1 := valL_eq_iff.1 hsum v hv
      rw [ev_toV n a v hal.le, h0, map_smul, map_add, smul_eq_mul] at h1
      have h2 : ev n v x + ev n v y = 0 := by
        have : g / 2 ≠ 0 := by positivity
        have h3 : g / 2 * (ev n v x + ev n v y) = 0 := by rw [← h1]; simp
        exact (mul_eq_zero.1 h3).resolve_left this
      have := hx1 v hv
      have := hy1 v hv
      linarith)
    -- hence `Φ x` is a multiple of `b`
    have h3 : valL n V (Φ (x - t • toV n a)) = 0 := hs.null (by rw [map_sub, map_smul, ht, sub_self])
    refine ⟨(t * g - 1) / δ, fun v hv => ?_⟩
    have h4 := valL_eq_iff.1 (h3.trans (map_zero (valL n V)).symm) v hv
    rw [map_zero, map_sub, map_sub, map_smul, map_smul, hx2 v hv, hgb v hv, hev, smul_eq_mul] at h4
    have hδ' := hδ.ne'
    field_simp
    linarith

theorem isFacet_composed (hs : Permutes n V Φ) {a b : Row} (ha : Spec.IsFacet n V a) (hb : b.length = n)
    {g : ℚ} (hg : 0 < g) (hgb : Composed n V Φ a b g) : Spec.IsFacet n V b := by
  obtain ⟨h1, h2⟩ := isFacet_iff.1 ha
  exact isFacet_iff.2 ⟨hb, facetP_composed hs h1 h2 hb hg hgb⟩

/-- the image of a normalised facet is a normalised facet, if it is normalised -/
theorem NormalFacet.composed (hs : Permutes n V Φ) {E : Matrix} {a b : Row} (ha : NormalFacet n V E a) (hb : b.length = n)
    {g : ℚ} (hg : 0 < g) (hgb : Composed n V Φ a b g) (hz : ∀ e ∈ E, b.getD (firstNonzero e) 0 = 0)
    (hp : (∃ x ∈ b, x ≠ 0) → Primitive b) : NormalFacet n V E b := by
  have hf := facetP_composed hs ha.1 ha.2.2.2 hb hg hgb
  refine ⟨hb, hp ?_, hz, hf⟩
  obtain ⟨v, hv, hne⟩ := hf.strict
  by_contra hcon
  push Not at hcon
  apply hne
  have := ev_toV n b v hb.le
  rw [(toV_eq_zero_iff n b hb).mpr hcon, map_zero] at this
  exact_mod_cast this.symm

/-- and the map is injective on facets -/
theorem NormalFacet.composed_inj (hs : Permutes n V Φ) {E R : Matrix} {T : List Nat} (h : Split V n E R T)
    (hV : Rect V V.length n) {a a' b : Row} (ha : NormalFacet n V E a) (ha' : NormalFacet n V E a')
    {g g' : ℚ} (hgb : Composed n V Φ a b g) (hg' : 0 < g') (hgb' : Composed n V Φ a' b g') : a = a' := by
  have hav : ∀ {a : Row}, NormalFacet n V E a → toV n a ∈ validSpan n V := fun ha =>
    mem_validSpan fun v hv => by rw [ev_toV n _ v ha.1.le]; exact_mod_cast ha.2.2.2.valid v hv
  have h0 := hs.inj (Submodule.sub_mem _ (hav ha) (Submodule.smul_mem _ (g / g') (hav ha'))) (by
    rw [← map_zero (valL n V)]
    refine valL_eq fun v hv => ?_
    rw [map_sub, map_smul, map_sub, map_smul, hgb v hv, hgb' v hv, map_zero, smul_eq_mul]
    field_simp
    ring)
  apply ha'.unique h hV ha (t := g / g')
  intro v hv
  have h1 := valL_eq_iff.1 (h0.trans (map_zero (valL n V)).symm) v hv
  rw [map_sub, map_smul, ev_toV n a v ha.1.le, ev_toV n a' v ha'.1.le, map_zero, smul_eq_mul] at h1
  linarith

/-! ## symmetries -/

theorem inCone_nonpos {x : Fin n → ℚ} (hx : Spec.InConeOf n V x) {f : (Fin n → ℚ) →ₗ[ℚ] ℚ} (hf : ∀ v ∈ V, f (toV n v) ≤ 0) : f x ≤ 0 := by
  obtain ⟨c, h1, h2⟩ := hx
  rw [h2, map_sum]
  refine Finset.sum_nonpos fun j _ => ?_
  rw [map_smul, smul_eq_mul]
  exact mul_nonpos_of_nonneg_of_nonpos (h1 j) (hf _ (List.getElem_mem _))

theorem ev_pulled (m : SymMap) (a : Fin n → ℚ) (v : Row) : ev n v (pulledL n m a) = ∑ i, a i * Spec.pushed n m (toV n v) i := by
  rw [ev_apply]; exact pulled_dual n m a (toV n v)

theorem inCone_of {v : Row} (hv : v ∈ V) {s : ℚ} (hs : 0 ≤ s) : Spec.InConeOf n V (s • Spec.vec n v) := by
  obtain ⟨j, hj, rfl⟩ := List.getElem_of_mem hv
  refine ⟨Pi.single ⟨j, hj⟩ s, fun i => ?_, ?_⟩
  · by_cases h : i = ⟨j, hj⟩
    · subst h; simpa using hs
    · rw [Pi.single_eq_of_ne h]
  · rw [Finset.sum_eq_single ⟨j, hj⟩]
    · simp
    · intro b _ hb; rw [Pi.single_eq_of_ne hb, zero_smul]
    · intro h; exact absurd (Finset.mem_univ _) h

/-- a map that permutes the rows is a symmetry of their hull -/
theorem Spec.IsSymmetry.hull {m : SymMap} (h : Spec.IsSymmetry n V m) : Spec.IsHullSymmetry n V m where
  isMap := h.isMap
  into v hv := by
    obtain ⟨w, hw, s, hs, e⟩ := h.into v hv
    rw [e]; exact inCone_of hw hs.le
  onto w hw := by
    obtain ⟨v, hv, s, hs, e⟩ := h.onto w hw
    refine ⟨s⁻¹ • Spec.vec n v, inCone_of hv (inv_pos.2 hs).le, ?_⟩
    have : Spec.pushed n m (s⁻¹ • Spec.vec n v) = s⁻¹ • Spec.pushed n m (Spec.vec n v) := map_smul (pushedL n m) _ _
    rw [this, e, smul_smul, inv_mul_cancel₀ hs.ne', one_smul]

theorem rowSpan_inCone {x : Fin n → ℚ} (h : Spec.InConeOf n V x) : x ∈ rowSpan n V := by
  obtain ⟨c, -, rfl⟩ := h
  exact Submodule.sum_mem _ fun j _ => Submodule.smul_mem _ _ (Submodule.subset_span ⟨_, List.getElem_mem _, rfl⟩)

/-- a symmetry of the hull permutes the facets -/
theorem Spec.IsHullSymmetry.permutes {m : SymMap} (h : Spec.IsHullSymmetry n V m) : Permutes n V (pulledL n m) where
  into a ha v hv := by
    rw [ev_pulled]
    let f : (Fin n → ℚ) →ₗ[ℚ] ℚ := LinearMap.lsum ℚ (fun _ => ℚ) ℚ fun i => a i • LinearMap.id
    have hf : ∀ x, f x = ∑ i, a i * x i := fun x => by simp [f, LinearMap.lsum_apply]
    rw [← hf]
    refine inCone_nonpos (h.into v hv) fun w hw => ?_
    rw [hf]
    exact ha w hw
  onto b hb := by
    -- the map is a bijection of the span of the rows
    have hmap : ∀ x ∈ rowSpan n V, pushedL n m x ∈ rowSpan n V := by
      intro x hx
      have hle : (rowSpan n V).map (pushedL n m) ≤ rowSpan n V := by
        unfold rowSpan
        rw [Submodule.map_span, Submodule.span_le]
        rintro _ ⟨_, ⟨v, hv, rfl⟩, rfl⟩
        exact rowSpan_inCone (h.into v hv)
      exact hle (Submodule.mem_map_of_mem hx)
    let f : rowSpan n V →ₗ[ℚ] rowSpan n V := (pushedL n m).restrict hmap
    have hsurj : Function.Surjective f := by
      have hle : rowSpan n V ≤ (rowSpan n V).map (pushedL n m) := by
        conv_lhs => unfold rowSpan
        rw [Submodule.span_le]
        rintro _ ⟨w, hw, rfl⟩
        obtain ⟨x, hx, e⟩ := h.onto w hw
        exact ⟨x, rowSpan_inCone hx, e⟩
      rintro ⟨y, hy⟩
      obtain ⟨x, hx, hxy⟩ := hle hy
      exact ⟨⟨x, hx⟩, Subtype.ext hxy⟩
    have hinj : Function.Injective f := LinearMap.injective_iff_surjective.mpr hsurj
    let e := LinearEquiv.ofBijective f ⟨hinj, hsurj⟩
    let φ : (Fin n → ℚ) →ₗ[ℚ] ℚ := LinearMap.lsum ℚ (fun _ => ℚ) ℚ fun i => b i • LinearMap.id
    have hφ : ∀ x, φ x = ∑ i, b i * x i := fun x => by simp [φ, LinearMap.lsum_apply]
    obtain ⟨ψ, hψ⟩ := LinearMap.exists_extend ((φ.comp (rowSpan n V).subtype).comp e.symm.toLinearMap)
    have hψ' : ∀ x (hx : x ∈ rowSpan n V), ψ (pushedL n m x) = φ x := by
      intro x hx
      have h1 := LinearMap.congr_fun hψ (e ⟨x, hx⟩)
      simp only [LinearMap.comp_apply, LinearEquiv.coe_coe, LinearEquiv.symm_apply_apply] at h1
      exact h1
    let a : Fin n → ℚ := fun i => ψ (Pi.single i 1)
    have ha : ∀ x, ∑ i, a i * x i = ψ x := by
      intro x
      conv_rhs => rw [pi_eq_sum_univ' x]
      rw [map_sum]
      exact Finset.sum_congr rfl fun i _ => by rw [map_smul, smul_eq_mul, mul_comm]
    refine ⟨a, fun w hw => ?_, fun v hv => ?_⟩
    · obtain ⟨x, hx, e⟩ := h.onto w hw
      rw [ev_apply, ha]
      have h1 := hψ' x (rowSpan_inCone hx)
      have h2 : ψ (Spec.vec n w) = φ x := by rw [← e]; exact h1
      have h3 : ψ (toV n w) = φ x := h2
      rw [h3]
      refine inCone_nonpos hx fun v hv => ?_
      rw [hφ]
      exact hb v hv
    · rw [ev_pulled, ha]
      have h1 := hψ' (toV n v) (Submodule.subset_span ⟨v, hv, rfl⟩)
      have h2 : ψ (Spec.pushed n m (toV n v)) = φ (toV n v) := h1
      rw [h2, hφ, ev_apply]

theorem inSystem_iff {A : Matrix} {x : Fin n → ℚ} : Spec.InSystem n A x ↔ ∀ a ∈ A, ev n a x ≤ 0 := by
  unfold Spec.InSystem
  refine forall₂_congr fun a _ => ?_
  rw [ev_apply]
  have : ∑ i, Spec.vec n a i * x i = ∑ i, x i * toV n a i := Finset.sum_congr rfl fun i _ => mul_comm _ _
  rw [this]

/-- a symmetry of the solutions permutes the extreme rays -/
theorem Spec.IsSolutionSymmetry.permutes {A : Matrix} {m : SymMap} (h : Spec.IsSolutionSymmetry n A m) : Permutes n A (pushedL n m) where
  into a ha := inSystem_iff.1 (h.into a (inSystem_iff.2 ha))
  onto b hb := by
    obtain ⟨x, h1, h2⟩ := h.onto b (inSystem_iff.2 hb)
    refine ⟨x, inSystem_iff.1 h1, fun v _ => ?_⟩
    have : pushedL n m x = b := h2
    rw [this]

/-- a map that permutes the inequalities of a system without lines is a symmetry of the solutions -/
theorem Spec.IsSystemSymmetry.solution {A : Matrix} {m : SymMap} (h : Spec.IsSystemSymmetry n A m)
    (hE : ∀ x : Fin n → ℚ, (∀ a ∈ A, ev n a x = 0) → x = 0) : Spec.IsSolutionSymmetry n A m := by
  have key : ∀ {a b : Row} {s : ℚ}, Spec.pulled n m (Spec.vec n a) = s • Spec.vec n b → ∀ x,
      ∑ i, Spec.vec n a i * Spec.pushed n m x i = s * ∑ i, Spec.vec n b i * x i := by
    intro a b s e x
    rw [← pulled_dual, e, Finset.mul_sum]
    exact Finset.sum_congr rfl fun i _ => by rw [Pi.smul_apply, smul_eq_mul]; ring
  have hinj : Function.Injective (pushedL n m) := by
    rw [← LinearMap.ker_eq_bot, LinearMap.ker_eq_bot']
    intro x hx
    refine hE x fun b hb => ?_
    obtain ⟨a, ha, s, hs, e⟩ := h.onto b hb
    have h1 := key e x
    have hx' : Spec.pushed n m x = 0 := hx
    rw [hx'] at h1
    simp only [Pi.zero_apply, mul_zero, Finset.sum_const_zero] at h1
    have h2 := (mul_eq_zero.1 h1.symm).resolve_left hs.ne'
    rw [ev_apply, ← h2]
    exact Finset.sum_congr rfl fun i _ => mul_comm _ _
  have hsurj := LinearMap.injective_iff_surjective.1 hinj
  refine ⟨h.isMap, fun x hx a ha => ?_, fun y hy => ?_⟩
  · obtain ⟨b, hb, s, hs, e⟩ := h.into a ha
    rw [key e]
    exact mul_nonpos_of_nonneg_of_nonpos hs.le (hx b hb)
  · obtain ⟨x, hx⟩ := hsurj y
    have hx' : Spec.pushed n m x = y := hx
    refine ⟨x, fun b hb => ?_, hx⟩
    obtain ⟨a, ha, s, hs, e⟩ := h.onto b hb
    have h1 := key e x
    rw [hx'] at h1
    exact nonpos_of_mul_nonpos_right (by rw [← h1]; exact hy a ha) hs

end

end Panda
