import Verif.Model.Adjacency
import Verif.Props.Reduced
import Verif.Props.Rotation
import Verif.Props.Pool

/-! # Adjacency decomposition: the rows that can be put -/

namespace Panda

open Cone Relation

section
variable {V E R F0 : Matrix} {T : List Nat} {maps : Maps} {tag : Tag} {d : Nat}
  {P : ((Fin (d+1) → ℚ) →ₗ[ℚ] (Fin (d+1) → ℚ)) → Prop}

/-- a normalised facet that represents its orbit -/
def ADGood (n : Nat) (V E : Matrix) (maps : Maps) (tag : Tag) (r : Row) : Prop :=
  NormalFacet n V E r ∧ IsRep maps tag r

theorem ActsOn.reach {n : Nat} {P : ((Fin n → ℚ) →ₗ[ℚ] (Fin n → ℚ)) → Prop} (hacts : ActsOn n V E maps tag P) {a b : Row}
    (ha : NormalFacet n V E a) (h : Reach maps tag a b) : NormalFacet n V E b := by
  induction h with
  | refl => exact ha
  | tail _ hs ih =>
    obtain ⟨m, hm, hap⟩ := hs
    obtain ⟨L, -, -, h3⟩ := hacts m hm
    obtain ⟨b', g, q1, q2, -⟩ := h3 _ ih
    rw [hap] at q1; cases q1
    exact q2

theorem rot_good (hsp : Split V (d+1) E R T) (hV : Rect V V.length (d+1)) (hel : Elim V (d+1) E F0)
    (hacts : ActsOn (d+1) V E maps tag P) (hr : 2 ≤ Spec.rank (d+1) V) {r : Row} (hf : NormalFacet (d+1) V E r) {m : Matrix} {fuel : Nat}
    (h : rotation fuel V r maps tag = some (.ok m)) : ∀ x ∈ m, ADGood (d+1) V E maps tag x := by
  obtain ⟨F1, ridges, rows, -, -, -, r4, r5, -⟩ := rotation_rows hsp hV (Nat.succ_pos d) hf (onFacet_nonzero hV hf.1 hf.2.2.2 hr)
  have hsub := rotation_represented hsp hV hel hacts r4 (fun ρ hρ => (r5 ρ hρ).1) h
  intro x hx
  obtain ⟨y, hy, hyx⟩ := hsub.from_ x hx
  exact ⟨hacts.reach (r5 y hy).1 hyx, hsub.rep x hx⟩

theorem rot_total (hsp : Split V (d+1) E R T) (hV : Rect V V.length (d+1)) (hel : Elim V (d+1) E F0)
    (hacts : ActsOn (d+1) V E maps tag P) (hr : 2 ≤ Spec.rank (d+1) V) {r : Row} (hf : NormalFacet (d+1) V E r) :
    ∃ m fuel, rotation fuel V r maps tag = some (.ok m) := by
  obtain ⟨F1, ridges, rows, -, -, -, r4, r5, -⟩ := rotation_rows hsp hV (Nat.succ_pos d) hf (onFacet_nonzero hV hf.1 hf.2.2.2 hr)
  obtain ⟨R', h1, h2⟩ := classes_sub (maps := maps) (tag := tag) (C := F0) (S := rows) (hacts.closed hel) (hacts.inj hsp hV hel)
    (fun x hx => (hel.mem x).mpr (r5 x hx).1) (fuel := F0.length + V.length + 1) (by omega)
  exact ⟨R', F0.length + V.length + 1, by rw [r4 _ maps tag (by omega)]; exact h1⟩

theorem rep_good (hsp : Split V (d+1) E R T) (hV : Rect V V.length (d+1)) (hel : Elim V (d+1) E F0)
    (hacts : ActsOn (d+1) V E maps tag P) {a : Row} (ha : NormalFacet (d+1) V E a) :
    ∃ r, (∀ fuel ≥ F0.length, classRepresentative fuel a maps tag = some (.ok r)) ∧ ADGood (d+1) V E maps tag r ∧
      Reach maps tag a r ∧ Reach maps tag r a := by
  obtain ⟨r, h1, h2, h3, h4⟩ := classRepresentative_spec (hacts.closed hel) (hacts.inj hsp hV hel) ((hel.mem a).mpr ha) le_rfl
  refine ⟨r, fun fuel hf => ?_, ⟨hacts.reach ha h2, h4⟩, h2, h3⟩
  obtain ⟨r', h1', h2', h3', h4'⟩ := classRepresentative_spec (hacts.closed hel) (hacts.inj hsp hV hel) ((hel.mem a).mpr ha) hf
  rw [h1', h4.eq h4' (h3.trans h2') (h3'.trans h2)]

theorem representatives_good (hsp : Split V (d+1) E R T) (hV : Rect V V.length (d+1)) (hel : Elim V (d+1) E F0)
    (hacts : ActsOn (d+1) V E maps tag P) : ∀ (l : Matrix), (∀ a ∈ l, NormalFacet (d+1) V E a) →
    ∃ l', (∀ fuel ≥ F0.length, representatives fuel maps tag l = some (.ok l')) ∧ l'.length = l.length ∧
      ∀ r ∈ l', ADGood (d+1) V E maps tag r
  | [], _ => ⟨[], fun _ _ => rfl, rfl, by simp⟩
  | a :: l, h => by
    obtain ⟨r, h1, h2, -⟩ := rep_good hsp hV hel hacts (h a (by simp))
    obtain ⟨l', h3, h4, h5⟩ := representatives_good hsp hV hel hacts l (fun a ha => h a (by simp [ha]))
    refine ⟨r :: l', fun fuel hf => ?_, by simp [h4], ?_⟩
    · simp only [representatives, h1 fuel hf, h3 fuel hf, Run.bind]
    · intro x hx
      rcases List.mem_cons.mp hx with rfl | hx
      · exact h2
      · exact h5 x hx

/-- the row put for a known row `k`: a facet of the same orbit -/
def KnownOf (n : Nat) (V E : Matrix) (maps : Maps) (tag : Tag) (k r : Row) : Prop :=
  ∃ k0, normalize k E = .ok k0 ∧ NormalFacet n V E k0 ∧ Reach maps tag k0 r ∧ Reach maps tag r k0

theorem known_good (hsp : Split V (d+1) E R T) (hV : Rect V V.length (d+1)) (hel : Elim V (d+1) E F0)
    (hacts : ActsOn (d+1) V E maps tag P) {k : Row} (hk : Spec.IsFacet (d+1) V k) :
    ∃ k0 r, normalize k E = .ok k0 ∧ (∀ fuel ≥ F0.length, classRepresentative fuel k0 maps tag = some (.ok r)) ∧
      ADGood (d+1) V E maps tag r ∧ KnownOf (d+1) V E maps tag k r := by
  obtain ⟨k0, h1, h2, -⟩ := FacetP.exists_normal hsp hk.1 (isFacet_iff.mp hk).2
  obtain ⟨r, h3, h4, h5, h6⟩ := rep_good hsp hV hel hacts h2
  exact ⟨k0, r, h1, h3, h4, k0, h1, h2, h5, h6⟩

theorem knownRows_good (hsp : Split V (d+1) E R T) (hV : Rect V V.length (d+1)) (hel : Elim V (d+1) E F0)
    (hacts : ActsOn (d+1) V E maps tag P) : ∀ (l : Matrix), (∀ a ∈ l, Spec.IsFacet (d+1) V a) →
    ∃ l', (∀ fuel ≥ F0.length, knownRows fuel E maps tag l = some (.ok l')) ∧
      (∀ r ∈ l', ADGood (d+1) V E maps tag r) ∧ ∀ k ∈ l, ∃ r ∈ l', KnownOf (d+1) V E maps tag k r
  | [], _ => ⟨[], fun _ _ => rfl, by simp, by simp⟩
  | a :: l, h => by
    obtain ⟨k0, r, h1, h2, h3, h6⟩ := known_good hsp hV hel hacts (h a (by simp))
    obtain ⟨l', h4, h5, h7⟩ := knownRows_good hsp hV hel hacts l (fun a ha => h a (by simp [ha]))
    refine ⟨r :: l', fun fuel hf => ?_, ?_, ?_⟩
    · simp only [knownRows, h1, h2 fuel hf, h4 fuel hf, Run.bind]
    · intro x hx
      rcases List.mem_cons.mp hx with rfl | hx
      · exact h3
      · exact h5 x hx
    · intro x hx
      rcases List.mem_cons.mp hx with rfl | hx
      · exact ⟨r, by simp, h6⟩
      · obtain ⟨r', q1, q2⟩ := h7 x hx
        exact ⟨r', by simp [q1], q2⟩

/-- the rows put at the beginning -/
theorem initializePool_good (hsp : Split V (d+1) E R T) (hE : E = (gaussSplit V).1) (hV : Rect V V.length (d+1)) (hel : Elim V (d+1) E F0)
    (hacts : ActsOn (d+1) V E maps tag P) (hm : 0 < V.length) (hnz : ∃ v ∈ V, ∃ x ∈ v, x ≠ 0) {known : Matrix}
    (hk : ∀ a ∈ known, Spec.IsFacet (d+1) V a) :
    ∃ a, (∀ fuel ≥ F0.length, initializePool fuel V E maps known tag = some (.ok a)) ∧ a.equations = E ∧ a.maps = maps ∧
      (∀ r ∈ a.initial, ADGood (d+1) V E maps tag r) ∧ (∀ r ∈ a.known, ADGood (d+1) V E maps tag r) ∧
      ((∃ f, NormalFacet (d+1) V E f) → a.initial ≠ []) ∧ (known = [] → a.known = []) ∧
      ∀ k ∈ known, ∃ r ∈ a.known, KnownOf (d+1) V E maps tag k r := by
  obtain ⟨k', h1, h2, h5⟩ := knownRows_good hsp hV hel hacts known hk
  have hinit : ∃ l, (∀ fuel ≥ F0.length, initialRows fuel V maps known E tag = some (.ok l)) ∧
      (∀ r ∈ l, ADGood (d+1) V E maps tag r) ∧ ((∃ f, NormalFacet (d+1) V E f) → l ≠ []) := by
    cases known with
    | nil =>
      obtain ⟨H, q1, -, q2, q3⟩ := heuristic_elim hV hm (Nat.succ_pos d) hnz
      rw [← hE] at q2 q3
      obtain ⟨l, q4, q5, q6⟩ := representatives_good hsp hV hel hacts H q2
      refine ⟨l, fun fuel hf => ?_, q6, fun hf hl => q3 hf ?_⟩
      · simp only [initialRows, q1, Run.bind, q4 fuel hf]
      · subst hl; exact List.length_eq_zero_iff.mp (by simpa using q5.symm)
    | cons k ks =>
      obtain ⟨k0, r, q1, q2, q3, -⟩ := known_good hsp hV hel hacts (hk k (by simp))
      refine ⟨[r], fun fuel hf => ?_, by simpa using q3, by simp⟩
      simp only [initialRows, q1, Run.bind, q2 fuel hf]
  obtain ⟨l, h3, h4, h6⟩ := hinit
  refine ⟨⟨E, maps, l, k'⟩, fun fuel hf => ?_, rfl, rfl, h4, h2, h6, ?_, h5⟩
  · simp only [initializePool, h3 fuel hf, h1 fuel hf, Run.bind]
  · rintro rfl
    have := h1 _ le_rfl
    simp only [knownRows, Option.some.injEq, Outcome.ok.injEq] at this
    exact this.symm

theorem ADGood.ne_nil {r : Row} (h : ADGood (d+1) V E maps tag r) : r ≠ [] := by
  rintro rfl
  have := h.1.1
  simp at this

theorem adSafe {ι : Type} (hsp : Split V (d+1) E R T) (hV : Rect V V.length (d+1)) (hel : Elim V (d+1) E F0)
    (hacts : ActsOn (d+1) V E maps tag P) (hr : 2 ≤ Spec.rank (d+1) V) {a : ADStart} (hm : a.maps = maps)
    (h1 : ∀ r ∈ a.initial, ADGood (d+1) V E maps tag r) (h2 : ∀ r ∈ a.known, ADGood (d+1) V E maps tag r) (remote : ι → Prop) :
    (adConfig remote V tag a).Safe (ADGood (d+1) V E maps tag) :=
  { nonempty := fun h => h.ne_nil rfl
    initial := h1
    known := h2
    rot := by
      rintro r m hg ⟨fuel, hf⟩
      rw [hm] at hf
      exact rot_good hsp hV hel hacts hr hg.1 hf }

theorem adFinite (hel : Elim V (d+1) E F0) : {r | ADGood (d+1) V E maps tag r}.Finite :=
  (List.finite_toSet F0).subset fun x hx => (hel.mem x).mpr hx.1

theorem adTotal {ι : Type} (hsp : Split V (d+1) E R T) (hV : Rect V V.length (d+1)) (hel : Elim V (d+1) E F0)
    (hacts : ActsOn (d+1) V E maps tag P) (hr : 2 ≤ Spec.rank (d+1) V) {a : ADStart} (hm : a.maps = maps) (remote : ι → Prop) :
    ∀ r, ADGood (d+1) V E maps tag r → ∃ m, (adConfig remote V tag a).Rot r m := by
  intro r hg
  obtain ⟨m, fuel, h⟩ := rot_total hsp hV hel hacts hr hg.1
  exact ⟨m, fuel, by rw [hm]; exact h⟩

end

/-! ## The action of the maps used for facets -/

section
variable {V E R : Matrix} {T : List Nat} {maps maps' : Maps} {d : Nat}

/-- what `reduce` guarantees about a map `m'` that stands for the map `m` of the input -/
def ActsAs (d : Nat) (V E : Matrix) (m m' : SymMap) : Prop :=
  ∀ a, NormalFacet (d+1) V E a → ∃ b g, applyMap m' a .facet = .ok b ∧ NormalFacet (d+1) V E b ∧ 0 < g ∧
    Composed (d+1) V (pulledL (d+1) m) a b g ∧ toV (d+1) b - g⁻¹ • Spec.pulled (d+1) m (Spec.vec (d+1) a) ∈ rowSpan (d+1) E

theorem actsAs_self {m : SymMap} (hm : Spec.IsHullSymmetry (d+1) V m) : ActsAs d V [] m m := by
  intro a ha
  obtain ⟨b, hb, hbl, ⟨g, hg, hgb⟩, hprim⟩ := applyMap_facet hm.isMap ha.1
  have hg' : (0 : ℚ) < g := by exact_mod_cast hg
  have hcomp := composed_facet (V := V) hbl hgb
  refine ⟨b, g, hb, ha.composed hm.permutes hbl hg' hcomp (by simp) ?_, hg', hcomp, ?_⟩
  · intro hne
    apply hprim
    intro h0
    rw [hgb] at h0
    have h5 := (smul_eq_zero.mp h0).resolve_left hg'.ne'
    rw [vec_eq_toV, toV_eq_zero_iff _ b hbl] at h5
    obtain ⟨x, hx, hx0⟩ := hne
    exact hx0 (h5 x hx)
  · rw [hgb, smul_smul, inv_mul_cancel₀ hg'.ne', one_smul, vec_eq_toV, sub_self]
    exact Submodule.zero_mem _

/-- what `reduce` returns -/
theorem reduceFacet_spec (hsp : Split V (d+1) E R T) (hE : extractEquations V = .ok E)
    (hmaps : ∀ m ∈ maps, Spec.IsHullSymmetry (d+1) V m) (hone : ∀ m ∈ maps, Spec.Adaptable (d+1) E m)
    (hred : reduceFacet V maps = .ok (E, maps')) :
    (∀ m' ∈ maps', ∃ m ∈ maps, ActsAs d V E m m') ∧ ∀ m ∈ maps, ∃ m' ∈ maps', ActsAs d V E m m' := by
  simp only [reduceFacet, hE, Outcome.bind] at hred
  by_cases h0 : E = []
  · subst h0
    simp only [if_pos] at hred
    cases hred
    exact ⟨fun m hm => ⟨m, hm, actsAs_self (hmaps m hm)⟩, fun m hm => ⟨m, hm, actsAs_self (hmaps m hm)⟩⟩
  · rw [if_neg h0] at hred
    cases hn : normalizeMaps maps E with
    | thrown => rw [hn] at hred; simp at hred
    | ub => rw [hn] at hred; simp at hred
    | ok ms =>
      rw [hn] at hred
      cases hred
      have hone' : ∀ m ∈ maps, Adapts (d+1) E m := fun m hm => (adaptable_iff hsp.echelon).1 (hone m hm)
      obtain ⟨n1, n2⟩ := normalizeMaps_mem hn
      refine ⟨fun m' hm' => ?_, fun m hm => ?_⟩
      · obtain ⟨m, hm, e⟩ := n1 m' hm'
        exact ⟨m, hm, fun a ha => applyMap_normalized hsp (hone' m hm) (hmaps m hm) e ha⟩
      · obtain ⟨m', hm', e⟩ := n2 m hm
        exact ⟨m', hm', fun a ha => applyMap_normalized hsp (hone' m hm) (hmaps m hm) e ha⟩

theorem facet_actsOn (h : ∀ m' ∈ maps', ∃ m ∈ maps, ActsAs d V E m m')
    (hmaps : ∀ m ∈ maps, Spec.IsHullSymmetry (d+1) V m ∧ Spec.IsAffine d m) :
    ActsOn (d+1) V E maps' .facet (KeepsLast d) := by
  intro m' hm'
  obtain ⟨m, hm, ha⟩ := h m' hm'
  refine ⟨pulledL (d+1) m, pulled_trivialRow (hmaps m hm).2, (hmaps m hm).1.permutes, fun a hn => ?_⟩
  obtain ⟨b, g, q1, q2, q3, q4, -⟩ := ha a hn
  exact ⟨b, g, q1, q2, q3, q4⟩

/-- the steps of the program are those of the symmetries -/
theorem facet_step (hsp : Split V (d+1) E R T) (hV : Rect V V.length (d+1))
    (h : (∀ m' ∈ maps', ∃ m ∈ maps, ActsAs d V E m m') ∧ ∀ m ∈ maps, ∃ m' ∈ maps', ActsAs d V E m m')
    {a b : Row} (ha : NormalFacet (d+1) V E a) (hb : NormalFacet (d+1) V E b) :
    Step maps' .facet a b ↔ Spec.SymStep (d+1) E maps a b := by
  constructor
  · rintro ⟨m', hm', hap⟩
    obtain ⟨m, hm, hn⟩ := h.1 m' hm'
    obtain ⟨b', g, q1, -, q3, -, q5⟩ := hn a ha
    rw [hap] at q1; cases q1
    exact ⟨m, hm, g⁻¹, inv_pos.mpr q3, q5⟩
  · rintro ⟨m, hm, s, hs, hs'⟩
    obtain ⟨m', hm', hn⟩ := h.2 m hm
    obtain ⟨b', g, q1, q2, q3, -, q5⟩ := hn a ha
    refine ⟨m', hm', ?_⟩
    rw [q1]
    congr 1
    refine (NormalFacet.not_proportional hsp hV q2 hb (t := s * g) ?_).symm
    have : toV (d+1) b - (s * g) • toV (d+1) b' = (Spec.vec (d+1) b - s • Spec.pulled (d+1) m (Spec.vec (d+1) a)) -
        (s * g) • (toV (d+1) b' - g⁻¹ • Spec.pulled (d+1) m (Spec.vec (d+1) a)) := by
      rw [smul_sub, smul_smul, mul_assoc, mul_inv_cancel₀ q3.ne', mul_one, vec_eq_toV]; module
    rw [this]
    exact Submodule.sub_mem _ hs' (Submodule.smul_mem _ _ q5)

theorem facet_orbit (hsp : Split V (d+1) E R T) (hV : Rect V V.length (d+1))
    (h : (∀ m' ∈ maps', ∃ m ∈ maps, ActsAs d V E m m') ∧ ∀ m ∈ maps, ∃ m' ∈ maps', ActsAs d V E m m')
    (hacts : ActsOn (d+1) V E maps' .facet (KeepsLast d)) {a b : Row} (ha : NormalFacet (d+1) V E a) :
    Reach maps' .facet a b ↔ Spec.FacetOrbit (d+1) V E maps a b := by
  constructor
  · intro hr
    induction hr with
    | refl => exact .refl
    | tail hab hs ih =>
      have hb := hacts.reach ha hab
      have hc := hacts.reach hb (.single hs)
      exact ih.tail ⟨(normalisedFacet_iff hsp).mpr hb, (normalisedFacet_iff hsp).mpr hc, (facet_step hsp hV h hb hc).mp hs⟩
  · intro hr
    induction hr with
    | refl => exact .refl
    | tail _ hs ih =>
      exact ih.tail ((facet_step hsp hV h ((normalisedFacet_iff hsp).mp hs.1) ((normalisedFacet_iff hsp).mp hs.2.1)).mpr hs.2.2)

end

end Panda
