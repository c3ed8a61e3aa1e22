import Verif.Props.Symmetry
import Verif.Proofs.MapNormDefined

/-! # Properties C25, C52: normalised maps, double description under symmetry -/

namespace Panda

open Cone

/-! ## C25 -/

/-- **C25** (for equations with leading coefficient one, and maps for which the code runs into no undefined
behaviour): the normalised map sends every normalised inequality to the same inequality modulo the
equations as the given map, and the result is again normalised. -/
theorem C25_normalize_partial {n : Nat} {E : Matrix} {m m' : SymMap} (hE : Spec.ReducedEchelon n E)
    (hone : ∀ e ∈ E, ∀ k, Spec.Lead e k → e.getD k 0 = 1) (hm : Spec.IsMap n m)
    (h : normalizeMap m E = .ok m') :
    Spec.IsMap n m' ∧ ∀ a : Fin n → ℚ, (∀ e ∈ E, ∀ k, Spec.Lead e k → ∀ i : Fin n, (i : Nat) = k → a i = 0) →
      Spec.pulled n m' a - Spec.pulled n m a ∈ Spec.span n E ∧
      ∀ e ∈ E, ∀ k, Spec.Lead e k → ∀ i : Fin n, (i : Nat) = k → Spec.pulled n m' a i = 0 := by
  have hE' := reducedEchelon_iff.mp hE
  obtain ⟨h1, h2⟩ := normalizeMap_spec hE' (fun e he => hone e he _ (lead_iff.mpr
    ⟨by rw [hE'.len e he]; exact (hE'.lead e he).1, rfl⟩)) hm h
  refine ⟨h1, fun a ha => ?_⟩
  obtain ⟨h3, h4⟩ := h2 a (fun e he hc => ha e he _ (lead_iff.mpr ⟨by rw [hE'.len e he]; exact hc, rfl⟩) _ rfl)
  refine ⟨h3, fun e he k hk i hi => ?_⟩
  have := (lead_iff.mp hk).2
  have h5 := h4 e he (by rw [this, ← hi]; exact i.2)
  convert h5 using 2
  exact Fin.ext (by simp only; omega)

/-- **C25**, exactly: for every map for which the code runs into no undefined behaviour, whatever the leading coefficients of the equations
are, the images of normalised inequalities are normalised, and the normalised map acts as the given one modulo the equations if and only if
no division by a leading coefficient would have been needed (`Spec.Adaptable`). -/
theorem C25_exact {n : Nat} {E : Matrix} {m m' : SymMap} (hE : Spec.ReducedEchelon n E) (hm : Spec.IsMap n m) (h : normalizeMap m E = .ok m') :
    Spec.IsMap n m' ∧
    (∀ a : Fin n → ℚ, (∀ e ∈ E, ∀ k, Spec.Lead e k → ∀ i : Fin n, (i : Nat) = k → a i = 0) →
      ∀ e ∈ E, ∀ k, Spec.Lead e k → ∀ i : Fin n, (i : Nat) = k → Spec.pulled n m' a i = 0) ∧
    ((∀ a : Fin n → ℚ, (∀ e ∈ E, ∀ k, Spec.Lead e k → ∀ i : Fin n, (i : Nat) = k → a i = 0) →
      Spec.pulled n m' a - Spec.pulled n m a ∈ Spec.span n E) ↔ Spec.Adaptable n E m) := by
  have hE' := reducedEchelon_iff.mp hE
  have hz : ∀ a : Fin n → ℚ, (∀ e ∈ E, ∀ k, Spec.Lead e k → ∀ i : Fin n, (i : Nat) = k → a i = 0) ↔
      ∀ e ∈ E, ∀ hc : firstNonzero e < n, a ⟨firstNonzero e, hc⟩ = 0 := by
    intro a
    constructor
    · exact fun ha e he hc => ha e he _ (lead_iff.mpr ⟨by rw [hE'.len e he]; exact hc, rfl⟩) _ rfl
    · intro ha e he k hk i hi
      have := (lead_iff.mp hk).2
      have h5 := ha e he (by rw [this, ← hi]; exact i.2)
      convert h5 using 2
      exact Fin.ext (by simp only; omega)
  obtain ⟨h1, h2, h3⟩ := normalizeMap_exact hE' hm h
  rw [adaptable_iff hE']
  refine ⟨h1, fun a ha => (hz _).2 (h2 a ((hz a).1 ha)), ?_⟩
  rw [← h3]
  exact ⟨fun H a ha => H a ((hz a).2 ha), fun H a ha => H a ((hz a).1 ha)⟩

/-- both cases occur for one equation with leading coefficient two: exchanging the coordinates that are not eliminated is adapted correctly,
exchanging the eliminated one with another is not -/
example : Spec.ReducedEchelon 4 [[2, 1, 1, -2]] ∧
    normalizeMap [[(0, 1)], [(2, 1)], [(1, 1)], [(3, 1)]] [[2, 1, 1, -2]] = .ok [[], [(2, 1)], [(1, 1)], [(3, 1)]] ∧
    Spec.Adaptable 4 [[2, 1, 1, -2]] [[(0, 1)], [(2, 1)], [(1, 1)], [(3, 1)]] ∧
    normalizeMap [[(1, 1)], [(0, 1)], [(2, 1)], [(3, 1)]] [[2, 2, -1, 0]] = .ok [[], [(1, -2), (2, 1)], [(2, 1)], [(3, 1)]] ∧
    ¬ Spec.Adaptable 4 [[2, 2, -1, 0]] [[(1, 1)], [(0, 1)], [(2, 1)], [(3, 1)]] := by
  refine ⟨reducedEchelon_iff.mpr ⟨by decide, by decide, by simp⟩, by decide, ?_, by decide, ?_⟩
  · rw [adaptable_iff ⟨by decide, by decide, by simp⟩]
    intro i hi hl e he
    rw [List.mem_singleton] at he; subst he
    have h0 := hl [2, 1, 1, -2] (by simp)
    left
    have : i = 1 ∨ i = 2 ∨ i = 3 := by
      have : i ≠ 0 := fun h => h0 (by subst h; decide)
      omega
    rcases this with rfl | rfl | rfl <;> decide
  · rw [adaptable_iff ⟨by decide, by decide, by simp⟩]
    intro H
    rcases H 1 (by decide) (by decide) [2, 2, -1, 0] (by simp) with h | h | h
    · revert h; decide
    · revert h; decide
    · have := h 1 (by decide)
      revert this; decide

/-- **C25**, exactly: if there are equations, normalising a map is defined if and only if every coordinate that is not eliminated has at
most one term in its image, and, where this term is a coordinate eliminated by one of the equations before the last, that equation mentions
at most one other coordinate (a homogenised row: the constant counts).  Otherwise it is undefined behaviour, never an exception. -/
theorem C25_defined {n : Nat} {E : Matrix} {m : SymMap} (hE : Spec.ReducedEchelon n E) (h0 : E ≠ []) (hm : Spec.IsMap n m) :
    ((∃ m', normalizeMap m E = .ok m') ↔ ∀ i < n, (∀ e ∈ E, ¬ Spec.Lead e i) → (m.getD i []).length ≤ 1 ∧
      ∀ e ∈ E.dropLast, ∀ k, Spec.Lead e k → ∀ c, m.getD i [] = [(k, c)] →
        ∀ j j', j ≠ k → j' ≠ k → e.getD j 0 ≠ 0 → e.getD j' 0 ≠ 0 → j = j') ∧
    ((∃ m', normalizeMap m E = .ok m') ∨ normalizeMap m E = .ub) := by
  have hE' := reducedEchelon_iff.mp hE
  have hl : ∀ e ∈ E, firstNonzero e < e.length := fun e he => by rw [hE'.len e he]; exact (hE'.lead e he).1
  refine ⟨?_, ?_⟩
  · rw [normalizeMap_defined hE' h0 hm]
    constructor
    · intro H i hi hlead
      obtain ⟨h1, h2⟩ := H i hi fun e he hc => hlead e he (lead_iff.2 ⟨hl e he, hc⟩)
      refine ⟨h1, fun e he k hk c hc => ?_⟩
      obtain ⟨-, rfl⟩ := lead_iff.1 hk
      exact otherTerms_le.1 (h2 e he c hc)
    · intro H i hi hlead
      obtain ⟨h1, h2⟩ := H i hi fun e he hc => hlead e he (lead_iff.1 hc).2
      exact ⟨h1, fun e he c hc => otherTerms_le.2 (h2 e he _ (lead_iff.2 ⟨hl e (List.mem_of_mem_dropLast he), rfl⟩) c hc)⟩
  · cases h : normalizeMap m E with
    | ok m' => exact .inl ⟨m', rfl⟩
    | thrown => exact absurd h (normalizeMap_not_thrown m E)
    | ub => exact .inr rfl

/-- without equations, normalising only needs the indices of each image to be different -/
theorem C25_no_equations {maps : Maps} (h : ∀ m ∈ maps, ∀ im ∈ m, (im.map Prod.fst).Nodup) :
    ∃ maps', normalizeMaps maps [] = .ok maps' := normalizeMaps_full h

/-- the equation `x + y + z = 1` (leading coefficient one) and a cyclic rotation of the coordinates -/
example : Spec.ReducedEchelon 4 [[1, 1, 1, -1]] ∧ (∀ k, Spec.Lead [1, 1, 1, -1] k → [1, 1, 1, -1].getD k 0 = (1 : Int)) ∧
    normalizeMap [[(1, 1)], [(2, 1)], [(0, 1)], [(3, 1)]] [[1, 1, 1, -1]] =
      .ok [[], [(2, 1)], [(1, -1), (2, -1), (3, 1)], [(3, 1)]] := by
  refine ⟨reducedEchelon_iff.mpr ⟨by decide, by decide, by simp⟩, ?_, by decide⟩
  intro k hk
  have := (lead_iff.mp hk).2
  subst this; decide

/-- **C25 is false of the code in general (1)**: with an equation, an image with two terms leads to
undefined behaviour (the image is assigned to while it is being iterated over).  Here `x ↦ 1 - x`,
`y ↦ 1 - y` on the segment `x + y = 1`. -/
theorem C25_undefined_false :
    Spec.IsMap 3 [[(2, 1), (0, -1)], [(2, 1), (1, -1)], [(2, 1)]] ∧ Spec.ReducedEchelon 3 [[1, 1, -1]] ∧
      normalizeMap [[(2, 1), (0, -1)], [(2, 1), (1, -1)], [(2, 1)]] [[1, 1, -1]] = .ub := by
  exact ⟨⟨rfl, by decide⟩, reducedEchelon_iff.mpr ⟨by decide, by decide, by simp⟩, by decide⟩

/-- also a permutation of the coordinates is affected, as soon as there are two equations -/
theorem C25_undefined_permutation_false :
    Spec.ReducedEchelon 6 [[1, 0, 0, 1, 1, -1], [0, 1, 1, 1, 0, -1]] ∧
      normalizeMap [[(2, 1)], [(3, 1)], [(0, 1)], [(1, 1)], [(4, 1)], [(5, 1)]]
        [[1, 0, 0, 1, 1, -1], [0, 1, 1, 1, 0, -1]] = .ub := by
  exact ⟨reducedEchelon_iff.mpr ⟨by decide, by decide, by decide⟩, by decide⟩

/-- **C25 is false of the code in general (2)**: the division by the leading coefficient is missing.  For
the triangle (0,0,0), (1,0,2), (0,1,2) in the plane `2x + 2y - z = 0` and the swap of `x` and `y`, the
normalised map sends the facet `2y - z ≤ 0` to `-4y + z ≤ 0`, which is not valid. -/
theorem C25_wrong_false :
    extractEquations [[0, 0, 0, 1], [1, 0, 2, 1], [0, 1, 2, 1]] = .ok [[2, 2, -1, 0]] ∧
    normalizeMap [[(1, 1)], [(0, 1)], [(2, 1)], [(3, 1)]] [[2, 2, -1, 0]] =
      .ok [[], [(1, -2), (2, 1)], [(2, 1)], [(3, 1)]] ∧
    (∀ v ∈ [[0, 0, 0, 1], [1, 0, 2, 1], [0, 1, 2, 1]], Spec.ip [0, 2, -1, 0] v ≤ 0) ∧
    applyMap [[], [(1, -2), (2, 1)], [(2, 1)], [(3, 1)]] [0, 2, -1, 0] .facet = .ok [0, -4, 1, 0] ∧
    ¬ (∀ v ∈ [[0, 0, 0, 1], [1, 0, 2, 1], [0, 1, 2, 1]], Spec.ip [0, -4, 1, 0] v ≤ 0) := by decide

/-! ## C52 -/

/-- on a finite set on which `act` is defined, closed and injective, the classes are the orbits -/
theorem classes_orbits {maps : Maps} {tag : Tag} {F : Matrix} {step : Row → Row → Prop}
    (hstep : ∀ a ∈ F, ∀ m ∈ maps, ∃ b ∈ F, applyMap m a tag = .ok b)
    (hinj : ∀ m ∈ maps, ∀ x ∈ F, ∀ y ∈ F, applyMap m x tag = applyMap m y tag → x = y)
    (hiff : ∀ a ∈ F, ∀ b ∈ F, Step maps tag a b ↔ step a b) :
    ∃ R N, (∀ fuel ≥ N, classes fuel F maps tag = some (.ok R)) ∧ R.Nodup ∧ (∀ r ∈ R, r ∈ F) ∧
      (∀ a ∈ F, ∃! r, r ∈ R ∧ Spec.OrbitIn F step r a) ∧
      ∀ r ∈ R, ∀ a, Spec.OrbitIn F step r a → a = r ∨ a < r := by
  obtain ⟨R, N, h1, h2, h3, h4, h5⟩ := C21_classes_partition hstep hinj
  have hmem : ∀ {a b : Row}, a ∈ F → Reach maps tag a b → b ∈ F := fun {a b} ha h =>
    Reach.mem_closed (fun x hx m hm => by obtain ⟨y, hy, e⟩ := hstep x hx m hm; exact ⟨y, e, hy⟩) ha h
  have hr : ∀ a ∈ F, ∀ b, Reach maps tag a b ↔ Spec.OrbitIn F step a b := by
    intro a ha b
    constructor
    · intro h
      induction h with
      | refl => exact .refl
      | tail hab hs ih =>
        have hb := hmem ha hab
        obtain ⟨m, hm, hap⟩ := hs
        have hc := hmem hb (.single ⟨m, hm, hap⟩)
        exact ih.tail ⟨hb, hc, (hiff _ hb _ hc).mp ⟨m, hm, hap⟩⟩
    · intro h
      induction h with
      | refl => exact .refl
      | tail _ hs ih => exact ih.tail ((hiff _ hs.1 _ hs.2.1).mpr hs.2.2)
  refine ⟨R, N, h1, h2, h3, fun a ha => ?_, fun r hrR a ha => h5 r hrR a ((hr r (h3 r hrR) a).mpr ha)⟩
  obtain ⟨r, ⟨q1, q2⟩, q3⟩ := h4 a ha
  exact ⟨r, ⟨q1, (hr r (h3 r q1) a).mp q2⟩, fun r' hr' => q3 r' ⟨hr'.1, (hr r' (h3 r' hr'.1) a).mpr hr'.2⟩⟩

/-- applying the normalised map to a normalised facet -/
theorem applyMap_normalized {d : Nat} {V E R : Matrix} {T : List Nat} (hsp : Split V (d+1) E R T)
    {m m' : SymMap} (hone : Adapts (d+1) E m)
    (hm : Spec.IsHullSymmetry (d+1) V m) (h : normalizeMap m E = .ok m') {a : Row} (ha : NormalFacet (d+1) V E a) :
    ∃ b g, applyMap m' a .facet = .ok b ∧ NormalFacet (d+1) V E b ∧ 0 < g ∧
      Composed (d+1) V (pulledL (d+1) m) a b g ∧
      toV (d+1) b - g⁻¹ • Spec.pulled (d+1) m (Spec.vec (d+1) a) ∈ rowSpan (d+1) E := by
  obtain ⟨hm', hp⟩ := normalizeMap_adapts hsp.echelon hone hm.isMap h
  obtain ⟨b, hb, hbl, ⟨g, hg, hgb⟩, hprim⟩ := applyMap_facet hm' ha.1
  have hg' : (0 : ℚ) < g := by exact_mod_cast hg
  obtain ⟨h1, h2⟩ := hp (Spec.vec (d+1) a) (fun e he hc => by
    simp only [Spec.vec]; rw [ha.2.2.1 e he]; simp)
  have hcomp : Composed (d+1) V (pulledL (d+1) m) a b g := by
    intro v hv
    have h3 := ev_rowSpan_zero hsp.E_len (fun e he => hsp.E_zero e he v hv) h1
    rw [map_sub, sub_eq_zero, hgb, map_smul, vec_eq_toV, ev_toV _ b v hbl.le, smul_eq_mul] at h3
    exact h3.symm
  refine ⟨b, g, hb, ?_, hg', hcomp, ?_⟩
  · refine ha.composed hm.permutes hbl hg' hcomp ?_ ?_
    · intro e he
      have hc := (hsp.E_lead e he).1
      have := h2 e he hc
      rw [hgb, Pi.smul_apply, smul_eq_mul] at this
      have := (mul_eq_zero.mp this).resolve_left hg'.ne'
      simp only [Spec.vec] at this; exact_mod_cast this
    · intro hne
      apply hprim
      intro h0
      rw [hgb] at h0
      have h5 := (smul_eq_zero.mp h0).resolve_left hg'.ne'
      rw [vec_eq_toV, toV_eq_zero_iff _ b hbl] at h5
      obtain ⟨x, hx, hx0⟩ := hne
      exact hx0 (h5 x hx)
  · have : toV (d+1) b - (g : ℚ)⁻¹ • Spec.pulled (d+1) m (Spec.vec (d+1) a) =
        (g : ℚ)⁻¹ • (Spec.pulled (d+1) m' (Spec.vec (d+1) a) - Spec.pulled (d+1) m (Spec.vec (d+1) a)) := by
      rw [hgb, smul_sub, smul_smul, inv_mul_cancel₀ hg'.ne', one_smul]; rfl
    rw [this]
    exact Submodule.smul_mem _ _ h1

/-- an affine symmetry fixes the last coordinate -/
theorem pushed_last {d : Nat} {m : SymMap} (h : Spec.IsAffine d m) (x : Fin (d+1) → ℚ) :
    Spec.pushed (d+1) m x (Fin.last d) = x (Fin.last d) := by
  simp only [Spec.pushed, Fin.val_last]
  rw [Finset.sum_eq_single (Fin.last d)]
  · rw [Fin.val_last, h d le_rfl, if_pos rfl]; simp
  · intro j _ hj
    have : (j : Nat) ≠ d := fun hc => hj (Fin.ext hc)
    rw [h j (by omega), if_neg this]; simp
  · intro hn; exact absurd (Finset.mem_univ _) hn

/-- and pulling the trivial inequality back does not change it -/
theorem pulled_trivialRow {d : Nat} {m : SymMap} (h : Spec.IsAffine d m) :
    pulledL (d+1) m (toV (d+1) (trivialRow d)) = toV (d+1) (trivialRow d) := by
  have e : ∀ i : Fin (d+1), toV (d+1) (trivialRow d) i = if i = Fin.last d then -1 else 0 := by
    intro i
    unfold toV trivialRow
    by_cases hi : i = Fin.last d
    · subst hi; simp
    · have : (i : Nat) < d := by
        have := i.2
        have : (i : Nat) ≠ d := fun hc => hi (Fin.ext hc)
        omega
      rw [if_neg hi, List.getD_eq_getElem?_getD, List.getElem?_append_left (by simpa using this)]
      simp [this]
  funext j
  show ∑ i : Fin (d+1), (Spec.factor m i j : ℚ) * toV (d+1) (trivialRow d) i = _
  rw [Finset.sum_eq_single (Fin.last d)]
  · rw [e, e, if_pos rfl, Fin.val_last, h j (by omega)]
    by_cases hj : j = Fin.last d
    · subst hj; simp
    · have : (j : Nat) ≠ d := fun hc => hj (Fin.ext hc)
      rw [if_neg this, if_neg hj]; simp
  · intro i _ hi; rw [e, if_neg hi, mul_zero]
  · intro hn; exact absurd (Finset.mem_univ _) hn

/-- **C52** (for maps that can be adapted to the equations without division, see `C25_exact`; full-dimensional input in particular, or without
maps): if the maps are affine symmetries of the input, then double description terminates and prints the equations and,
for every orbit of facets, exactly one inequality, the lexicographically largest of the orbit.  (By
`C09_dd_irredundant` and `C09_every_facet_reported` the rows `F` are all the facets.) -/
theorem C52_facets_partial {d : Nat} {V E : Matrix} {maps maps' : Maps} (hV : Spec.IsVInput d V)
    (hmaps : ∀ m ∈ maps, Spec.IsHullSymmetry (d+1) V m ∧ Spec.IsAffine d m)
    (hE : extractEquations V = .ok E) (hone : ∀ m ∈ maps, Spec.Adaptable (d+1) E m)
    (hnorm : normalizeMaps maps E = .ok maps') :
    ∃ F R N, fourierMotzkinElimination V = .ok F ∧
      (∀ fuel ≥ N, facetEnumerationDD fuel V maps = some (.ok ⟨E, decide (maps ≠ []), R⟩)) ∧
      R.Nodup ∧ (∀ r ∈ R, r ∈ F) ∧
      (∀ a ∈ F, ∃! r, r ∈ R ∧ Spec.OrbitIn F (Spec.SymStep (d+1) E maps) r a) ∧
      ∀ r ∈ R, ∀ a, Spec.OrbitIn F (Spec.SymStep (d+1) E maps) r a → a = r ∨ a < r := by
  obtain ⟨E', F0, h1, hE', h3, h4, h5⟩ := dd_ok hV
  rw [hE] at h1; cases h1
  have hone' : ∀ m ∈ maps, Adapts (d+1) E m := fun m hm => (adaptable_iff h3.echelon).1 (hone m hm)
  have hrect := (IsVInput.rect hV).1
  obtain ⟨n1, n2⟩ := normalizeMaps_mem hnorm
  -- the reported rows
  have hmem : ∀ a, a ∈ F0.filter (fun a => !(isBadRow a)) ↔ NormalFacet (d+1) V E a ∧ a ≠ trivialRow d := by
    intro a
    rw [List.mem_filter, h4.mem]
    refine and_congr_right fun ha => ?_
    have := isBadRow_eq_trivialRow ha.1
    cases hb : isBadRow a <;> simp_all
  -- the trivial row is fixed
  have htriv : ∀ m, Spec.IsHullSymmetry (d+1) V m → Spec.IsAffine d m → ∀ a b g, NormalFacet (d+1) V E a →
      NormalFacet (d+1) V E b → Composed (d+1) V (pulledL (d+1) m) a b g → b = trivialRow d → a = trivialRow d := by
    intro m hm haff a b g ha hb hcomp hbt
    subst hbt
    refine NormalFacet.composed_inj hm.permutes h3 hrect ha hb hcomp one_pos fun v _ => ?_
    rw [pulled_trivialRow haff, ev_toV _ _ v (trivialRow_length d).le, one_mul]
  have hstep : ∀ a ∈ F0.filter (fun a => !(isBadRow a)), ∀ m' ∈ maps', ∃ b ∈ F0.filter (fun a => !(isBadRow a)),
      applyMap m' a .facet = .ok b := by
    intro a ha m' hm'
    obtain ⟨m, hm, hn⟩ := n1 m' hm'
    obtain ⟨ha1, ha2⟩ := (hmem a).mp ha
    obtain ⟨b, g, q1, q2, q3, q4, -⟩ := applyMap_normalized h3 (hone' m hm) (hmaps m hm).1 hn ha1
    exact ⟨b, (hmem b).mpr ⟨q2, fun hb => ha2 (htriv m (hmaps m hm).1 (hmaps m hm).2 a b g ha1 q2 q4 hb)⟩, q1⟩
  obtain ⟨R, N, r1, r2, r3, r4, r5⟩ := classes_orbits (maps := maps') (tag := .facet)
    (F := F0.filter (fun a => !(isBadRow a))) (step := Spec.SymStep (d+1) E maps) hstep
    (by
      intro m' hm' x hx y hy hxy
      obtain ⟨m, hm, hn⟩ := n1 m' hm'
      obtain ⟨b, g, q1, q2, q3, q4, -⟩ := applyMap_normalized h3 (hone' m hm) (hmaps m hm).1 hn ((hmem x).mp hx).1
      obtain ⟨b', g', q1', q2', q3', q4', -⟩ := applyMap_normalized h3 (hone' m hm) (hmaps m hm).1 hn ((hmem y).mp hy).1
      rw [q1, q1'] at hxy; cases hxy
      exact NormalFacet.composed_inj (hmaps m hm).1.permutes h3 hrect ((hmem x).mp hx).1 ((hmem y).mp hy).1 q4 q3' q4')
    (by
      intro a ha b hb
      constructor
      · rintro ⟨m', hm', hap⟩
        obtain ⟨m, hm, hn⟩ := n1 m' hm'
        obtain ⟨b', g, q1, -, q3, -, q5⟩ := applyMap_normalized h3 (hone' m hm) (hmaps m hm).1 hn ((hmem a).mp ha).1
        rw [hap] at q1; cases q1
        exact ⟨m, hm, g⁻¹, inv_pos.mpr q3, q5⟩
      · rintro ⟨m, hm, s, hs, hsp⟩
        obtain ⟨m', hm', hn⟩ := n2 m hm
        obtain ⟨b', g, q1, q2, q3, -, q5⟩ := applyMap_normalized h3 (hone' m hm) (hmaps m hm).1 hn ((hmem a).mp ha).1
        refine ⟨m', hm', ?_⟩
        rw [q1]
        congr 1
        refine (NormalFacet.not_proportional h3 hrect q2 ((hmem b).mp hb).1 (t := s * g) ?_).symm
        have : toV (d+1) b - (s * g) • toV (d+1) b' = (Spec.vec (d+1) b - s • Spec.pulled (d+1) m (Spec.vec (d+1) a)) -
            (s * g) • (toV (d+1) b' - g⁻¹ • Spec.pulled (d+1) m (Spec.vec (d+1) a)) := by
          rw [smul_sub, smul_smul, mul_assoc, mul_inv_cancel₀ q3.ne', mul_one, vec_eq_toV]; module
        rw [this]
        exact Submodule.sub_mem _ hsp (Submodule.smul_mem _ _ q5))
  refine ⟨_, R, N, h5, fun fuel hf => ?_, r2, r3, r4, r5⟩
  unfold facetEnumerationDD
  simp only [hE, hnorm, h5, Run.lift, Run.bind]
  rw [r1 fuel hf]

/-- the standard simplex with a rotation of the coordinates: one orbit of facets, printed modulo `x + y + z = 1` -/
example : facetEnumerationDD 10 [[1, 0, 0, 1], [0, 1, 0, 1], [0, 0, 1, 1]] [[[(1, 1)], [(2, 1)], [(0, 1)], [(3, 1)]]] =
      some (.ok ⟨[[1, 1, 1, -1]], true, [[0, 1, 1, -1]]⟩) ∧
    normalizeMaps [[[(1, 1)], [(2, 1)], [(0, 1)], [(3, 1)]]] [[1, 1, 1, -1]] =
      .ok [[[], [(2, 1)], [(1, -1), (2, -1), (3, 1)], [(3, 1)]]] ∧
    Spec.IsSymmetry 4 [[1, 0, 0, 1], [0, 1, 0, 1], [0, 0, 1, 1]] [[(1, 1)], [(2, 1)], [(0, 1)], [(3, 1)]] := by
  refine ⟨by decide, by decide, ⟨rfl, by decide⟩, ?_, ?_⟩
  · intro v hv
    refine ⟨[v.getD 1 0, v.getD 2 0, v.getD 0 0, v.getD 3 0], by revert v; decide, 1, one_pos, ?_⟩
    funext i
    fin_cases i <;> simp [Spec.pushed, Spec.vec, Fin.sum_univ_four, Spec.factor]
  · intro v hv
    refine ⟨[v.getD 2 0, v.getD 0 0, v.getD 1 0, v.getD 3 0], by revert v; decide, 1, one_pos, ?_⟩
    funext i
    fin_cases i <;> simp [Spec.pushed, Spec.vec, Fin.sum_univ_four, Spec.factor]

/-- full-dimensional input has no equations, and then the two remaining hypotheses of `C52_facets_partial`
hold as long as no image mentions a variable twice -/
theorem C52_facets_full_dimensional {d : Nat} {V : Matrix} {maps : Maps} (hV : Spec.IsVInput d V)
    (hfull : extractEquations V = .ok [])
    (hmaps : ∀ m ∈ maps, Spec.IsHullSymmetry (d+1) V m ∧ Spec.IsAffine d m)
    (hvar : ∀ m ∈ maps, ∀ im ∈ m, (im.map Prod.fst).Nodup) :
    ∃ F R N, fourierMotzkinElimination V = .ok F ∧
      (∀ fuel ≥ N, facetEnumerationDD fuel V maps = some (.ok ⟨[], decide (maps ≠ []), R⟩)) ∧
      R.Nodup ∧ (∀ r ∈ R, r ∈ F) ∧
      (∀ a ∈ F, ∃! r, r ∈ R ∧ Spec.OrbitIn F (Spec.SymStep (d+1) [] maps) r a) ∧
      ∀ r ∈ R, ∀ a, Spec.OrbitIn F (Spec.SymStep (d+1) [] maps) r a → a = r ∨ a < r := by
  obtain ⟨maps', hn⟩ := C25_no_equations hvar
  exact C52_facets_partial hV hmaps hfull (fun _ _ => by simp [Spec.Adaptable]) hn

/-- the unit square with the reflection `x ↦ 1 - x`: three orbits of facets -/
example : Spec.IsVInput 2 [[0, 0, 1], [1, 0, 1], [0, 1, 1], [1, 1, 1]] ∧
    extractEquations [[0, 0, 1], [1, 0, 1], [0, 1, 1], [1, 1, 1]] = .ok [] ∧
    Spec.IsSymmetry 3 [[0, 0, 1], [1, 0, 1], [0, 1, 1], [1, 1, 1]] [[(2, 1), (0, -1)], [(1, 1)], [(2, 1)]] ∧
    Spec.IsAffine 2 [[(2, 1), (0, -1)], [(1, 1)], [(2, 1)]] ∧
    facetEnumerationDD 10 [[0, 0, 1], [1, 0, 1], [0, 1, 1], [1, 1, 1]] [[[(2, 1), (0, -1)], [(1, 1)], [(2, 1)]]] =
      some (.ok ⟨[], true, [[1, 0, -1], [0, -1, 0], [0, 1, -1]]⟩) := by
  refine ⟨⟨by decide, by decide, by decide⟩, by decide, ⟨⟨rfl, by decide⟩, ?_, ?_⟩, ?_, by decide⟩
  · intro v hv
    refine ⟨[v.getD 2 0 - v.getD 0 0, v.getD 1 0, v.getD 2 0], ?_, 1, one_pos, ?_⟩
    · revert v; decide
    · funext i
      fin_cases i <;> simp [Spec.pushed, Spec.vec, Fin.sum_univ_three, Spec.factor, sub_eq_add_neg, add_comm]
  · intro v hv
    refine ⟨[v.getD 2 0 - v.getD 0 0, v.getD 1 0, v.getD 2 0], ?_, 1, one_pos, ?_⟩
    · revert v; decide
    · funext i
      fin_cases i <;> simp [Spec.pushed, Spec.vec, Fin.sum_univ_three, Spec.factor]
  · intro j hj
    have : j = 0 ∨ j = 1 ∨ j = 2 := by omega
    rcases this with rfl | rfl | rfl <;> decide

/-- **C52**, vertex enumeration: if the maps are symmetries of the set of solutions, then double
description terminates and prints, for every orbit of vertices and rays, exactly one element, the
lexicographically largest of the orbit.  (By `C12_vertex_enumeration`, `W` are the vertices and rays.) -/
theorem C52_vertices {d : Nat} {A : Matrix} {maps : Maps} (hA : ∀ a ∈ A, a.length = d + 1)
    (htriv : List.replicate d 0 ++ [-1] ∈ A) (hsat : ∃ p, Spec.Solves d A p) (hline : ¬ Spec.HasLine d A)
    (hmaps : ∀ m ∈ maps, Spec.IsSolutionSymmetry (d+1) A m) :
    ∃ (W R : Matrix) (N : Nat), fourierMotzkinElimination A = .ok W ∧
      (∀ fuel ≥ N, vertexEnumerationDD fuel A maps = some (.ok ⟨decide (maps ≠ []),
        R.filter (fun r => decide (r.getLastD 0 ≠ 0)), (R.filter fun r => decide (r.getLastD 0 = 0)).map List.dropLast⟩)) ∧
      R.Nodup ∧ (∀ r ∈ R, r ∈ W) ∧
      (∀ p ∈ W, ∃! r, r ∈ R ∧ Spec.OrbitIn W (Spec.PointStep (d+1) maps) r p) ∧
      ∀ r ∈ R, ∀ p, Spec.OrbitIn W (Spec.PointStep (d+1) maps) r p → p = r ∨ p < r := by
  obtain ⟨W, heq, hel, hnoE, -, -⟩ := ve_elim hA htriv hsat hline
  have hrect : Rect A A.length (d+1) := ⟨rfl, hA⟩
  have hsp := gaussSplit_spec hrect (List.length_pos_of_mem htriv) (Nat.succ_pos d)
  rw [hnoE] at hsp
  have happ : ∀ m ∈ maps, ∀ r, NormalFacet (d+1) A [] r → ∃ q g, applyMap m r .vertex = .ok q ∧
      NormalFacet (d+1) A [] q ∧ 0 < g ∧ Composed (d+1) A (pushedL (d+1) m) r q g ∧
      Spec.pushed (d+1) m (Spec.vec (d+1) r) = g • Spec.vec (d+1) q := by
    intro m hm r hr
    obtain ⟨q, hq, hql, ⟨g, hg, hgq⟩, hprim⟩ := applyMap_vertex (hmaps m hm).isMap hr.1
    have hg' : (0 : ℚ) < g := by exact_mod_cast hg
    have hcomp := composed_vertex (A := A) hql hgq
    refine ⟨q, g, hq, ?_, hg', hcomp, hgq⟩
    refine hr.composed (hmaps m hm).permutes hql hg' hcomp (by simp) ?_
    intro hne
    apply hprim
    intro h0
    rw [hgq] at h0
    have h5 := (smul_eq_zero.mp h0).resolve_left hg'.ne'
    rw [vec_eq_toV, toV_eq_zero_iff _ q hql] at h5
    obtain ⟨x, hx, hx0⟩ := hne
    exact hx0 (h5 x hx)
  obtain ⟨R, N, r1, r2, r3, r4, r5⟩ := classes_orbits (maps := maps) (tag := .vertex) (F := W)
    (step := Spec.PointStep (d+1) maps)
    (by
      intro a ha m hm
      obtain ⟨q, g, q1, q2, -⟩ := happ m hm a ((hel.mem a).mp ha)
      exact ⟨q, (hel.mem q).mpr q2, q1⟩)
    (by
      intro m hm x hx y hy hxy
      obtain ⟨b, g, q1, q2, q3, q4, -⟩ := happ m hm x ((hel.mem x).mp hx)
      obtain ⟨b', g', q1', q2', q3', q4', -⟩ := happ m hm y ((hel.mem y).mp hy)
      rw [q1, q1'] at hxy; cases hxy
      exact NormalFacet.composed_inj (hmaps m hm).permutes hsp hrect ((hel.mem x).mp hx) ((hel.mem y).mp hy) q4 q3' q4')
    (by
      intro a ha b hb
      constructor
      · rintro ⟨m, hm, hap⟩
        obtain ⟨b', g, q1, -, q3, -, q5⟩ := happ m hm a ((hel.mem a).mp ha)
        rw [hap] at q1; cases q1
        exact ⟨m, hm, g⁻¹, inv_pos.mpr q3, by rw [q5, smul_smul, inv_mul_cancel₀ q3.ne', one_smul]⟩
      · rintro ⟨m, hm, s, hs, hsb⟩
        obtain ⟨b', g, q1, q2, q3, -, q5⟩ := happ m hm a ((hel.mem a).mp ha)
        refine ⟨m, hm, ?_⟩
        rw [q1]
        congr 1
        refine (NormalFacet.not_proportional hsp hrect q2 ((hel.mem b).mp hb) (t := s * g) ?_).symm
        have : toV (d+1) b = (s * g) • toV (d+1) b' := by
          rw [← vec_eq_toV, hsb, q5, smul_smul]; rfl
        rw [this, sub_self]; exact Submodule.zero_mem _)
  refine ⟨W, R, N, heq, fun fuel hf => ?_, r2, r3, r4, r5⟩
  unfold vertexEnumerationDD
  simp only [heq, Run.lift, Run.bind]
  rw [r1 fuel hf]
  rfl

/-- the triangle `x, y ≥ 0`, `x + y ≤ 2` with the swap of the coordinates: two orbits of vertices -/
example : Spec.IsSystemSymmetry 3 [[-1, 0, 0], [0, -1, 0], [1, 1, -2], [0, 0, -1]] [[(1, 1)], [(0, 1)], [(2, 1)]] ∧
    vertexEnumerationDD 10 [[-1, 0, 0], [0, -1, 0], [1, 1, -2], [0, 0, -1]] [[[(1, 1)], [(0, 1)], [(2, 1)]]] =
      some (.ok ⟨true, [[0, 0, 1], [2, 0, 1]], []⟩) := by
  refine ⟨⟨⟨rfl, by decide⟩, ?_, ?_⟩, by decide⟩
  all_goals
    intro v hv
    refine ⟨[v.getD 1 0, v.getD 0 0, v.getD 2 0], by revert v; decide, 1, one_pos, ?_⟩
    funext i
    fin_cases i <;> simp [Spec.pulled, Spec.vec, Fin.sum_univ_three, Spec.factor]

/-! ### Non-termination -/

theorem classInner_ok {tag : Tag} {cur : Row} : ∀ {maps : Maps} {rows stack : List Row},
    (∀ m ∈ maps, ∃ y, applyMap m cur tag = .ok y) → ∃ p, classInner tag cur maps rows stack = .ok p
  | [], rows, stack, _ => ⟨_, rfl⟩
  | m :: ms, rows, stack, h => by
    obtain ⟨y, hy⟩ := h m (by simp)
    simp only [classInner, hy, Outcome.bind]
    split
    · exact classInner_ok fun m hm => h m (by simp [hm])
    · exact classInner_ok fun m hm => h m (by simp [hm])

/-- the loop over an orbit never fails if the maps can be applied to the rows of the orbit -/
theorem getClassLoop_ok {maps : Maps} {tag : Tag} {row : Row}
    (hdef : ∀ x, Reach maps tag row x → ∀ m ∈ maps, ∃ y, applyMap m x tag = .ok y) :
    ∀ (fuel : Nat) (rows stack : List Row), ClassInv maps tag row rows stack →
      ∀ x, getClassLoop maps tag fuel rows stack = some x → ∃ S, x = .ok S
  | _, rows, [], _, x, h => by simp only [getClassLoop, Option.some.injEq] at h; exact ⟨_, h.symm⟩
  | 0, _, _ :: _, _, x, h => by simp [getClassLoop] at h
  | fuel + 1, rows, cur :: stack, inv, x, h => by
    obtain ⟨⟨rows', stack'⟩, hp⟩ := classInner_ok (maps := maps) (rows := rows) (stack := stack) (tag := tag)
      (hdef cur (inv.reach cur (inv.onStack cur (by simp))))
    simp only [getClassLoop, hp] at h
    exact getClassLoop_ok hdef fuel rows' stack' (classInv_step inv hp).1 x h

/-- on an infinite orbit `getClass` does not terminate -/
theorem C23_infinite_orbit {maps : Maps} {tag : Tag} {row : Row}
    (hdef : ∀ x, Reach maps tag row x → ∀ m ∈ maps, ∃ y, applyMap m x tag = .ok y)
    (hinf : {x | Reach maps tag row x}.Infinite) (fuel : Nat) : getClass fuel row maps tag = none := by
  cases h : getClass fuel row maps tag with
  | none => rfl
  | some x =>
    obtain ⟨S, rfl⟩ := getClassLoop_ok hdef fuel _ _ classInv_init x h
    obtain ⟨-, hS⟩ := getClass_partial h
    exact absurd ((List.finite_toSet S).subset fun x hx => (hS x).mpr hx) hinf

/-- the normalised map of `C25_wrong_false` -/
def badMap : SymMap := [[], [(1, -2), (2, 1)], [(2, 1)], [(3, 1)]]

theorem badMap_step {y z : Int} : ∃ b y' z', ∃ g : ℚ, 0 < g ∧ applyMap badMap [0, y, z, 0] .facet = .ok b ∧ b = [0, y', z', 0] ∧
    g * y' = -2 * y ∧ g * z' = y + z := by
  obtain ⟨b, hb, hbl, ⟨g, hg, hgb⟩, -⟩ := applyMap_facet (n := 4) (m := badMap) ⟨rfl, by decide⟩ (a := [0, y, z, 0]) rfl
  have hg' : (0 : ℚ) < g := by exact_mod_cast hg
  match b, hbl with
  | [b0, b1, b2, b3], _ =>
    have h0 := congrFun hgb 0
    have h1 := congrFun hgb 1
    have h2 := congrFun hgb 2
    have h3 := congrFun hgb 3
    simp [Spec.pulled, Spec.vec, Fin.sum_univ_four, Spec.factor, badMap, hg.ne'] at h0 h1 h2 h3
    refine ⟨_, b1, b2, g, hg', hb, by rw [h0, h3], by linarith, by linarith⟩

theorem bad_orbit_infinite : {x | Reach [badMap] .facet [0, -1, 0, 0] x}.Infinite := by
  have key : ∀ k : Nat, ∃ y z : Int, Reach [badMap] .facet [0, -1, 0, 0] [0, y, z, 0] ∧ (3 * z + y : ℚ) ≠ 0 ∧
      (y : ℚ) = (-2) ^ k * (3 * z + y) := by
    intro k
    induction k with
    | zero => exact ⟨-1, 0, .refl, by norm_num, by norm_num⟩
    | succ k ih =>
      obtain ⟨y, z, h1, h2, h3⟩ := ih
      obtain ⟨b, y', z', g, hg, hb, rfl, hy, hz⟩ := badMap_step (y := y) (z := z)
      have he : g * (3 * z' + y' : ℚ) = 3 * z + y := by linarith
      refine ⟨y', z', h1.tail ⟨badMap, by simp, hb⟩, ?_, ?_⟩
      · intro h0; rw [h0, mul_zero] at he; exact h2 he.symm
      · apply mul_left_cancel₀ hg.ne'
        rw [hy, show g * ((-2) ^ (k+1) * (3 * z' + y' : ℚ)) = (-2) ^ (k+1) * (g * (3 * z' + y')) by ring, he]
        rw [pow_succ]; linarith
  choose y z h1 h2 h3 using key
  have hinj : Function.Injective fun k => ([0, y k, z k, 0] : Row) := by
    intro k l hkl
    simp only [List.cons.injEq, and_true, true_and] at hkl
    obtain ⟨e1, e2⟩ := hkl
    have a := h3 k; have b := h3 l
    rw [e1, e2] at a
    have h4 := mul_right_cancel₀ (h2 l) (b.symm.trans a)
    have h6 := congrArg abs h4
    rw [abs_pow, abs_pow] at h6
    norm_num at h6
    exact h6.symm
  exact (Set.infinite_range_of_injective hinj).mono (by rintro _ ⟨k, rfl⟩; exact h1 k)

/-- **C52 is false of the code in general**: on the triangle (0,0,0), (1,0,2), (0,1,2) with the swap of the
first two coordinates, which is a symmetry, facet enumeration never terminates. -/
theorem C52_nontermination_false :
    Spec.IsVInput 3 [[0, 0, 0, 1], [1, 0, 2, 1], [0, 1, 2, 1]] ∧
    Spec.IsSymmetry 4 [[0, 0, 0, 1], [1, 0, 2, 1], [0, 1, 2, 1]] [[(1, 1)], [(0, 1)], [(2, 1)], [(3, 1)]] ∧
    ∀ fuel, facetEnumerationDD fuel [[0, 0, 0, 1], [1, 0, 2, 1], [0, 1, 2, 1]]
      [[[(1, 1)], [(0, 1)], [(2, 1)], [(3, 1)]]] = none := by
  refine ⟨⟨by decide, by decide, by decide⟩, ⟨⟨rfl, by decide⟩, ?_, ?_⟩, fun fuel => ?_⟩
  · intro v hv
    refine ⟨[v.getD 1 0, v.getD 0 0, v.getD 2 0, v.getD 3 0], by revert v; decide, 1, one_pos, ?_⟩
    funext i
    fin_cases i <;> simp [Spec.pushed, Spec.vec, Fin.sum_univ_four, Spec.factor]
  · intro v hv
    refine ⟨[v.getD 1 0, v.getD 0 0, v.getD 2 0, v.getD 3 0], by revert v; decide, 1, one_pos, ?_⟩
    funext i
    fin_cases i <;> simp [Spec.pushed, Spec.vec, Fin.sum_univ_four, Spec.factor]
  · have e1 : extractEquations [[0, 0, 0, 1], [1, 0, 2, 1], [0, 1, 2, 1]] = .ok [[2, 2, -1, 0]] := by decide
    have e2 : normalizeMaps [[[(1, 1)], [(0, 1)], [(2, 1)], [(3, 1)]]] [[2, 2, -1, 0]] = .ok [badMap] := by decide
    have e3 : fourierMotzkinElimination [[0, 0, 0, 1], [1, 0, 2, 1], [0, 1, 2, 1]] =
        .ok [[0, 2, -1, 0], [0, -1, 0, 0], [0, 0, 1, -2]] := by decide
    have e4 : setOf [[0, 2, -1, 0], [0, -1, 0, 0], [0, 0, 1, -2]] = [[0, -1, 0, 0], [0, 0, 1, -2], [0, 2, -1, 0]] := by decide
    simp only [facetEnumerationDD, e1, e2, e3, Run.lift, Run.bind, classes, e4]
    cases fuel with
    | zero => rfl
    | succ fuel =>
      have hn : getClass (fuel+1) [0, -1, 0, 0] [badMap] .facet = none := by
        apply C23_infinite_orbit _ bad_orbit_infinite
        intro x hx m hm
        rw [List.mem_singleton] at hm; subst hm
        have hl : x.length = 4 := by
          induction hx with
          | refl => rfl
          | tail _ hs ih =>
            obtain ⟨m, hm, hap⟩ := hs
            rw [List.mem_singleton] at hm; subst hm
            obtain ⟨b, hb, hbl, -⟩ := applyMap_facet (n := 4) (m := badMap) ⟨rfl, by decide⟩ ih
            rw [hap] at hb; cases hb; exact hbl
        obtain ⟨b, hb, -⟩ := applyMap_facet (n := 4) (m := badMap) ⟨rfl, by decide⟩ hl
        exact ⟨b, hb⟩
      simp only [classesLoop, hn, Run.bind]

end Panda
