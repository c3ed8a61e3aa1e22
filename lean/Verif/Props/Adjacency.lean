import Verif.Proofs.Adjacency

/-! # C18 – C20: adjacency decomposition

The whole method, with an arbitrary finite set of threads and an arbitrary interleaving: `adStartFacets`
is what happens before the threads start, `PoolReach (adConfig …) s` says that some interleaving leads to
the state `s`, whose `printed` are the rows written so far. -/

namespace Panda

open Cone Relation

variable {d : Nat} {V A E : Matrix} {maps maps' : Maps} {known : Matrix}

/-- the hypotheses on the input of facet enumeration: the maps are affine symmetries of the hull of the input; they
can be adapted to the equations without a division (in particular if there are no equations, or all leading coefficients are one; by
`C25_exact` this is the case in which adapting them is correct), and adapting them does not run into undefined behaviour -/
structure ADInput (d : Nat) (V E : Matrix) (maps maps' : Maps) (known : Matrix) : Prop where
  input : Spec.IsVInput d V
  rank : 2 ≤ Spec.rank (d+1) V
  symmetries : ∀ m ∈ maps, Spec.IsHullSymmetry (d+1) V m ∧ Spec.IsAffine d m
  equations : extractEquations V = .ok E
  leading : ∀ m ∈ maps, Spec.Adaptable (d+1) E m
  reduced : reduceFacet V maps = .ok (E, maps')
  known : ∀ k ∈ known, Spec.IsFacet (d+1) V k

theorem ADInput.core (h : ADInput d V E maps maps' known) :
    ∃ F0 R T a, Split V (d+1) E R T ∧ Elim V (d+1) E F0 ∧
      (∀ fuel ≥ F0.length, adStartFacets fuel V maps known = some (.ok a)) ∧ a.equations = E ∧ a.maps = maps' ∧
      ActsOn (d+1) V E maps' .facet (KeepsLast d) ∧
      ((∀ m' ∈ maps', ∃ m ∈ maps, ActsAs d V E m m') ∧ ∀ m ∈ maps, ∃ m' ∈ maps', ActsAs d V E m m') ∧
      (∀ r ∈ a.initial, ADGood (d+1) V E maps' .facet r) ∧ (∀ r ∈ a.known, ADGood (d+1) V E maps' .facet r) ∧ a.initial ≠ [] ∧
      (known = [] → a.known = []) ∧ ∀ k ∈ known, ∃ r ∈ a.known, KnownOf (d+1) V E maps' .facet k r := by
  obtain ⟨E', F0, h1, hE', hsp, hel, -⟩ := dd_ok h.input
  rw [h.equations] at h1; cases h1
  obtain ⟨hV, hm, -⟩ := IsVInput.rect h.input
  have hnz := exists_nonzero_of_rank h.input.size (lt_of_lt_of_le Nat.zero_lt_two h.rank)
  have hboth := reduceFacet_spec hsp h.equations (fun m hm => (h.symmetries m hm).1) h.leading h.reduced
  have hacts := facet_actsOn hboth.1 h.symmetries
  obtain ⟨a, a1, a2, a3, a4, a5, a6, a7, a8⟩ := initializePool_good hsp hE' hV hel hacts hm hnz h.known
  refine ⟨F0, _, _, a, hsp, hel, fun fuel hf => ?_, a2, a3, hacts, hboth, a4, a5, a6 ?_, a7, a8⟩
  · simp only [adStartFacets, h.reduced, Run.bind, a1 fuel hf]
  · obtain ⟨H, -, hH, -, h2⟩ := C15_initial_facets h.input
    obtain ⟨f, hf⟩ := List.exists_mem_of_ne_nil H hH
    have hf' := (h2 f hf).1
    obtain ⟨f0, -, h3, -⟩ := FacetP.exists_normal hsp hf'.1 (isFacet_iff.mp hf').2
    exact ⟨f0, h3⟩

/-- **C18**: adjacency decomposition is sound.  Initialisation terminates; then, at every moment of every
interleaving, no row has been printed twice, every printed row is a facet (valid, of full dimension,
primitive, normalised modulo the equations), and no two of them are equivalent under the symmetries: each is
the lexicographically largest of its orbit. -/
theorem C18_sound_partial (h : ADInput d V E maps maps' known) :
    ∃ a N, (∀ fuel ≥ N, adStartFacets fuel V maps known = some (.ok a)) ∧ a.equations = E ∧
      ∀ (ι : Type) [DecidableEq ι] [Fintype ι] (remote : ι → Prop) (s : Pool ι), PoolReach (adConfig remote V .facet a) s →
        s.printed.Nodup ∧ (∀ r ∈ s.printed, Spec.NormalisedFacet (d+1) V E r) ∧
        (∀ r ∈ s.printed, ∀ f, Spec.FacetOrbit (d+1) V E maps r f → f = r ∨ f < r) ∧
        ∀ r ∈ s.printed, ∀ r' ∈ s.printed, Spec.FacetOrbit (d+1) V E maps r r' → r = r' := by
  obtain ⟨F0, R, T, a, hsp, hel, h1, h2, h3, hacts, hboth, h4, h5, -⟩ := h.core
  have hV := (IsVInput.rect h.input).1
  refine ⟨a, F0.length, h1, h2, fun ι _ _ remote s hs => ?_⟩
  have hsafe := adSafe hsp hV hel hacts h.rank h3 h4 h5 remote
  have hgood := C26_nothing_else hsafe hs
  refine ⟨(C26_once hsafe hs).1, fun r hr => (normalisedFacet_iff hsp).mpr (hgood r hr).1, fun r hr f hf => ?_, fun r hr r' hr' ho => ?_⟩
  · have hr0 := hgood r hr
    rcases hr0.2 f ((facet_orbit hsp hV hboth hacts hr0.1).mpr hf) with e | e
    · exact .inl e
    · exact .inr ((rowLt_iff_lt _ _).mp e)
  · have hr0 := hgood r hr
    have hreach := (facet_orbit hsp hV hboth hacts hr0.1).mpr ho
    exact hr0.2.eq (hgood r' hr').2 hreach (Reach.symm_of_perm (hacts.closed hel) (hacts.inj hsp hV hel) ((hel.mem r).mpr hr0.1) hreach)

/-- without maps the conditions on the equations are void -/
theorem ADInput.of_no_maps (hV : Spec.IsVInput d V) (hr : 2 ≤ Spec.rank (d+1) V) (hE : extractEquations V = .ok E)
    (hk : ∀ k ∈ known, Spec.IsFacet (d+1) V k) : ADInput d V E [] [] known :=
  { input := hV, rank := hr, symmetries := by simp, equations := hE, leading := by simp, known := hk
    reduced := by
      by_cases h : E = []
      · simp [reduceFacet, hE, Outcome.bind, h]
      · simp [reduceFacet, hE, Outcome.bind, h, normalizeMaps] }

/-- C18: every known inequality is printed (up to normalisation and symmetry) when everything has finished. -/
theorem C18_known_printed (h : ADInput d V E maps maps' known) :
    ∃ a N, (∀ fuel ≥ N, adStartFacets fuel V maps known = some (.ok a)) ∧
      ∀ (ι : Type) [DecidableEq ι] [Fintype ι] (remote : ι → Prop) (s : Pool ι), PoolReach (adConfig remote V .facet a) s → s.Finished →
        ∀ k ∈ known, ∃ r ∈ s.printed, ∃ k0, normalize k E = .ok k0 ∧ Spec.FacetOrbit (d+1) V E maps k0 r := by
  obtain ⟨F0, R, T, a, hsp, hel, h1, h2, h3, hacts, hboth, h4, h5, -, -, h6⟩ := h.core
  have hV := (IsVInput.rect h.input).1
  refine ⟨a, F0.length, h1, fun ι _ _ remote s hs hf k hk => ?_⟩
  have hsafe := adSafe hsp hV hel hacts h.rank h3 h4 h5 remote
  obtain ⟨r, hr, k0, e, hn, hreach, -⟩ := h6 k hk
  exact ⟨r, C27_known hsafe hs hf r hr, k0, e, (facet_orbit hsp hV hboth hacts hn).mp hreach⟩

/-- **C19** (for polyhedra of dimension at least two that contain no line or, more generally, have dimension
at least two after dividing out lines): as soon as one thread has
left its loop, every facet (other than the trivial one at infinity) is equivalent to exactly one printed
row. -/
theorem C19_complete_partial (h : ADInput d V E maps maps' known) (hthree : Spec.ThreeIndependent (d+1) V ∨ (3 ≤ Spec.rank (d+1) V ∧ ¬ Spec.ContainsLine d V)) :
    ∃ a N, (∀ fuel ≥ N, adStartFacets fuel V maps known = some (.ok a)) ∧
      ∀ (ι : Type) [DecidableEq ι] [Fintype ι] (remote : ι → Prop) (s : Pool ι), PoolReach (adConfig remote V .facet a) s →
        (∃ i, s.pc i = .stopped) → ∀ g, Spec.NormalisedFacet (d+1) V E g → g ≠ List.replicate d 0 ++ [-1] →
          ∃! r, r ∈ s.printed ∧ Spec.FacetOrbit (d+1) V E maps r g := by
  obtain ⟨F0, R, T, a, hsp, hel, h1, h2, h3, hacts, hboth, h4, h5, h6, -⟩ := h.core
  have hV := (IsVInput.rect h.input).1
  refine ⟨a, F0.length, h1, fun ι _ _ remote s hs ⟨i, hi⟩ g hg hgt => ?_⟩
  have hsafe := adSafe hsp hV hel hacts h.rank h3 h4 h5 remote
  have hgood := C26_nothing_else hsafe hs
  obtain ⟨P, p1, p2, p3, -⟩ := C27_stop hsafe hs hi
  obtain ⟨r, hr, hrg, hgr⟩ := search_complete h.input hsp hel hacts (hthree.elim .of_independent fun hh => .of_pointed h.input hh.1 hh.2) (S := P)
    (fun f hf => (hgood f (p2 f hf)).1)
    (by obtain ⟨r, hr⟩ := List.exists_mem_of_ne_nil _ h6; exact ⟨r, p1 r hr⟩)
    (fun f hf => by
      obtain ⟨-, m, ⟨fuel, e⟩, hm⟩ := p3 f hf
      rw [h3] at e
      exact ⟨m, fuel, e, hm⟩) g ((normalisedFacet_iff hsp).mp hg) hgt
  refine ⟨r, ⟨p2 r hr, (facet_orbit hsp hV hboth hacts (hgood r (p2 r hr)).1).mp hrg⟩, ?_⟩
  rintro r' ⟨hr', ho⟩
  have hr'g := (facet_orbit hsp hV hboth hacts (hgood r' hr').1).mpr ho
  have hgr' := Reach.symm_of_perm (hacts.closed hel) (hacts.inj hsp hV hel) ((hel.mem r').mpr (hgood r' hr').1) hr'g
  exact (hgood r' hr').2.eq (hgood r (p2 r hr)).2 (hr'g.trans hgr) (hrg.trans hgr')

/-- C19: the run terminates.  Unless everything has finished, some thread can take a step; there is no
infinite run without spurious wake-ups, and in an infinite run with them some thread is starved. -/
theorem C19_terminates (h : ADInput d V E maps maps' known) :
    ∃ a N, (∀ fuel ≥ N, adStartFacets fuel V maps known = some (.ok a)) ∧
      ∀ (ι : Type) [DecidableEq ι] [Fintype ι] (remote : ι → Prop), (∃ i, ¬ remote i) →
        (∀ s, PoolReach (adConfig remote V .facet a) s → ¬ s.Finished → ∃ s', Progress (adConfig remote V .facet a) s s') ∧
        ∀ f : Nat → Pool ι, f 0 = Pool.init (adConfig remote V .facet a) →
          (¬ ∀ n, Progress (adConfig remote V .facet a) (f n) (f (n + 1))) ∧
          ((∀ n, PoolStep (adConfig remote V .facet a) (f n) (f (n + 1))) →
            ∃ b N, (∀ n, N ≤ n → ∃ s', StepBy (adConfig remote V .facet a) b (f n) s') ∧
              ∀ n, N ≤ n → ¬ StepBy (adConfig remote V .facet a) b (f n) (f (n + 1))) := by
  obtain ⟨F0, R, T, a, hsp, hel, h1, h2, h3, hacts, hboth, h4, h5, -⟩ := h.core
  have hV := (IsVInput.rect h.input).1
  refine ⟨a, F0.length, h1, fun ι _ _ remote hloc => ?_⟩
  have hsafe := adSafe hsp hV hel hacts h.rank h3 h4 h5 remote
  have htot := adTotal hsp hV hel hacts h.rank h3 remote
  exact ⟨fun s hs hf => C28_no_deadlock hsafe hloc htot hs hf, fun f h0 => ⟨C28_terminates hsafe (adFinite hel) f h0,
    C28_fair_termination hsafe (adFinite hel) hloc htot f h0⟩⟩

/-- C19: adjacency decomposition and double description print the same rows (the former possibly also the
trivial row). -/
theorem C19_same_as_dd_partial (h : ADInput d V E maps maps' known) (hthree : Spec.ThreeIndependent (d+1) V ∨ (3 ≤ Spec.rank (d+1) V ∧ ¬ Spec.ContainsLine d V))
    (hn : ∃ m, normalizeMaps maps E = .ok m) :
    ∃ a b R N, (∀ fuel ≥ N, adStartFacets fuel V maps known = some (.ok a)) ∧
      (∀ fuel ≥ N, facetEnumerationDD fuel V maps = some (.ok ⟨E, b, R⟩)) ∧ a.equations = E ∧
      ∀ (ι : Type) [DecidableEq ι] [Fintype ι] (remote : ι → Prop) (s : Pool ι), PoolReach (adConfig remote V .facet a) s →
        (∃ i, s.pc i = .stopped) → ∀ r, (r ∈ s.printed ∧ r ≠ List.replicate d 0 ++ [-1]) ↔ r ∈ R := by
  obtain ⟨mm, hnorm⟩ := hn
  obtain ⟨F, R, N, f1, f2, f3, f4, f5, f6⟩ := C52_facets_partial h.input h.symmetries h.equations h.leading hnorm
  obtain ⟨a, N1, c1, c2, c3⟩ := C18_sound_partial h
  obtain ⟨a', N2, c1', c4⟩ := C19_complete_partial h hthree
  have : a = a' := by
    have e1 := c1 (max N1 N2) (le_max_left _ _)
    have e2 := c1' (max N1 N2) (le_max_right _ _)
    rw [e1] at e2; cases e2; rfl
  subst this
  obtain ⟨F0, RR, T, _, hsp, hel, -, -, -, hacts, hboth, -⟩ := h.core
  have hV := (IsVInput.rect h.input).1
  -- the rows `F`
  have hF : ∀ x, x ∈ F ↔ Spec.NormalisedFacet (d+1) V E x ∧ x ≠ trivialRow d := by
    obtain ⟨E', F1, e1, -, -, hel', e3⟩ := dd_ok h.input
    rw [h.equations] at e1; cases e1
    rw [f1] at e3; cases e3
    intro x
    rw [List.mem_filter, hel'.mem, normalisedFacet_iff hsp]
    refine and_congr_right fun ha => ?_
    have := isBadRow_eq_trivialRow ha.1
    cases hb : isBadRow x <;> simp_all
  have hsymm : ∀ x y, Spec.NormalisedFacet (d+1) V E x → Spec.FacetOrbit (d+1) V E maps x y →
      Spec.FacetOrbit (d+1) V E maps y x := by
    intro x y hx hxy
    have hx' := (normalisedFacet_iff hsp).mp hx
    have h1 := (facet_orbit hsp hV hboth hacts hx').mpr hxy
    exact (facet_orbit hsp hV hboth hacts (hacts.reach hx' h1)).mp
      (Reach.symm_of_perm (hacts.closed hel) (hacts.inj hsp hV hel) ((hel.mem x).mpr hx') h1)
  have hto : ∀ x y, Spec.OrbitIn F (Spec.SymStep (d+1) E maps) x y → Spec.FacetOrbit (d+1) V E maps x y := by
    intro x y
    exact ReflTransGen.mono (fun u v huv => ⟨((hF u).mp huv.1).1, ((hF v).mp huv.2.1).1, huv.2.2⟩) x y
  have hfrom : ∀ x y, x ∈ F → Spec.FacetOrbit (d+1) V E maps x y → Spec.OrbitIn F (Spec.SymStep (d+1) E maps) x y ∧ y ∈ F := by
    intro x y hx hxy
    induction hxy with
    | refl => exact ⟨.refl, hx⟩
    | tail _ hs ih =>
      obtain ⟨ih1, ih2⟩ := ih
      have hb := (normalisedFacet_iff hsp).mp hs.1
      have hc := (normalisedFacet_iff hsp).mp hs.2.1
      have hst := (facet_step hsp hV hboth hb hc).mpr hs.2.2
      have hnt := (reach_trivialRow hacts hsp hV hb (.single hst)).2
      have hcF := (hF _).mpr ⟨hs.2.1, fun he => ((hF _).mp ih2).2 (hnt.mpr he)⟩
      exact ⟨ih1.tail ⟨ih2, hcF, hs.2.2⟩, hcF⟩
  refine ⟨a, _, R, max N (max N1 N2), fun fuel hf => c1 fuel (by omega), fun fuel hf => f2 fuel (by omega), c2,
    fun ι _ _ remote s hs hi r => ?_⟩
  obtain ⟨s1, s2, s3, s4⟩ := c3 ι remote s hs
  have h4 := c4 ι remote s hs hi
  -- two maximal elements of one orbit are equal
  have heq : ∀ x ∈ s.printed, ∀ y ∈ R, Spec.FacetOrbit (d+1) V E maps x y → x = y := by
    intro x hx y hy hxy
    have hyx := hsymm x y (s2 x hx) hxy
    rcases s3 x hx y hxy with e | e
    · exact e.symm
    · rcases f6 y hy x (hfrom y x (f4 y hy) hyx).1 with e' | e'
      · exact e'
      · exact absurd (lt_trans e e') (lt_irrefl _)
  constructor
  · rintro ⟨hr, hrt⟩
    obtain ⟨y, ⟨hy1, hy2⟩, -⟩ := f5 r ((hF r).mpr ⟨s2 r hr, hrt⟩)
    have := heq r hr y hy1 (hsymm y r ((hF y).mp (f4 y hy1)).1 (hto y r hy2))
    rw [this]; exact hy1
  · intro hr
    have hrF := (hF r).mp (f4 r hr)
    obtain ⟨x, ⟨hx1, hx2⟩, -⟩ := h4 r hrF.1 hrF.2
    have := heq x hx1 r hr hx2
    subst this
    exact ⟨hx1, hrF.2⟩

/-! ### Non-vacuity -/

/-- the unit square with the reflection `x ↦ 1 - x` and the known inequality `2y ≤ 2` -/
theorem exampleAD : ADInput 2 [[0, 0, 1], [1, 0, 1], [0, 1, 1], [1, 1, 1]] [] [[[(2, 1), (0, -1)], [(1, 1)], [(2, 1)]]]
    [[[(2, 1), (0, -1)], [(1, 1)], [(2, 1)]]] [[0, 2, -2]] :=
  { input := ⟨by decide, by decide, by decide⟩
    rank := by
      rw [← C04_dimension_eq_rank 3 _ (by decide)]; decide
    symmetries := by
      intro m hm
      rw [List.mem_singleton] at hm; subst hm
      refine ⟨Spec.IsSymmetry.hull ⟨⟨rfl, by decide⟩, ?_, ?_⟩, ?_⟩
      · intro v hv
        refine ⟨[v.getD 2 0 - v.getD 0 0, v.getD 1 0, v.getD 2 0], ?_, 1, one_pos, ?_⟩
        · revert v; decide
        · funext i
          fin_cases i <;> simp [Spec.pushed, Spec.vec, Fin.sum_univ_three, Spec.factor, sub_eq_add_neg, add_comm]
      · intro v hv
        refine ⟨[v.getD 2 0 - v.getD 0 0, v.getD 1 0, v.getD 2 0], ?_, 1, one_pos, ?_⟩
        · revert v; decide
        · funext i
          fin_cases i <;> simp [Spec.pushed, Spec.vec, Fin.sum_univ_three, Spec.factor]
      · intro j hj
        have : j = 0 ∨ j = 1 ∨ j = 2 := by omega
        rcases this with rfl | rfl | rfl <;> decide
    equations := by decide
    leading := fun _ _ => by simp [Spec.Adaptable]
    reduced := by decide
    known := by
      intro k hk
      rw [List.mem_singleton] at hk; subst hk
      refine ⟨rfl, by unfold Spec.Valid; decide, ?_⟩
      rw [← C04_dimension_eq_rank 3 _ (by decide), ← C04_dimension_eq_rank 3 _ (by decide)]
      decide }

theorem exampleAD_three : Spec.ThreeIndependent 3 [[0, 0, 1], [1, 0, 1], [0, 1, 1], [1, 1, 1]] := by
  refine ⟨[-1, 0, 0], [0, -1, 0], [1, 1, -2], by decide, by unfold Spec.Valid; decide, fun x y z h => ?_⟩
  have h1 := h [0, 0, 1] (by decide)
  have h2 := h [1, 0, 1] (by decide)
  have h3 := h [0, 1, 1] (by decide)
  simp [Spec.ip] at h1 h2 h3
  refine ⟨by linarith, by linarith, by linarith⟩

theorem run_bind_ok {α β : Type} {x : Run α} {f : α → Run β} {b : Outcome β} (h : Run.bind x f = some b) :
    (∃ a, x = some (.ok a) ∧ f a = some b) ∨ (x = some .thrown ∧ b = .thrown) ∨ (x = some .ub ∧ b = .ub) := by
  match x, h with
  | some (.ok a), h => exact .inl ⟨a, rfl, h⟩
  | some .thrown, h => exact .inr (.inl ⟨rfl, by simpa [Run.bind] using h.symm⟩)
  | some .ub, h => exact .inr (.inr ⟨rfl, by simpa [Run.bind] using h.symm⟩)

theorem facetEnumerationDD_mono {x : Outcome FacetOutput} {fuel k : Nat} (hk : fuel ≤ k)
    (h : facetEnumerationDD fuel V maps = some x) : facetEnumerationDD k V maps = some x := by
  unfold facetEnumerationDD at h ⊢
  rcases run_bind_ok h with ⟨e, h1, h2⟩ | ⟨h1, rfl⟩ | ⟨h1, rfl⟩ <;> rw [h1]
  rotate_left
  · rfl
  · rfl
  simp only [Run.bind]
  rcases run_bind_ok h2 with ⟨e, h1, h2⟩ | ⟨h1, rfl⟩ | ⟨h1, rfl⟩ <;> rw [h1]
  simp only
  rcases run_bind_ok h2 with ⟨e, h1, h2⟩ | ⟨h1, rfl⟩ | ⟨h1, rfl⟩ <;> rw [h1]
  simp only
  rcases run_bind_ok h2 with ⟨e, h1, h2⟩ | ⟨h1, rfl⟩ | ⟨h1, rfl⟩ <;> rw [classes_mono hk h1]
  exact h2

/-- with three threads, the state in which everything has finished is reachable, and there the facets of
double description are printed: `y ≤ 1`, `y ≥ 0`, `x ≤ 1` (which represents `x ≥ 0`) -/
example : ∃ (a : ADStart) (s : Pool (Fin 3)),
    PoolReach (adConfig (fun i => i = 0) [[0, 0, 1], [1, 0, 1], [0, 1, 1], [1, 1, 1]] .facet a) s ∧ s.Finished ∧
      ∀ r, (r ∈ s.printed ∧ r ≠ [0, 0, -1]) ↔ r ∈ [[1, 0, -1], [0, -1, 0], [0, 1, -1]] := by
  obtain ⟨F0, R, T, a, hsp, hel, h1, h2, h3, hacts, hboth, h4, h5, -⟩ := exampleAD.core
  have hV := (IsVInput.rect exampleAD.input).1
  have hsafe := adSafe hsp hV hel hacts exampleAD.rank h3 h4 h5 (fun i : Fin 3 => i = 0)
  obtain ⟨s, r1, r2⟩ := C28_can_finish hsafe (adFinite hel) ⟨1, fun h : (1 : Fin 3) = 0 => by revert h; decide⟩
    (adTotal hsp hV hel hacts exampleAD.rank h3 _) (s := Pool.init _) .refl
  have hs : PoolReach _ s := ReflTransGen.mono (fun _ _ h => .inl h) _ _ r1
  obtain ⟨a', b, R', N, q1, q2, -, q4⟩ := C19_same_as_dd_partial exampleAD (.inl exampleAD_three) ⟨_, (by decide : _ = Outcome.ok
    [[[(0, -1), (2, 1)], [(1, 1)], [(2, 1)]]])⟩
  have : a = a' := by
    have e1 := h1 (max F0.length N) (le_max_left _ _)
    have e2 := q1 (max F0.length N) (le_max_right _ _)
    rw [e1] at e2; cases e2; rfl
  subst this
  have e3 : facetEnumerationDD 10 [[0, 0, 1], [1, 0, 1], [0, 1, 1], [1, 1, 1]] [[[(2, 1), (0, -1)], [(1, 1)], [(2, 1)]]] =
      some (.ok ⟨[], true, [[1, 0, -1], [0, -1, 0], [0, 1, -1]]⟩) := by decide
  have e4 := facetEnumerationDD_mono (le_max_left 10 N) e3
  rw [q2 _ (le_max_right _ _)] at e4
  cases e4
  exact ⟨a, s, hs, r2, q4 (Fin 3) _ s hs ⟨0, r2.2.2 0⟩⟩

/-! ### Where it fails -/

/-- **C18 and C19 are false of the code with symmetries in general**: on the triangle (0,0,0), (1,0,2), (0,1,2)
with the swap of the first two coordinates, which is an affine symmetry, the initialisation never
terminates, and no facet is ever printed. -/
theorem C19_nontermination_false :
    Spec.IsVInput 3 [[0, 0, 0, 1], [1, 0, 2, 1], [0, 1, 2, 1]] ∧
    Spec.IsSymmetry 4 [[0, 0, 0, 1], [1, 0, 2, 1], [0, 1, 2, 1]] [[(1, 1)], [(0, 1)], [(2, 1)], [(3, 1)]] ∧
    ∀ fuel, adStartFacets fuel [[0, 0, 0, 1], [1, 0, 2, 1], [0, 1, 2, 1]] [[[(1, 1)], [(0, 1)], [(2, 1)], [(3, 1)]]] [] = none := by
  refine ⟨C52_nontermination_false.1, C52_nontermination_false.2.1, fun fuel => ?_⟩
  have e1 : reduceFacet [[0, 0, 0, 1], [1, 0, 2, 1], [0, 1, 2, 1]] [[[(1, 1)], [(0, 1)], [(2, 1)], [(3, 1)]]] =
      .ok ([[2, 2, -1, 0]], [badMap]) := by decide
  have e2 : fourierMotzkinEliminationHeuristic [[0, 0, 0, 1], [1, 0, 2, 1], [0, 1, 2, 1]] =
      .ok [[0, 2, -1, 0], [0, -1, 0, 0], [0, 0, 1, -2]] := by decide
  have hinf : {x | Reach [badMap] .facet [0, 2, -1, 0] x}.Infinite := by
    intro hfin
    apply bad_orbit_infinite
    refine (hfin.insert [0, -1, 0, 0]).subset fun x hx => ?_
    rcases ReflTransGen.cases_head hx with rfl | ⟨c, ⟨m, hm, hc⟩, hcx⟩
    · simp
    · rw [List.mem_singleton] at hm; subst hm
      have e3 : applyMap badMap [0, -1, 0, 0] .facet = .ok [0, 2, -1, 0] := by decide
      rw [e3] at hc; cases hc
      exact .inr hcx
  have hn : getClass fuel [0, 2, -1, 0] [badMap] .facet = none := by
    apply C23_infinite_orbit _ hinf
    intro x hx m hm
    rw [List.mem_singleton] at hm; subst hm
    have hl : x.length = 4 := by
      induction hx with
      | refl => rfl
      | tail _ hs ih =>
        obtain ⟨m, hm, hap⟩ := hs
        rw [List.mem_singleton] at hm; subst hm
        obtain ⟨b, hb, hbl, -⟩ := applyMap_facet (n := 4) (m := badMap) ⟨rfl, by decide⟩ ih
        rw [hap] at hb; cases hb; exact hbl
    obtain ⟨b, hb, -⟩ := applyMap_facet (n := 4) (m := badMap) ⟨rfl, by decide⟩ hl
    exact ⟨b, hb⟩
  simp only [adStartFacets, e1, initializePool, initialRows, e2, Run.bind, representatives, classRepresentative, hn]

/-- **C19 is false in dimension one with redundant points**: for the interval spanned by 0, 1 and 2, no
interleaving ever prints the facet `x ≤ 2`, because `x ≥ 0` is found first and has no ridges. -/
theorem C19_segment_false :
    Spec.IsVInput 1 [[0, 1], [1, 1], [2, 1]] ∧ Spec.IsFacet 2 [[0, 1], [1, 1], [2, 1]] [1, -2] ∧
    facetEnumerationDD 10 [[0, 1], [1, 1], [2, 1]] [] = some (.ok ⟨[], false, [[-1, 0], [1, -2]]⟩) ∧
    ∃ a, adStartFacets 10 [[0, 1], [1, 1], [2, 1]] [] [] = some (.ok a) ∧
      ∀ (ι : Type) [DecidableEq ι] [Fintype ι] (remote : ι → Prop) (s : Pool ι),
        PoolReach (adConfig remote [[0, 1], [1, 1], [2, 1]] .facet a) s → [1, -2] ∉ s.printed := by
  refine ⟨⟨by decide, by decide, by decide⟩, ⟨rfl, by unfold Spec.Valid; decide, ?_⟩, by decide, ⟨[], [], [[-1, 0]], []⟩, by decide,
    fun ι _ _ remote s hs hmem => ?_⟩
  · rw [← C04_dimension_eq_rank 2 _ (by decide), ← C04_dimension_eq_rank 2 _ (by decide)]; decide
  · have hsafe : (adConfig remote [[0, 1], [1, 1], [2, 1]] .facet ⟨[], [], [[-1, 0]], []⟩).Safe fun r => r = [-1, 0] :=
      { nonempty := by simp, initial := by simp [adConfig], known := by simp [adConfig]
        rot := by
          rintro r m rfl ⟨fuel, hf⟩
          have := rotation_unique (by decide : rotation 10 [[0, 1], [1, 1], [2, 1]] [-1, 0] [] .facet = some (.ok [])) hf
          cases this; simp }
    have := C26_nothing_else hsafe hs _ hmem
    simp at this

/-- **C19 is false for a strip**: 0 ≤ x ≤ 1 in the plane, with the first inequality known: the other one is
never printed. -/
theorem C19_strip_false :
    Spec.IsVInput 2 [[0, 0, 1], [1, 0, 1], [0, 1, 0], [0, -1, 0]] ∧
    facetEnumerationDD 10 [[0, 0, 1], [1, 0, 1], [0, 1, 0], [0, -1, 0]] [] = some (.ok ⟨[], false, [[-1, 0, 0], [1, 0, -1]]⟩) ∧
    ∃ a, adStartFacets 10 [[0, 0, 1], [1, 0, 1], [0, 1, 0], [0, -1, 0]] [] [[-1, 0, 0]] = some (.ok a) ∧
      ∀ (ι : Type) [DecidableEq ι] [Fintype ι] (remote : ι → Prop) (s : Pool ι),
        PoolReach (adConfig remote [[0, 0, 1], [1, 0, 1], [0, 1, 0], [0, -1, 0]] .facet a) s → [1, 0, -1] ∉ s.printed := by
  refine ⟨⟨by decide, by decide, by decide⟩, by decide, ⟨[], [], [[-1, 0, 0]], [[-1, 0, 0]]⟩, by decide,
    fun ι _ _ remote s hs hmem => ?_⟩
  have hsafe : (adConfig remote [[0, 0, 1], [1, 0, 1], [0, 1, 0], [0, -1, 0]] .facet ⟨[], [], [[-1, 0, 0]], [[-1, 0, 0]]⟩).Safe
      fun r => r = [-1, 0, 0] :=
    { nonempty := by simp, initial := by simp [adConfig], known := by simp [adConfig]
      rot := by
        rintro r m rfl ⟨fuel, hf⟩
        have := rotation_unique (by decide : rotation 10 [[0, 0, 1], [1, 0, 1], [0, 1, 0], [0, -1, 0]] [-1, 0, 0] [] .facet =
          some (.ok [])) hf
        cases this; simp }
  have := C26_nothing_else hsafe hs _ hmem
  simp at this

/-- adjacency decomposition of a single point runs into undefined behaviour: its only initial row is the
trivial one, and rotating that one is undefined -/
theorem C19_point_false :
    ∃ a, adStartFacets 10 [[1, 2, 1]] [] [] = some (.ok a) ∧ a.initial = [[0, 0, -1]] ∧
      rotation 10 [[1, 2, 1]] [0, 0, -1] a.maps .facet = some .ub :=
  ⟨⟨[[0, 1, -2], [1, 0, -1]], [], [[0, 0, -1]], []⟩, by decide, rfl, by decide⟩

/-- the two methods differ in the trivial inequality `0 ≤ 1`: for the quadrant, adjacency decomposition
always prints it, double description does not -/
theorem C19_trivial_row_false :
    facetEnumerationDD 10 [[1, 0, 0], [0, 1, 0], [0, 0, 1]] [] = some (.ok ⟨[], false, [[-1, 0, 0], [0, -1, 0]]⟩) ∧
    ∃ a, adStartFacets 10 [[1, 0, 0], [0, 1, 0], [0, 0, 1]] [] [] = some (.ok a) ∧
      ∀ (ι : Type) [DecidableEq ι] [Fintype ι] (remote : ι → Prop) (s : Pool ι),
        PoolReach (adConfig remote [[1, 0, 0], [0, 1, 0], [0, 0, 1]] .facet a) s → (∃ i, s.pc i = .stopped) → [0, 0, -1] ∈ s.printed := by
  refine ⟨by decide, ⟨[], [], [[-1, 0, 0], [0, -1, 0], [0, 0, -1]], []⟩, by decide, fun ι _ _ remote s hs ⟨i, hi⟩ => ?_⟩
  have hsafe : (adConfig remote [[1, 0, 0], [0, 1, 0], [0, 0, 1]] .facet ⟨[], [], [[-1, 0, 0], [0, -1, 0], [0, 0, -1]], []⟩).Safe
      fun r => r ∈ [[-1, 0, 0], [0, -1, 0], [0, 0, -1]] :=
    { nonempty := by simp, initial := by simp [adConfig], known := by simp [adConfig]
      rot := by
        rintro r m hr ⟨fuel, hf⟩
        simp only [List.mem_cons, List.not_mem_nil, or_false] at hr
        rcases hr with rfl | rfl | rfl
        · have := rotation_unique (by decide : rotation 10 [[1, 0, 0], [0, 1, 0], [0, 0, 1]] [-1, 0, 0] [] .facet = some (.ok [[0, -1, 0]])) hf
          cases this; simp
        · have := rotation_unique (by decide : rotation 10 [[1, 0, 0], [0, 1, 0], [0, 0, 1]] [0, -1, 0] [] .facet = some (.ok [[-1, 0, 0]])) hf
          cases this; simp
        · have := rotation_unique (by decide : rotation 10 [[1, 0, 0], [0, 1, 0], [0, 0, 1]] [0, 0, -1] [] .facet = some (.ok [[-1, 0, 0]])) hf
          cases this; simp }
  exact (C27_stop_no_known hsafe rfl hs hi).1 _ (by simp [adConfig])

/-! ## C20: vertices -/

/-- the action of the maps on vertices and rays -/
theorem vertex_actsOn (hmaps : ∀ m ∈ maps, Spec.IsSolutionSymmetry (d+1) A m) :
    (∀ m ∈ maps, ∀ r, NormalFacet (d+1) A [] r → ∃ q g, applyMap m r .vertex = .ok q ∧
      NormalFacet (d+1) A [] q ∧ 0 < g ∧ Composed (d+1) A (pushedL (d+1) m) r q g ∧
      Spec.pushed (d+1) m (Spec.vec (d+1) r) = g • Spec.vec (d+1) q) ∧
    ActsOn (d+1) A [] maps .vertex fun _ => True := by
  have key : ∀ m ∈ maps, ∀ r, NormalFacet (d+1) A [] r → ∃ q g, applyMap m r .vertex = .ok q ∧
      NormalFacet (d+1) A [] q ∧ 0 < g ∧ Composed (d+1) A (pushedL (d+1) m) r q g ∧
      Spec.pushed (d+1) m (Spec.vec (d+1) r) = g • Spec.vec (d+1) q := by
    intro m hm r hr
    obtain ⟨q, hq, hql, ⟨g, hg, hgq⟩, hprim⟩ := applyMap_vertex (hmaps m hm).isMap hr.1
    have hg' : (0 : ℚ) < g := by exact_mod_cast hg
    have hcomp := composed_vertex (A := A) hql hgq
    refine ⟨q, g, hq, ?_, hg', hcomp, hgq⟩
    refine hr.composed (hmaps m hm).permutes hql hg' hcomp (by simp) ?_
    intro hne
    apply hprim
    intro h0
    rw [hgq] at h0
    have h5 := (smul_eq_zero.mp h0).resolve_left hg'.ne'
    rw [vec_eq_toV, toV_eq_zero_iff _ q hql] at h5
    obtain ⟨x, hx, hx0⟩ := hne
    exact hx0 (h5 x hx)
  refine ⟨key, fun m hm => ⟨pushedL (d+1) m, trivial, (hmaps m hm).permutes, fun a ha => ?_⟩⟩
  obtain ⟨q, g, q1, q2, q3, q4, -⟩ := key m hm a ha
  exact ⟨q, g, q1, q2, q3, q4⟩

/-- **C20**, the part that is true: for a solvable system without lines, vertex enumeration by adjacency
decomposition is sound.  At every moment of every interleaving, no row has been printed twice, every printed
row is a vertex or an extreme ray (primitive, with non-negative last entry), and no two are equivalent under
the symmetries; and the run terminates. -/
theorem C20_sound_partial (hA : ∀ a ∈ A, a.length = d + 1) (htriv : List.replicate d 0 ++ [-1] ∈ A)
    (hsat : ∃ p, Spec.Solves d A p) (hline : ¬ Spec.HasLine d A) (hr : 2 ≤ Spec.rank (d+1) A)
    (hmaps : ∀ m ∈ maps, Spec.IsSolutionSymmetry (d+1) A m) (hknown : ∀ k ∈ known, Spec.IsFacet (d+1) A k) :
    ∃ a N, (∀ fuel ≥ N, adStartVertices fuel A maps known = some (.ok a)) ∧
      ∀ (ι : Type) [DecidableEq ι] [Fintype ι] (remote : ι → Prop),
        (∀ s : Pool ι, PoolReach (adConfig remote A .vertex a) s →
          s.printed.Nodup ∧
          (∀ r ∈ s.printed, r.length = d + 1 ∧ 0 ≤ r.getD d 0 ∧ Spec.PrimitiveRow r ∧ Spec.IsExtremeRay (d+1) A r) ∧
          ∀ r ∈ s.printed, ∀ r' ∈ s.printed, Spec.PointOrbit (d+1) A maps r r' → r = r') ∧
        ((∃ i, ¬ remote i) → (∀ s, PoolReach (adConfig remote A .vertex a) s → ¬ s.Finished → ∃ s', Progress (adConfig remote A .vertex a) s s') ∧
          ∀ f : Nat → Pool ι, f 0 = Pool.init (adConfig remote A .vertex a) →
            ¬ ∀ n, Progress (adConfig remote A .vertex a) (f n) (f (n + 1))) := by
  obtain ⟨W, heq, hel, hnoE, hE, hlastW⟩ := ve_elim hA htriv hsat hline
  have hrect : Rect A A.length (d+1) := ⟨rfl, hA⟩
  have hm : 0 < A.length := List.length_pos_of_mem htriv
  have hsp := gaussSplit_spec hrect hm (Nat.succ_pos d)
  rw [hnoE] at hsp
  have hnz := exists_nonzero_of_rank hA (lt_of_lt_of_le Nat.zero_lt_two hr)
  obtain ⟨hact, hacts⟩ := vertex_actsOn hmaps
  obtain ⟨a, a1, a2, a3, a4, a5, a6, a7, a8⟩ := initializePool_good hsp hnoE.symm hrect hel hacts hm hnz hknown
  refine ⟨a, W.length, fun fuel hf => a1 fuel hf, fun ι _ _ remote => ⟨fun s hs => ?_, fun hloc => ?_⟩⟩
  · have hsafe := adSafe hsp hrect hel hacts hr a3 a4 a5 remote
    have hgood := C26_nothing_else hsafe hs
    refine ⟨(C26_once hsafe hs).1, fun r hr => ?_, fun r hr r' hr' ho => ?_⟩
    · have hnf := (hgood r hr).1
      exact ⟨hnf.1, hlastW r ((hel.mem r).mpr hnf), (primitiveRow_iff r).mpr hnf.2.1,
        extreme_of_facet hA hE hnf.1 (toV_ne_zero_of_primitive hnf.1 hnf.2.1) hnf.2.2.2⟩
    · have hr0 := hgood r hr
      have hreach : Reach maps .vertex r r' := by
        have hstep : ∀ x y, NormalFacet (d+1) A [] x → NormalFacet (d+1) A [] y → Spec.PointStep (d+1) maps x y → Step maps .vertex x y := by
          rintro x y hx hy ⟨m, hm, t, ht, hxy⟩
          obtain ⟨q, g, q1, q2, q3, -, q5⟩ := hact m hm x hx
          refine ⟨m, hm, ?_⟩
          rw [q1]
          congr 1
          refine (NormalFacet.not_proportional hsp hrect q2 hy (t := t * g) ?_).symm
          have : toV (d+1) y = (t * g) • toV (d+1) q := by
            rw [← vec_eq_toV, hxy, q5, smul_smul]; rfl
          rw [this, sub_self]; exact Submodule.zero_mem _
        clear hr'
        induction ho with
        | refl => exact .refl
        | tail _ hs ih => exact ih.tail (hstep _ _ ((normalisedFacet_iff hsp).mp hs.1) ((normalisedFacet_iff hsp).mp hs.2.1) hs.2.2)
      exact hr0.2.eq (hgood r' hr').2 hreach (Reach.symm_of_perm (hacts.closed hel) (hacts.inj hsp hrect hel) ((hel.mem r).mpr hr0.1) hreach)
  · have hsafe := adSafe hsp hrect hel hacts hr a3 a4 a5 remote
    have htot := adTotal hsp hrect hel hacts hr a3 remote
    exact ⟨fun s hs hf => C28_no_deadlock hsafe hloc htot hs hf, fun f h0 => C28_terminates hsafe (adFinite hel) f h0⟩

/-- the swap of two coordinates is a symmetry if it permutes the inequalities -/
theorem swap_symmetry {A : Matrix} (h : ∀ a ∈ A, [a.getD 1 0, a.getD 0 0, a.getD 2 0] ∈ A) :
    Spec.IsSolutionSymmetry 3 A [[(1, 1)], [(0, 1)], [(2, 1)]] := by
  have e : ∀ x : Fin 3 → ℚ, Spec.pushed 3 [[(1, 1)], [(0, 1)], [(2, 1)]] x = ![x 1, x 0, x 2] := by
    intro x
    funext i
    fin_cases i <;> simp [Spec.pushed, Fin.sum_univ_three, Spec.factor]
  have key : ∀ x, Spec.InSystem 3 A x → Spec.InSystem 3 A ![x 1, x 0, x 2] := by
    intro x hx a ha
    have := hx _ (h a ha)
    simp [Fin.sum_univ_three, Spec.vec] at this ⊢
    linarith
  refine ⟨⟨rfl, by decide⟩, fun x hx => by rw [e]; exact key x hx, fun y hy => ⟨_, key y hy, ?_⟩⟩
  rw [e]
  funext i
  fin_cases i <;> rfl

/-- the hypotheses hold for the triangle `x, y ≥ 0`, `x + y ≤ 2` with the swap of the coordinates -/
example : ∃ a N, (∀ fuel ≥ N, adStartVertices fuel [[-1, 0, 0], [0, -1, 0], [1, 1, -2], [0, 0, -1]] [[[(1, 1)], [(0, 1)], [(2, 1)]]] [] =
    some (.ok a)) := by
  obtain ⟨a, N, h, -⟩ := C20_sound_partial (d := 2) (A := [[-1, 0, 0], [0, -1, 0], [1, 1, -2], [0, 0, -1]])
    (maps := [[[(1, 1)], [(0, 1)], [(2, 1)]]]) (known := []) (by decide) (by decide)
    ⟨0, by
      intro a ha
      simp only [List.mem_cons, List.not_mem_nil, or_false] at ha
      rcases ha with rfl | rfl | rfl | rfl <;> simp [Spec.value]⟩
    (by
      rintro ⟨p, q, hq, h⟩
      apply hq
      have h1 := fun t => h t [-1, 0, 0] (by decide)
      have h2 := fun t => h t [0, -1, 0] (by decide)
      have h3 := fun t => h t [1, 1, -2] (by decide)
      simp [Spec.value, Fin.sum_univ_two] at h1 h2 h3
      have e0 : q 0 = 0 := by
        by_contra hne
        have := h1 (-(p 0 + 1) / q 0)
        rw [div_mul_cancel₀ _ hne] at this
        linarith
      have e1 : q 1 = 0 := by
        by_contra hne
        have := h2 (-(p 1 + 1) / q 1)
        rw [div_mul_cancel₀ _ hne] at this
        linarith
      funext i; fin_cases i <;> simp [e0, e1])
    (by rw [← C04_dimension_eq_rank 3 _ (by decide)]; decide)
    (by
      intro m hm
      rw [List.mem_singleton] at hm; subst hm
      exact swap_symmetry (by decide))
    (by simp)
  exact ⟨a, N, h⟩

/-- **C20 is false of the code**: the quadrilateral `x ≥ 1`, `-x ≤ y ≤ x`, `x ≤ 2` has four vertices, but no
interleaving prints (2, 2) or (2, -2). -/
theorem C20_adjacency_vertices_false :
    vertexEnumerationDD 10 [[-1, 0, 1], [-1, 1, 0], [-1, -1, 0], [1, 0, -2], [0, 0, -1]] [] =
      some (.ok ⟨false, [[1, -1, 1], [1, 1, 1], [2, -2, 1], [2, 2, 1]], []⟩) ∧
    ∃ a, adStartVertices 10 [[-1, 0, 1], [-1, 1, 0], [-1, -1, 0], [1, 0, -2], [0, 0, -1]] [] [] = some (.ok a) ∧
      ∀ (ι : Type) [DecidableEq ι] [Fintype ι] (remote : ι → Prop) (s : Pool ι),
        PoolReach (adConfig remote [[-1, 0, 1], [-1, 1, 0], [-1, -1, 0], [1, 0, -2], [0, 0, -1]] .vertex a) s →
        [2, -2, 1] ∉ s.printed ∧ [2, 2, 1] ∉ s.printed := by
  refine ⟨by decide, ⟨[], [], [[1, -1, 1], [1, 1, 1]], []⟩, by decide, fun ι _ _ remote s hs => ?_⟩
  have hsafe : (adConfig remote [[-1, 0, 1], [-1, 1, 0], [-1, -1, 0], [1, 0, -2], [0, 0, -1]] .vertex
      ⟨[], [], [[1, -1, 1], [1, 1, 1]], []⟩).Safe fun r => r ∈ [[1, -1, 1], [1, 1, 1]] :=
    { nonempty := by simp, initial := by simp [adConfig], known := by simp [adConfig]
      rot := by
        rintro r m hr ⟨fuel, hf⟩
        simp only [List.mem_cons, List.not_mem_nil, or_false] at hr
        rcases hr with rfl | rfl
        · have := rotation_unique (by decide : rotation 10 [[-1, 0, 1], [-1, 1, 0], [-1, -1, 0], [1, 0, -2], [0, 0, -1]] [1, -1, 1] [] .vertex =
            some (.ok [[1, 1, 1]])) hf
          cases this; simp
        · have := rotation_unique (by decide : rotation 10 [[-1, 0, 1], [-1, 1, 0], [-1, -1, 0], [1, 0, -2], [0, 0, -1]] [1, 1, 1] [] .vertex =
            some (.ok [[1, -1, 1]])) hf
          cases this; simp }
  constructor <;> intro hmem <;> · have := C26_nothing_else hsafe hs _ hmem; simp at this

end Panda
