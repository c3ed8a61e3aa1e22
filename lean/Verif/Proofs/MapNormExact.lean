import Verif.Proofs.MapNorm
import Verif.Proofs.RowsBridge

/-! # Normalisation of maps by equations with arbitrary leading coefficients

`subtractEquation` does not read the leading coefficient of the equation, hence the result is the one for the equations with leading
coefficient replaced by one. -/

namespace Panda

/-- the equation with leading coefficient one -/
def unitLead (e : Row) : Row := e.set (firstNonzero e) 1

theorem unitLead_length (e : Row) : (unitLead e).length = e.length := by simp [unitLead]

theorem unitLead_lead {e : Row} (h : firstNonzero e < e.length) : (unitLead e).getD (firstNonzero e) 0 = 1 := by
  simp [unitLead, List.getD_eq_getElem?_getD, List.getElem?_set, h]

theorem unitLead_other {e : Row} {j : Nat} (h : j ≠ firstNonzero e) : (unitLead e).getD j 0 = e.getD j 0 := by
  simp [unitLead, List.getD_eq_getElem?_getD, List.getElem?_set, h.symm]

theorem unitLead_first {e : Row} (h : firstNonzero e < e.length) : firstNonzero (unitLead e) = firstNonzero e := by
  refine firstNonzero_eq (by rw [unitLead_length]; exact h) (by rw [unitLead_lead h]; decide) fun i hi => ?_
  rw [unitLead_other (by omega)]
  exact firstNonzero_zero e i hi

theorem Echelon.unit {n : Nat} {E : Matrix} (h : Echelon n E) : Echelon n (E.map unitLead) := by
  have hl : ∀ e ∈ E, firstNonzero e < e.length := fun e he => by rw [h.len e he]; exact (h.lead e he).1
  refine ⟨?_, ?_, ?_⟩
  · intro x hx
    obtain ⟨e, he, rfl⟩ := List.mem_map.1 hx
    rw [unitLead_length]; exact h.len e he
  · intro x hx
    obtain ⟨e, he, rfl⟩ := List.mem_map.1 hx
    rw [unitLead_first (hl e he), unitLead_lead (hl e he)]
    exact ⟨(h.lead e he).1, by decide⟩
  · rw [List.pairwise_map]
    refine h.iso.imp_of_mem ?_
    intro a b ha hb hab
    rw [unitLead_first (hl a ha), unitLead_first (hl b hb)]
    have hne : firstNonzero a ≠ firstNonzero b := by
      intro e
      have := (h.lead b hb).2
      rw [← e, hab.1] at this
      exact absurd this (by decide)
    rw [unitLead_other hne, unitLead_other hne.symm]
    exact hab

theorem replaceTerm_unit (e : Row) (t : Term) : replaceTerm (firstNonzero e) (unitLead e) t = replaceTerm (firstNonzero e) e t := by
  unfold replaceTerm
  split
  · rw [unitLead_length]
    have hf : ((List.range e.length).filter fun j => decide (firstNonzero e < j) && decide ((unitLead e).getD j 0 ≠ 0)) =
        (List.range e.length).filter fun j => decide (firstNonzero e < j) && decide (e.getD j 0 ≠ 0) := by
      apply List.filter_congr
      intro j _
      by_cases hj : firstNonzero e < j
      · rw [unitLead_other (by omega)]
      · simp [hj]
    rw [hf]
    apply List.map_congr_left
    intro j hj
    simp only [List.mem_filter, Bool.and_eq_true, decide_eq_true_eq] at hj
    rw [unitLead_other (by omega)]
  · rfl

theorem subtractEquation_unit (e : Row) : ∀ m : SymMap, subtractEquation (firstNonzero e) (unitLead e) m = subtractEquation (firstNonzero e) e m
  | [] => rfl
  | im :: ims => by
    rw [subtractEquation, subtractEquation, subtractEquation_unit e ims]
    congr 1
    match im with
    | [] => rfl
    | [t] => simp only [subtractEquationImage, replaceTerm_unit]
    | _ :: _ :: _ => rfl

theorem subtractEquations_unit {n : Nat} : ∀ {E : Matrix} (m : SymMap), Echelon n E →
    subtractEquations m (E.map unitLead) = subtractEquations m E
  | [], m, _ => rfl
  | e :: E, m, h => by
    have hl : firstNonzero e < e.length := by rw [h.len e (by simp)]; exact (h.lead e (by simp)).1
    rw [List.map_cons, subtractEquations, subtractEquations, unitLead_first hl, subtractEquation_unit]
    congr 1
    funext m1
    exact subtractEquations_unit m1 h.tail

/-- the leading coefficients have no influence -/
theorem normalizeMap_unit {n : Nat} {E : Matrix} (h : Echelon n E) (m : SymMap) : normalizeMap m (E.map unitLead) = normalizeMap m E := by
  have hi : eliminatedIndices (E.map unitLead) = eliminatedIndices E := by
    simp only [eliminatedIndices, List.map_map]
    apply List.map_congr_left
    intro e he
    exact unitLead_first (by rw [h.len e he]; exact (h.lead e he).1)
  unfold normalizeMap
  rw [hi]
  congr 1
  funext m1
  rw [subtractEquations_unit m1 h]

/-- with an equation, a defined run has at most one term in every image -/
theorem subtractEquation_short {k : Nat} {e : Row} : ∀ {m m' : SymMap}, subtractEquation k e m = .ok m' → ∀ im ∈ m, im.length ≤ 1
  | [], _, _ => by simp
  | im :: ims, m', h => by
    rw [subtractEquation] at h
    match im, h with
    | [], h =>
      simp only [subtractEquationImage, Outcome.bind] at h
      cases h2 : subtractEquation k e ims with
      | thrown => rw [h2] at h; cases h
      | ub => rw [h2] at h; cases h
      | ok ims' => 
        intro x hx
        rcases List.mem_cons.1 hx with rfl | hx
        · simp
        · exact subtractEquation_short h2 x hx
    | [t], h =>
      simp only [subtractEquationImage, Outcome.bind] at h
      cases h2 : subtractEquation k e ims with
      | thrown => rw [h2] at h; cases h
      | ub => rw [h2] at h; cases h
      | ok ims' => 
        intro x hx
        rcases List.mem_cons.1 hx with rfl | hx
        · simp
        · exact subtractEquation_short h2 x hx
    | _ :: _ :: _, h => simp [subtractEquationImage, Outcome.bind] at h

theorem normalizeMap_short {n : Nat} {E : Matrix} {m m' : SymMap} (hm : Spec.IsMap n m) (h : normalizeMap m E = .ok m') (h0 : E ≠ []) {i : Nat}
    (hi : ∀ e ∈ E, firstNonzero e ≠ i) : (m.getD i []).length ≤ 1 := by
  unfold normalizeMap at h
  cases h1 : eliminateZeroCoefficients m (eliminatedIndices E) with
  | thrown => rw [h1] at h; cases h
  | ub => rw [h1] at h; cases h
  | ok m1 =>
    rw [h1] at h; simp only [Outcome.bind] at h
    obtain ⟨hm1, e1⟩ := eliminateZeroCoefficients_spec hm h1
    have hmi : m1.getD i [] = m.getD i [] := by
      rw [e1, if_neg]
      intro hc
      obtain ⟨e, he, hei⟩ := List.mem_map.1 hc
      exact hi e he hei
    rw [← hmi]
    obtain ⟨e, E', rfl⟩ := List.exists_cons_of_ne_nil h0
    rw [subtractEquations] at h
    cases h2 : subtractEquation (firstNonzero e) e m1 with
    | thrown => rw [h2] at h; cases h
    | ub => rw [h2] at h; cases h
    | ok m2 =>
      have := subtractEquation_short h2
      by_cases hlt : i < m1.length
      · rw [List.getD_eq_getElem?_getD, List.getElem?_eq_getElem hlt]
        exact this _ (List.getElem_mem hlt)
      · simp [List.getD_eq_getElem?_getD, List.getElem?_eq_none (Nat.le_of_not_lt hlt)]

/-- an element of the row space that vanishes at all leading positions is zero -/
theorem Echelon.zero_of_leads {n : Nat} : ∀ {E : Matrix}, Echelon n E → ∀ {x : Fin n → ℚ}, x ∈ rowSpan n E →
    (∀ e ∈ E, ∀ hc : firstNonzero e < n, x ⟨firstNonzero e, hc⟩ = 0) → x = 0
  | [], _, x, hx, _ => by simpa [rowSpan] using hx
  | e :: E, h, x, hx, h0 => by
    have hc := (h.lead e (by simp)).1
    have hsp : rowSpan n (e :: E) = Submodule.span ℚ {toV n e} ⊔ rowSpan n E := by
      unfold rowSpan
      rw [← Submodule.span_union]
      congr 1
      ext y
      simp [eq_comm]
    rw [hsp, Submodule.mem_sup] at hx
    obtain ⟨y, hy, z, hz, rfl⟩ := hx
    obtain ⟨c, rfl⟩ := Submodule.mem_span_singleton.1 hy
    have hz0 : z ⟨firstNonzero e, hc⟩ = 0 := by
      have hle : rowSpan n E ≤ LinearMap.ker (LinearMap.proj (R := ℚ) (φ := fun _ : Fin n => ℚ) ⟨firstNonzero e, hc⟩) := by
        unfold rowSpan
        rw [Submodule.span_le]
        rintro _ ⟨v, hv, rfl⟩
        rw [SetLike.mem_coe, LinearMap.mem_ker]
        have := ((List.pairwise_cons.mp h.iso).1 v hv).1
        simp only [LinearMap.proj_apply, toV]
        rw [this]; simp
      exact LinearMap.mem_ker.mp (hle hz)
    have h1 := h0 e (by simp) hc
    rw [Pi.add_apply, hz0, add_zero, Pi.smul_apply, smul_eq_mul] at h1
    have hne : toV n e ⟨firstNonzero e, hc⟩ ≠ 0 := by
      have := (h.lead e (by simp)).2
      simp only [toV]
      exact_mod_cast this.ne'
    have hc0 := (mul_eq_zero.1 h1).resolve_right hne
    subst hc0
    rw [zero_smul, zero_add]
    refine zero_of_leads h.tail hz fun e' he' hc' => ?_
    have := h0 e' (by simp [he']) hc'
    simpa using this

/-- the difference between the normalised and the given map, on a basis -/
theorem normalizeMap_basis {n : Nat} {E : Matrix} {m m' : SymMap} (hE : Echelon n E) (hm : Spec.IsMap n m) (h : normalizeMap m E = .ok m')
    (i : Fin n) (hi : ∀ e ∈ E, firstNonzero e ≠ i) :
    ((∀ e ∈ E, Spec.factor m i (firstNonzero e) = 0) → Spec.pulled n m' (Pi.single i 1) - Spec.pulled n m (Pi.single i 1) = 0) ∧
    ∀ e ∈ E, Spec.factor m i (firstNonzero e) ≠ 0 →
      Spec.pulled n m' (Pi.single i 1) - Spec.pulled n m (Pi.single i 1) = -(Spec.factor m i (firstNonzero e) : ℚ) • toV n (unitLead e) := by
  have hl : ∀ e ∈ E, firstNonzero e < e.length := fun e he => by rw [hE.len e he]; exact (hE.lead e he).1
  have hu := hE.unit
  obtain ⟨-, hp⟩ := normalizeMap_spec hu (by
    intro x hx
    obtain ⟨e, he, rfl⟩ := List.mem_map.1 hx
    rw [unitLead_first (hl e he)]
    exact unitLead_lead (hl e he)) hm (by rw [normalizeMap_unit hE]; exact h)
  obtain ⟨h1, h2⟩ := hp (Pi.single i 1) (by
    intro x hx hc
    obtain ⟨e, he, rfl⟩ := List.mem_map.1 hx
    rw [Pi.single_apply, if_neg]
    intro hc'
    refine hi e he ?_
    rw [← unitLead_first (hl e he), ← hc'])
  have hpm : ∀ j : Fin n, Spec.pulled n m (Pi.single i 1) j = Spec.factor m i j := by
    intro j
    simp [Spec.pulled, Pi.single_apply]
  have h2' : ∀ e ∈ E, ∀ hc : firstNonzero e < n, Spec.pulled n m' (Pi.single i 1) ⟨firstNonzero e, hc⟩ = 0 := by
    intro e he hc
    have := h2 (unitLead e) (List.mem_map_of_mem he) (by rw [unitLead_first (hl e he)]; exact hc)
    convert this using 2
    exact Fin.ext (unitLead_first (hl e he)).symm
  constructor
  · intro h0
    refine hu.zero_of_leads h1 ?_
    intro x hx hc
    obtain ⟨e, he, rfl⟩ := List.mem_map.1 hx
    have hc' : firstNonzero e < n := (hE.lead e he).1
    have : (⟨firstNonzero (unitLead e), hc⟩ : Fin n) = ⟨firstNonzero e, hc'⟩ := Fin.ext (unitLead_first (hl e he))
    rw [this, Pi.sub_apply, h2' e he hc', hpm]
    simp [h0 e he]
  · intro e he hne
    have hshort := normalizeMap_short hm h (List.ne_nil_of_mem he) (i := i) hi
    have hother : ∀ j, j ≠ firstNonzero e → Spec.factor m i j = 0 := by
      intro j hj
      rw [factor_eq] at hne ⊢
      match him : m.getD i [], hshort with
      | [], _ => rfl
      | [t], _ =>
        rw [him, imFactor_cons, imFactor_nil] at hne
        rw [imFactor_cons, imFactor_nil]
        have : t.1 = firstNonzero e := by
          by_contra hc; rw [if_neg hc] at hne; simp at hne
        rw [if_neg (by omega)]; rfl
    have key : Spec.pulled n m' (Pi.single i 1) - Spec.pulled n m (Pi.single i 1) + (Spec.factor m i (firstNonzero e) : ℚ) • toV n (unitLead e) = 0 := by
      refine hu.zero_of_leads (Submodule.add_mem _ h1 (Submodule.smul_mem _ _ (Submodule.subset_span ⟨unitLead e, List.mem_map_of_mem he, rfl⟩))) ?_
      intro x hx hc
      obtain ⟨e', he', rfl⟩ := List.mem_map.1 hx
      have hc' : firstNonzero e' < n := (hE.lead e' he').1
      have hfin : (⟨firstNonzero (unitLead e'), hc⟩ : Fin n) = ⟨firstNonzero e', hc'⟩ := Fin.ext (unitLead_first (hl e' he'))
      rw [hfin, Pi.add_apply, Pi.sub_apply, h2' e' he' hc', hpm, Pi.smul_apply, smul_eq_mul]
      by_cases hee : e' = e
      · subst hee
        simp only [toV]
        rw [unitLead_lead (hl e' he')]
        push_cast; ring
      · have hz := hE.iso' he' he hee
        have hne' : firstNonzero e' ≠ firstNonzero e := by
          intro hc2
          have := (hE.lead e he).2
          rw [← hc2, hz] at this
          exact absurd this (by decide)
        simp only [toV]
        rw [hother _ hne', unitLead_other hne', hz]
        simp
    rw [neg_smul, ← sub_eq_zero, sub_neg_eq_add]
    exact key

/-- the condition under which the missing division has no effect -/
def Adapts (n : Nat) (E : Matrix) (m : SymMap) : Prop :=
  ∀ i < n, (∀ e ∈ E, firstNonzero e ≠ i) → ∀ e ∈ E, Spec.factor m i (firstNonzero e) = 0 ∨ e.getD (firstNonzero e) 0 = 1 ∨
    ∀ j, j ≠ firstNonzero e → e.getD j 0 = 0

theorem pulled_add {n : Nat} (m : SymMap) (a b : Fin n → ℚ) : Spec.pulled n m (a + b) = Spec.pulled n m a + Spec.pulled n m b := by
  funext j
  simp [Spec.pulled, mul_add, Finset.sum_add_distrib]

theorem pulled_smul {n : Nat} (m : SymMap) (c : ℚ) (a : Fin n → ℚ) : Spec.pulled n m (c • a) = c • Spec.pulled n m a := by
  funext j
  simp only [Spec.pulled, Pi.smul_apply, smul_eq_mul, Finset.mul_sum]
  exact Finset.sum_congr rfl fun i _ => by ring

/-- **normalisation of a map**: images are normalised; they are right modulo the equations exactly for the maps that `Adapts` -/
theorem normalizeMap_exact {n : Nat} {E : Matrix} {m m' : SymMap} (hE : Echelon n E) (hm : Spec.IsMap n m) (h : normalizeMap m E = .ok m') :
    Spec.IsMap n m' ∧
    (∀ a : Fin n → ℚ, (∀ e ∈ E, ∀ hc : firstNonzero e < n, a ⟨firstNonzero e, hc⟩ = 0) →
      ∀ e ∈ E, ∀ hc : firstNonzero e < n, Spec.pulled n m' a ⟨firstNonzero e, hc⟩ = 0) ∧
    ((∀ a : Fin n → ℚ, (∀ e ∈ E, ∀ hc : firstNonzero e < n, a ⟨firstNonzero e, hc⟩ = 0) →
      Spec.pulled n m' a - Spec.pulled n m a ∈ rowSpan n E) ↔ Adapts n E m) := by
  have hl : ∀ e ∈ E, firstNonzero e < e.length := fun e he => by rw [hE.len e he]; exact (hE.lead e he).1
  have hu := hE.unit
  obtain ⟨hm', hp⟩ := normalizeMap_spec hu (by
    intro x hx
    obtain ⟨e, he, rfl⟩ := List.mem_map.1 hx
    rw [unitLead_first (hl e he)]
    exact unitLead_lead (hl e he)) hm (by rw [normalizeMap_unit hE]; exact h)
  refine ⟨hm', fun a ha e he hc => ?_, fun H i hi hlead e he => ?_, fun H a ha => ?_⟩
  · have := (hp a (by
      intro x hx hc
      obtain ⟨e, he, rfl⟩ := List.mem_map.1 hx
      have := ha e he (hE.lead e he).1
      convert this using 2
      exact Fin.ext (unitLead_first (hl e he)))).2 (unitLead e) (List.mem_map_of_mem he) (by rw [unitLead_first (hl e he)]; exact hc)
    convert this using 2
    exact Fin.ext (unitLead_first (hl e he)).symm
  · by_cases h0 : Spec.factor m i (firstNonzero e) = 0
    · exact .inl h0
    right
    have hb := (normalizeMap_basis hE hm h ⟨i, hi⟩ hlead).2 e he h0
    have hs := H (Pi.single ⟨i, hi⟩ 1) (by
      intro e' he' hc
      rw [Pi.single_apply, if_neg]
      intro hc'
      exact hlead e' he' (congrArg Fin.val hc'))
    rw [hb] at hs
    simp only at hs
    have hc := (hE.lead e he).1
    have hL : (0 : ℚ) < e.getD (firstNonzero e) 0 := by exact_mod_cast (hE.lead e he).2
    set c : ℚ := (Spec.factor m i (firstNonzero e) : ℚ) with hcdef
    have hc0 : c ≠ 0 := by rw [hcdef]; exact_mod_cast h0
    have key : -c • toV n (unitLead e) + (c / e.getD (firstNonzero e) 0) • toV n e = 0 := by
      refine hE.zero_of_leads (Submodule.add_mem _ hs (Submodule.smul_mem _ _ (Submodule.subset_span ⟨e, he, rfl⟩))) ?_
      intro e' he' hc'
      rw [Pi.add_apply, Pi.smul_apply, Pi.smul_apply, smul_eq_mul, smul_eq_mul]
      by_cases hee : e' = e
      · subst hee
        simp only [toV]
        rw [unitLead_lead (hl e' he')]
        field_simp
        push_cast; ring
      · have hz := hE.iso' he' he hee
        have hne' : firstNonzero e' ≠ firstNonzero e := by
          intro hc2
          have := (hE.lead e he).2
          rw [← hc2, hz] at this
          exact absurd this (by decide)
        simp only [toV]
        rw [unitLead_other hne', hz]
        simp
    by_cases h1 : e.getD (firstNonzero e) 0 = 1
    · exact .inl h1
    right
    intro j hj
    by_cases hjn : j < n
    · have hkj := congrFun key ⟨j, hjn⟩
      rw [Pi.add_apply, Pi.smul_apply, Pi.smul_apply, smul_eq_mul, smul_eq_mul] at hkj
      simp only [toV, Pi.zero_apply] at hkj
      rw [unitLead_other hj] at hkj
      by_contra hne
      have hne' : (e.getD j 0 : ℚ) ≠ 0 := by exact_mod_cast hne
      have h2 : c / e.getD (firstNonzero e) 0 = c := by
        apply mul_right_cancel₀ hne'
        linarith
      have h3 : (e.getD (firstNonzero e) 0 : ℚ) = 1 := by
        rw [div_eq_iff hL.ne'] at h2
        have : c * ((e.getD (firstNonzero e) 0 : ℚ) - 1) = 0 := by linarith
        rcases mul_eq_zero.1 this with h | h
        · exact absurd h hc0
        · linarith
      exact h1 (by exact_mod_cast h3)
    · have : e.length ≤ j := by rw [hE.len e he]; omega
      simp [List.getD_eq_getElem?_getD, List.getElem?_eq_none this]
  · have hdecomp : a = ∑ i : Fin n, a i • (Pi.single i 1 : Fin n → ℚ) := by
      funext j
      simp [Finset.sum_apply, Pi.single_apply]
    have hlin : ∀ (m : SymMap) (s : Finset (Fin n)), Spec.pulled n m (∑ i ∈ s, a i • (Pi.single i 1 : Fin n → ℚ)) =
        ∑ i ∈ s, a i • Spec.pulled n m (Pi.single i 1) := by
      intro m s
      induction s using Finset.induction_on with
      | empty => funext j; simp [Spec.pulled]
      | insert i s his ih => rw [Finset.sum_insert his, Finset.sum_insert his, pulled_add, pulled_smul, ih]
    rw [hdecomp, hlin, hlin, ← Finset.sum_sub_distrib]
    refine Submodule.sum_mem _ fun i _ => ?_
    rw [← smul_sub]
    by_cases hlead : ∀ e ∈ E, firstNonzero e ≠ i
    · refine Submodule.smul_mem _ _ ?_
      obtain ⟨b1, b2⟩ := normalizeMap_basis hE hm h i hlead
      by_cases h0 : ∀ e ∈ E, Spec.factor m i (firstNonzero e) = 0
      · rw [b1 h0]; exact Submodule.zero_mem _
      · push Not at h0
        obtain ⟨e, he, hne⟩ := h0
        rw [b2 e he hne]
        refine Submodule.smul_mem _ _ ?_
        have hmem : toV n e ∈ rowSpan n E := Submodule.subset_span ⟨e, he, rfl⟩
        have hL : (0 : ℚ) < e.getD (firstNonzero e) 0 := by exact_mod_cast (hE.lead e he).2
        have : toV n (unitLead e) = (1 / (e.getD (firstNonzero e) 0 : ℚ)) • toV n e := by
          funext j
          rw [Pi.smul_apply, smul_eq_mul]
          simp only [toV]
          by_cases hj : (j : Nat) = firstNonzero e
          · rw [hj, unitLead_lead (hl e he)]
            field_simp
            push_cast; rfl
          · rw [unitLead_other hj]
            rcases H i i.2 hlead e he with h1 | h1 | h1
            · exact absurd h1 hne
            · rw [h1]; simp
            · rw [h1 _ hj]; simp
        rw [this]
        exact Submodule.smul_mem _ _ hmem
    · push Not at hlead
      obtain ⟨e, he, hei⟩ := hlead
      have := ha e he (by rw [hei]; exact i.2)
      have hfin : (⟨firstNonzero e, by rw [hei]; exact i.2⟩ : Fin n) = i := Fin.ext hei
      rw [hfin] at this
      rw [this, zero_smul]
      exact Submodule.zero_mem _

theorem adaptable_iff {n : Nat} {E : Matrix} {m : SymMap} (hE : Echelon n E) : Spec.Adaptable n E m ↔ Adapts n E m := by
  have hl : ∀ e ∈ E, firstNonzero e < e.length := fun e he => by rw [hE.len e he]; exact (hE.lead e he).1
  constructor
  · intro H i hi hlead e he
    exact H i hi (fun e' he' hc => hlead e' he' (lead_iff.1 hc).2) e he _ (lead_iff.2 ⟨hl e he, rfl⟩)
  · intro H i hi hlead e he k hk
    obtain ⟨-, rfl⟩ := lead_iff.1 hk
    exact H i hi (fun e' he' hc => hlead e' he' (lead_iff.2 ⟨hl e' he', hc⟩)) e he

theorem Adapts.of_unit {n : Nat} {E : Matrix} {m : SymMap} (h : ∀ e ∈ E, e.getD (firstNonzero e) 0 = 1) : Adapts n E m :=
  fun _ _ _ e he => .inr (.inl (h e he))

/-- the form in which it is used -/
theorem normalizeMap_adapts {n : Nat} {E : Matrix} {m m' : SymMap} (hE : Echelon n E) (hu : Adapts n E m) (hm : Spec.IsMap n m)
    (h : normalizeMap m E = .ok m') :
    Spec.IsMap n m' ∧ ∀ a : Fin n → ℚ, (∀ e ∈ E, ∀ hc : firstNonzero e < n, a ⟨firstNonzero e, hc⟩ = 0) →
      Spec.pulled n m' a - Spec.pulled n m a ∈ rowSpan n E ∧
      ∀ e ∈ E, ∀ hc : firstNonzero e < n, Spec.pulled n m' a ⟨firstNonzero e, hc⟩ = 0 := by
  obtain ⟨h1, h2, h3⟩ := normalizeMap_exact hE hm h
  exact ⟨h1, fun a ha => ⟨h3.2 hu a ha, h2 a ha⟩⟩

end Panda
