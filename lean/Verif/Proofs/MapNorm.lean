import Verif.Proofs.Maps
import Verif.Proofs.Equations

/-! # Normalisation of maps by equations -/

namespace Panda

theorem imFactor_map {g : Nat → Int} : ∀ {l : List Nat}, l.Nodup → ∀ k,
    imFactor (l.map fun j => (j, g j)) k = if k ∈ l then g k else 0
  | [], _, k => by simp [imFactor_nil]
  | j :: l, h, k => by
    rw [List.map_cons, imFactor_cons, imFactor_map (List.nodup_cons.mp h).2]
    have hj := (List.nodup_cons.mp h).1
    by_cases hk : j = k
    · subst hk; simp [hj]
    · simp [hk, Ne.symm hk]

theorem imFactor_perm {a b : Image} (h : a.Perm b) (j : Nat) : imFactor a j = imFactor b j := by
  unfold imFactor
  exact ((h.filter _).map _).sum_eq

theorem eliminateZeroCoefficients_spec {n : Nat} : ∀ {is : List Nat} {m m' : SymMap},
    Spec.IsMap n m → eliminateZeroCoefficients m is = .ok m' →
    Spec.IsMap n m' ∧ ∀ i, m'.getD i [] = if i ∈ is then [] else m.getD i []
  | [], m, m', hm, h => by
    simp [eliminateZeroCoefficients] at h; subst h; exact ⟨hm, by simp⟩
  | k :: is, m, m', hm, h => by
    rw [eliminateZeroCoefficients] at h
    split at h
    · rename_i hk
      have hm1 : Spec.IsMap n (m.set k []) := ⟨by simp [hm.size], fun im him t ht => by
        rcases List.mem_or_eq_of_mem_set him with h1 | rfl
        · exact hm.range im h1 t ht
        · simp at ht⟩
      obtain ⟨h1, h2⟩ := eliminateZeroCoefficients_spec hm1 h
      refine ⟨h1, fun i => ?_⟩
      rw [h2 i]
      by_cases hi : i ∈ is
      · simp [hi]
      · rw [if_neg hi]
        simp only [List.getD_eq_getElem?_getD, List.getElem?_set]
        by_cases hki : k = i
        · subst hki; simp [hk]
        · simp [hki, Ne.symm hki, hi]
    · cases h

/-- after clearing the images at the leading positions, inequalities vanishing there have the same image -/
theorem pulled_eliminate {n : Nat} {m m' : SymMap} {is : List Nat} {a : Fin n → ℚ}
    (h : ∀ i, m'.getD i [] = if i ∈ is then [] else m.getD i []) (ha : ∀ i : Fin n, (i : Nat) ∈ is → a i = 0) :
    Spec.pulled n m' a = Spec.pulled n m a := by
  funext j
  simp only [Spec.pulled]
  apply Finset.sum_congr rfl
  intro i _
  by_cases hi : (i : Nat) ∈ is
  · rw [ha i hi, mul_zero, mul_zero]
  · rw [factor_eq, factor_eq, h, if_neg hi]

theorem imFactor_replaceTerm {n k : Nat} {e : Row} (hlen : e.length = n) (hk : e.getD k 0 = 1) (h0 : ∀ i < k, e.getD i 0 = 0)
    (t : Term) (j : Nat) :
    imFactor (replaceTerm k e t) j = (if t.1 = j then t.2 else 0) - (if t.1 = k then t.2 else 0) * e.getD j 0 := by
  unfold replaceTerm
  by_cases ht : t.1 = k
  · rw [if_pos ht]
    rw [imFactor_map (List.nodup_range.filter _)]
    simp only [List.mem_filter, List.mem_range, Bool.and_eq_true, decide_eq_true_eq, ht, if_true]
    rcases Nat.lt_trichotomy j k with h | h | h
    · rw [if_neg (by omega), if_neg (by omega), h0 j h]; ring
    · subst h; rw [if_neg (by omega), if_pos rfl, hk]; ring
    · by_cases hz : e.getD j 0 = 0
      · rw [if_neg (fun hc => hc.2.2 hz), if_neg (by omega), hz]; ring
      · have hjl : j < e.length := by
          by_contra hc
          exact hz (by simp only [List.getD_eq_getElem?_getD, List.getElem?_eq_none (Nat.le_of_not_lt hc), Option.getD_none])
        rw [if_pos ⟨hjl, h, hz⟩, if_neg (by omega)]; ring
  · rw [if_neg ht, if_neg ht, imFactor_cons, imFactor_nil]; ring

theorem replaceTerm_range {n k : Nat} {e : Row} (hlen : e.length = n) {t : Term} (ht : t.1 < n) :
    ∀ u ∈ replaceTerm k e t, u.1 < n := by
  intro u hu
  unfold replaceTerm at hu
  split at hu
  · simp only [List.mem_map, List.mem_filter, List.mem_range] at hu
    obtain ⟨j, ⟨hj, -⟩, rfl⟩ := hu
    simpa [hlen] using hj
  · simp at hu; subst hu; exact ht

theorem subtractEquationImage_spec {n k : Nat} {e : Row} (hlen : e.length = n) (hk : e.getD k 0 = 1)
    (h0 : ∀ i < k, e.getD i 0 = 0) {im im' : Image} (hr : ∀ t ∈ im, t.1 < n)
    (h : subtractEquationImage k e im = .ok im') :
    (∀ t ∈ im', t.1 < n) ∧ ∀ j, imFactor im' j = imFactor im j - imFactor im k * e.getD j 0 := by
  match im, h with
  | [], h => simp [subtractEquationImage] at h; subst h; simp [imFactor_nil]
  | [t], h =>
    simp [subtractEquationImage] at h; subst h
    refine ⟨replaceTerm_range hlen (hr t (by simp)), fun j => ?_⟩
    rw [imFactor_replaceTerm hlen hk h0, imFactor_cons, imFactor_cons, imFactor_nil, imFactor_nil]; ring
  | _ :: _ :: _, h => simp [subtractEquationImage] at h

theorem subtractEquation_spec {n k : Nat} {e : Row} (hlen : e.length = n) (hk : e.getD k 0 = 1)
    (h0 : ∀ i < k, e.getD i 0 = 0) : ∀ {m m' : SymMap}, (∀ im ∈ m, ∀ t ∈ im, t.1 < n) →
    subtractEquation k e m = .ok m' →
    m'.length = m.length ∧ (∀ im ∈ m', ∀ t ∈ im, t.1 < n) ∧
      ∀ i j, imFactor (m'.getD i []) j = imFactor (m.getD i []) j - imFactor (m.getD i []) k * e.getD j 0
  | [], m', _, h => by
    simp [subtractEquation] at h; subst h; simp [imFactor_nil]
  | im :: ims, m', hr, h => by
    rw [subtractEquation] at h
    cases h1 : subtractEquationImage k e im with
    | thrown => rw [h1] at h; cases h
    | ub => rw [h1] at h; cases h
    | ok im' =>
      cases h2 : subtractEquation k e ims with
      | thrown => rw [h1, h2] at h; cases h
      | ub => rw [h1, h2] at h; cases h
      | ok ims' =>
        rw [h1, h2] at h
        simp only [Outcome.bind, Outcome.ok.injEq] at h
        subst h
        obtain ⟨a1, a2⟩ := subtractEquationImage_spec hlen hk h0 (hr im (by simp)) h1
        obtain ⟨b1, b2, b3⟩ := subtractEquation_spec hlen hk h0 (fun x hx => hr x (by simp [hx])) h2
        refine ⟨by simp [b1], ?_, ?_⟩
        · intro x hx
          rcases List.mem_cons.mp hx with rfl | hx
          · exact a1
          · exact b2 x hx
        · intro i j
          cases i with
          | zero => simpa only [List.getD_cons_zero] using a2 j
          | succ i => simpa only [List.getD_cons_succ] using b3 i j

/-- one equation -/
theorem pulled_subtract {n : Nat} {e : Row} {m m' : SymMap} (hlen : e.length = n) (hm : Spec.IsMap n m)
    (hk : e.getD (firstNonzero e) 0 = 1) (hkn : firstNonzero e < n)
    (h : subtractEquation (firstNonzero e) e m = .ok m') :
    Spec.IsMap n m' ∧ ∀ a : Fin n → ℚ, Spec.pulled n m' a =
      Spec.pulled n m a - (Spec.pulled n m a ⟨firstNonzero e, hkn⟩) • Spec.vec n e := by
  have hl : Spec.Lead e (firstNonzero e) := lead_iff.mpr ⟨by omega, rfl⟩
  obtain ⟨h1, h2, h3⟩ := subtractEquation_spec hlen hk hl.2 hm.range h
  refine ⟨⟨h1.trans hm.size, h2⟩, fun a => ?_⟩
  funext j
  simp only [Spec.pulled, Pi.sub_apply, Pi.smul_apply, smul_eq_mul, Finset.sum_mul]
  rw [← Finset.sum_sub_distrib]
  apply Finset.sum_congr rfl
  intro i _
  simp only [factor_eq, h3, Spec.vec]
  push_cast; ring

/-- all equations -/
theorem pulled_subtractEquations {n : Nat} : ∀ {E : Matrix} {m m' : SymMap}, Echelon n E →
    (∀ e ∈ E, e.getD (firstNonzero e) 0 = 1) → Spec.IsMap n m → subtractEquations m E = .ok m' →
    Spec.IsMap n m' ∧ ∀ a : Fin n → ℚ, Spec.pulled n m' a - Spec.pulled n m a ∈ rowSpan n E ∧
      ∀ e ∈ E, ∀ hc : firstNonzero e < n, Spec.pulled n m' a ⟨firstNonzero e, hc⟩ = 0
  | [], m, m', _, _, hm, h => by
    simp [subtractEquations] at h; subst h
    exact ⟨hm, fun a => ⟨by simp, by simp⟩⟩
  | e :: E, m, m', hE, hu, hm, h => by
    rw [subtractEquations] at h
    cases h1 : subtractEquation (firstNonzero e) e m with
    | thrown => rw [h1] at h; cases h
    | ub => rw [h1] at h; cases h
    | ok m1 =>
      rw [h1] at h; simp only [Outcome.bind] at h
      have hlead := hE.lead e (by simp)
      obtain ⟨hm1, hp1⟩ := pulled_subtract (hE.len e (by simp)) hm (hu e (by simp)) hlead.1 h1
      obtain ⟨hm', hp'⟩ := pulled_subtractEquations hE.tail (fun x hx => hu x (by simp [hx])) hm1 h
      refine ⟨hm', fun a => ?_⟩
      obtain ⟨q1, q2⟩ := hp' a
      have hsub : rowSpan n E ≤ rowSpan n (e :: E) :=
        Submodule.span_mono (by rintro _ ⟨v, hv, rfl⟩; exact ⟨v, by simp [hv], rfl⟩)
      have he : toV n e ∈ rowSpan n (e :: E) := Submodule.subset_span ⟨e, by simp, rfl⟩
      refine ⟨?_, ?_⟩
      · have : Spec.pulled n m' a - Spec.pulled n m a = (Spec.pulled n m' a - Spec.pulled n m1 a) +
            (-(Spec.pulled n m a ⟨firstNonzero e, hlead.1⟩)) • toV n e := by
          rw [hp1 a]; rw [vec_eq_toV]; module
        rw [this]
        exact Submodule.add_mem _ (hsub q1) (Submodule.smul_mem _ _ he)
      · intro e' he' hc
        rcases List.mem_cons.mp he' with rfl | he'
        · have hz : ∀ x ∈ rowSpan n E, x ⟨firstNonzero e', hc⟩ = 0 := by
            intro x hx
            have hle : rowSpan n E ≤ LinearMap.ker (LinearMap.proj (R := ℚ) (φ := fun _ : Fin n => ℚ) ⟨firstNonzero e', hc⟩) := by
              unfold rowSpan
              rw [Submodule.span_le]
              rintro _ ⟨v, hv, rfl⟩
              rw [SetLike.mem_coe, LinearMap.mem_ker]
              have := ((List.pairwise_cons.mp hE.iso).1 v hv).1
              simp only [LinearMap.proj_apply, toV]
              rw [this]; simp
            exact LinearMap.mem_ker.mp (hle hx)
          have h2 := hz _ q1
          rw [Pi.sub_apply, sub_eq_zero] at h2
          rw [h2, hp1 a]
          simp only [Pi.sub_apply, Pi.smul_apply, smul_eq_mul, Spec.vec]
          have h5 : (e'.getD (firstNonzero e') 0 : ℚ) = 1 := by exact_mod_cast hu e' (by simp)
          simp only [h5]; simp
        · exact q2 e' he' hc

/-! ## simplify -/

theorem insertTerm_perm (t : Term) : ∀ im : Image, (insertTerm t im).Perm (t :: im)
  | [] => .refl _
  | u :: us => by
    rw [insertTerm]; split
    · exact .refl _
    · exact ((insertTerm_perm t us).cons u).trans (.swap t u us)

theorem sortImage_perm : ∀ im : Image, (sortImage im).Perm im
  | [] => .refl _
  | t :: ts => (insertTerm_perm t _).trans ((sortImage_perm ts).cons t)

theorem simplifyLoop_spec {n : Nat} : ∀ (fuel : Nat) (done : List Term) (rest out : Image),
    simplifyLoop fuel done rest = .ok out → (∀ t ∈ done, t.1 < n) → (∀ t ∈ rest, t.1 < n) →
    (∀ t ∈ out, t.1 < n) ∧ ∀ j, imFactor out j = imFactor done j + imFactor rest j
  | 0, done, rest, out, h, hd, hr => by
    simp [simplifyLoop] at h; subst h
    refine ⟨?_, fun j => ?_⟩
    · intro t ht
      rcases List.mem_append.mp ht with ht | ht
      · exact hd t (by simpa using ht)
      · exact hr t ht
    · rw [imFactor_append, imFactor_perm (List.reverse_perm done)]
  | fuel + 1, done, [], out, h, hd, hr => by
    simp [simplifyLoop] at h; subst h
    exact ⟨fun t ht => hd t (by simpa using ht), fun j => by
      rw [imFactor_perm (List.reverse_perm done), imFactor_nil, add_zero]⟩
  | fuel + 1, done, [a], out, h, hd, hr => by
    simp [simplifyLoop] at h; subst h
    refine ⟨?_, fun j => ?_⟩
    · intro t ht
      rcases List.mem_append.mp ht with ht | ht
      · exact hd t (by simpa using ht)
      · exact hr t ht
    · rw [imFactor_append, imFactor_perm (List.reverse_perm done)]
  | fuel + 1, done, a :: b :: rest, out, h, hd, hr => by
    rw [simplifyLoop] at h
    have ha : a.1 < n := hr a (by simp)
    have hrest : ∀ t ∈ rest, t.1 < n := fun t ht => hr t (by simp [ht])
    split at h
    · rename_i hab
      split at h
      · rename_i hz
        match done, hd, h with
        | [], hd, h =>
          rw [if_pos rfl] at h
          split at h
          · rename_i hre
            simp at h; subst h
            refine ⟨by simp, fun j => ?_⟩
            rw [hre]; simp only [imFactor_cons, imFactor_nil, hab]
            split <;> omega
          · cases h
        | c :: done', hd, h =>
          rw [if_neg (by simp)] at h
          simp only [List.tail_cons, List.headD_cons] at h
          obtain ⟨h1, h2⟩ := simplifyLoop_spec fuel done' (c :: rest) out h (fun t ht => hd t (by simp [ht]))
            (by intro t ht
                rcases List.mem_cons.mp ht with rfl | ht
                · exact hd t (by simp)
                · exact hrest t ht)
          refine ⟨h1, fun j => ?_⟩
          rw [h2 j]; simp only [imFactor_cons, hab]
          split <;> split <;> omega
      · obtain ⟨h1, h2⟩ := simplifyLoop_spec fuel done ((a.1, a.2 + b.2) :: rest) out h hd
          (by intro t ht
              rcases List.mem_cons.mp ht with rfl | ht
              · exact ha
              · exact hrest t ht)
        refine ⟨h1, fun j => ?_⟩
        rw [h2 j]; simp only [imFactor_cons, hab]
        split <;> omega
    · obtain ⟨h1, h2⟩ := simplifyLoop_spec fuel (a :: done) (b :: rest) out h
        (by intro t ht
            rcases List.mem_cons.mp ht with rfl | ht
            · exact ha
            · exact hd t ht)
        (fun t ht => hr t (by simp only [List.mem_cons] at ht ⊢; exact Or.inr ht))
      refine ⟨h1, fun j => ?_⟩
      rw [h2 j]; simp only [imFactor_cons]; omega

/-- the number of iterations in `simplifyImage` is enough: more iterations do not change the result -/
theorem simplifyLoop_fuel : ∀ (fuel : Nat) (done : List Term) (rest : Image) (k : Nat),
    2 * rest.length + done.length ≤ fuel → simplifyLoop (fuel + k) done rest = simplifyLoop fuel done rest
  | 0, done, rest, k, h => by
    have h1 : rest = [] := List.length_eq_zero_iff.mp (by omega)
    have h2 : done = [] := List.length_eq_zero_iff.mp (by omega)
    subst h1; subst h2
    cases k <;> simp [simplifyLoop]
  | fuel + 1, done, [], k, h => by rw [show fuel + 1 + k = (fuel + k) + 1 by omega]; simp [simplifyLoop]
  | fuel + 1, done, [a], k, h => by rw [show fuel + 1 + k = (fuel + k) + 1 by omega]; simp [simplifyLoop]
  | fuel + 1, done, a :: b :: rest, k, h => by
    rw [show fuel + 1 + k = (fuel + k) + 1 by omega, simplifyLoop, simplifyLoop]
    simp only [List.length_cons] at h
    split
    · split
      · match done, h with
        | [], _ => rfl
        | c :: done', h =>
          rw [if_neg (by simp), if_neg (by simp)]
          simp only [List.tail_cons, List.headD_cons]
          exact simplifyLoop_fuel fuel done' (c :: rest) k (by simp at h ⊢; omega)
      · exact simplifyLoop_fuel fuel done _ k (by simp; omega)
    · exact simplifyLoop_fuel fuel (a :: done) (b :: rest) k (by simp; omega)

theorem simplifyMap_spec {n : Nat} : ∀ {m m' : SymMap}, (∀ im ∈ m, ∀ t ∈ im, t.1 < n) → simplifyMap m = .ok m' →
    m'.length = m.length ∧ (∀ im ∈ m', ∀ t ∈ im, t.1 < n) ∧ ∀ i j, imFactor (m'.getD i []) j = imFactor (m.getD i []) j
  | [], m', _, h => by simp [simplifyMap] at h; subst h; simp
  | im :: ims, m', hr, h => by
    rw [simplifyMap] at h
    cases h1 : simplifyImage im with
    | thrown => rw [h1] at h; cases h
    | ub => rw [h1] at h; cases h
    | ok im' =>
      cases h2 : simplifyMap ims with
      | thrown => rw [h1, h2] at h; cases h
      | ub => rw [h1, h2] at h; cases h
      | ok ims' =>
        rw [h1, h2] at h
        simp only [Outcome.bind, Outcome.ok.injEq] at h
        subst h
        obtain ⟨a1, a2⟩ := simplifyLoop_spec (n := n) _ [] _ im' h1 (by simp)
          (fun t ht => hr im (by simp) t ((sortImage_perm im).mem_iff.mp ht))
        obtain ⟨b1, b2, b3⟩ := simplifyMap_spec (fun x hx => hr x (by simp [hx])) h2
        refine ⟨by simp [b1], ?_, ?_⟩
        · intro x hx
          rcases List.mem_cons.mp hx with rfl | hx
          · exact a1
          · exact b2 x hx
        · intro i j
          cases i with
          | zero =>
            simp only [List.getD_cons_zero]
            rw [a2 j, imFactor_nil, zero_add, imFactor_perm (sortImage_perm im)]
          | succ i => simpa only [List.getD_cons_succ] using b3 i j

/-- **normalisation of a map**, for equations with leading coefficient one -/
theorem normalizeMap_spec {n : Nat} {E : Matrix} {m m' : SymMap} (hE : Echelon n E)
    (hu : ∀ e ∈ E, e.getD (firstNonzero e) 0 = 1) (hm : Spec.IsMap n m) (h : normalizeMap m E = .ok m') :
    Spec.IsMap n m' ∧ ∀ a : Fin n → ℚ, (∀ e ∈ E, ∀ hc : firstNonzero e < n, a ⟨firstNonzero e, hc⟩ = 0) →
      Spec.pulled n m' a - Spec.pulled n m a ∈ rowSpan n E ∧
      ∀ e ∈ E, ∀ hc : firstNonzero e < n, Spec.pulled n m' a ⟨firstNonzero e, hc⟩ = 0 := by
  unfold normalizeMap at h
  cases h1 : eliminateZeroCoefficients m (eliminatedIndices E) with
  | thrown => rw [h1] at h; cases h
  | ub => rw [h1] at h; cases h
  | ok m1 =>
    rw [h1] at h; simp only [Outcome.bind] at h
    cases h2 : subtractEquations m1 E with
    | thrown => rw [h2] at h; cases h
    | ub => rw [h2] at h; cases h
    | ok m2 =>
      rw [h2] at h; simp only [Outcome.bind] at h
      obtain ⟨hm1, e1⟩ := eliminateZeroCoefficients_spec hm h1
      obtain ⟨hm2, e2⟩ := pulled_subtractEquations hE hu hm1 h2
      obtain ⟨l3, r3, e3⟩ := simplifyMap_spec hm2.range h
      refine ⟨⟨l3.trans hm2.size, r3⟩, fun a ha => ?_⟩
      have hp1 : Spec.pulled n m1 a = Spec.pulled n m a := by
        apply pulled_eliminate e1
        intro i hi
        obtain ⟨e, he, hei⟩ := List.mem_map.mp hi
        have := ha e he (hei ▸ i.2)
        convert this using 2
        exact Fin.ext hei.symm
      have hp3 : Spec.pulled n m' a = Spec.pulled n m2 a := by
        funext j
        simp only [Spec.pulled]
        apply Finset.sum_congr rfl; intro i _
        rw [factor_eq, factor_eq, e3]
      rw [hp3, ← hp1]
      exact e2 a

theorem normalizeMaps_mem : ∀ {ms ms' : Maps} {E : Matrix}, normalizeMaps ms E = .ok ms' →
    (∀ m' ∈ ms', ∃ m ∈ ms, normalizeMap m E = .ok m') ∧ ∀ m ∈ ms, ∃ m' ∈ ms', normalizeMap m E = .ok m'
  | [], ms', E, h => by simp [normalizeMaps] at h; subst h; simp
  | m :: ms, ms', E, h => by
    rw [normalizeMaps] at h
    cases h1 : normalizeMap m E with
    | thrown => rw [h1] at h; cases h
    | ub => rw [h1] at h; cases h
    | ok m1 =>
      cases h2 : normalizeMaps ms E with
      | thrown => rw [h1, h2] at h; cases h
      | ub => rw [h1, h2] at h; cases h
      | ok ms1 =>
        rw [h1, h2] at h
        simp only [Outcome.bind, Outcome.ok.injEq] at h
        subst h
        obtain ⟨a, b⟩ := normalizeMaps_mem h2
        refine ⟨?_, ?_⟩
        · intro x hx
          rcases List.mem_cons.mp hx with rfl | hx
          · exact ⟨m, by simp, h1⟩
          · obtain ⟨y, hy, he⟩ := a x hx; exact ⟨y, by simp [hy], he⟩
        · intro x hx
          rcases List.mem_cons.mp hx with rfl | hx
          · exact ⟨m1, by simp, h1⟩
          · obtain ⟨y, hy, he⟩ := b x hx; exact ⟨y, by simp [hy], he⟩

/-- without equations and with distinct indices in every image, normalisation always succeeds -/
theorem simplifyLoop_distinct : ∀ (fuel : Nat) (done : List Term) (rest : Image), (rest.map Prod.fst).Nodup →
    simplifyLoop fuel done rest = .ok (done.reverse ++ rest)
  | 0, _, _, _ => rfl
  | _ + 1, _, [], _ => by simp [simplifyLoop]
  | _ + 1, _, [a], _ => by simp [simplifyLoop]
  | fuel + 1, done, a :: b :: rest, h => by
    rw [simplifyLoop]
    have hne : a.1 ≠ b.1 := by
      simp only [List.map_cons, List.nodup_cons, List.mem_cons, not_or] at h; exact h.1.1
    rw [if_neg hne, simplifyLoop_distinct fuel (a :: done) (b :: rest) (by
      simp only [List.map_cons, List.nodup_cons] at h ⊢; exact h.2)]
    simp

theorem normalizeMaps_full : ∀ {ms : Maps}, (∀ m ∈ ms, ∀ im ∈ m, (im.map Prod.fst).Nodup) → ∃ ms', normalizeMaps ms [] = .ok ms'
  | [], _ => ⟨[], rfl⟩
  | m :: ms, h => by
    have hs : ∀ m : SymMap, (∀ im ∈ m, (im.map Prod.fst).Nodup) → ∃ m', simplifyMap m = .ok m' := by
      intro m
      induction m with
      | nil => intro _; exact ⟨[], rfl⟩
      | cons im ims ih =>
        intro hm
        obtain ⟨m', hm'⟩ := ih (fun x hx => hm x (by simp [hx]))
        have h1 : simplifyImage im = .ok (sortImage im) := by
          unfold simplifyImage
          rw [simplifyLoop_distinct _ _ _ (by
            rw [((sortImage_perm im).map Prod.fst).nodup_iff]; exact hm im (by simp))]
          simp
        exact ⟨sortImage im :: m', by rw [simplifyMap, h1, hm']; rfl⟩
    obtain ⟨m', hm'⟩ := hs m (h m (by simp))
    obtain ⟨ms', hms'⟩ := normalizeMaps_full (ms := ms) (fun x hx => h x (by simp [hx]))
    refine ⟨m' :: ms', ?_⟩
    rw [normalizeMaps, hms']
    have : normalizeMap m [] = .ok m' := by
      simp only [normalizeMap, eliminatedIndices, List.map_nil, eliminateZeroCoefficients, Outcome.bind, subtractEquations, hm']
    rw [this]; rfl

end Panda
