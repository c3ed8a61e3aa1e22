import Verif.Proofs.Elim

/-! # The equations: span, uniqueness -/

namespace Panda

open Cone

theorem Echelon.iso' {n : Nat} {E : Matrix} (h : Echelon n E) {e e' : Row} (he : e ∈ E) (he' : e' ∈ E)
    (hne : e ≠ e') : e'.getD (firstNonzero e) 0 = 0 := by
  have := List.Pairwise.forall_of_forall_of_flip (l := E)
    (R := fun e e' => e = e' ∨ (e'.getD (firstNonzero e) 0 = 0 ∧ e.getD (firstNonzero e') 0 = 0))
    (fun _ _ => Or.inl rfl) (h.iso.imp fun h => Or.inr h)
    (h.iso.imp fun h => Or.inr ⟨h.2, h.1⟩) he he'
  rcases this with h' | h'
  · exact absurd h' hne
  · exact h'.1

theorem firstNonzero_zero : ∀ (r : Row) (j : Nat), j < firstNonzero r → r.getD j 0 = 0 := by
  intro r
  induction r with
  | nil => intro j hj; simp
  | cons x xs ih =>
    intro j hj
    unfold firstNonzero at hj
    split at hj
    · omega
    · next h =>
      cases j with
      | zero => simpa using h
      | succ j => simpa using ih j (by omega)

theorem firstNonzero_le (r : Row) : firstNonzero r ≤ r.length := by
  induction r with
  | nil => simp [firstNonzero]
  | cons x xs ih => unfold firstNonzero; split <;> simp [ih]

theorem firstNonzero_ne {r : Row} (h : firstNonzero r < r.length) : r.getD (firstNonzero r) 0 ≠ 0 := by
  induction r with
  | nil => simp at h
  | cons x xs ih =>
    unfold firstNonzero at h ⊢
    split
    · next h0 => simpa using h0
    · next h0 =>
      rw [if_neg h0] at h
      have := ih (by simpa using h)
      simpa using this

theorem firstNonzero_lt {r : Row} (h : ∃ x ∈ r, x ≠ 0) : firstNonzero r < r.length := by
  rcases Nat.lt_or_ge (firstNonzero r) r.length with h1 | h1
  · exact h1
  · exfalso
    obtain ⟨x, hx, hx0⟩ := h
    obtain ⟨i, hi, rfl⟩ := List.getElem_of_mem hx
    have := firstNonzero_zero r i (by omega)
    rw [List.getD_eq_getElem?_getD, List.getElem?_eq_getElem hi] at this
    exact hx0 this

/-- a leading entry at a position that no equation leads survives the normalisation -/
theorem normalizeLoop_lead {n : Nat} : ∀ (E : Matrix) (row r : Row) (c : Nat), Echelon n E →
    row.length = n → c < n → (∀ e ∈ E, firstNonzero e ≠ c) → (∀ i < c, row.getD i 0 = 0) →
    row.getD c 0 ≠ 0 → normalizeLoop row E = .ok r → r.getD c 0 ≠ 0 := by
  intro E
  induction E with
  | nil => intro row r c _ _ _ _ _ h heq; simp only [normalizeLoop, Outcome.ok.injEq] at heq; rw [← heq]; exact h
  | cons e E ih =>
    intro row r c hE hl hc hlead hz h heq
    have hel := hE.len e (by simp)
    obtain ⟨hle, hpos⟩ := hE.lead e (by simp)
    have hne := hlead e (by simp)
    rw [normalizeLoop] at heq
    unfold normalizeStep at heq
    simp only at heq
    have g1 : row[firstNonzero e]? = some (row.getD (firstNonzero e) 0) := by
      rw [List.getD_eq_getElem?_getD, List.getElem?_eq_getElem (by omega)]; rfl
    have g2 : e[firstNonzero e]? = some (e.getD (firstNonzero e) 0) := by
      rw [List.getD_eq_getElem?_getD, List.getElem?_eq_getElem (by omega)]; rfl
    rw [g1, g2] at heq
    simp only at heq
    split at heq
    · next h0 =>
      have hgt : c < firstNonzero e := by
        rcases lt_trichotomy (firstNonzero e) c with h1 | h1 | h1
        · exact absurd (hz _ h1) h0
        · exact absurd h1 hne
        · exact h1
      have hent : ∀ i ≤ c, (rowSub (rowScale row (e.getD (firstNonzero e) 0)) (rowScale e (row.getD (firstNonzero e) 0))).getD i 0
          = row.getD i 0 * e.getD (firstNonzero e) 0 := by
        intro i hi
        rw [getD_rowSub (n := n) (by simpa using hl) (by simpa using hel) (by omega), getD_rowScale, getD_rowScale,
          firstNonzero_zero e i (by omega)]
        ring
      refine ih _ r c hE.tail (by simp [hl, hel]) hc (fun x hx => hlead x (by simp [hx])) ?_ ?_ heq
      · intro i hi; rw [hent i (by omega), hz i hi]; ring
      · rw [hent c le_rfl]; exact mul_ne_zero h hpos.ne'
    · exact ih _ r c hE.tail hl hc (fun x hx => hlead x (by simp [hx])) hz h heq

section
variable {V : Matrix} {n : Nat} {E R : Matrix} {T : List Nat}

/-- a row that vanishes on the input and at the leading positions is zero -/
theorem Split.annih_zero (h : Split V n E R T) (hV : Rect V V.length n)
    {a : Row} (ha : a.length = n) (hz : ∀ e ∈ E, a.getD (firstNonzero e) 0 = 0)
    (hav : ∀ v ∈ V, dot a v = 0) : toV n a = 0 := by
  by_cases hR : R = []
  · subst hR
    have hc := h.count
    simp only [List.length_nil, Nat.zero_add] at hc
    have hnd := leads_nodup h.echelon
    have hsub : (E.map firstNonzero).Subperm (List.range n) :=
      List.subperm_of_subset hnd (by
        intro c hc
        obtain ⟨e, he, rfl⟩ := List.mem_map.mp hc
        rw [List.mem_range]; exact (h.E_lead e he).1)
    have hperm := hsub.perm_of_length_le (by simp [hc])
    funext i
    have := (hperm.mem_iff (a := (i : Nat))).mpr (by simp)
    obtain ⟨e, he, hei⟩ := List.mem_map.mp this
    have h1 := hz e he
    rw [hei] at h1
    simp only [toV, Pi.zero_apply]; rw [h1]; simp
  · have hred := reduced_of_split hV h hR
    have hz' : ∀ c ∈ zeroCols R, a.getD c 0 = 0 := by
      intro c hc; obtain ⟨e, he, rfl⟩ := (hred.leads c).mp hc; exact hz e he
    have h0 : toV R.length (eraseAll (zeroCols R) a) = 0 := by
      apply hred.eq_zero
      intro v hv
      rw [hred.w_row ha hz' hv, hav v hv]; simp
    have hl : (eraseAll (zeroCols R) a).length = R.length := by
      rw [eraseAll_length hred.stack ha, ← hred.dsub]
    rw [toV_eq_zero_iff _ _ hl] at h0
    rw [toV_eq_zero_iff _ _ ha]
    have hg : listGcd a = 0 := by
      rw [← insertAll_eraseAll hred.stack ha hz', listGcd_insertAll]
      exact listGcd_eq_zero.mpr h0
    exact listGcd_eq_zero.mp hg

/-- the equations span all rows that vanish on the input -/
theorem Split.annih_span (h : Split V n E R T) (hV : Rect V V.length n)
    {a : Row} (ha : a.length = n) (hav : ∀ v ∈ V, dot a v = 0) : toV n a ∈ rowSpan n E := by
  obtain ⟨r, -, hl, ⟨s, hs, hspan⟩, hz, -⟩ := normalizeLoop_spec E a h.echelon ha
  have hr0 : toV n r = 0 := by
    apply h.annih_zero hV hl hz
    intro v hv
    rw [dot_of_span h.E_len (fun e he => h.E_zero e he v hv) hl ha hspan, hav v hv, mul_zero]
  rw [hr0, zero_sub] at hspan
  have h1 := Submodule.neg_mem _ hspan
  rw [neg_neg] at h1
  have hs' : (s : ℚ) ≠ 0 := by exact_mod_cast hs.ne'
  exact (Submodule.smul_mem_iff _ hs').mp h1

/-- leading positions of equations: exactly the leading positions of rows vanishing on the input -/
theorem Split.lead_iff (h : Split V n E R T) (hV : Rect V V.length n) (c : Nat) :
    (∃ e ∈ E, firstNonzero e = c) ↔
      ∃ a : Row, a.length = n ∧ (∀ v ∈ V, dot a v = 0) ∧ firstNonzero a = c ∧ c < n := by
  constructor
  · rintro ⟨e, he, rfl⟩
    exact ⟨e, h.E_len e he, h.E_zero e he, rfl, (h.E_lead e he).1⟩
  · rintro ⟨a, ha, hav, hac, hcn⟩
    by_contra hno
    push Not at hno
    obtain ⟨r, heq, hl, ⟨s, hs, hspan⟩, hz, -⟩ := normalizeLoop_spec E a h.echelon ha
    have h1 := normalizeLoop_lead E a r c h.echelon ha hcn hno
      (fun i hi => firstNonzero_zero a i (by omega))
      (by rw [← hac]; exact firstNonzero_ne (by omega)) heq
    have hr0 : toV n r = 0 := by
      apply h.annih_zero hV hl hz
      intro v hv
      rw [dot_of_span h.E_len (fun e he => h.E_zero e he v hv) hl ha hspan, hav v hv, mul_zero]
    have h2 := congrFun hr0 ⟨c, hcn⟩
    simp only [toV, Pi.zero_apply] at h2
    exact h1 (by exact_mod_cast h2)

/-- the equations are determined by the rows vanishing on the input -/
theorem Split.eq_mem_iff (h : Split V n E R T) (hV : Rect V V.length n) (a : Row) :
    a ∈ E ↔ a.length = n ∧ Primitive a ∧ (∀ v ∈ V, dot a v = 0) ∧ firstNonzero a < n ∧
      0 < a.getD (firstNonzero a) 0 ∧
      ∀ e ∈ E, firstNonzero e ≠ firstNonzero a → a.getD (firstNonzero e) 0 = 0 := by
  constructor
  · intro ha
    refine ⟨h.E_len a ha, h.E_prim a ha, h.E_zero a ha, (h.E_lead a ha).1, (h.E_lead a ha).2, ?_⟩
    intro e he hne
    exact h.echelon.iso' he ha (by rintro rfl; exact hne rfl)
  · rintro ⟨hl, hp, hav, hlt, hpos, hiso⟩
    obtain ⟨e, he, hea⟩ := (h.lead_iff hV (firstNonzero a)).mpr ⟨a, hl, hav, rfl, hlt⟩
    have hel := h.E_len e he
    have hepos := (h.E_lead e he).2
    rw [hea] at hepos
    set c := firstNonzero a with hc
    have hf0 : toV n (rowSub (rowScale a (e.getD c 0)) (rowScale e (a.getD c 0))) = 0 := by
      apply h.annih_zero hV (by simp [hl, hel])
      · intro e' he'
        have hlt' := (h.E_lead e' he').1
        rw [getD_rowSub (n := n) (by simpa using hl) (by simpa using hel) hlt', getD_rowScale, getD_rowScale]
        by_cases heq : e' = e
        · subst heq; rw [hea]; ring
        · have hne : firstNonzero e' ≠ c := by
            intro h1
            have := h.echelon.iso' he he' (fun h => heq h.symm)
            rw [hea, ← h1] at this
            have h2 := (h.E_lead e' he').2
            omega
          rw [hiso e' he' hne, h.echelon.iso' he' he heq]; ring
      · intro v hv
        rw [dot_rowSub _ _ _ (by simp [hl, hel]), rowScale_eq, rowScale_eq, dot_scale, dot_scale, hav v hv,
          h.E_zero e he v hv]
        ring
    rw [toV_rowSub n _ _ (by simpa using hl) (by simpa using hel), toV_rowScale, toV_rowScale, sub_eq_zero] at hf0
    have he0 : (e.getD c 0 : ℚ) ≠ 0 := by exact_mod_cast hepos.ne'
    have heq : toV n a = ((a.getD c 0 : ℚ) / (e.getD c 0 : ℚ)) • toV n e := by
      have := congrArg (fun x => ((e.getD c 0 : ℚ)⁻¹) • x) hf0
      simp only [smul_smul] at this
      rw [inv_mul_cancel₀ he0, one_smul] at this
      rw [this]
      congr 1
      field_simp
    have hpos' : (0 : ℚ) < (a.getD c 0 : ℚ) / (e.getD c 0 : ℚ) :=
      div_pos (by exact_mod_cast hpos) (by exact_mod_cast hepos)
    rw [prim_eq hl hel hp (h.E_prim e he) hpos' heq]
    exact he

end

theorem Echelon.nodup {n : Nat} {E : Matrix} (h : Echelon n E) : E.Nodup := by
  have := leads_nodup h
  exact List.Nodup.of_map _ this

/-- two inputs with the same rows have the same equations up to order -/
theorem equations_perm {V V' : Matrix} {n : Nat} (hV : Rect V V.length n) (hV' : Rect V' V'.length n)
    (hm : 0 < V.length) (hm' : 0 < V'.length) (hn : 0 < n) (hset : ∀ v, v ∈ V ↔ v ∈ V') :
    (gaussSplit V).1.Perm (gaussSplit V').1 := by
  have h := gaussSplit_spec hV hm hn
  have h' := gaussSplit_spec hV' hm' hn
  have hlead : ∀ c, (∃ e ∈ (gaussSplit V).1, firstNonzero e = c) ↔ ∃ e ∈ (gaussSplit V').1, firstNonzero e = c := by
    intro c
    rw [h.lead_iff hV, h'.lead_iff hV']
    simp only [hset]
  rw [List.perm_ext_iff_of_nodup h.echelon.nodup h'.echelon.nodup]
  intro a
  rw [h.eq_mem_iff hV, h'.eq_mem_iff hV']
  have : (∀ e ∈ (gaussSplit V).1, firstNonzero e ≠ firstNonzero a → a.getD (firstNonzero e) 0 = 0) ↔
      ∀ e ∈ (gaussSplit V').1, firstNonzero e ≠ firstNonzero a → a.getD (firstNonzero e) 0 = 0 := by
    constructor
    · intro h1 e he hne
      obtain ⟨e', he', heq⟩ := (hlead (firstNonzero e)).mpr ⟨e, he, rfl⟩
      rw [← heq]; exact h1 e' he' (by rw [heq]; exact hne)
    · intro h1 e he hne
      obtain ⟨e', he', heq⟩ := (hlead (firstNonzero e)).mp ⟨e, he, rfl⟩
      rw [← heq]; exact h1 e' he' (by rw [heq]; exact hne)
  rw [this]
  simp only [hset]

theorem FacetP.congr {n : Nat} {V V' : Matrix} (hset : ∀ v, v ∈ V ↔ v ∈ V') {a : Row} :
    FacetP n V a ↔ FacetP n V' a := by
  constructor
  · rintro ⟨h1, h2, h3⟩; simp only [hset] at h1 h2 h3; exact ⟨h1, h2, h3⟩
  · rintro ⟨h1, h2, h3⟩; simp only [← hset] at h1 h2 h3; exact ⟨h1, h2, h3⟩

theorem NormalFacet.congr {n : Nat} {V V' : Matrix} (hV : Rect V V.length n) (hV' : Rect V' V'.length n)
    (hm : 0 < V.length) (hm' : 0 < V'.length) (hn : 0 < n) (hset : ∀ v, v ∈ V ↔ v ∈ V') {a : Row} :
    NormalFacet n V (gaussSplit V).1 a ↔ NormalFacet n V' (gaussSplit V').1 a := by
  unfold NormalFacet
  rw [FacetP.congr hset]
  have := equations_perm hV hV' hm hm' hn hset
  simp only [this.mem_iff]

theorem Echelon.linearIndependent {n : Nat} {E : Matrix} (h : Echelon n E) :
    LinearIndependent ℚ (fun k : Fin E.length => toV n E[k]) := by
  rw [Fintype.linearIndependent_iff]
  intro g hg k
  obtain ⟨hlt, hpos⟩ := h.lead E[k] (List.getElem_mem _)
  have h1 := congrFun hg ⟨firstNonzero E[k], hlt⟩
  simp only [Finset.sum_apply, Pi.smul_apply, smul_eq_mul, Pi.zero_apply] at h1
  rw [Finset.sum_eq_single k] at h1
  · simp only [toV] at h1
    have : (E[k].getD (firstNonzero E[k]) 0 : ℚ) ≠ 0 := by exact_mod_cast hpos.ne'
    exact (mul_eq_zero.mp h1).resolve_right this
  · intro l _ hl
    have hne : E[k] ≠ E[l] := by
      intro heq
      have := (List.Nodup.getElem_inj_iff h.nodup (i := (k : Nat)) (j := (l : Nat)) (hi := k.2) (hj := l.2)).mp heq
      exact hl (Fin.ext this.symm)
    have := h.iso' (List.getElem_mem k.2) (List.getElem_mem l.2) hne
    simp only [toV]
    have h2 : E[l].getD (firstNonzero E[k]) 0 = 0 := this
    rw [h2]; simp
  · simp

end Panda
