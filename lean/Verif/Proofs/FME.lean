import Verif.Proofs.Columns
import Verif.Proofs.Normalize
import Verif.Proofs.ConeFacet
import Mathlib.Data.Rat.Lemmas
import Mathlib.LinearAlgebra.Basis.VectorSpace

/-! # The elimination as a whole -/

namespace Panda

open Cone

/-! ## Integer and rational vectors -/

theorem exists_int_multiple {n : Nat} (x : Fin n → ℚ) :
    ∃ (N : Int) (r : Row), 0 < N ∧ r.length = n ∧ toV n r = (N : ℚ) • x := by
  set N : Nat := ∏ i, (x i).den with hN
  refine ⟨N, List.ofFn fun i => (x i).num * ((N / (x i).den : Nat) : Int), ?_, by simp, ?_⟩
  · exact_mod_cast Finset.prod_pos fun i _ => (x i).den_pos
  · funext i
    simp only [toV, Pi.smul_apply, smul_eq_mul]
    rw [List.getD_eq_getElem?_getD, List.getElem?_ofFn]
    simp only [i.2, dif_pos, Option.getD_some]
    have hd : (x i).den ∣ N := Finset.dvd_prod_of_mem (fun i => (x i).den) (Finset.mem_univ i)
    obtain ⟨k, hk⟩ := hd
    have hpos := (x i).den_pos
    rw [hk, Nat.mul_div_cancel_left k hpos]
    push_cast
    have h1 : (x i) * (x i).den = (x i).num := Rat.mul_den_eq_num (x i)
    rw [← h1]; ring

theorem prim_eq {n : Nat} {a b : Row} (ha : a.length = n) (hb : b.length = n) (pa : Primitive a)
    (pb : Primitive b) {t : ℚ} (ht : 0 < t) (h : toV n a = t • toV n b) : a = b := by
  have hden := t.den_pos
  have hnum : 0 < t.num := Rat.num_pos.mpr ht
  have h1 : toV n (a.map (· * (t.den : Int))) = toV n (b.map (· * t.num)) := by
    rw [toV_map_mul, toV_map_mul, h, smul_smul]
    congr 1
    have : t * t.den = t.num := Rat.mul_den_eq_num t
    push_cast; rw [mul_comm]; exact this
  have h2 := toV_injective n _ _ (by simpa using ha) (by simpa using hb) h1
  have h3 := congrArg listGcd h2
  rw [listGcd_map_mul, listGcd_map_mul, pa, pb] at h3
  simp only [one_mul, Int.natAbs_natCast] at h3
  have h4 : (t.den : Int) = t.num := by omega
  have h5 : t = 1 := by
    rw [← Rat.num_div_den t, ← h4]
    push_cast
    exact div_self (by exact_mod_cast hden.ne')
  rw [h5, one_smul] at h
  exact toV_injective n _ _ ha hb h

theorem toV_ne_zero_of_primitive {n : Nat} {a : Row} (ha : a.length = n) (pa : Primitive a) :
    toV n a ≠ 0 := by
  intro h
  rw [toV_eq_zero_iff n a ha] at h
  have := listGcd_eq_zero.mpr h
  unfold Primitive at pa
  omega

theorem ev_injective {n : Nat} {v v' : Row} (h : ev n v = ev n v') : toV n v = toV n v' := by
  funext i
  have := congrArg (fun f => f (Pi.single i 1)) h
  simp only [ev_apply] at this
  simpa [Pi.single_apply] using this

/-! ## Facets, in a form convenient for proofs -/

/-- `a` is valid for all rows of `V`, not identically zero on `V`, and every row vanishing where `a`
does is a multiple of `a` on `V` -/
structure FacetP (n : Nat) (V : Matrix) (a : Row) : Prop where
  valid : ∀ v ∈ V, dot a v ≤ 0
  strict : ∃ v ∈ V, dot a v ≠ 0
  tight : ∀ b : Row, b.length = n → (∀ v ∈ V, dot a v = 0 → dot b v = 0) →
    ∃ t : ℚ, ∀ v ∈ V, (dot b v : ℚ) = t * dot a v

/-- The situation after the equations have been split off: `zs` are the leading positions of the
equations, `vs` the input without these columns. -/
structure Reduced (V : Matrix) (n : Nat) (E : Matrix) (zs : List Nat) (d : Nat) (vs : Matrix) : Prop where
  stack : Stack n zs
  dlen : d + zs.length = n
  dpos : 0 < d
  V_len : ∀ v ∈ V, v.length = n
  perm : vs.Perm (V.map (eraseAll zs))
  leads : ∀ c, c ∈ zs ↔ ∃ e ∈ E, firstNonzero e = c
  ech : Echelon n E
  E_zero : ∀ e ∈ E, ∀ v ∈ V, dot e v = 0
  d_le : d ≤ vs.length
  pointed : Pointed (wOf d vs) d
  primal : ∀ x : Module.Dual ℚ (Fin d → ℚ), (∀ a, InC (wOf d vs) vs.length a → x a ≤ 0) →
    InCone (wOf d vs) vs.length x

namespace Reduced

variable {V : Matrix} {n : Nat} {E : Matrix} {zs : List Nat} {d : Nat} {vs : Matrix}

theorem dsub (h : Reduced V n E zs d vs) : d = n - zs.length := by have := h.dlen; omega

theorem forall_iff (h : Reduced V n E zs d vs) (P : Row → Prop) :
    (∀ j < vs.length, P (vs.getD j [])) ↔ ∀ v ∈ V, P (eraseAll zs v) := by
  have h1 : (∀ j < vs.length, P (vs.getD j [])) ↔ ∀ v ∈ vs, P v := by
    constructor
    · intro hj v hv
      obtain ⟨j, hlt, rfl⟩ := List.getElem_of_mem hv
      have := hj j hlt
      rwa [List.getD_eq_getElem?_getD, List.getElem?_eq_getElem hlt] at this
    · intro hv j hj
      rw [List.getD_eq_getElem?_getD, List.getElem?_eq_getElem hj]
      exact hv _ (List.getElem_mem hj)
  rw [h1]
  simp only [h.perm.mem_iff, List.mem_map]
  constructor
  · intro h2 v hv; exact h2 _ ⟨v, hv, rfl⟩
  · rintro h2 _ ⟨v, hv, rfl⟩; exact h2 v hv

theorem w_row (h : Reduced V n E zs d vs) {a : Row} (ha : a.length = n)
    (h0 : ∀ c ∈ zs, a.getD c 0 = 0) {v : Row} (hv : v ∈ V) :
    ev d (eraseAll zs v) (toV d (eraseAll zs a)) = (dot a v : ℚ) := by
  have hl : (eraseAll zs a).length = d := by rw [eraseAll_length h.stack ha, ← h.dsub]
  rw [ev_toV d _ _ hl.le, dot_eraseAll h.stack ha (h.V_len v hv) h0]

theorem pointed' (h : Reduced V n E zs d vs) : Pointed (wOf d vs) vs.length := h.pointed.mono h.d_le

/-- a row zero at the leading positions and on all of `V` is zero -/
theorem eq_zero (h : Reduced V n E zs d vs) {a : Fin d → ℚ}
    (ha : ∀ v ∈ V, ev d (eraseAll zs v) a = 0) : a = 0 :=
  h.pointed' a ((h.forall_iff fun v => ev d v a = 0).mpr ha)

theorem normal (h : Reduced V n E zs d vs) {b : Row} (hb : b.length = n) :
    ∃ (c : Row) (s : Int), 0 < s ∧ c.length = n ∧ (∀ k ∈ zs, c.getD k 0 = 0) ∧
      ∀ v ∈ V, dot c v = s * dot b v := by
  obtain ⟨c, -, hl, ⟨s, hs, hspan⟩, hz, -⟩ := normalizeLoop_spec E b h.ech hb
  refine ⟨c, s, hs, hl, ?_, ?_⟩
  · intro k hk
    obtain ⟨e, he, rfl⟩ := (h.leads k).mp hk
    exact hz e he
  · intro v hv
    exact dot_of_span h.ech.len (fun e he => h.E_zero e he v hv) hl hb hspan

theorem facet_of_ext (h : Reduced V n E zs d vs) {a : Row} (ha : a.length = n)
    (h0 : ∀ c ∈ zs, a.getD c 0 = 0) (he : Ext (wOf d vs) vs.length (toV d (eraseAll zs a))) :
    FacetP n V a := by
  have hw : ∀ v ∈ V, ev d (eraseAll zs v) (toV d (eraseAll zs a)) = (dot a v : ℚ) :=
    fun v hv => h.w_row ha h0 hv
  refine ⟨?_, ?_, ?_⟩
  · have := (h.forall_iff fun v => ev d v (toV d (eraseAll zs a)) ≤ 0).mp he.2.1
    intro v hv
    have h1 := this v hv
    rw [hw v hv] at h1
    exact_mod_cast h1
  · by_contra hno
    push Not at hno
    apply he.1
    apply h.eq_zero
    intro v hv
    rw [hw v hv, hno v hv]; simp
  · intro b hb hbt
    obtain ⟨c, s, hs, hcl, hcz, hcv⟩ := h.normal hb
    obtain ⟨t, ht⟩ := he.tight (b := toV d (eraseAll zs c)) (by
      refine (h.forall_iff fun v => ev d v (toV d (eraseAll zs a)) = 0 → ev d v (toV d (eraseAll zs c)) = 0).mpr ?_
      intro v hv hav
      rw [hw v hv] at hav
      rw [h.w_row hcl hcz hv, hcv v hv, hbt v hv (by exact_mod_cast hav)]
      simp)
    refine ⟨t / s, fun v hv => ?_⟩
    have h1 := h.w_row hcl hcz hv
    rw [ht, map_smul, hw v hv, hcv v hv, smul_eq_mul] at h1
    push_cast at h1
    have hs' : (s : ℚ) ≠ 0 := by exact_mod_cast hs.ne'
    field_simp
    linarith

theorem ext_of_facet (h : Reduced V n E zs d vs) {a : Row} (ha : a.length = n)
    (h0 : ∀ c ∈ zs, a.getD c 0 = 0) (hf : FacetP n V a) :
    Ext (wOf d vs) vs.length (toV d (eraseAll zs a)) := by
  have hw : ∀ v ∈ V, ev d (eraseAll zs v) (toV d (eraseAll zs a)) = (dot a v : ℚ) :=
    fun v hv => h.w_row ha h0 hv
  apply ext_of_tight h.pointed'
  · intro hz
    obtain ⟨v, hv, hne⟩ := hf.strict
    have := hw v hv
    rw [hz, map_zero] at this
    exact hne (by exact_mod_cast this.symm)
  · refine (h.forall_iff fun v => ev d v (toV d (eraseAll zs a)) ≤ 0).mpr ?_
    intro v hv
    rw [hw v hv]; exact_mod_cast hf.valid v hv
  · intro b hb
    obtain ⟨N, r, hN, hr, hrb⟩ := exists_int_multiple b
    have hrd : r.length = n - zs.length := by rw [hr, ← h.dsub]
    have hb' := (h.forall_iff fun v => ev d v (toV d (eraseAll zs a)) = 0 → ev d v b = 0).mp hb
    have hlr := insertAll_length h.stack hrd
    have hzr := insertAll_getD h.stack hrd
    have hwr : ∀ v ∈ V, (dot (insertAll zs r) v : ℚ) = N * ev d (eraseAll zs v) b := by
      intro v hv
      rw [← h.w_row hlr hzr hv, eraseAll_insertAll, hrb, map_smul, smul_eq_mul]
    obtain ⟨t, ht⟩ := hf.tight (insertAll zs r) hlr (by
      intro v hv hav
      have h1 := hb' v hv (by rw [hw v hv, hav]; simp)
      have h2 := hwr v hv
      rw [h1, mul_zero] at h2
      exact_mod_cast h2)
    have hN' : (N : ℚ) ≠ 0 := by exact_mod_cast hN.ne'
    refine ⟨t / N, ?_⟩
    rw [← sub_eq_zero]
    apply h.eq_zero
    intro v hv
    rw [map_sub, map_smul, smul_eq_mul, hw v hv]
    have h1 := hwr v hv
    rw [ht v hv] at h1
    field_simp
    linarith

end Reduced

/-! ## The base of the elimination -/

/-- the zero columns of the remaining rows -/
def zeroCols (R : Matrix) : List Nat :=
  (List.range (colSize R)).reverse.filter fun c => R.all fun r => r.getD c 0 == 0

theorem zeroCols_stack {R : Matrix} {n : Nat} (hn : colSize R = n) : Stack n (zeroCols R) := by
  refine ⟨?_, ?_⟩
  · apply List.Pairwise.filter
    rw [List.pairwise_reverse]
    exact List.pairwise_lt_range
  · intro c hc
    have := (List.mem_filter.mp hc).1
    rw [hn] at this
    simpa using this

theorem mem_zeroCols {R : Matrix} {n c : Nat} (hn : colSize R = n) :
    c ∈ zeroCols R ↔ c < n ∧ ∀ r ∈ R, r.getD c 0 = 0 := by
  unfold zeroCols
  simp [List.mem_filter, hn]

theorem leads_nodup {n : Nat} {E : Matrix} (h : Echelon n E) : (E.map firstNonzero).Nodup := by
  rw [List.Nodup, List.pairwise_map]
  refine List.Pairwise.imp_of_mem ?_ h.iso
  intro e e' he he' hiso heq
  have := (h.lead e' he').2
  rw [← heq, hiso.1] at this
  exact lt_irrefl _ this

/-- A non-zero input leaves at least one row. -/
theorem Split.rows_ne_nil {V : Matrix} {n : Nat} {E R : Matrix} {T : List Nat} (h : Split V n E R T)
    (hVl : ∀ v ∈ V, v.length = n) (hnz : ∃ v ∈ V, ∃ x ∈ v, x ≠ 0) : R ≠ [] := by
  rintro rfl
  obtain ⟨v, hv, x, hx, hx0⟩ := hnz
  have hc := h.count
  simp only [List.length_nil, Nat.zero_add] at hc
  have hall : ∀ c < n, ∃ e ∈ E, firstNonzero e = c := by
    have hnd := leads_nodup h.echelon
    have hsub : (E.map firstNonzero).Subperm (List.range n) :=
      List.subperm_of_subset hnd (by
        intro c hc
        obtain ⟨e, he, rfl⟩ := List.mem_map.mp hc
        rw [List.mem_range]; exact (h.E_lead e he).1)
    have hperm := hsub.perm_of_length_le (by simp [hc])
    intro c hc
    have := (hperm.mem_iff (a := c)).mpr (by simpa using hc)
    simpa using this
  obtain ⟨c, hcl, rfl⟩ := List.getElem_of_mem hx
  have hcn : c < n := by rw [← hVl v hv]; exact hcl
  obtain ⟨e, he, hlead⟩ := hall c hcn
  have hdot := h.E_zero e he v hv
  have h1 := dot_eq_sum n e v (h.E_len e he).le
  rw [hdot] at h1
  rw [Finset.sum_eq_single (⟨c, hcn⟩ : Fin n)] at h1
  · have hpos := (h.E_lead e he).2
    rw [hlead] at hpos
    have h2 : (e.getD c 0 : ℚ) ≠ 0 := by exact_mod_cast hpos.ne'
    simp only [toV] at h1
    have h3 : v.getD c 0 = v[c] := by
      rw [List.getD_eq_getElem?_getD, List.getElem?_eq_getElem hcl]; rfl
    rw [h3] at h1
    have h4 : ((v[c] : Int) : ℚ) ≠ 0 := by exact_mod_cast hx0
    exact mul_ne_zero h2 h4 (by simpa using h1.symm)
  · intro k _ hk
    obtain ⟨e', he', hlead'⟩ := hall k k.2
    have hne : e ≠ e' := by
      rintro rfl
      apply hk
      apply Fin.ext
      simp only
      omega
    have hz : e.getD k 0 = 0 := by
      have := List.Pairwise.forall_of_forall_of_flip (l := E)
        (R := fun e e' => e = e' ∨ (e'.getD (firstNonzero e) 0 = 0 ∧ e.getD (firstNonzero e') 0 = 0))
        (fun _ _ => Or.inl rfl) (h.E_iso.imp fun h => Or.inr h)
        (h.E_iso.imp fun h => Or.inr ⟨h.2, h.1⟩) he he'
      rcases this with h | h
      · exact absurd h hne
      · rw [← hlead']; exact h.2
    simp only [toV, hz]; simp
  · simp

/-- Everything known before phase two starts. -/
theorem base_facts {V : Matrix} {n : Nat} (hV : Rect V V.length n)
    {E R : Matrix} {T : List Nat} (h : Split V n E R T) (hR : R ≠ []) :
    let zs := zeroCols R
    let m := R.map (eraseAll zs)
    let vs := reorder (V.map (eraseAll zs)) T
    let d := R.length
    Stack n zs ∧ d + zs.length = n ∧ 0 < d ∧ vs.Perm (V.map (eraseAll zs)) ∧
      (∀ c, c ∈ zs ↔ ∃ e ∈ E, firstNonzero e = c) ∧ d ≤ vs.length ∧
      (∀ r ∈ m, r.length = d ∧ Primitive r) ∧ Pointed (wOf d vs) d ∧
      Inv (wOf d vs) d (m.map (toV d)) ∧
      ∀ x : Module.Dual ℚ (Fin d → ℚ), (∀ a, InC (wOf d vs) d a → x a ≤ 0) → InCone (wOf d vs) d x := by
  intro zs m vs d
  have hcol : colSize R = n := (show Rect R R.length n from ⟨rfl, h.R_len⟩).colSize (List.length_pos_of_ne_nil hR)
  have hst : Stack n zs := zeroCols_stack hcol
  have hdpos : 0 < d := List.length_pos_of_ne_nil hR
  have hVl : ∀ v ∈ V, v.length = n := hV.2
  have hVt : ∀ t ∈ T, V.getD t [] ∈ V := by
    intro t ht
    rw [List.getD_eq_getElem?_getD, List.getElem?_eq_getElem (h.T_lt t ht)]
    exact List.getElem_mem _
  obtain ⟨τ, hτnd, hτ⟩ := h.dual
  have hlead_zs : ∀ e ∈ E, firstNonzero e ∈ zs := fun e he =>
    (mem_zeroCols hcol).mpr ⟨(h.E_lead e he).1, fun r hr => h.R_iso r hr e he⟩
  have hge : E.length ≤ zs.length := by
    have hnd := leads_nodup h.echelon
    have := (List.subperm_of_subset hnd (l₂ := zs) (by
      intro c hc
      obtain ⟨e, he, rfl⟩ := List.mem_map.mp hc
      exact hlead_zs e he)).length_le
    simpa using this
  have hzR : ∀ r ∈ R, ∀ c ∈ zs, r.getD c 0 = 0 := fun r hr c hc => ((mem_zeroCols hcol).mp hc).2 r hr
  have hdotR : ∀ r ∈ R, ∀ v ∈ V, dot (eraseAll zs r) (eraseAll zs v) = dot r v := fun r hr v hv =>
    dot_eraseAll hst (h.R_len r hr) (hVl v hv) (hzR r hr)
  have hRk : ∀ k : Fin d, R[k] ∈ R := fun k => List.getElem_mem _
  -- independence
  have hindep : ∀ D, D = n - zs.length →
      LinearIndependent ℚ (fun k : Fin d => toV D (eraseAll zs R[k])) := by
    intro D hD
    rw [Fintype.linearIndependent_iff]
    intro g hg k
    obtain ⟨hk1, hk2, hk3⟩ := hτ _ (hRk k)
    have h1 := congrArg (ev D (eraseAll zs (V.getD (τ R[k]) []))) hg
    rw [map_sum, map_zero] at h1
    have hval : ∀ l : Fin d, ev D (eraseAll zs (V.getD (τ R[k]) [])) (toV D (eraseAll zs R[l])) =
        (dot R[l] (V.getD (τ R[k]) []) : ℚ) := by
      intro l
      rw [ev_toV D _ _ (by rw [eraseAll_length hst (h.R_len _ (hRk l)), hD]), hdotR _ (hRk l) _ (hVt _ hk1)]
    simp only [map_smul, smul_eq_mul, hval] at h1
    rw [Finset.sum_eq_single k] at h1
    · have : (dot R[k] (V.getD (τ R[k]) []) : ℚ) ≠ 0 := by exact_mod_cast hk2.ne
      exact (mul_eq_zero.mp h1).resolve_right this
    · intro l _ hl
      obtain ⟨hl1, hl2, hl3⟩ := hτ _ (hRk l)
      have hne : τ R[k] ≠ τ R[l] := by
        intro heq
        apply hl
        have := List.nodup_iff_injective_get.mp hτnd
        have h2 := @this ⟨k, by simp [d]⟩ ⟨l, by simp [d]⟩ (by simpa using heq)
        have h3 : (k : Nat) = l := by simpa using h2
        exact (Fin.ext h3).symm
      rw [hl3 _ hk1 hne]; simp
    · simp
  have hdle : d ≤ n - zs.length := by
    have := (hindep _ rfl).fintype_card_le_finrank
    simpa using this
  have hzl := hst.length_le
  have hcount := h.count
  have hdz : d + zs.length = n := by omega
  have hleads : ∀ c, c ∈ zs ↔ ∃ e ∈ E, firstNonzero e = c := by
    have hnd := leads_nodup h.echelon
    have hsub : (E.map firstNonzero).Subperm zs :=
      List.subperm_of_subset hnd (by
        intro c hc
        obtain ⟨e, he, rfl⟩ := List.mem_map.mp hc
        exact hlead_zs e he)
    have hperm := hsub.perm_of_length_le (by simp; omega)
    intro c
    rw [← hperm.mem_iff, List.mem_map]
  obtain ⟨rest, hvs, hperm⟩ := reorder_spec (V.map (eraseAll zs)) T h.T_sorted (by simpa using h.T_lt)
  have hdlen : d ≤ vs.length := by
    have h1 : vs.length = V.length := by rw [hperm.length_eq]; simp
    have h2 : T.length ≤ V.length := by
      have := (List.subperm_of_subset (h.T_sorted.imp fun h => Nat.ne_of_lt h) (l₂ := List.range V.length)
        (by intro t ht; rw [List.mem_range]; exact h.T_lt t ht)).length_le
      simpa using this
    rw [h1]; rw [h.T_len] at h2; exact h2
  have hTl : T.length = d := h.T_len
  have hvsj : ∀ j (hj : j < d), vs.getD j [] = eraseAll zs (V.getD (T.reverse[j]'(by simpa [hTl] using hj)) []) := by
    intro j hj
    have hj' : j < (T.reverse.map fun i => (V.map (eraseAll zs)).getD i []).length := by simpa [hTl] using hj
    show (reorder (V.map (eraseAll zs)) T).getD j [] = _
    rw [hvs, List.getD_eq_getElem?_getD, List.getElem?_append_left hj', List.getElem?_eq_getElem hj',
      Option.getD_some, List.getElem_map]
    have hlt : T.reverse[j]'(by simpa [hTl] using hj) < V.length :=
      h.T_lt _ (by rw [← List.mem_reverse]; exact List.getElem_mem _)
    simp only [List.getD_eq_getElem?_getD, List.getElem?_map, List.getElem?_eq_getElem hlt,
      Option.map_some, Option.getD_some]
  -- the bijection
  have hσex : ∀ k : Fin d, ∃ j : Fin d, T.reverse[j]'(by simp [hTl]) = τ R[k] := by
    intro k
    have hk := (hτ _ (hRk k)).1
    rw [← List.mem_reverse] at hk
    obtain ⟨j, hj, hjk⟩ := List.getElem_of_mem hk
    exact ⟨⟨j, by simpa [hTl] using hj⟩, hjk⟩
  choose σ hσ using hσex
  have hTrev : T.reverse.Nodup := by
    rw [List.nodup_reverse]; exact h.T_sorted.imp fun h => Nat.ne_of_lt h
  have hσinj : Function.Injective σ := by
    intro k l hkl
    have h1 := hσ k
    have h2 := hσ l
    have h3 : τ R[k] = τ R[l] := by rw [← h1, ← h2]; simp only [hkl]
    have := List.nodup_iff_injective_get.mp hτnd
    have h4 := @this ⟨k, by simp [d]⟩ ⟨l, by simp [d]⟩ (by simpa using h3)
    exact Fin.ext (by simpa using h4)
  have hσbij : Function.Bijective σ := Finite.injective_iff_bijective.mp hσinj
  have hD : d = n - zs.length := by omega
  set b : Fin d → (Fin d → ℚ) := fun k => toV d (eraseAll zs R[k]) with hb
  have hw : ∀ (j k : Fin d), wOf d vs j (b k) =
      (dot R[k] (V.getD (T.reverse[j]'(by simp [hTl])) []) : ℚ) := by
    intro j k
    have hmem : T.reverse[j]'(by simp [hTl]) ∈ T := by rw [← List.mem_reverse]; exact List.getElem_mem _
    show ev d (vs.getD j []) (toV d (eraseAll zs R[k])) = _
    rw [hvsj j j.2, ev_toV d _ _ (by rw [eraseAll_length hst (h.R_len _ (hRk k)), ← hD]),
      show dot (eraseAll zs R[k]) (eraseAll zs (V.getD (T.reverse[(j : Nat)]'(by simp [hTl])) [])) =
        dot R[k] (V.getD (T.reverse[(j : Nat)]'(by simp [hTl])) []) from hdotR _ (hRk k) _ (hVt _ hmem)]
    rfl
  have hneg : ∀ k, wOf d vs (σ k) (b k) < 0 := by
    intro k
    rw [hw, hσ k]
    exact_mod_cast (hτ _ (hRk k)).2.1
  have hzero : ∀ k (j : Fin d), j ≠ σ k → wOf d vs j (b k) = 0 := by
    intro k j hj
    rw [hw]
    have hmem : T.reverse[j]'(by simp [hTl]) ∈ T := by rw [← List.mem_reverse]; exact List.getElem_mem _
    rw [(hτ _ (hRk k)).2.2 _ hmem ?_]
    · simp
    · intro heq
      rw [← hσ k] at heq
      apply hj
      have := (List.Nodup.getElem_inj_iff hTrev).mp heq
      exact Fin.ext this
  have hspan : ⊤ ≤ Submodule.span ℚ (Set.range b) := by
    have := (hindep d hD).span_eq_top_of_card_eq_finrank' (by simp)
    exact this.ge
  have hpt : Pointed (wOf d vs) d := by
    intro a ha
    have hbas := Module.Basis.mk (hindep d hD) hspan
    obtain ⟨c, rfl⟩ := (Submodule.mem_span_range_iff_exists_fun ℚ).mp (hspan (Submodule.mem_top (x := a)))
    apply Finset.sum_eq_zero
    intro k _
    have h1 := ha (σ k) (σ k).2
    rw [map_sum, Finset.sum_eq_single k] at h1
    · rw [map_smul, smul_eq_mul] at h1
      rw [(mul_eq_zero.mp h1).resolve_right (hneg k).ne, zero_smul]
    · intro l _ hl
      rw [map_smul, hzero l (σ k) (fun he => hl (hσinj he).symm), smul_zero]
    · simp
  have hofFn : List.ofFn b = m.map (toV d) := by
    apply List.ext_getElem
    · simp [m, d]
    · intro k h1 h2
      simp [hb, m]
  refine ⟨hst, hdz, hdpos, hperm, hleads, hdlen, ?_, hpt, ?_, ?_⟩
  · intro r hr
    obtain ⟨r', hr', rfl⟩ := List.mem_map.mp hr
    refine ⟨by rw [eraseAll_length hst (h.R_len r' hr'), ← hD], ?_⟩
    unfold Primitive
    rw [← listGcd_insertAll zs, insertAll_eraseAll hst (h.R_len r' hr') (hzR r' hr')]
    exact h.R_prim r' hr'
  · rw [← hofFn]
    exact Inv.base b σ hσbij hneg hzero hpt
  · apply primal_base b σ hσbij hneg hzero
    intro y hy
    apply LinearMap.ext_on_range (v := b) (top_le_iff.mp hspan)
    intro k; simp [hy k]

/-- the stages of phase two exist, and the primal statement holds at each of them -/
theorem stages {d : Nat} {vs m : Matrix} (hd : 0 < d) (hdv : d ≤ vs.length) (hlen : ∀ v ∈ vs, v.length = d)
    (hml : m.length = d)
    (hm : ∀ r ∈ m, r.length = d ∧ Primitive r) (hp : Pointed (wOf d vs) d)
    (hinv : Inv (wOf d vs) d (m.map (toV d)))
    (hpr : ∀ x : Module.Dual ℚ (Fin d → ℚ), (∀ a, InC (wOf d vs) d a → x a ≤ 0) → InCone (wOf d vs) d x) :
    ∀ i, d ≤ i → i ≤ vs.length →
      (∃ mR, PTInv (variableOps_lawful vs.length) d vs i mR) ∧
      ∀ x : Module.Dual ℚ (Fin d → ℚ), (∀ a, InC (wOf d vs) i a → x a ≤ 0) → InCone (wOf d vs) i x := by
  intro i hi
  induction i, hi using Nat.le_induction with
  | base =>
    intro _
    exact ⟨⟨_, initializeR_inv (variableOps_lawful vs.length) rfl hml hdv hm hinv⟩, hpr⟩
  | succ i hi ih =>
    intro hle
    obtain ⟨⟨mR, hpt⟩, hprim⟩ := ih (by omega)
    have hiv : i < vs.length := by omega
    have hvl : (vs.getD i []).length = d := by
      rw [List.getD_eq_getElem?_getD, List.getElem?_eq_getElem hiv]; exact hlen _ (List.getElem_mem hiv)
    refine ⟨⟨_, projection_inv (variableOps_lawful vs.length) hd rfl hi hiv hvl (hp.mono hi) hpt (variableOps.new 0)⟩, ?_⟩
    intro x hx
    exact primal_step (L := mR.1.map (toV d)) (fun a ha => (hpt.inv.ext a ha).2.1)
      (fun a ha => (hpt.inv.gen (hp.mono hi) ha).mono fun e he => he.1) hprim x hx

theorem reduced_of_split {V : Matrix} {n : Nat} (hV : Rect V V.length n)
    {E R : Matrix} {T : List Nat} (h : Split V n E R T) (hR : R ≠ []) :
    Reduced V n E (zeroCols R) R.length (reorder (V.map (eraseAll (zeroCols R))) T) := by
  obtain ⟨h1, h2, h3, h4, h5, h6, h7, h8, h9, h10⟩ := base_facts hV h hR
  refine ⟨h1, h2, h3, hV.2, h4, h5, h.echelon, h.E_zero, h6, h8, ?_⟩
  have hlen : ∀ v ∈ reorder (V.map (eraseAll (zeroCols R))) T, v.length = R.length := by
    intro v hv
    obtain ⟨v', hv', rfl⟩ := List.mem_map.mp (h4.mem_iff.mp hv)
    rw [eraseAll_length h1 (hV.2 v' hv')]; omega
  exact (stages h3 h6 hlen (by simp) h7 h8 h9 h10 _ h6 le_rfl).2

end Panda
