import Verif.Proofs.Output

/-! # Both eliminations, end to end -/

namespace Panda

open Cone

/-- `F0` is the complete list of normalised facet rows. -/
structure Elim (V : Matrix) (n : Nat) (E F0 : Matrix) : Prop where
  mem : ∀ a, a ∈ F0 ↔ NormalFacet n V E a
  nodup : F0.Nodup
  cone : ∀ x : Row, x.length = n → (∀ e ∈ E, dot e x = 0) → (∀ a ∈ F0, dot a x ≤ 0) →
    ∃ c : Fin V.length → ℚ, (∀ j, 0 ≤ c j) ∧ toV n x = ∑ j, c j • toV n V[j]
  gen : ∀ x : Row, x.length = n → (∀ e ∈ E, x.getD (firstNonzero e) 0 = 0) → (∀ v ∈ V, dot x v ≤ 0) →
    ∃ c : Fin F0.length → ℚ, (∀ j, 0 ≤ c j) ∧ toV n x = ∑ j, c j • toV n F0[j]

/-- the coefficients of a conic combination of the elements of a list -/
theorem Gen.coeffs {M : Type*} [AddCommGroup M] [Module ℚ M] {α : Type*} (l : List α) (f : α → M) {x : M}
    (h : Gen ℚ (fun y => ∃ a ∈ l, f a = y) x) :
    ∃ c : Fin l.length → ℚ, (∀ j, 0 ≤ c j) ∧ x = ∑ j, c j • f l[j] := by
  induction h with
  | zero => exact ⟨fun _ => 0, fun _ => le_rfl, by simp⟩
  | add t y z ht hy _ ih =>
    obtain ⟨a, ha, rfl⟩ := hy
    obtain ⟨j, hj, rfl⟩ := List.getElem_of_mem ha
    obtain ⟨c, hc, rfl⟩ := ih
    refine ⟨fun k => c k + if k = ⟨j, hj⟩ then t else 0, ?_, ?_⟩
    · intro k; simp only; split
      · exact add_nonneg (hc k) ht
      · simpa using hc k
    · simp only [add_smul, Finset.sum_add_distrib, ite_smul, zero_smul, Finset.sum_ite_eq',
        Finset.mem_univ, if_true]
      rw [add_comm]; rfl

/-- every valid row that is zero at the leading positions is a conic combination of the facet rows -/
theorem Reduced.gen {V : Matrix} {n : Nat} {E : Matrix} {zs : List Nat} {d : Nat} {vs m : Matrix}
    (h : Reduced V n E zs d vs) (hrows : ∀ r ∈ m, r.length = d ∧ Primitive r)
    (hinv : Inv (wOf d vs) vs.length (m.map (toV d))) {x : Row} (hx : x.length = n)
    (hz : ∀ c ∈ zs, x.getD c 0 = 0) (hval : ∀ v ∈ V, dot x v ≤ 0) :
    ∃ c : Fin (m.map (insertAll zs)).length → ℚ, (∀ j, 0 ≤ c j) ∧
      toV n x = ∑ j, c j • toV n (m.map (insertAll zs))[j] := by
  have hC : InC (wOf d vs) vs.length (toV d (eraseAll zs x)) := by
    refine (h.forall_iff fun v => ev d v (toV d (eraseAll zs x)) ≤ 0).mpr ?_
    intro v hv
    rw [h.w_row hx hz hv]; exact_mod_cast hval v hv
  have h1 := (hinv.gen h.pointed' hC).mono (T := fun y => ∃ a ∈ m, toV d a = y)
    (fun e he => List.mem_map.mp he.1)
  obtain ⟨c, hc, heq⟩ := Gen.coeffs m (toV d) h1
  refine ⟨fun j => c ⟨j, by simpa using j.2⟩, fun j => hc _, ?_⟩
  -- transfer, coordinate by coordinate
  have hmr : ∀ j : Fin m.length, m[j] ∈ m := fun j => List.getElem_mem _
  have key : ∀ y : Row, y.length = n → (dot x y : ℚ) = ∑ j : Fin m.length, c j * (dot (insertAll zs m[j]) y : ℚ) := by
    intro y hy
    have hl : (eraseAll zs x).length = d := by rw [eraseAll_length h.stack hx, ← h.dsub]
    have h2 := congrArg (ev d (eraseAll zs y)) heq
    rw [ev_toV d _ _ hl.le, dot_eraseAll h.stack hx hy hz, map_sum] at h2
    rw [h2]
    apply Finset.sum_congr rfl
    intro j _
    have hjl := (hrows _ (hmr j)).1
    rw [map_smul, smul_eq_mul, ev_toV d _ _ hjl.le, dot_insertAll h.stack (by rw [hjl, ← h.dsub]) hy]
  have unit : ∀ (i : Fin n) (r : Row), r.length = n → dot r ((List.replicate n 0).set i 1) = r.getD i 0 := by
    intro i r hr
    have h5 := dot_eq_sum n r ((List.replicate n 0).set i 1) hr.le
    rw [Finset.sum_eq_single i] at h5
    · simp only [toV] at h5
      have h6 : (((List.replicate n (0:Int)).set i 1).getD i 0) = 1 := by
        simp [List.getD_eq_getElem?_getD]
      rw [h6] at h5
      have h7 : (dot r ((List.replicate n 0).set i 1) : ℚ) = (r.getD i 0 : ℚ) := by rw [h5]; push_cast; ring
      exact_mod_cast h7
    · intro k _ hk
      have h6 : (((List.replicate n (0:Int)).set i 1).getD k 0) = 0 := by
        rw [List.getD_eq_getElem?_getD, List.getElem?_set_ne (fun he => hk (Fin.ext he.symm))]
        simp
      simp only [toV]
      rw [h6]; simp
    · simp
  have hcast : ∑ j : Fin (m.map (insertAll zs)).length, c ⟨j, by simpa using j.2⟩ • toV n (m.map (insertAll zs))[j] =
      ∑ j : Fin m.length, c j • toV n (insertAll zs m[j]) := by
    refine Fintype.sum_equiv (finCongr (by simp)) _ _ ?_
    intro j
    simp only [Fin.getElem_fin, List.getElem_map]
    rfl
  rw [hcast]
  funext i
  have h3 := key ((List.replicate n 0).set i 1) (by simp)
  rw [unit i x hx] at h3
  simp only [Finset.sum_apply, Pi.smul_apply, smul_eq_mul, toV]
  rw [h3]
  apply Finset.sum_congr rfl
  intro j _
  rw [unit i _ (insertAll_length h.stack (by rw [(hrows _ (hmr j)).1, ← h.dsub]))]

theorem PTInv.row_facts {B : Type} {ops : BitsetOps B} {N : Nat} {law : LawfulBitset ops N} {d : Nat}
    {vs : Matrix} {i : Nat} {mR : Matrix × List B} (h : PTInv law d vs i mR) :
    ∀ r ∈ mR.1, r.length = d ∧ Primitive r := by
  intro r hr
  obtain ⟨k, hk, rfl⟩ := List.getElem_of_mem hr
  have hl := h.rows.length_eq
  have := (List.forall₂_iff_get.mp h.rows).2 k hk (by omega)
  exact ⟨this.1, this.2.2.2⟩

theorem detectBadRow_subset : ∀ {m : Matrix} {a : Row}, a ∈ detectBadRow m → a ∈ m := by
  intro m
  induction m using detectBadRow.induct with
  | case1 => intro a h; exact h
  | case2 r h => intro a ha; simp [detectBadRow, h] at ha
  | case3 r h r' rest ih =>
    intro a ha
    simp only [detectBadRow, h, if_true, List.mem_cons] at ha ⊢
    rcases ha with h1 | h1
    · exact Or.inr (Or.inl h1)
    · exact Or.inr (Or.inr (ih h1))
  | case4 r rest h ih =>
    intro a ha
    unfold detectBadRow at ha
    rw [if_neg h, List.mem_cons] at ha
    rw [List.mem_cons]
    exact ha.imp id ih

theorem isBadRow_unique {d : Nat} {r r' : Row} (h : r.length = d) (h' : r'.length = d)
    (hb : isBadRow r = true) (hb' : isBadRow r' = true) : r = r' := by
  rw [(isBadRow_iff.mp hb).2, (isBadRow_iff.mp hb').2, h, h']

section
variable {V : Matrix} {n : Nat}

theorem fme_elim (hV : Rect V V.length n) (hm : 0 < V.length) (hn : 0 < n)
    (hnz : ∃ v ∈ V, ∃ x ∈ v, x ≠ 0) :
    ∃ F0, Elim V n (gaussSplit V).1 F0 ∧
      fourierMotzkinElimination V = .ok (F0.filter fun a => !(isBadRow (eraseAll (zeroCols (gaussSplit V).2.1) a))) := by
  have hsp := gaussSplit_spec hV hm hn
  set E := (gaussSplit V).1 with hE
  set R := (gaussSplit V).2.1 with hRdef
  set T := (gaussSplit V).2.2 with hT
  have hR := hsp.rows_ne_nil hV.2 hnz
  have hred := reduced_of_split hV hsp hR
  obtain ⟨h1, h2, h3, h4, h5, h6, h7, h8, h9, h10⟩ := base_facts hV hsp hR
  set zs := zeroCols R with hzs
  set vs := reorder (V.map (eraseAll zs)) T with hvs
  set m := R.map (eraseAll zs) with hmm
  have hlen : ∀ v ∈ vs, v.length = R.length := by
    intro v hv
    obtain ⟨v', hv', rfl⟩ := List.mem_map.mp (h4.mem_iff.mp hv)
    rw [eraseAll_length h1 (hV.2 v' hv')]; omega
  obtain ⟨law⟩ := dispatch_lawful vs.length
  have hcolm : colSize m = R.length :=
    (show Rect m m.length R.length from ⟨rfl, fun r hr => (h7 r hr).1⟩).colSize (by simp [hmm]; exact h3)
  have hpt := phaseTwoLoop_inv law h3 rfl hlen ((dispatchOps vs.length).new vs.length)
    (vs.drop R.length) R.length _ le_rfl rfl h6 h8
    (initializeR_inv law rfl (by simp [hmm]) h6 h7 h9)
  set raw := (phaseTwoLoop (dispatchOps vs.length) ((dispatchOps vs.length).new vs.length) R.length
    (vs.drop R.length) (m, initializeR (dispatchOps vs.length) m vs)).1 with hraw
  have hrows := hpt.row_facts
  have hnd := nodup_of_inv hpt.inv
  refine ⟨raw.map (insertAll zs), ⟨hred.mem_iff hrows hpt.inv, ?_, ?_, ?_⟩, ?_⟩
  · exact hnd.map fun a b hab => insertAll_injective zs hab
  · intro x hx hxE hxF; exact hred.cone hrows hpt.inv hx hxE hxF
  · intro x hx hz hval
    refine hred.gen hrows hpt.inv hx ?_ hval
    intro c hc; obtain ⟨e, he, rfl⟩ := (hred.leads c).mp hc; exact hz e he
  · unfold fourierMotzkinElimination
    rw [if_pos (validInput_iff.mpr ⟨⟨n, hn, hm, hV⟩, hnz⟩)]
    simp only
    have hez : eliminateZeroColumns (gaussSplit V).2.1 V = (m, V.map (eraseAll zs), zs) := by
      unfold eliminateZeroColumns
      rw [eliminateZeroColumnsLoop_eq]
      simp only [List.nil_append]
      rfl
    rw [hez]
    simp only
    rw [reinsertZeroColumns_eq]
    congr 1
    unfold phaseTwo
    simp only
    rw [hcolm]
    show (detectBadRow raw).map (insertAll zs) = _
    rw [detectBadRow_eq_filter raw hnd (fun r hr r' hr' hb hb' =>
      isBadRow_unique (hrows r hr).1 (hrows r' hr').1 hb hb')]
    rw [List.filter_map]
    congr 1
    apply List.filter_congr
    intro r _
    simp only [Function.comp, eraseAll_insertAll]

/-- a row with a non-zero last entry keeps the last column -/
theorem last_not_mem {V : Matrix} {n : Nat} {E : Matrix} (hE : Echelon n E)
    (hE0 : ∀ e ∈ E, ∀ v ∈ V, dot e v = 0)
    (hlast : ∃ v ∈ V, v.getD (n - 1) 0 ≠ 0) : ∀ e ∈ E, firstNonzero e ≠ n - 1 := by
  intro e he heq
  obtain ⟨v, hv, hv0⟩ := hlast
  obtain ⟨hlt, hpos⟩ := hE.lead e he
  have h1 := dot_eq_sum n e v (hE.len e he).le
  rw [hE0 e he v hv, Finset.sum_eq_single (⟨n - 1, by omega⟩ : Fin n)] at h1
  · rw [heq] at hpos
    have h2 : (e.getD (n-1) 0 : ℚ) ≠ 0 := by exact_mod_cast hpos.ne'
    have h3 : (v.getD (n-1) 0 : ℚ) ≠ 0 := by exact_mod_cast hv0
    exact mul_ne_zero h2 h3 (by simpa [toV] using h1.symm)
  · intro k _ hk
    have hk' : (k : Nat) < firstNonzero e := by
      have := k.2
      have : (k : Nat) ≠ n - 1 := fun h => hk (Fin.ext h)
      omega
    have : e.getD k 0 = 0 := by
      clear h1 hpos
      have gen : ∀ (r : Row) (j : Nat), j < firstNonzero r → r.getD j 0 = 0 := by
        intro r
        induction r with
        | nil => intro j hj; simp
        | cons x xs ih =>
          intro j hj
          unfold firstNonzero at hj
          split at hj
          · omega
          · next h =>
            cases j with
            | zero => simpa using h
            | succ j => simpa using ih j (by omega)
      exact gen e k hk'
    simp only [toV]; rw [this]; simp
  · simp

theorem fme_elim' (hV : Rect V V.length n) (hm : 0 < V.length) (hn : 0 < n)
    (hlast : ∃ v ∈ V, v.getD (n - 1) 0 ≠ 0) :
    ∃ F0, Elim V n (gaussSplit V).1 F0 ∧
      fourierMotzkinElimination V = .ok (F0.filter fun a => !(isBadRow a)) := by
  have hnz : ∃ v ∈ V, ∃ x ∈ v, x ≠ 0 := by
    obtain ⟨v, hv, h0⟩ := hlast
    refine ⟨v, hv, v.getD (n-1) 0, ?_, h0⟩
    have hl := hV.2 v hv
    rw [List.getD_eq_getElem?_getD, List.getElem?_eq_getElem (by omega)]
    exact List.getElem_mem _
  have hsp := gaussSplit_spec hV hm hn
  have hR := hsp.rows_ne_nil hV.2 hnz
  have hred := reduced_of_split hV hsp hR
  obtain ⟨F0, hF, heq⟩ := fme_elim hV hm hn hnz
  refine ⟨F0, hF, ?_⟩
  rw [heq]
  congr 1
  apply List.filter_congr
  intro a ha
  obtain ⟨ha1, _, ha3, _⟩ := (hF.mem a).mp ha
  have hz : ∀ c ∈ zeroCols (gaussSplit V).2.1, a.getD c 0 = 0 := by
    intro c hc; obtain ⟨e, he, rfl⟩ := (hred.leads c).mp hc; exact ha3 e he
  have hnot : n - 1 ∉ zeroCols (gaussSplit V).2.1 := by
    intro hmem
    obtain ⟨e, he, heq⟩ := (hred.leads _).mp hmem
    exact last_not_mem hsp.echelon hsp.E_zero hlast e he heq
  have := isBadRow_insertAll hred.stack (r := eraseAll (zeroCols (gaussSplit V).2.1) a)
    (eraseAll_length hred.stack ha1) hnot
  rw [insertAll_eraseAll hred.stack ha1 hz] at this
  rw [this]

/-! ## The abortable elimination -/

theorem heuristicLoop_spec {d : Nat} {vs : Matrix} (hd : 0 < d) (hlen : ∀ v ∈ vs, v.length = d)
    (dflt : Words) : ∀ (rest : Matrix) (i : Nat) (mR : Matrix × List Words), d ≤ i → rest = vs.drop i →
      i ≤ vs.length → Pointed (wOf d vs) i → PTInv (variableOps_lawful vs.length) d vs i mR →
      (∀ r ∈ heuristicLoop variableOps dflt i rest mR, r.length = d ∧ Primitive r ∧
        Ext (wOf d vs) vs.length (toV d r)) ∧
      (heuristicLoop variableOps dflt i rest mR).Nodup ∧
      ((∃ a, Ext (wOf d vs) vs.length a) → heuristicLoop variableOps dflt i rest mR ≠ []) := by
  intro rest
  induction rest with
  | nil =>
    intro i mR _ hr hle _ h
    have : i = vs.length := by
      have := congrArg List.length hr; simp at this; omega
    subst this
    refine ⟨?_, nodup_of_inv h.inv, ?_⟩
    · intro r hr
      obtain ⟨h1, h2⟩ := h.row_facts r hr
      exact ⟨h1, h2, h.inv.ext _ (List.mem_map.mpr ⟨r, hr, rfl⟩)⟩
    · rintro ⟨a, ha⟩ hnil
      obtain ⟨b, hb, _⟩ := h.inv.complete a ha
      obtain ⟨r, hr, _⟩ := List.mem_map.mp hb
      simp only [heuristicLoop] at hnil
      rw [hnil] at hr
      simp at hr
  | cons v rest ih =>
    intro i mR hdi hr hle hp h
    have hi : i < vs.length := by
      have := congrArg List.length hr; simp at this; omega
    have hr0 := hr
    rw [List.drop_eq_getElem_cons hi] at hr
    simp only [List.cons.injEq] at hr
    have hv : v = vs.getD i [] := by
      rw [hr.1]; simp [List.getD_eq_getElem?_getD, List.getElem?_eq_getElem hi]
    unfold heuristicLoop
    simp only
    split
    · next hne =>
      refine ⟨?_, ?_, fun _ => hne⟩
      · intro r hrm
        have hrm' := detectBadRow_subset hrm
        unfold extractFacets at hrm'
        rw [List.mem_filter, List.all_eq_true] at hrm'
        obtain ⟨hr1, hr2⟩ := hrm'
        obtain ⟨hl, hpr⟩ := h.row_facts r hr1
        refine ⟨hl, hpr, (h.inv.ext _ (List.mem_map.mpr ⟨r, hr1, rfl⟩)).le hle ?_⟩
        intro j hj
        by_cases hji : j < i
        · exact (h.inv.ext _ (List.mem_map.mpr ⟨r, hr1, rfl⟩)).2.1 j hji
        · have hmem : vs.getD j [] ∈ v :: rest := by
            rw [hr0, List.getD_eq_getElem?_getD, List.getElem?_eq_getElem hj, Option.getD_some,
              List.mem_drop_iff_getElem]
            exact ⟨j - i, by omega, by simp only [show i + (j - i) = j by omega]⟩
          have := hr2 _ hmem
          rw [decide_eq_true_eq] at this
          show ev d (vs.getD j []) (toV d r) ≤ 0
          rw [ev_toV d r _ hl.le]
          exact_mod_cast this
      · have hnd := nodup_of_inv h.inv
        have hnd2 : (extractFacets mR.1 (v :: rest)).Nodup := hnd.filter _
        rw [detectBadRow_eq_filter _ hnd2]
        · exact hnd2.filter _
        · intro r hr r' hr' hb hb'
          have e1 := (List.mem_filter.mp hr).1
          have e2 := (List.mem_filter.mp hr').1
          exact isBadRow_unique (h.row_facts r e1).1 (h.row_facts r' e2).1 hb hb'
    · apply ih (i+1) _ (by omega) hr.2 (by omega) (hp.mono (by omega))
      rw [hv]
      refine projection_inv _ hd rfl hdi hi ?_ hp h dflt
      rw [← hv, hr.1]; exact hlen _ (List.getElem_mem hi)

theorem heuristic_elim (hV : Rect V V.length n) (hm : 0 < V.length) (hn : 0 < n)
    (hnz : ∃ v ∈ V, ∃ x ∈ v, x ≠ 0) :
    ∃ H, fourierMotzkinEliminationHeuristic V = .ok H ∧ H.Nodup ∧
      (∀ a ∈ H, NormalFacet n V (gaussSplit V).1 a) ∧
      ((∃ a, NormalFacet n V (gaussSplit V).1 a) → H ≠ []) := by
  have hsp := gaussSplit_spec hV hm hn
  set E := (gaussSplit V).1 with hE
  set R := (gaussSplit V).2.1 with hRdef
  set T := (gaussSplit V).2.2 with hT
  have hR := hsp.rows_ne_nil hV.2 hnz
  have hred := reduced_of_split hV hsp hR
  obtain ⟨h1, h2, h3, h4, h5, h6, h7, h8, h9, h10⟩ := base_facts hV hsp hR
  set zs := zeroCols R with hzs
  set vs := reorder (V.map (eraseAll zs)) T with hvs
  set m := R.map (eraseAll zs) with hmm
  have hlen : ∀ v ∈ vs, v.length = R.length := by
    intro v hv
    obtain ⟨v', hv', rfl⟩ := List.mem_map.mp (h4.mem_iff.mp hv)
    rw [eraseAll_length h1 (hV.2 v' hv')]; omega
  have hml : m.length = R.length := by simp [hmm]
  obtain ⟨s1, s2, s3⟩ := heuristicLoop_spec h3 hlen (variableOps.new vs.length)
    (vs.drop R.length) R.length _ le_rfl rfl h6 h8
    (initializeR_inv (variableOps_lawful vs.length) rfl hml h6 h7 h9)
  set raw := heuristicLoop variableOps (variableOps.new vs.length) R.length
    (vs.drop R.length) (m, initializeR variableOps m vs) with hraw
  refine ⟨raw.map (insertAll zs), ?_, ?_, ?_, ?_⟩
  · unfold fourierMotzkinEliminationHeuristic
    rw [if_pos (validInput_iff.mpr ⟨⟨n, hn, hm, hV⟩, hnz⟩)]
    simp only
    have hez : eliminateZeroColumns (gaussSplit V).2.1 V = (m, V.map (eraseAll zs), zs) := by
      unfold eliminateZeroColumns
      rw [eliminateZeroColumnsLoop_eq]
      simp only [List.nil_append]
      rfl
    rw [hez]
    simp only
    rw [reinsertZeroColumns_eq]
    unfold phaseTwoHeuristic
    simp only
    rw [hml]
  · exact s2.map fun a b hab => insertAll_injective zs hab
  · intro a ha
    obtain ⟨r, hr, rfl⟩ := List.mem_map.mp ha
    obtain ⟨hl, hp, hext⟩ := s1 r hr
    have hrd : r.length = n - zs.length := by rw [hl, ← hred.dsub]
    refine ⟨insertAll_length hred.stack hrd, ?_, ?_, ?_⟩
    · unfold Primitive; rw [listGcd_insertAll]; exact hp
    · intro e he; exact insertAll_getD hred.stack hrd _ ((hred.leads _).mpr ⟨e, he, rfl⟩)
    · apply hred.facet_of_ext (insertAll_length hred.stack hrd) (insertAll_getD hred.stack hrd)
      rw [eraseAll_insertAll]; exact hext
  · rintro ⟨a, ha1, ha2, ha3, ha4⟩ hnil
    apply s3 ⟨_, hred.ext_of_facet ha1 (by
      intro c hc; obtain ⟨e, he, rfl⟩ := (hred.leads c).mp hc; exact ha3 e he) ha4⟩
    simpa using hnil

end

end Panda
