import Verif.Model.FME
import Verif.Proofs.Gauss
import Verif.Proofs.PhaseTwo

/-! # What the split into equations and remaining rows gives -/

namespace Panda

/-! ## sorting and splitting -/

theorem insertDesc_perm (x : Nat) (l : List Nat) : (insertDesc x l).Perm (x :: l) := by
  induction l with
  | nil => exact List.Perm.refl _
  | cons y ys ih =>
    unfold insertDesc
    split
    · exact List.Perm.refl _
    · exact (List.Perm.cons y ih).trans (List.Perm.swap x y ys)

theorem sortDesc_perm (l : List Nat) : (sortDesc l).Perm l := by
  induction l with
  | nil => exact List.Perm.refl _
  | cons x xs ih => exact (insertDesc_perm x _).trans (List.Perm.cons x ih)

theorem insertDesc_sorted (x : Nat) (l : List Nat) (h : l.Pairwise (· ≥ ·)) :
    (insertDesc x l).Pairwise (· ≥ ·) := by
  induction l with
  | nil => simp [insertDesc]
  | cons y ys ih =>
    unfold insertDesc
    have hp := List.pairwise_cons.mp h
    split
    · next hle =>
      refine List.pairwise_cons.mpr ⟨?_, h⟩
      intro z hz
      rw [List.mem_cons] at hz
      rcases hz with rfl | hz
      · exact hle
      · exact le_trans (hp.1 z hz) hle
    · next hle =>
      refine List.pairwise_cons.mpr ⟨?_, ih hp.2⟩
      intro z hz
      rw [(insertDesc_perm x ys).mem_iff, List.mem_cons] at hz
      rcases hz with rfl | hz
      · push Not at hle; exact le_of_lt hle
      · exact hp.1 z hz

theorem sortDesc_sorted (l : List Nat) : (sortDesc l).Pairwise (· ≥ ·) := by
  induction l with
  | nil => simp [sortDesc]
  | cons x xs ih => exact insertDesc_sorted x _ ih

theorem sortDesc_strict (l : List Nat) (h : l.Nodup) : (sortDesc l).Pairwise (· > ·) := by
  have h1 : (sortDesc l).Nodup := (sortDesc_perm l).nodup_iff.mpr h
  have h2 := List.Pairwise.and (sortDesc_sorted l) h1
  exact h2.imp fun h => lt_of_le_of_ne h.1 (Ne.symm h.2)

theorem swapRows_length (m : Matrix) (i j : Nat) : (swapRows m i j).length = m.length := by
  simp [swapRows]

theorem swapRows_getD {m : Matrix} {i j k : Nat} (hi : i < m.length) (hj : j < m.length) :
    (swapRows m i j).getD k [] = if k = j then m.getD i [] else if k = i then m.getD j [] else m.getD k [] := by
  unfold swapRows
  simp only [List.getD_eq_getElem?_getD, List.getElem?_set, List.length_set]
  by_cases h1 : j = k
  · subst h1; simp [hj]
  · have h1' : ¬ k = j := fun h => h1 h.symm
    by_cases h2 : i = k
    · subst h2; simp [hi, h1, h1']
    · have h2' : ¬ k = i := fun h => h2 h.symm
      simp [h1, h1', h2, h2']

theorem swapRows_perm {m : Matrix} {i j : Nat} (hi : i < m.length) (hj : j < m.length) :
    (swapRows m i j).Perm m := by
  unfold swapRows
  have h1 : m.getD j [] = m[j] := by simp [List.getD_eq_getElem?_getD, hj]
  have h2 : m.getD i [] = m[i] := by simp [List.getD_eq_getElem?_getD, hi]
  rw [h1, h2]
  exact List.set_set_perm hi hj

theorem swapToBack_spec : ∀ (idxs : List Nat) (i : Nat) (m : Matrix), idxs.Pairwise (· > ·) →
    (∀ x ∈ idxs, x + i < m.length) →
    (swapToBack i idxs m).Perm m ∧
    (∀ j, m.length - i ≤ j → (swapToBack i idxs m).getD j [] = m.getD j []) ∧
    (∀ k < idxs.length, (swapToBack i idxs m).getD (m.length - 1 - i - k) [] = m.getD (idxs.getD k 0) []) := by
  intro idxs
  induction idxs with
  | nil => intro i m _ _; exact ⟨List.Perm.refl _, fun _ _ => rfl, by simp⟩
  | cons x xs ih =>
    intro i m hp hb
    have hx := hb x (by simp)
    have hp' := List.pairwise_cons.mp hp
    have hi : x < m.length := by omega
    have hj : m.length - 1 - i < m.length := by omega
    obtain ⟨h1, h2, h3⟩ := ih (i+1) (swapRows m x (m.length - 1 - i)) hp'.2 (by
      intro y hy
      have := hp'.1 y hy
      rw [swapRows_length]; omega)
    rw [swapRows_length] at h2 h3
    unfold swapToBack
    refine ⟨h1.trans (swapRows_perm hi hj), ?_, ?_⟩
    · intro j hj'
      rw [h2 j (by omega), swapRows_getD hi hj, if_neg (by omega), if_neg (by omega)]
    · intro k hk
      cases k with
      | zero =>
        rw [Nat.sub_zero, h2 _ (by omega), swapRows_getD hi hj, if_pos rfl]; rfl
      | succ k =>
        have hk' : k < xs.length := by simpa using hk
        have := h3 k hk'
        rw [show m.length - 1 - i - (k + 1) = m.length - 1 - (i + 1) - k by omega, this]
        have hxs : xs.getD k 0 ∈ xs := by
          rw [List.getD_eq_getElem?_getD, List.getElem?_eq_getElem hk', Option.getD_some]
          exact List.getElem_mem hk'
        have hlt := hp'.1 _ hxs
        rw [swapRows_getD hi hj, if_neg (by omega), if_neg (by omega)]
        rfl

theorem splitEquations_spec (m : Matrix) (idxs : List Nat) (hp : idxs.Pairwise (· > ·))
    (hb : ∀ x ∈ idxs, x < m.length) :
    (splitEquations m idxs).1 = idxs.map (fun k => m.getD k []) ∧
    ((splitEquations m idxs).1 ++ (splitEquations m idxs).2).Perm m := by
  obtain ⟨h1, -, h3⟩ := swapToBack_spec idxs 0 m hp (by simpa using hb)
  have hl : (swapToBack 0 idxs m).length = m.length := h1.length_eq
  have hle : idxs.length ≤ m.length := by
    have hnd : idxs.Nodup := hp.imp fun h => Nat.ne_of_gt h
    have := (List.subperm_of_subset hnd (l₂ := List.range m.length) (by
      intro x hx; rw [List.mem_range]; exact hb x hx)).length_le
    simpa using this
  unfold splitEquations
  simp only
  refine ⟨?_, ?_⟩
  · apply List.ext_getElem
    · simp [hl, hle]
    · intro k hk hk'
      have hki : k < idxs.length := by simpa using hk'
      have := h3 k hki
      rw [List.getElem_take, List.getElem_reverse, List.getElem_map]
      rw [List.getD_eq_getElem?_getD, List.getElem?_eq_getElem (by omega), Option.getD_some] at this
      have h4 : idxs.getD k 0 = idxs[k] := by simp [List.getD_eq_getElem?_getD, hki]
      rw [h4] at this
      rw [← this]
      congr 1
      rw [hl]; omega
  · refine List.Perm.trans ?_ h1
    rw [List.take_reverse]
    refine (List.Perm.append_right _ (List.reverse_perm _)).trans ?_
    refine List.perm_append_comm.trans ?_
    rw [List.take_append_drop]

/-! ## The rows of the transposed bottom part -/

/-- column `k` of the bottom part -/
def bRow (m : Matrix) (mV n k : Nat) : Row := (List.range n).map fun i => entry m (mV + i) k

theorem bRow_length (m : Matrix) (mV n k : Nat) : (bRow m mV n k).length = n := by simp [bRow]

theorem bRow_getD (m : Matrix) (mV n k i : Nat) (hi : i < n) :
    (bRow m mV n k).getD i 0 = entry m (mV + i) k := by
  simp [bRow, List.getD_eq_getElem?_getD, hi]

theorem transpose_bottom {m : Matrix} {mV n : Nat} (hm : Rect m (mV + n) n) (hn : 0 < n) :
    transpose (m.drop mV) = (List.range n).map (bRow m mV n) := by
  have hr : Rect (m.drop mV) n n := by
    refine ⟨by simp [hm.1], fun r hr => hm.2 r (List.mem_of_mem_drop hr)⟩
  unfold transpose
  rw [hr.colSize hn, hr.1]
  apply List.map_congr_left
  intro k _
  unfold bRow
  apply List.map_congr_left
  intro i _
  unfold entry
  congr 1
  simp only [List.getD_eq_getElem?_getD, List.getElem?_drop]

/-- The result of `gaussSplit`. -/
structure Split (V : Matrix) (n : Nat) (E R : Matrix) (T : List Nat) : Prop where
  E_len : ∀ e ∈ E, e.length = n
  E_prim : ∀ e ∈ E, Primitive e
  E_lead : ∀ e ∈ E, firstNonzero e < n ∧ 0 < e.getD (firstNonzero e) 0
  E_zero : ∀ e ∈ E, ∀ v ∈ V, dot e v = 0
  E_iso : E.Pairwise fun e e' => e'.getD (firstNonzero e) 0 = 0 ∧ e.getD (firstNonzero e') 0 = 0
  R_len : ∀ r ∈ R, r.length = n
  R_prim : ∀ r ∈ R, Primitive r
  R_iso : ∀ r ∈ R, ∀ e ∈ E, r.getD (firstNonzero e) 0 = 0
  count : R.length + E.length = n
  T_len : T.length = R.length
  T_sorted : T.Pairwise (· < ·)
  T_lt : ∀ t ∈ T, t < V.length
  dual : ∃ τ : Row → Nat, (R.map τ).Nodup ∧ ∀ r ∈ R, τ r ∈ T ∧ dot r (V.getD (τ r) []) < 0 ∧
    ∀ t ∈ T, t ≠ τ r → dot r (V.getD t []) = 0

theorem firstNonzero_eq {r : Row} {q : Nat} (hq : q < r.length) (h : r.getD q 0 ≠ 0)
    (h0 : ∀ i < q, r.getD i 0 = 0) : firstNonzero r = q := by
  induction r generalizing q with
  | nil => simp at hq
  | cons x xs ih =>
    unfold firstNonzero
    cases q with
    | zero => rw [if_pos (by simpa using h)]
    | succ q =>
      have := h0 0 (by omega)
      rw [if_neg (by simpa using this), ih (q := q) (by simpa using hq) (by simpa using h)
        (fun i hi => by simpa using h0 (i+1) (by omega))]

theorem gaussSplit_spec {V : Matrix} {n : Nat} (hV : Rect V V.length n) (hm : 0 < V.length) (hn : 0 < n) :
    Split V n (gaussSplit V).1 (gaussSplit V).2.1 (gaussSplit V).2.2 := by
  obtain ⟨piv, g⟩ := gaussianElimination_spec hV hm hn
  unfold gaussSplit
  simp only
  set m := (gaussianElimination (appendNegativeIdentityMatrix V)).1 with hmdef
  set L := (gaussianElimination (appendNegativeIdentityMatrix V)).2.1 with hL
  set T := (gaussianElimination (appendNegativeIdentityMatrix V)).2.2 with hT
  set mV := V.length with hmV
  rw [transpose_bottom g.rect hn]
  set b := bRow m mV n with hb
  have hLn : ∀ k ∈ sortDesc L, k < n := fun k hk => ((g.L_mem k).mp ((sortDesc_perm L).mem_iff.mp hk)).1
  obtain ⟨s1, s2⟩ := splitEquations_spec ((List.range n).map b) (sortDesc L)
    (sortDesc_strict L g.L_nodup) (by simpa using hLn)
  set sp := splitEquations ((List.range n).map b) (sortDesc L) with hsp
  have hE : sp.1 = (sortDesc L).map b := by
    rw [s1]; apply List.map_congr_left
    intro k hk
    simp [List.getD_eq_getElem?_getD, hLn k hk]
  have hR : sp.2.Perm (((List.range n).filter fun k => !(decide (k ∈ L))).map b) := by
    rw [hE] at s2
    have h1 : ((List.range n).filter fun k => decide (k ∈ L)).Perm (sortDesc L) := by
      rw [List.perm_ext_iff_of_nodup ((List.nodup_range).filter _)
        ((sortDesc_perm L).nodup_iff.mpr g.L_nodup)]
      intro k
      rw [(sortDesc_perm L).mem_iff]
      simp only [List.mem_filter, List.mem_range, decide_eq_true_eq]
      exact ⟨fun h => h.2, fun h => ⟨((g.L_mem k).mp h).1, h⟩⟩
    have h2 := (List.filter_append_perm (fun k => decide (k ∈ L)) (List.range n)).map b
    rw [List.map_append] at h2
    have h3 := s2.trans h2.symm
    have h4 := h3.trans ((h1.map b).append_right _)
    exact (List.perm_append_left_iff _).mp h4
  have memE : ∀ e, e ∈ sp.1 ↔ ∃ k ∈ L, b k = e := by
    intro e; rw [hE, List.mem_map]
    constructor
    · rintro ⟨k, hk, rfl⟩; exact ⟨k, (sortDesc_perm L).mem_iff.mp hk, rfl⟩
    · rintro ⟨k, hk, rfl⟩; exact ⟨k, (sortDesc_perm L).mem_iff.mpr hk, rfl⟩
  have memR : ∀ r, r ∈ sp.2 ↔ ∃ k < n, k ∉ L ∧ b k = r := by
    intro r; rw [hR.mem_iff, List.mem_map]
    simp only [List.mem_filter, List.mem_range, Bool.not_eq_true', decide_eq_false_iff_not]
    constructor
    · rintro ⟨k, ⟨h1, h2⟩, rfl⟩; exact ⟨k, h1, h2, rfl⟩
    · rintro ⟨k, h1, h2, rfl⟩; exact ⟨k, ⟨h1, h2⟩, rfl⟩
  have htop : ∀ j < mV, ∀ k < n, entry m j k = - dot (V.getD j []) (b k) := by
    intro j hj k hk
    have h1 := g.top j hj k hk
    have h2 := dot_eq_sum n (V.getD j []) (b k) (hV.getD_length hj).le
    have h3 : (entry m j k : ℚ) = - (dot (V.getD j []) (b k) : ℚ) := by
      rw [h1, h2]
      congr 1
      apply Finset.sum_congr rfl
      intro i _
      simp only [toV]
      rw [hb, bRow_getD m mV n k i i.2]
      rfl
    exact_mod_cast h3
  have hdot : ∀ j < mV, ∀ k < n, dot (b k) (V.getD j []) = - entry m j k := by
    intro j hj k hk; rw [htop j hj k hk, dot_comm]; ring
  have hprim : ∀ k < n, Primitive (b k) := by
    intro k hk
    have h1 : listGcd (b k) ∣ listGcd (col m k) := by
      apply dvd_listGcd
      intro x hx
      obtain ⟨j, hj, rfl⟩ := List.getElem_of_mem hx
      rw [col_length, g.rect.1] at hj
      have hc : (col m k)[j]'(by rw [col_length, g.rect.1]; exact hj) = entry m j k := by
        rw [← col_getD, List.getD_eq_getElem?_getD, List.getElem?_eq_getElem (by rw [col_length, g.rect.1]; exact hj)]
        rfl
      rw [hc]
      have hdvd : ∀ i < n, (listGcd (b k) : Int) ∣ entry m (mV + i) k := by
        intro i hi
        apply listGcd_dvd
        rw [hb, bRow, List.mem_map]; exact ⟨i, by simpa using hi, rfl⟩
      by_cases hjm : j < mV
      · rw [htop j hjm k hk, dvd_neg, dot_comm, dot_eq]
        apply List.dvd_sum
        intro y hy
        rw [List.mem_iff_getElem] at hy
        obtain ⟨i, hi, rfl⟩ := hy
        rw [List.getElem_zipWith]
        exact Dvd.dvd.mul_right (listGcd_dvd (List.getElem_mem _)) _
      · have := hdvd (j - mV) (by omega)
        rwa [show mV + (j - mV) = j by omega] at this
    have h2 := g.prim k hk
    unfold Primitive at h2 ⊢
    rw [h2] at h1
    exact Nat.dvd_one.mp h1
  -- equations
  have lead : ∀ k ∈ L, firstNonzero (b k) = piv k - mV := by
    intro k hk
    obtain ⟨hkn, hle⟩ := (g.L_mem k).mp hk
    have hbd := g.bound k hkn
    apply firstNonzero_eq
    · rw [hb, bRow_length]; omega
    · rw [hb, bRow_getD _ _ _ _ _ (by omega), show mV + (piv k - mV) = piv k by omega]
      exact (g.pos k hkn).ne'
    · intro i hi
      rw [hb, bRow_getD _ _ _ _ _ (by omega)]
      exact g.above k hkn _ (by omega)
  have iso : ∀ k ∈ L, ∀ l < n, l ≠ k → (b l).getD (firstNonzero (b k)) 0 = 0 := by
    intro k hk l hl hlk
    obtain ⟨hkn, hle⟩ := (g.L_mem k).mp hk
    have hbd := g.bound k hkn
    rw [lead k hk, hb, bRow_getD _ _ _ _ _ (by omega), show mV + (piv k - mV) = piv k by omega]
    exact g.iso k hkn l hl hlk
  have hRlen : sp.2.length + sp.1.length = n := by
    have := s2.length_eq
    simp only [List.length_append, List.length_map, List.length_range] at this
    omega
  -- the map to T
  have hTk : ∀ k < n, k ∉ L → piv k ∈ T := by
    intro k hk hkL
    rw [g.T_mem]
    refine ⟨k, hk, rfl, ?_⟩
    by_contra h
    exact hkL ((g.L_mem k).mpr ⟨hk, by omega⟩)
  have pivinj : ∀ k < n, ∀ l < n, piv k = piv l → k = l := by
    intro k hk l hl h
    by_contra hne
    have h1 := g.pos l hl
    rw [← h, g.iso k hk l hl (Ne.symm hne)] at h1
    exact lt_irrefl _ h1
  have binj : ∀ k < n, ∀ l < n, k ∉ L → b k = b l → k = l := by
    intro k hk l hl hkL h
    by_contra hne
    have hp := hTk k hk hkL
    have hlt : piv k < mV := by
      obtain ⟨_, _, h1, h2⟩ := (g.T_mem _).mp hp; exact h2
    have h1 := hdot (piv k) hlt k hk
    have h2 := hdot (piv k) hlt l hl
    rw [← h, h1, g.iso k hk l hl (Ne.symm hne)] at h2
    have := g.pos k hk
    omega
  have hfin : ((List.range n).filter fun k => !(decide (k ∈ L))).Nodup := List.nodup_range.filter _
  have hTperm : T.Perm (((List.range n).filter fun k => !(decide (k ∈ L))).map piv) := by
    rw [List.perm_ext_iff_of_nodup (g.T_sorted.imp fun h => Nat.ne_of_lt h)
      ((List.nodup_map_iff_inj_on hfin).mpr (by
        intro k hk l hl h
        simp only [List.mem_filter, List.mem_range] at hk hl
        exact pivinj k hk.1 l hl.1 h))]
    intro t
    rw [g.T_mem, List.mem_map]
    simp only [List.mem_filter, List.mem_range, Bool.not_eq_true', decide_eq_false_iff_not]
    constructor
    · rintro ⟨k, hk, rfl, hlt⟩
      refine ⟨k, ⟨hk, ?_⟩, rfl⟩
      intro hkL
      have := ((g.L_mem k).mp hkL).2
      omega
    · rintro ⟨k, ⟨hk, hkL⟩, rfl⟩
      have := hTk k hk hkL
      obtain ⟨_, _, h1, h2⟩ := (g.T_mem _).mp this
      exact ⟨k, hk, rfl, h2⟩
  have hTlt : ∀ t ∈ T, t < mV := fun t ht => by obtain ⟨_, _, _, h⟩ := (g.T_mem t).mp ht; exact h
  refine ⟨?_, ?_, ?_, ?_, ?_, ?_, ?_, ?_, hRlen, ?_, g.T_sorted, hTlt, ?_⟩
  · intro e he; obtain ⟨k, _, rfl⟩ := (memE e).mp he; exact bRow_length _ _ _ _
  · intro e he; obtain ⟨k, hk, rfl⟩ := (memE e).mp he; exact hprim k ((g.L_mem k).mp hk).1
  · intro e he
    obtain ⟨k, hk, rfl⟩ := (memE e).mp he
    obtain ⟨hkn, hle⟩ := (g.L_mem k).mp hk
    have hbd := g.bound k hkn
    rw [lead k hk]
    refine ⟨by omega, ?_⟩
    rw [hb, bRow_getD _ _ _ _ _ (by omega), show mV + (piv k - mV) = piv k by omega]
    exact g.pos k hkn
  · intro e he v hv
    obtain ⟨k, hk, rfl⟩ := (memE e).mp he
    obtain ⟨hkn, hle⟩ := (g.L_mem k).mp hk
    obtain ⟨j, hj, rfl⟩ := List.getElem_of_mem hv
    have := hdot j hj k hkn
    rw [g.above k hkn j (by omega)] at this
    rw [List.getD_eq_getElem?_getD, List.getElem?_eq_getElem hj] at this
    simpa using this
  · rw [hE, List.pairwise_map]
    refine (List.Pairwise.imp_of_mem ?_ (sortDesc_strict L g.L_nodup))
    intro k l hk hl hkl
    have hk' := (sortDesc_perm L).mem_iff.mp hk
    have hl' := (sortDesc_perm L).mem_iff.mp hl
    exact ⟨iso k hk' l (hLn l hl) (Nat.ne_of_lt hkl), iso l hl' k (hLn k hk) (Nat.ne_of_gt hkl)⟩
  · intro r hr; obtain ⟨k, _, _, rfl⟩ := (memR r).mp hr; exact bRow_length _ _ _ _
  · intro r hr; obtain ⟨k, hk, _, rfl⟩ := (memR r).mp hr; exact hprim k hk
  · intro r hr e he
    obtain ⟨k, hk, hkL, rfl⟩ := (memR r).mp hr
    obtain ⟨l, hl, rfl⟩ := (memE e).mp he
    exact iso l hl k hk (by rintro rfl; exact hkL hl)
  · rw [hTperm.length_eq, hR.length_eq]; simp
  · classical
    have hex : ∀ r : Row, ∃ k, r ∈ sp.2 → k < n ∧ k ∉ L ∧ b k = r := by
      intro r
      by_cases h : r ∈ sp.2
      · obtain ⟨k, h1, h2, h3⟩ := (memR r).mp h; exact ⟨k, fun _ => ⟨h1, h2, h3⟩⟩
      · exact ⟨0, fun h' => absurd h' h⟩
    choose κ hκ using hex
    refine ⟨fun r => piv (κ r), ?_, ?_⟩
    · have hnd : sp.2.Nodup := by
        rw [hR.nodup_iff, List.nodup_map_iff_inj_on hfin]
        intro k hk l hl h
        simp only [List.mem_filter, List.mem_range, Bool.not_eq_true', decide_eq_false_iff_not] at hk hl
        exact binj k hk.1 l hl.1 hk.2 h
      rw [List.nodup_map_iff_inj_on hnd]
      intro r hr r' hr' h
      obtain ⟨h1, h2, h3⟩ := hκ r hr
      obtain ⟨h1', h2', h3'⟩ := hκ r' hr'
      rw [← h3, ← h3', pivinj _ h1 _ h1' h]
    · intro r hr
      obtain ⟨h1, h2, h3⟩ := hκ r hr
      have hT := hTk _ h1 h2
      refine ⟨hT, ?_, ?_⟩
      · have := hdot _ (hTlt _ hT) _ h1
        rw [h3] at this
        rw [this]
        have := g.pos _ h1
        omega
      · intro t ht hne
        obtain ⟨l, hl, rfl, hlt⟩ := (g.T_mem t).mp ht
        have := hdot _ hlt _ h1
        rw [h3] at this
        rw [this, g.iso l hl (κ r) h1 (by rintro rfl; exact hne rfl)]
        rfl

end Panda
