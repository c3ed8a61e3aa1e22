import Verif.Model.Gauss
import Verif.Proofs.Basic
import Mathlib.LinearAlgebra.LinearIndependent.Lemmas
import Mathlib.LinearAlgebra.FiniteDimensional.Lemmas
import Mathlib.Data.List.Nodup

/-! # The column elimination: loop invariants -/

namespace Panda

/-- a matrix of `R` rows of length `n` -/
def Rect (m : Matrix) (R n : Nat) : Prop := m.length = R ∧ ∀ r ∈ m, r.length = n

/-- column `c` -/
def col (m : Matrix) (c : Nat) : Row := m.map fun r => r.getD c 0

theorem Rect.getD_length {m : Matrix} {R n j : Nat} (h : Rect m R n) (hj : j < R) :
    (m.getD j []).length = n := by
  have hj' : j < m.length := by rw [h.1]; exact hj
  rw [List.getD_eq_getElem?_getD, List.getElem?_eq_getElem hj', Option.getD_some]
  exact h.2 _ (List.getElem_mem hj')

theorem Rect.colSize {m : Matrix} {R n : Nat} (h : Rect m R n) (hR : 0 < R) : colSize m = n := by
  unfold Panda.colSize
  have : m ≠ [] := by rintro rfl; simp [Rect] at h; omega
  rw [← h.2 _ (List.getLast_mem this)]
  congr 1
  rw [List.getLastD_eq_getLast?, List.getLast?_eq_some_getLast this]; rfl

theorem col_length (m : Matrix) (c : Nat) : (col m c).length = m.length := by simp [col]

theorem col_getD (m : Matrix) (j c : Nat) : (col m c).getD j 0 = entry m j c := by
  unfold col entry
  simp only [List.getD_eq_getElem?_getD, List.getElem?_map]
  cases m[j]? <;> simp

theorem col_set_same {m : Matrix} {R n c : Nat} (h : Rect m R n) (hc : c < n) (f : Row → Int) :
    col (m.map fun r => r.set c (f r)) c = m.map f := by
  unfold col
  rw [List.map_map]
  apply List.map_congr_left
  intro r hr
  have := h.2 r hr
  simp [List.getD_eq_getElem?_getD, show c < r.length by omega]

theorem col_set_ne {m : Matrix} {c k : Nat} (hk : k ≠ c) (f : Row → Int) :
    col (m.map fun r => r.set c (f r)) k = col m k := by
  unfold col
  rw [List.map_map]
  apply List.map_congr_left
  intro r _
  simp [List.getD_eq_getElem?_getD, show ¬ c = k from fun h => hk h.symm]

theorem Rect.map_set {m : Matrix} {R n : Nat} (h : Rect m R n) (c : Nat) (f : Row → Int) :
    Rect (m.map fun r => r.set c (f r)) R n := by
  refine ⟨by simp [h.1], ?_⟩
  intro r hr
  obtain ⟨r', hr', rfl⟩ := List.mem_map.mp hr
  simp [h.2 r' hr']

theorem foldl_gcd_eq (l : Row) (v : Nat) : l.foldl gcd (v : Int) = (Nat.gcd v (listGcd l) : Nat) := by
  induction l generalizing v with
  | nil => simp [listGcd]
  | cons x xs ih =>
    rw [List.foldl_cons, gcd_eq, ih]
    congr 1
    show _ = v.gcd (Nat.gcd x.natAbs (listGcd xs))
    rw [← Nat.gcd_assoc]; rfl

theorem normalizeColumn_spec {m : Matrix} {R n c : Nat} (h : Rect m R n) (hc : c < n) :
    Rect (normalizeColumn m c) R n ∧ col (normalizeColumn m c) c = makePrimitive (col m c) ∧
      ∀ k ≠ c, col (normalizeColumn m c) k = col m k := by
  unfold normalizeColumn makePrimitive
  have hg : (m.map fun r => r.getD c 0).foldl gcd 0 = rowGcd (col m c) := by
    have := foldl_gcd_eq (col m c) 0
    simp only [Nat.cast_zero] at this
    rw [rowGcd_eq]
    unfold col at this ⊢
    rw [this]; simp
  simp only [hg]
  split
  · refine ⟨h.map_set _ _, ?_, fun k hk => col_set_ne hk _⟩
    rw [col_set_same h hc, rowQuot_eq]
    unfold col; rw [List.map_map]; rfl
  · exact ⟨h, rfl, fun _ _ => rfl⟩

theorem eliminateColumn_spec {m : Matrix} {R n : Nat} (h : Rect m R n) (p c e : Nat) (he : e < n) :
    Rect (eliminateColumn m p c e) R n ∧
      col (eliminateColumn m p c e) e =
        rowAdd ((col m e).map (· * (-(entry m p c)))) ((col m c).map (· * entry m p e)) ∧
      ∀ k ≠ e, col (eliminateColumn m p c e) k = col m k := by
  unfold eliminateColumn
  refine ⟨h.map_set _ _, ?_, fun k hk => col_set_ne hk _⟩
  rw [col_set_same h he]
  unfold col rowAdd
  simp only [List.map_map]
  rw [List.zipWith_map]
  simp [List.zipWith_self, Function.comp]

/-- a column as a rational vector -/
def cv (R : Nat) (m : Matrix) (k : Nat) : Fin R → ℚ := toV R (col m k)

theorem cv_apply (R : Nat) (m : Matrix) (k : Nat) (j : Fin R) : cv R m k j = (entry m j k : ℚ) := by
  unfold cv toV; rw [col_getD]

theorem entry_of_col_eq {m m' : Matrix} {k : Nat} (h : col m' k = col m k) (j : Nat) :
    entry m' j k = entry m j k := by
  rw [← col_getD, ← col_getD, h]

/-- one elimination of a column -/
theorem eliminateColumnsStep_spec {m : Matrix} {R n p c e : Nat} (h : Rect m R n) (hp : p < R)
    (he : e < n) (hpc : entry m p c ≠ 0) :
    Rect (eliminateColumnsStep p c m e) R n ∧
    (∀ k ≠ e, col (eliminateColumnsStep p c m e) k = col m k) ∧
    col (eliminateColumnsStep p c m c) c = col m c ∧
    (e ≠ c → entry (eliminateColumnsStep p c m e) p e = 0 ∧
      (∃ α β : ℚ, α ≠ 0 ∧ cv R (eliminateColumnsStep p c m e) e = α • cv R m e + β • cv R m c) ∧
      (Primitive (col m e) → (∃ j, entry (eliminateColumnsStep p c m e) j e ≠ 0) →
        Primitive (col (eliminateColumnsStep p c m e) e))) := by
  have h3 : col (eliminateColumnsStep p c m c) c = col m c := by
    unfold eliminateColumnsStep; rw [if_neg (by simp)]
  by_cases hcond : e ≠ c ∧ entry m p e ≠ 0
  · have hstep : eliminateColumnsStep p c m e = normalizeColumn (eliminateColumn m p c e) e := by
      unfold eliminateColumnsStep; rw [if_pos hcond]
    obtain ⟨r1, e1, o1⟩ := eliminateColumn_spec h p c e he
    obtain ⟨r2, e2, o2⟩ := normalizeColumn_spec r1 he
    rw [hstep]
    refine ⟨r2, fun k hk => by rw [o2 k hk, o1 k hk], h3, fun _ => ?_⟩
    obtain ⟨g, hg, hgeq⟩ := toV_makePrimitive R (col (eliminateColumn m p c e) e)
    have hlenm : m.length = R := h.1
    have hcv : cv R (normalizeColumn (eliminateColumn m p c e) e) e =
        (g * (-(entry m p c) : ℤ)) • cv R m e + (g * (entry m p e : ℤ)) • cv R m c := by
      unfold cv
      rw [e2, hgeq, e1, toV_rowAdd R _ _ (by simp [col_length, hlenm]) (by simp [col_length, hlenm]),
        toV_map_mul, toV_map_mul, smul_add, smul_smul, smul_smul]
    refine ⟨?_, ⟨_, _, ?_, hcv⟩, ?_⟩
    · have := congrFun hcv ⟨p, hp⟩
      rw [cv_apply] at this
      simp only [Pi.add_apply, Pi.smul_apply, cv_apply, smul_eq_mul] at this
      have h0 : ((entry (normalizeColumn (eliminateColumn m p c e) e) p e : ℤ) : ℚ) = 0 := by
        rw [this]; push_cast; ring
      exact_mod_cast h0
    · apply mul_ne_zero hg.ne'
      have : -(entry m p c) ≠ 0 := neg_ne_zero.mpr hpc
      exact_mod_cast this
    · rintro _ ⟨j, hj⟩
      rw [e2]
      obtain ⟨g', hg', heq', hprim⟩ := makePrimitive_spec (col (eliminateColumn m p c e) e)
      apply (hprim _).1
      by_contra hno
      push Not at hno
      apply hj
      rw [← col_getD, e2]
      have hz : ∀ x ∈ makePrimitive (col (eliminateColumn m p c e) e), x = 0 := by
        intro x hx
        have := hno (x * g') (by rw [heq']; exact List.mem_map.mpr ⟨x, hx, rfl⟩)
        rcases mul_eq_zero.mp this with h | h
        · exact h
        · omega
      rw [List.getD_eq_getElem?_getD]
      cases hh : (makePrimitive (col (eliminateColumn m p c e) e))[j]? with
      | none => rfl
      | some x => exact hz x (List.mem_of_getElem? hh)
  · have hstep : eliminateColumnsStep p c m e = m := by
      unfold eliminateColumnsStep; rw [if_neg hcond]
    rw [hstep]
    refine ⟨h, fun _ _ => rfl, h3, fun hec => ⟨?_, ⟨1, 0, one_ne_zero, by simp⟩, fun hpr _ => hpr⟩⟩
    by_contra hne; exact hcond ⟨hec, hne⟩

/-- the whole loop -/
theorem eliminateColumns_spec {m : Matrix} {R n p c : Nat} (h : Rect m R n) (hp : p < R)
    (_hc : c < n) (hpc : entry m p c ≠ 0) :
    Rect (eliminateColumns m p c) R n ∧
    col (eliminateColumns m p c) c = col m c ∧
    ∀ k < n, k ≠ c → entry (eliminateColumns m p c) p k = 0 ∧
      (∃ α β : ℚ, α ≠ 0 ∧ cv R (eliminateColumns m p c) k = α • cv R m k + β • cv R m c) ∧
      (Primitive (col m k) → (∃ j, entry (eliminateColumns m p c) j k ≠ 0) →
        Primitive (col (eliminateColumns m p c) k)) := by
  unfold eliminateColumns
  rw [h.colSize (by omega)]
  have key : ∀ K ≤ n, Rect ((List.range K).foldl (eliminateColumnsStep p c) m) R n ∧
      col ((List.range K).foldl (eliminateColumnsStep p c) m) c = col m c ∧
      (∀ k ≥ K, col ((List.range K).foldl (eliminateColumnsStep p c) m) k = col m k) ∧
      ∀ k < K, k ≠ c → entry ((List.range K).foldl (eliminateColumnsStep p c) m) p k = 0 ∧
        (∃ α β : ℚ, α ≠ 0 ∧ cv R ((List.range K).foldl (eliminateColumnsStep p c) m) k =
          α • cv R m k + β • cv R m c) ∧
        (Primitive (col m k) → (∃ j, entry ((List.range K).foldl (eliminateColumnsStep p c) m) j k ≠ 0) →
          Primitive (col ((List.range K).foldl (eliminateColumnsStep p c) m) k)) := by
    intro K
    induction K with
    | zero => intro _; exact ⟨h, rfl, fun _ _ => rfl, by simp⟩
    | succ K ih =>
      intro hK
      obtain ⟨i1, i2, i3, i4⟩ := ih (by omega)
      rw [List.range_succ, List.foldl_append, List.foldl_cons, List.foldl_nil]
      set m' := (List.range K).foldl (eliminateColumnsStep p c) m with hm'
      have hpc' : entry m' p c ≠ 0 := by rw [entry_of_col_eq i2]; exact hpc
      obtain ⟨s1, s2, s3, s4⟩ := eliminateColumnsStep_spec i1 hp (show K < n by omega) hpc'
      refine ⟨s1, ?_, ?_, ?_⟩
      · by_cases hKc : K = c
        · subst hKc; rw [s3, i2]
        · rw [s2 c (fun h => hKc h.symm), i2]
      · intro k hk
        rw [s2 k (by omega), i3 k (by omega)]
      · intro k hk hkc
        by_cases hkK : k = K
        · subst hkK
          obtain ⟨t1, ⟨α, β, hα, t2⟩, t3⟩ := s4 hkc
          refine ⟨t1, ⟨α, β, hα, ?_⟩, ?_⟩
          · rw [t2]; unfold cv; rw [i3 k le_rfl, i2]
          · intro hpr; exact t3 (by rw [i3 k le_rfl]; exact hpr)
        · obtain ⟨t1, ⟨α, β, hα, t2⟩, t3⟩ := i4 k (by omega) hkc
          have hcol := s2 k hkK
          refine ⟨by rw [entry_of_col_eq hcol]; exact t1, ⟨α, β, hα, ?_⟩, ?_⟩
          · rw [← t2]; unfold cv; rw [hcol]
          · rintro hpr ⟨j, hj⟩
            rw [entry_of_col_eq hcol] at hj
            rw [hcol]; exact t3 hpr ⟨j, hj⟩
  obtain ⟨k1, k2, _, k4⟩ := key n le_rfl
  exact ⟨k1, k2, k4⟩

/-! ## The invariant of the main loop -/

/-- invariant before looking at row `r`: `piv` are the pivots found so far -/
structure GInv (V : Matrix) (mV n : Nat) (r : Nat) (s : GaussState) (piv : List (Nat × Nat)) : Prop where
  rect : Rect s.m (mV + n) n
  top : ∀ j < mV, ∀ k < n, (entry s.m j k : ℚ) =
    - ∑ i : Fin n, (entry V j i : ℚ) * entry s.m (mV + i) k
  indep : LinearIndependent ℚ (fun k : Fin n => cv (mV + n) s.m k)
  prim : ∀ k < n, Primitive (col s.m k)
  used : s.used = piv.map Prod.snd
  T_eq : s.T = (piv.filter fun q => decide (q.1 < mV)).map Prod.fst
  L_eq : s.L = (piv.filter fun q => decide (¬ q.1 < mV)).map Prod.snd
  bound : ∀ q ∈ piv, q.1 < r ∧ q.1 < mV + n ∧ q.2 < n
  sorted : piv.Pairwise fun q q' => q.1 < q'.1
  cols : (piv.map Prod.snd).Nodup
  iso : ∀ q ∈ piv, entry s.m q.1 q.2 ≠ 0 ∧ ∀ k < n, k ≠ q.2 → entry s.m q.1 k = 0
  unused : ∀ j < r, ∀ k < n, k ∉ piv.map Prod.snd → entry s.m j k = 0
  above : ∀ q ∈ piv, ∀ j < q.1, entry s.m j q.2 = 0

theorem findCol_some {r : Row} {used : List Nat} {c : Nat} (h : findCol r used = some c) :
    c < r.length ∧ r.getD c 0 ≠ 0 ∧ c ∉ used := by
  unfold findCol at h
  have h1 := List.find?_some h
  have h2 := List.mem_of_find?_eq_some h
  simp only [decide_eq_true_eq] at h1
  exact ⟨List.mem_range.mp h2, h1.1, h1.2⟩

theorem findCol_none {r : Row} {used : List Nat} (h : findCol r used = none) :
    ∀ k < r.length, k ∉ used → r.getD k 0 = 0 := by
  intro k hk hu
  unfold findCol at h
  rw [List.find?_eq_none] at h
  have := h k (List.mem_range.mpr hk)
  simp only [decide_eq_true_eq, not_and, not_not] at this
  by_contra hne; exact hu (this hne)

theorem pivotLoop_spec (m : Matrix) (used : List Nat) {R n : Nat} (hm : Rect m R n) :
    ∀ (fuel row : Nat), fuel + row = R →
      row ≤ (pivotLoop m used fuel row).1 ∧ (pivotLoop m used fuel row).1 ≤ R ∧
      (∀ j, row ≤ j → j < (pivotLoop m used fuel row).1 → ∀ k < n, k ∉ used → entry m j k = 0) ∧
      ((pivotLoop m used fuel row).1 < R → (pivotLoop m used fuel row).2 < n ∧
        (pivotLoop m used fuel row).2 ∉ used ∧
        entry m (pivotLoop m used fuel row).1 (pivotLoop m used fuel row).2 ≠ 0) := by
  intro fuel
  induction fuel with
  | zero =>
    intro row h
    simp only [pivotLoop]
    refine ⟨le_rfl, by omega, fun j h1 h2 => by omega, fun h' => by omega⟩
  | succ fuel ih =>
    intro row h
    unfold pivotLoop
    cases hf : findCol (m.getD row []) used with
    | some c =>
      obtain ⟨h1, h2, h3⟩ := findCol_some hf
      rw [hm.getD_length (by omega)] at h1
      exact ⟨le_rfl, by simp only; omega, fun j h1 h2 => by simp only at h2; omega, fun _ => ⟨h1, h3, h2⟩⟩
    | none =>
      simp only
      obtain ⟨i1, i2, i3, i4⟩ := ih (row + 1) (by omega)
      refine ⟨by omega, i2, ?_, i4⟩
      intro j hj1 hj2 k hk hu
      by_cases hjr : j = row
      · subst hjr
        exact findCol_none hf k (by rw [hm.getD_length (by omega)]; exact hk) hu
      · exact i3 j (by omega) hj2 k hk hu

/-- linear independence survives the elimination -/
theorem indep_elim {R n : Nat} {f f' : Fin n → (Fin R → ℚ)} (c : Fin n)
    (hf : LinearIndependent ℚ f) (hc : f' c = f c)
    (hk : ∀ k, k ≠ c → ∃ α β : ℚ, α ≠ 0 ∧ f' k = α • f k + β • f c) : LinearIndependent ℚ f' := by
  have hk' : ∀ k, ∃ αβ : ℚ × ℚ, αβ.1 ≠ 0 ∧ f' k = αβ.1 • f k + αβ.2 • f c ∧ (k = c → αβ = (1, 0)) := by
    intro k
    by_cases h : k = c
    · subst h; exact ⟨(1, 0), one_ne_zero, by simp [hc], fun _ => rfl⟩
    · obtain ⟨α, β, h1, h2⟩ := hk k h
      exact ⟨(α, β), h1, h2, fun h' => absurd h' h⟩
  choose ab hα heq hcc using hk'
  rw [Fintype.linearIndependent_iff] at hf ⊢
  intro g hg
  have h1 : ∑ k, (g k * (ab k).1 + if k = c then ∑ l, g l * (ab l).2 else 0) • f k = 0 := by
    simp only [add_smul, ite_smul, zero_smul, Finset.sum_add_distrib, Finset.sum_ite_eq',
      Finset.mem_univ, if_true]
    rw [Finset.sum_smul, ← Finset.sum_add_distrib, ← hg]
    apply Finset.sum_congr rfl
    intro k _
    rw [heq k, smul_add, smul_smul, smul_smul]
  have h2 := hf _ h1
  have h3 : ∀ k, k ≠ c → g k = 0 := by
    intro k hkc
    have := h2 k
    rw [if_neg hkc, add_zero] at this
    rcases mul_eq_zero.mp this with h | h
    · exact h
    · exact absurd h (hα k)
  intro k
  by_cases hkc : k = c
  · subst hkc
    have := h2 k
    rw [if_pos rfl] at this
    have hsum : ∑ l, g l * (ab l).2 = 0 := by
      apply Finset.sum_eq_zero
      intro l _
      by_cases hl : l = k
      · rw [hcc l hl]; simp
      · rw [h3 l hl]; simp
    rw [hsum, hcc k rfl] at this
    simpa using this
  · exact h3 k hkc

theorem GInv.step {V : Matrix} {mV n r : Nat} {s : GaussState} {piv : List (Nat × Nat)}
    (h : GInv V mV n r s piv) {p c : Nat} (hrp : r ≤ p) (hp : p < mV + n) (hc : c < n)
    (hcu : c ∉ s.used) (hpc : entry s.m p c ≠ 0)
    (hbetween : ∀ j, r ≤ j → j < p → ∀ k < n, k ∉ s.used → entry s.m j k = 0) :
    GInv V mV n (p + 1)
      { m := eliminateColumns s.m p c
        used := s.used ++ [c]
        L := if p ≥ mV then s.L ++ [c] else s.L
        T := if p ≥ mV then s.T else s.T ++ [p] } (piv ++ [(p, c)]) := by
  obtain ⟨e1, e2, e3⟩ := eliminateColumns_spec h.rect hp hc hpc
  set m' := eliminateColumns s.m p c with hm'
  have hcent : ∀ j, entry m' j c = entry s.m j c := fun j => entry_of_col_eq e2 j
  -- entries of other columns at row j are combinations
  have hcomb : ∀ k < n, k ≠ c → ∃ α β : ℚ, α ≠ 0 ∧ ∀ j < mV + n,
      (entry m' j k : ℚ) = α * entry s.m j k + β * entry s.m j c := by
    intro k hk hkc
    obtain ⟨_, ⟨α, β, hα, hcv⟩, _⟩ := e3 k hk hkc
    refine ⟨α, β, hα, fun j hj => ?_⟩
    have := congrFun hcv ⟨j, hj⟩
    simpa only [cv_apply, Pi.add_apply, Pi.smul_apply, smul_eq_mul] using this
  -- column c is zero above p
  have hcabove : ∀ j < p, entry s.m j c = 0 := by
    intro j hj
    by_cases hjr : j < r
    · exact h.unused j hjr c hc (by rw [← h.used]; exact hcu)
    · exact hbetween j (by omega) hj c hc hcu
  have hzero_of : ∀ j < p, ∀ k < n, k ≠ c → entry s.m j k = 0 → entry m' j k = 0 := by
    intro j hj k hk hkc h0
    obtain ⟨α, β, _, hh⟩ := hcomb k hk hkc
    have := hh j (by omega)
    rw [h0, hcabove j hj] at this
    have h1 : ((entry m' j k : ℤ) : ℚ) = 0 := by rw [this]; simp
    exact_mod_cast h1
  have hindep : LinearIndependent ℚ (fun k : Fin n => cv (mV + n) m' k) := by
    refine indep_elim ⟨c, hc⟩ h.indep ?_ ?_
    · simp only [cv]; rw [e2]
    · intro k hk
      exact (e3 k k.2 (fun h => hk (Fin.ext h))).2.1
  refine ⟨e1, ?_, hindep, ?_, ?_, ?_, ?_, ?_, ?_, ?_, ?_, ?_, ?_⟩
  · -- top
    intro j hj k hk
    by_cases hkc : k = c
    · subst hkc; simp only [hcent]; exact h.top j hj k hk
    · obtain ⟨α, β, _, hh⟩ := hcomb k hk hkc
      rw [hh j (by omega), h.top j hj k hk, h.top j hj c hc]
      have : ∀ i : Fin n, (entry V j i : ℚ) * entry m' (mV + i) k =
          α * ((entry V j i : ℚ) * entry s.m (mV + i) k) + β * ((entry V j i : ℚ) * entry s.m (mV + i) c) := by
        intro i
        rw [hh (mV + i) (by omega)]; ring
      simp only [this, Finset.sum_add_distrib, ← Finset.mul_sum]; ring
  · -- prim
    intro k hk
    by_cases hkc : k = c
    · subst hkc; simp only [e2]; exact h.prim k hk
    · refine (e3 k hk hkc).2.2 (h.prim k hk) ?_
      by_contra hno
      push Not at hno
      have := hindep.ne_zero ⟨k, hk⟩
      apply this
      funext j
      simp only [cv_apply, Pi.zero_apply]
      exact_mod_cast hno j
  · simp [h.used]
  · simp only [List.filter_append, List.map_append, ← h.T_eq]
    by_cases hpt : p < mV
    · rw [if_neg (by omega)]; simp [hpt]
    · rw [if_pos (by omega)]; simp [hpt]
  · simp only [List.filter_append, List.map_append, ← h.L_eq]
    by_cases hpt : p < mV
    · rw [if_neg (by omega)]; simp [hpt]
    · rw [if_pos (by omega)]; simp [Nat.le_of_not_lt hpt]
  · intro q hq
    rw [List.mem_append, List.mem_singleton] at hq
    rcases hq with hq | rfl
    · obtain ⟨b1, b2, b3⟩ := h.bound q hq; exact ⟨by omega, b2, b3⟩
    · exact ⟨by simp, hp, hc⟩
  · rw [List.pairwise_append]
    refine ⟨h.sorted, by simp, ?_⟩
    intro q hq q' hq'
    rw [List.mem_singleton] at hq'
    subst hq'
    have := (h.bound q hq).1
    simp only; omega
  · rw [List.map_append, List.nodup_append]
    refine ⟨h.cols, by simp, ?_⟩
    intro a ha b hb hab
    simp only [List.map_cons, List.map_nil, List.mem_singleton] at hb
    subst hb; subst hab
    exact hcu (by rw [h.used]; exact ha)
  · intro q hq
    rw [List.mem_append, List.mem_singleton] at hq
    rcases hq with hq | rfl
    · obtain ⟨i1, i2⟩ := h.iso q hq
      obtain ⟨b1, b2, b3⟩ := h.bound q hq
      have hqc : q.2 ≠ c := by
        rintro rfl; exact hcu (by rw [h.used]; exact List.mem_map.mpr ⟨q, hq, rfl⟩)
      refine ⟨?_, ?_⟩
      · obtain ⟨α, β, hα, hh⟩ := hcomb q.2 b3 hqc
        intro h0
        have := hh q.1 b2
        rw [h0, i2 c hc (Ne.symm hqc)] at this
        simp only [Int.cast_zero, mul_zero, add_zero] at this
        rcases mul_eq_zero.mp this.symm with h' | h'
        · exact hα h'
        · exact i1 (by exact_mod_cast h')
      · intro k hk hkq
        by_cases hkc : k = c
        · subst hkc; rw [hcent]; exact i2 k hk hkq
        · exact hzero_of q.1 (by omega) k hk hkc (i2 k hk hkq)
    · exact ⟨by simp only [hcent]; exact hpc, fun k hk hkc => (e3 k hk hkc).1⟩
  · intro j hj k hk hku
    simp only [List.map_append, List.map_cons, List.map_nil, List.mem_append, List.mem_singleton, not_or] at hku
    by_cases hjp : j = p
    · subst hjp; exact (e3 k hk hku.2).1
    · apply hzero_of j (by omega) k hk hku.2
      by_cases hjr : j < r
      · exact h.unused j hjr k hk hku.1
      · exact hbetween j (by omega) (by omega) k hk (by rw [h.used]; exact hku.1)
  · intro q hq j hj
    rw [List.mem_append, List.mem_singleton] at hq
    rcases hq with hq | rfl
    · obtain ⟨b1, b2, b3⟩ := h.bound q hq
      have hqc : q.2 ≠ c := by
        rintro rfl; exact hcu (by rw [h.used]; exact List.mem_map.mpr ⟨q, hq, rfl⟩)
      exact hzero_of j (by omega) q.2 b3 hqc (h.above q hq j hj)
    · simp only at hj ⊢
      rw [hcent]; exact hcabove j hj

theorem gaussLoop_inv {V : Matrix} {mV n : Nat} : ∀ (fuel r : Nat) (s : GaussState)
    (piv : List (Nat × Nat)), mV + n ≤ fuel + r → r ≤ mV + n → GInv V mV n r s piv →
    ∃ piv', GInv V mV n (mV + n) (gaussLoop mV fuel r s) piv' := by
  intro fuel
  induction fuel with
  | zero =>
    intro r s piv h1 h2 h
    have : r = mV + n := by omega
    subst this; exact ⟨piv, h⟩
  | succ fuel ih =>
    intro r s piv h1 h2 h
    unfold gaussLoop
    have hlen : s.m.length = mV + n := h.rect.1
    by_cases hr : r < s.m.length
    · rw [if_pos hr]
      simp only
      have hpv := pivotLoop_spec s.m s.used h.rect (s.m.length - r) r (by omega)
      have hpe : pivot s.m r s.used = pivotLoop s.m s.used (s.m.length - r) r := rfl
      rw [← hpe] at hpv
      obtain ⟨p1, p2, p3, p4⟩ := hpv
      by_cases hend : (pivot s.m r s.used).1 = s.m.length
      · rw [if_pos hend]
        refine ⟨piv, { h with bound := ?_, unused := ?_ }⟩
        · intro q hq; obtain ⟨b1, b2, b3⟩ := h.bound q hq; exact ⟨by omega, b2, b3⟩
        · intro j hj k hk hku
          by_cases hjr : j < r
          · exact h.unused j hjr k hk hku
          · exact p3 j (by omega) (by omega) k hk (by rw [h.used]; exact hku)
      · rw [if_neg hend]
        obtain ⟨q1, q2, q3⟩ := p4 (by omega)
        exact ih _ _ _ (by omega) (by omega) (h.step p1 (by omega) q1 q2 q3 p3)
    · rw [if_neg hr]
      have : r = mV + n := by omega
      subst this; exact ⟨piv, h⟩

/-! ## The start -/

theorem append_rect {V : Matrix} {mV n : Nat} (hV : Rect V mV n) (hm : 0 < mV) :
    Rect (appendNegativeIdentityMatrix V) (mV + n) n := by
  unfold appendNegativeIdentityMatrix
  rw [hV.colSize hm]
  refine ⟨by simp [hV.1], ?_⟩
  intro r hr
  simp only [List.mem_append, List.mem_map, List.mem_range] at hr
  rcases hr with hr | ⟨i, _, rfl⟩
  · exact hV.2 r hr
  · simp

theorem append_entry_top {V : Matrix} {mV n : Nat} (hV : Rect V mV n) {j : Nat} (hj : j < mV)
    (k : Nat) : entry (appendNegativeIdentityMatrix V) j k = entry V j k := by
  unfold appendNegativeIdentityMatrix entry
  simp only
  congr 1
  simp only [List.getD_eq_getElem?_getD]
  rw [List.getElem?_append_left (by rw [hV.1]; exact hj)]

theorem append_entry_bot {V : Matrix} {mV n : Nat} (hV : Rect V mV n) (hm : 0 < mV) {i k : Nat}
    (hi : i < n) : entry (appendNegativeIdentityMatrix V) (mV + i) k = if k = i then -1 else 0 := by
  unfold appendNegativeIdentityMatrix entry
  simp only [hV.colSize hm]
  simp only [List.getD_eq_getElem?_getD]
  rw [List.getElem?_append_right (by rw [hV.1]; omega), hV.1, Nat.add_sub_cancel_left]
  simp only [List.getElem?_map, List.getElem?_range hi, Option.map_some, Option.getD_some,
    List.getElem?_set, List.length_replicate, List.getElem?_replicate]
  by_cases hik : k = i
  · subst hik; simp [hi]
  · have : ¬ i = k := fun h => hik h.symm
    simp only [this, hik, if_false]
    split <;> simp

theorem gauss_start {V : Matrix} {mV n : Nat} (hV : Rect V mV n) (hm : 0 < mV) :
    GInv V mV n 0 { m := appendNegativeIdentityMatrix V, used := [], L := [], T := [] } [] := by
  have hbot := fun {i k : Nat} => append_entry_bot (V := V) (i := i) (k := k) hV hm
  refine ⟨append_rect hV hm, ?_, ?_, ?_, rfl, rfl, rfl, by simp, List.Pairwise.nil, by simp, by simp,
    by simp, by simp⟩
  · intro j hj k hk
    simp only
    rw [append_entry_top hV hj]
    rw [Finset.sum_eq_single (⟨k, hk⟩ : Fin n)]
    · rw [hbot hk]; simp
    · intro i _ hne
      rw [hbot i.2]
      have : ¬ k = (i : Nat) := fun h => hne (Fin.ext h.symm)
      simp [this]
    · simp
  · rw [Fintype.linearIndependent_iff]
    intro g hg k
    have := congrFun hg ⟨mV + k, by omega⟩
    simp only [Finset.sum_apply, Pi.smul_apply, cv_apply, smul_eq_mul, Pi.zero_apply] at this
    rw [Finset.sum_eq_single k] at this
    · rw [hbot k.2] at this; simpa using this
    · intro l _ hne
      rw [hbot k.2]
      have : ¬ (l : Nat) = (k : Nat) := fun h => hne (Fin.ext h)
      simp [this]
    · simp
  · intro k hk
    simp only
    unfold Primitive
    have h1 : (-1 : Int) ∈ col (appendNegativeIdentityMatrix V) k := by
      have he := hbot (k := k) hk
      rw [if_pos rfl, ← col_getD] at he
      rw [← he, List.getD_eq_getElem?_getD]
      have hl : mV + k < (col (appendNegativeIdentityMatrix V) k).length := by
        rw [col_length, (append_rect hV hm).1]; omega
      rw [List.getElem?_eq_getElem hl, Option.getD_some]
      exact List.getElem_mem hl
    have h2 := listGcd_dvd h1
    have h3 : (listGcd (col (appendNegativeIdentityMatrix V) k)) ∣ 1 := by
      have := Int.natCast_dvd.mp h2; simpa using this
    exact Nat.dvd_one.mp h3

/-! ## The sign fix -/

theorem fixSign_spec {m : Matrix} {R n c : Nat} (h : Rect m R n) (hc : c < n)
    {p : Nat} (hp : p < R) (hpc : entry m p c ≠ 0) (habove : ∀ j < p, entry m j c = 0) :
    Rect (fixSign m c) R n ∧ (∀ k ≠ c, col (fixSign m c) k = col m k) ∧
      0 < entry (fixSign m c) p c ∧
      ∃ ε : Int, (ε = 1 ∨ ε = -1) ∧ col (fixSign m c) c = (col m c).map (· * ε) := by
  have hfind : (m.find? fun r => decide (r.getD c 0 ≠ 0)) = some (m.getD p []) := by
    have hpl : p < m.length := by rw [h.1]; exact hp
    rw [List.getD_eq_getElem?_getD, List.getElem?_eq_getElem hpl, Option.getD_some]
    rw [List.find?_eq_some_iff_getElem]
    refine ⟨?_, p, hpl, rfl, ?_⟩
    · simp only [entry, List.getD_eq_getElem?_getD, List.getElem?_eq_getElem hpl, Option.getD_some] at hpc
      simpa [List.getD_eq_getElem?_getD] using hpc
    · intro j hj
      have := habove j hj
      simp only [entry, List.getD_eq_getElem?_getD, List.getElem?_eq_getElem (show j < m.length by omega), Option.getD_some] at this
      simpa [List.getD_eq_getElem?_getD] using this
  unfold fixSign
  rw [hfind]
  simp only
  split
  · next hneg =>
    refine ⟨h.map_set _ _, fun k hk => col_set_ne hk _, ?_, -1, Or.inr rfl, ?_⟩
    · have hcs := col_set_same h hc (fun r => r.getD c 0 * (-1))
      rw [← col_getD, hcs]
      have hpl : p < m.length := by rw [h.1]; exact hp
      simp only [List.getD_eq_getElem?_getD, List.getElem?_map, List.getElem?_eq_getElem hpl,
        Option.map_some, Option.getD_some] at hneg ⊢
      omega
    · rw [col_set_same h hc]
      unfold col; rw [List.map_map]; rfl
  · next hneg =>
    refine ⟨h, fun _ _ => rfl, ?_, 1, Or.inl rfl, by simp⟩
    have : entry m p c = (m.getD p []).getD c 0 := rfl
    push Not at hneg
    omega

/-- The result of the elimination.  `piv c` is the row of the pivot of column `c`. -/
structure GaussRes (V : Matrix) (mV n : Nat) (m : Matrix) (L T : List Nat) (piv : Nat → Nat) : Prop where
  rect : Rect m (mV + n) n
  top : ∀ j < mV, ∀ k < n, (entry m j k : ℚ) = - ∑ i : Fin n, (entry V j i : ℚ) * entry m (mV + i) k
  indep : LinearIndependent ℚ (fun k : Fin n => cv (mV + n) m k)
  prim : ∀ k < n, Primitive (col m k)
  bound : ∀ k < n, piv k < mV + n
  pos : ∀ k < n, 0 < entry m (piv k) k
  iso : ∀ k < n, ∀ l < n, l ≠ k → entry m (piv k) l = 0
  above : ∀ k < n, ∀ j < piv k, entry m j k = 0
  L_mem : ∀ k, k ∈ L ↔ k < n ∧ mV ≤ piv k
  L_nodup : L.Nodup
  T_mem : ∀ j, j ∈ T ↔ ∃ k < n, piv k = j ∧ j < mV
  T_sorted : T.Pairwise (· < ·)

theorem gaussianElimination_spec {V : Matrix} {mV n : Nat} (hV : Rect V mV n) (hm : 0 < mV)
    (hn : 0 < n) : ∃ piv, GaussRes V mV n (gaussianElimination (appendNegativeIdentityMatrix V)).1
      (gaussianElimination (appendNegativeIdentityMatrix V)).2.1
      (gaussianElimination (appendNegativeIdentityMatrix V)).2.2 piv := by
  have hr := append_rect hV hm
  unfold gaussianElimination
  simp only
  rw [hr.colSize (by omega), hr.1, Nat.add_sub_cancel]
  obtain ⟨piv, h⟩ := gaussLoop_inv (V := V) (mV := mV) (n := n) (mV + n) 0 _ [] (by omega) (by omega)
    (gauss_start hV hm)
  set s := gaussLoop mV (mV + n) 0
    { m := appendNegativeIdentityMatrix V, used := [], L := [], T := [] } with hs
  -- every column has a pivot
  have hall : ∀ k < n, k ∈ piv.map Prod.snd := by
    intro k hk
    by_contra hno
    have := h.indep.ne_zero ⟨k, hk⟩
    apply this
    funext j
    simp only [cv_apply]
    have := h.unused j j.2 k hk hno
    simp [this]
  have hex : ∀ k, ∃ p, k < n → (p, k) ∈ piv := by
    intro k
    by_cases hk : k < n
    · obtain ⟨q, hq, hqk⟩ := List.mem_map.mp (hall k hk)
      exact ⟨q.1, fun _ => by rw [← hqk]; exact hq⟩
    · exact ⟨0, fun h => absurd h hk⟩
  choose pv hpv using hex
  have huniq : ∀ q ∈ piv, q.1 = pv q.2 := by
    intro q hq
    have hb := (h.bound q hq).2.2
    have h1 := hpv q.2 hb
    have := List.inj_on_of_nodup_map h.cols hq h1 rfl
    rw [this]
  refine ⟨pv, ?_⟩
  -- sign fixing keeps everything
  have key : ∀ K ≤ n, ∃ ε : Nat → Int, (∀ k, ε k = 1 ∨ ε k = -1) ∧
      Rect ((List.range K).foldl fixSign s.m) (mV + n) n ∧
      (∀ k, col ((List.range K).foldl fixSign s.m) k = (col s.m k).map (· * ε k)) ∧
      (∀ k < K, 0 < entry ((List.range K).foldl fixSign s.m) (pv k) k) := by
    intro K
    induction K with
    | zero => intro _; exact ⟨fun _ => 1, fun _ => Or.inl rfl, h.rect, fun k => by simp, by simp⟩
    | succ K ih =>
      intro hK
      obtain ⟨ε, hε, i1, i2, i3⟩ := ih (by omega)
      rw [List.range_succ, List.foldl_append, List.foldl_cons, List.foldl_nil]
      set m' := (List.range K).foldl fixSign s.m with hm'
      have hent : ∀ j k, entry m' j k = entry s.m j k * ε k := by
        intro j k
        rw [← col_getD, i2 k, ← col_getD]
        simp only [List.getD_eq_getElem?_getD, List.getElem?_map]
        cases (col s.m k)[j]? <;> simp
      have hKn : K < n := by omega
      have hq := hpv K hKn
      obtain ⟨s1, s2, s3, ε', hε', s4⟩ := fixSign_spec i1 hKn (p := pv K) (h.bound _ hq).2.1
        (by
          rw [hent]
          apply mul_ne_zero (h.iso _ hq).1
          rcases hε K with h | h <;> rw [h] <;> decide)
        (by intro j hj; rw [hent, h.above _ hq j hj]; simp)
      refine ⟨fun k => if k = K then ε K * ε' else ε k, ?_, s1, ?_, ?_⟩
      · intro k
        by_cases hk : k = K
        · simp only [hk, if_true]
          rcases hε K with h | h <;> rcases hε' with h' | h' <;> rw [h, h'] <;> decide
        · simp only [hk, if_false]; exact hε k
      · intro k
        by_cases hk : k = K
        · subst hk
          simp only [if_true]
          rw [s4, i2, List.map_map]
          apply List.map_congr_left
          intro x _; simp only [Function.comp]; ring
        · simp only [hk, if_false]
          rw [s2 k hk, i2 k]
      · intro k hk
        by_cases hkK : k = K
        · subst hkK; exact s3
        · rw [entry_of_col_eq (s2 k hkK)]; exact i3 k (by omega)
  obtain ⟨ε, hε, r1, r2, r3⟩ := key n le_rfl
  set m' := (List.range n).foldl fixSign s.m with hm'
  have hent : ∀ j k, entry m' j k = entry s.m j k * ε k := by
    intro j k
    rw [← col_getD, r2 k, ← col_getD]
    simp only [List.getD_eq_getElem?_getD, List.getElem?_map]
    cases (col s.m k)[j]? <;> simp
  refine ⟨r1, ?_, ?_, ?_, ?_, r3, ?_, ?_, ?_, ?_, ?_, ?_⟩
  · intro j hj k hk
    rw [hent]; push_cast
    rw [h.top j hj k hk, neg_mul, Finset.sum_mul]
    congr 1
    apply Finset.sum_congr rfl
    intro i _
    rw [hent]; push_cast; ring
  · have : (fun k : Fin n => cv (mV + n) m' k) = fun k : Fin n => (ε k : ℚ) • cv (mV + n) s.m k := by
      funext k; unfold cv; rw [r2, toV_map_mul]
    rw [this, Fintype.linearIndependent_iff]
    intro g hg k
    have hi := Fintype.linearIndependent_iff.mp h.indep (fun k => g k * ε k) (by
      rw [← hg]; apply Finset.sum_congr rfl; intro k _; rw [smul_smul])
    have := hi k
    rcases mul_eq_zero.mp this with h1 | h1
    · exact h1
    · exfalso; rcases hε k with h2 | h2 <;> rw [h2] at h1 <;> norm_num at h1
  · intro k hk
    unfold Primitive
    rw [r2, listGcd_map_mul, h.prim k hk]
    rcases hε k with h2 | h2 <;> rw [h2] <;> rfl
  · intro k hk; exact (h.bound _ (hpv k hk)).2.1
  · intro k hk l hl hlk
    rw [hent, (h.iso _ (hpv k hk)).2 l hl hlk]; simp
  · intro k hk j hj
    rw [hent, h.above _ (hpv k hk) j hj]; simp
  · intro k
    rw [h.L_eq]
    simp only [List.mem_map, List.mem_filter, decide_eq_true_eq]
    constructor
    · rintro ⟨q, ⟨hq, hlt⟩, rfl⟩
      refine ⟨(h.bound q hq).2.2, ?_⟩
      rw [← huniq q hq]; omega
    · rintro ⟨hk, hle⟩
      exact ⟨(pv k, k), ⟨hpv k hk, by simp only; omega⟩, rfl⟩
  · rw [h.L_eq]
    exact List.Nodup.sublist ((List.filter_sublist).map _) h.cols
  · intro j
    rw [h.T_eq]
    simp only [List.mem_map, List.mem_filter, decide_eq_true_eq]
    constructor
    · rintro ⟨q, ⟨hq, hlt⟩, rfl⟩
      exact ⟨q.2, (h.bound q hq).2.2, (huniq q hq).symm, hlt⟩
    · rintro ⟨k, hk, rfl, hlt⟩
      exact ⟨(pv k, k), ⟨hpv k hk, hlt⟩, rfl⟩
  · rw [h.T_eq, List.pairwise_map]
    exact (h.sorted.filter _)

end Panda
