import Verif.Proofs.Extreme

/-! # The edges that adjacency decomposition does not follow -/

namespace Panda

open Cone

section
variable {d : Nat} {A : Matrix} {f r : Row}

/-- a vector that vanishes where an extreme ray and a ridge of it vanish is in their span -/
theorem span_of_ridge {n : Nat} (hA : ∀ a ∈ A, a.length = n) (hE : ∀ x : Fin n → ℚ, (∀ a ∈ A, ev n a x = 0) → x = 0)
    (hfl : f.length = n) (hf : FacetP n A f) (hrl : r.length = n) (hr : FacetP n (onFacet A f) r) {z : Fin n → ℚ}
    (hz : ∀ a ∈ A, dot f a = 0 → dot r a = 0 → ev n a z = 0) : ∃ α β : ℚ, z = α • toV n r + β • toV n f := by
  obtain ⟨N, b, hN, hb, heq⟩ := exists_int_multiple z
  have hN' : (N : ℚ) ≠ 0 := by exact_mod_cast hN.ne'
  have hbev : ∀ a ∈ A, (dot b a : ℚ) = N * ev n a z := by
    intro a ha; rw [dot_comm, ← ev_row (hA a ha), heq, map_smul, smul_eq_mul]
  obtain ⟨t, ht⟩ := hr.tight b hb (fun v hv h0 => by
    obtain ⟨h1, h2⟩ := mem_onFacet.mp hv
    have := hbev v h1
    rw [hz v h1 h2 h0, mul_zero] at this
    exact_mod_cast this)
  obtain ⟨M, b', hM, hb', heq'⟩ := exists_int_multiple ((N : ℚ) • z - t • toV n r)
  have hM' : (M : ℚ) ≠ 0 := by exact_mod_cast hM.ne'
  have hbev' : ∀ a ∈ A, (dot b' a : ℚ) = M * (dot b a - t * dot r a) := by
    intro a ha
    rw [dot_comm b' a, ← ev_row (hA a ha), heq', map_smul, map_sub, map_smul, map_smul, ev_row (hA a ha), smul_eq_mul, smul_eq_mul, smul_eq_mul,
      hbev a ha, dot_comm r a]
  obtain ⟨s, hs⟩ := hf.tight b' hb' (fun v hv h0 => by
    have := hbev' v hv
    rw [ht v (mem_onFacet.mpr ⟨hv, h0⟩), sub_self, mul_zero] at this
    exact_mod_cast this)
  have h1 : toV n b' = s • toV n f := by
    rw [← sub_eq_zero]
    apply hE
    intro a ha
    rw [map_sub, map_smul, ev_row (hA a ha), ev_row (hA a ha), smul_eq_mul, dot_comm a b', dot_comm a f, hs a ha, sub_self]
  rw [heq'] at h1
  refine ⟨t / N, s / (M * N), ?_⟩
  have h2 : z = ((M : ℚ) * N)⁻¹ • ((M : ℚ) • ((N : ℚ) • z - t • toV n r)) + (t / N) • toV n r := by
    rw [smul_smul, smul_sub, smul_smul, smul_smul]
    have e1 : ((M : ℚ) * N)⁻¹ * M * N = 1 := by field_simp
    have e2 : ((M : ℚ) * N)⁻¹ * M * t = t / N := by field_simp
    rw [e1, e2, one_smul, sub_add_cancel]
  rw [h1, smul_smul] at h2
  rw [add_comm]
  convert h2 using 3
  field_simp

/-- a ridge of a vertex is an edge of the solution set -/
theorem edge_of_ridge (hA : ∀ a ∈ A, a.length = d + 1) (hE : ∀ x : Fin (d+1) → ℚ, (∀ a ∈ A, ev (d+1) a x = 0) → x = 0)
    (hfl : f.length = d + 1) (hf : FacetP (d+1) A f) (hw : 0 < f.getD d 0) (hrl : r.length = d + 1)
    (hr : FacetP (d+1) (onFacet A f) r) {u : Fin d → ℚ} {c : ℚ} (hu : toV (d+1) r = dirH d u + c • toV (d+1) f) :
    ∃ t : ℚ, 0 < t ∧ Spec.Edge (Spec.Solves d A) (Spec.coord d f) (t • u) := by
  have hw' : (0 : ℚ) < f.getD d 0 := by exact_mod_cast hw
  have hpt := toV_point (d := d) hw.ne'
  have hW : ∀ a ∈ A, dot f a = 0 → ev (d+1) a (dirH d u) = dot r a := by
    intro a ha h0
    have := congrArg (ev (d+1) a) hu
    rw [ev_row (hA a ha), map_add, map_smul, ev_row (hA a ha), dot_comm a f, h0, dot_comm a r] at this
    simpa using this.symm
  have hu0 : u ≠ 0 := by
    rintro rfl
    obtain ⟨v, hv, h0⟩ := hr.strict
    obtain ⟨h1, h2⟩ := mem_onFacet.mp hv
    have h3 := hW v h1 h2
    have h4 : dirH d (0 : Fin d → ℚ) = 0 := by
      funext i
      refine Fin.lastCases ?_ (fun i => ?_) i
      · simp [dirH_last]
      · simp [dirH_castSucc]
    rw [h4, map_zero] at h3
    exact h0 (by exact_mod_cast h3.symm)
  let s : Finset (Fin A.length) := Finset.univ.filter fun j => (dot f A[j] : ℚ) < 0
  obtain ⟨ε, e0, e1⟩ := exists_eps s (fun j => (dot f A[j] : ℚ)) (fun j => ev (d+1) A[j] (dirH d u))
    (fun j hj => (Finset.mem_filter.mp hj).2)
  have hab : ∀ a ∈ A, (dot f a : ℚ) + ε * ev (d+1) a (dirH d u) ≤ 0 := by
    intro a ha
    rcases lt_or_eq_of_le (hf.valid a ha) with hlt | heq
    · obtain ⟨j, hj, rfl⟩ := List.getElem_of_mem ha
      have hjs : (⟨j, hj⟩ : Fin A.length) ∈ s := by
        refine Finset.mem_filter.mpr ⟨Finset.mem_univ _, ?_⟩
        show ((dot f A[j] : Int) : ℚ) < 0
        exact_mod_cast hlt
      exact (e1 _ e0.le le_rfl _ hjs).le
    · rw [heq, hW a ha heq]
      have h2 := hr.valid a (mem_onFacet.mpr ⟨ha, heq⟩)
      have h3 : (dot r a : ℚ) ≤ 0 := by exact_mod_cast h2
      have := mul_nonpos_of_nonneg_of_nonpos e0.le h3
      simpa using this
  have hfev : ∀ a ∈ A, ev (d+1) a (hom d (Spec.coord d f)) = (dot f a : ℚ) / f.getD d 0 := by
    intro a ha
    have := ev_row (hA a ha) f
    rw [hpt, map_smul, smul_eq_mul, dot_comm] at this
    rw [← this]; field_simp
  have hfS : Spec.Solves d A (Spec.coord d f) := by
    rw [solves_iff]; intro a ha
    rw [hfev a ha]
    exact div_nonpos_of_nonpos_of_nonneg (by exact_mod_cast hf.valid a ha) hw'.le
  refine ⟨ε / f.getD d 0, div_pos e0 hw', smul_ne_zero (div_pos e0 hw').ne' hu0, hfS, ?_, ?_⟩
  · rw [solves_iff]
    intro a ha
    rw [hom_add_smul, map_add, map_smul, hfev a ha, smul_eq_mul]
    have h1 := hab a ha
    have h2 : (dot f a : ℚ) / f.getD d 0 + ε / f.getD d 0 * ev (d+1) a (dirH d u) = ((dot f a : ℚ) + ε * ev (d+1) a (dirH d u)) / f.getD d 0 := by
      field_simp
    rw [h2]
    exact div_nonpos_of_nonpos_of_nonneg h1 hw'.le
  · rintro x y τ hx hy h0 h1 ⟨σ, hσ⟩
    have hsum : ∀ a ∈ A, dot f a = 0 → dot r a = 0 → ev (d+1) a (hom d x) = 0 ∧ ev (d+1) a (hom d y) = 0 := by
      intro a ha hfa hra
      have h2 : τ • hom d x + (1 - τ) • hom d y = hom d (Spec.coord d f + σ • ((ε / f.getD d 0) • u)) := by
        rw [← hσ]
        funext i
        refine Fin.lastCases ?_ (fun i => ?_) i
        · simp [hom_last]
        · simp [hom_castSucc]
      have h3 := congrArg (ev (d+1) a) h2
      rw [smul_smul, hom_add_smul, map_add, map_add, map_smul, map_smul, map_smul, hfev a ha, hfa, hW a ha hfa, hra] at h3
      simp only [Int.cast_zero, zero_div, smul_zero, add_zero, smul_eq_mul] at h3
      have hx1 := solves_iff.mp hx a ha
      have hy1 := solves_iff.mp hy a ha
      have h4 := mul_nonpos_of_nonneg_of_nonpos h0.le hx1
      have h5 := mul_nonpos_of_nonneg_of_nonpos (by linarith : (0 : ℚ) ≤ 1 - τ) hy1
      have h6 : τ * ev (d+1) a (hom d x) = 0 := by linarith
      have h7 : (1 - τ) * ev (d+1) a (hom d y) = 0 := by linarith
      exact ⟨(mul_eq_zero.mp h6).resolve_left h0.ne', (mul_eq_zero.mp h7).resolve_left (by linarith : 0 < 1 - τ).ne'⟩
    have fin : ∀ z : Fin d → ℚ, (∀ a ∈ A, dot f a = 0 → dot r a = 0 → ev (d+1) a (hom d z) = 0) →
        ∃ k : ℚ, z = Spec.coord d f + k • ((ε / f.getD d 0) • u) := by
      intro z hz
      obtain ⟨α, β, hαβ⟩ := span_of_ridge hA hE hfl hf hrl hr hz
      rw [hu, smul_add, smul_smul, add_assoc, ← add_smul, hpt, smul_smul] at hαβ
      have hl := congrFun hαβ (Fin.last d)
      simp only [hom_last, Pi.add_apply, Pi.smul_apply, dirH_last, smul_eq_mul, mul_zero, zero_add, mul_one] at hl
      rw [← hl, one_smul] at hαβ
      refine ⟨α * (f.getD d 0 / ε), ?_⟩
      have e : α * (f.getD d 0 / ε) * (ε / f.getD d 0) = α := by
        have := e0.ne'
        field_simp
      rw [smul_smul, e]
      funext i
      have := congrFun hαβ i.castSucc
      simp only [hom_castSucc, Pi.add_apply, Pi.smul_apply, dirH_castSucc, smul_eq_mul] at this
      rw [this, add_comm]; rfl
    exact ⟨fin x fun a ha h2 h3 => (hsum a ha h2 h3).1, fin y fun a ha h2 h3 => (hsum a ha h2 h3).2⟩

theorem getD_lt_firstNonzero : ∀ (r : Row) (j : Nat), j < firstNonzero r → r.getD j 0 = 0 := by
  intro r
  induction r with
  | nil => intro j hj; simp
  | cons x xs ih =>
    intro j hj
    unfold firstNonzero at hj
    split at hj
    · omega
    · next h =>
      cases j with
      | zero => simpa using h
      | succ j => simpa using ih j (by omega)

/-- the ridges that are discarded are the edges that lead away from the origin -/
theorem edge_of_discarded (hA : ∀ a ∈ A, a.length = d + 1) (hE : ∀ x : Fin (d+1) → ℚ, (∀ a ∈ A, ev (d+1) a x = 0) → x = 0)
    (htriv : trivialRow d ∈ A) (hrk : 2 ≤ Spec.rank (d+1) A) (hf : NormalFacet (d+1) A [] f)
    {F1 : Matrix} (hel : Elim (onFacet A f) (d+1) (gaussSplit (onFacet A f)).1 F1) (hr : r ∈ F1)
    (hbad : isBadRow (eraseAll (zeroCols (gaussSplit (onFacet A f)).2.1) r) = true) :
    0 < f.getD d 0 ∧ ∃ t : ℚ, 0 < t ∧ Spec.Edge (Spec.Solves d A) (Spec.coord d f) (t • Spec.outward (Spec.coord d f)) := by
  have hrect : Rect A A.length (d+1) := ⟨rfl, hA⟩
  have hnz := onFacet_nonzero hrect hf.1 hf.2.2.2 hrk
  have hlen : 0 < (onFacet A f).length := by obtain ⟨v, hv, -⟩ := hnz; exact List.length_pos_of_mem hv
  have hrectW := onFacet_rect hrect f
  have hsp := gaussSplit_spec hrectW hlen (Nat.succ_pos d)
  have hR := hsp.rows_ne_nil hrectW.2 hnz
  have hred := reduced_of_split hrectW hsp hR
  obtain ⟨hrl, hrp, hrz, hrf⟩ := (hel.mem r).mp hr
  have hff := hf.2.2.2
  have hw0 : 0 ≤ f.getD d 0 := by
    have := hff.valid _ htriv
    rw [dot_comm, dot_trivialRow] at this; omega
  have hz : ∀ c ∈ zeroCols (gaussSplit (onFacet A f)).2.1, r.getD c 0 = 0 := by
    intro c hc; obtain ⟨e, he, rfl⟩ := (hred.leads c).mp hc; exact hrz e he
  by_cases hd : d ∈ zeroCols (gaussSplit (onFacet A f)).2.1
  · -- the last column was deleted: the ray is the origin
    have hprop : ∀ e ∈ (gaussSplit (onFacet A f)).1, ∃ t : ℚ, toV (d+1) e = t • toV (d+1) f := by
      intro e he
      obtain ⟨t, ht⟩ := hff.tight e (hsp.E_len e he) (fun v hv h0 => hsp.E_zero e he v (mem_onFacet.mpr ⟨hv, h0⟩))
      refine ⟨t, ?_⟩
      rw [← sub_eq_zero]
      apply hE
      intro a ha
      rw [map_sub, map_smul, ev_row (hA a ha), ev_row (hA a ha), smul_eq_mul, dot_comm a e, dot_comm a f, ht a ha, sub_self]
    obtain ⟨e, he, hed⟩ := (hred.leads d).mp hd
    obtain ⟨t, ht⟩ := hprop e he
    have hlead := (hsp.E_lead e he).2
    rw [hed] at hlead
    have htd : (e.getD d 0 : ℚ) = t * f.getD d 0 := by
      have := congrFun ht (Fin.last d)
      simpa only [toV, Pi.smul_apply, smul_eq_mul, Fin.val_last] using this
    have ht0 : t ≠ 0 := by
      rintro rfl
      rw [zero_mul] at htd
      have : e.getD d 0 = 0 := by exact_mod_cast htd
      omega
    have hfd : f.getD d 0 ≠ 0 := by
      intro h0
      rw [h0] at htd
      simp only [Int.cast_zero, mul_zero] at htd
      have : e.getD d 0 = 0 := by exact_mod_cast htd
      omega
    have hw : 0 < f.getD d 0 := by omega
    have hf0 : ∀ i < d, f.getD i 0 = 0 := by
      intro i hi
      have h1 := congrFun ht (⟨i, by omega⟩ : Fin (d+1))
      simp only [toV, Pi.smul_apply, smul_eq_mul] at h1
      rw [getD_lt_firstNonzero e i (by omega)] at h1
      have h2 : (f.getD i 0 : ℚ) = 0 := by
        have h3 : t * (f.getD i 0 : ℚ) = 0 := by rw [← h1]; simp
        exact (mul_eq_zero.mp h3).resolve_left ht0
      exact_mod_cast h2
    have hall : ∀ c ∈ zeroCols (gaussSplit (onFacet A f)).2.1, c = d := by
      intro c hc
      obtain ⟨e', he', hc'⟩ := (hred.leads c).mp hc
      obtain ⟨t', ht'⟩ := hprop e' he'
      have h1 := hsp.E_lead e' he'
      by_contra hne
      have hlt : c < d := by rw [hc'] at h1; omega
      have h2 := congrFun ht' (⟨c, by omega⟩ : Fin (d+1))
      simp only [toV, Pi.smul_apply, smul_eq_mul] at h2
      rw [hf0 c hlt, Int.cast_zero, mul_zero] at h2
      have h3 : e'.getD c 0 = 0 := by exact_mod_cast h2
      rw [hc'] at h1
      omega
    have hone : zeroCols (gaussSplit (onFacet A f)).2.1 = [d] := by
      have hst := hred.stack.1
      revert hd hall hst
      generalize zeroCols (gaussSplit (onFacet A f)).2.1 = zs
      intro hd hall hst
      match zs, hd, hall, hst with
      | [c], _, hall, _ => rw [hall c (by simp)]
      | c :: c' :: zs, _, hall, hst =>
        have h1 := (List.pairwise_cons.mp hst).1 c' (by simp)
        have h2 := hall c (by simp)
        have h3 := hall c' (by simp)
        omega
    rw [hone] at hbad
    have hrd := hz d hd
    have hbad' : isBadRow (r.eraseIdx d) = true := hbad
    obtain ⟨b1, b2⟩ := isBadRow_iff.mp hbad'
    have hl : (r.eraseIdx d).length = d := by rw [List.length_eraseIdx_of_lt (by omega)]; omega
    rw [hl] at b2
    have hdpos : 0 < d := by have := List.length_pos_of_ne_nil b1; omega
    have hri : ∀ i < d, r.getD i 0 = if i + 1 = d then -1 else 0 := by
      intro i hi
      have h1 : r.getD i 0 = (r.eraseIdx d).getD i 0 := by
        rw [List.getD_eq_getElem?_getD, List.getD_eq_getElem?_getD, List.getElem?_eraseIdx, if_pos hi]
      rw [h1, b2, ← trivialRow, trivialRow_getD]
      by_cases h : i = d - 1
      · rw [if_pos h, if_pos (by omega)]
      · rw [if_neg h, if_neg (by omega)]
    refine ⟨hw, ?_⟩
    have hc0 : Spec.coord d f = 0 := by
      funext i
      simp only [Spec.coord, if_neg hw.ne', Pi.zero_apply]
      rw [hf0 i i.2]; simp
    refine edge_of_ridge hA hE hf.1 hff hw hrl hrf (c := 0) ?_
    rw [zero_smul, add_zero]
    unfold Spec.outward
    rw [if_pos hc0]
    funext i
    refine Fin.lastCases ?_ (fun i => ?_) i
    · simp only [dirH_last, toV, Fin.val_last]; rw [hrd]; simp
    · simp only [dirH_castSucc, toV, Fin.val_castSucc]
      rw [hri i i.2]
      split <;> simp
  · -- the ridge is the row `0 ≤ 1`
    have h1 := isBadRow_insertAll hred.stack (r := eraseAll (zeroCols (gaussSplit (onFacet A f)).2.1) r)
      (eraseAll_length hred.stack hrl) (by simpa using hd)
    rw [insertAll_eraseAll hred.stack hrl hz, hbad, isBadRow_eq_trivialRow hrl] at h1
    subst h1
    have hw : 0 < f.getD d 0 := by
      rcases lt_or_eq_of_le hw0 with h | h
      · exact h
      · exfalso
        have h2 := hrf.valid (trivialRow d) (mem_onFacet.mpr ⟨htriv, by rw [dot_comm, dot_trivialRow, ← h]; simp⟩)
        rw [dot_trivialRow, trivialRow_getD, if_pos rfl] at h2
        omega
    refine ⟨hw, ?_⟩
    have hw' : (f.getD d 0 : ℚ) ≠ 0 := by exact_mod_cast hw.ne'
    have hpt := toV_point (d := d) hw.ne'
    by_cases hc0 : Spec.coord d f = 0
    · -- then the row would be a multiple of the ray
      exfalso
      have h2 : toV (d+1) (trivialRow d) = (-(f.getD d 0 : ℚ)⁻¹) • toV (d+1) f := by
        rw [hpt, hc0, smul_smul]
        funext i
        refine Fin.lastCases ?_ (fun i => ?_) i
        · simp only [toV, trivialRow_getD, Fin.val_last, if_true, Pi.smul_apply, hom_last, smul_eq_mul]; field_simp; simp
        · have hi : ¬ (i : Nat) = d := by have := i.2; omega
          simp only [toV, trivialRow_getD, Fin.val_castSucc, if_neg hi, Pi.smul_apply, hom_castSucc, smul_eq_mul, Pi.zero_apply]
          simp
      obtain ⟨v, hv, hv0⟩ := hrf.strict
      obtain ⟨hv1, hv2⟩ := mem_onFacet.mp hv
      have h3 := congrArg (ev (d+1) v) h2
      rw [map_smul, ev_row (hA v hv1), ev_row (hA v hv1), dot_comm v f, hv2, dot_comm v] at h3
      simp only [Int.cast_zero, smul_zero] at h3
      exact hv0 (by exact_mod_cast h3)
    · refine edge_of_ridge hA hE hf.1 hff hw hrl hrf (c := -(f.getD d 0 : ℚ)⁻¹) ?_
      unfold Spec.outward
      rw [if_neg hc0, hpt, smul_smul]
      funext i
      refine Fin.lastCases ?_ (fun i => ?_) i
      · simp only [toV, trivialRow_getD, Fin.val_last, if_true, Pi.add_apply, Pi.smul_apply, hom_last, dirH_last, smul_eq_mul]; field_simp; simp
      · have hi : ¬ (i : Nat) = d := by have := i.2; omega
        simp only [toV, trivialRow_getD, Fin.val_castSucc, if_neg hi, Pi.add_apply, Pi.smul_apply, hom_castSucc, dirH_castSucc, smul_eq_mul]
        field_simp
        simp

/-- if the origin is a solution, the only edge that could lead away from it starts there -/
theorem no_edge_of_origin (h0 : Spec.Solves d A 0)
    (hstep : Spec.Vertex (Spec.Solves d A) 0 → ∀ t : ℚ, 0 < t → ¬ Spec.Solves d A (t • Spec.outward 0)) :
    ∀ v, Spec.Vertex (Spec.Solves d A) v → ∀ t : ℚ, 0 < t → ¬ Spec.Edge (Spec.Solves d A) v (t • Spec.outward v) := by
  intro v hv t ht he
  by_cases hv0 : v = 0
  · subst hv0
    refine hstep hv t ht ?_
    have := he.2.2.1
    rwa [zero_add] at this
  · have h1 := he.2.2.1
    unfold Spec.outward at h1
    rw [if_neg hv0] at h1
    have hp : 0 < 1 + t := by linarith
    have h2 := (hv.2 0 (v + t • v) (t / (1 + t)) h0 h1 (div_pos ht hp) (by rw [div_lt_one hp]; linarith) (by
      funext i
      simp only [Pi.add_apply, Pi.smul_apply, smul_eq_mul, Pi.zero_apply, mul_zero, zero_add]
      field_simp
      ring)).1
    exact hv0 h2.symm

end

end Panda
