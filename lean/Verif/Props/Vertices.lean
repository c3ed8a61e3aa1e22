import Verif.Props.Facets
import Verif.Proofs.Stage

/-! # Properties C12–C15: vertex enumeration, bookkeeping, initial facets -/

namespace Panda

open Cone

section
variable {d n : Nat} {A V : Matrix}

/-- rational version of `Elim.gen` -/
theorem Elim.gen_rat {F0 : Matrix} (h : Elim A n [] F0) (x : Fin n → ℚ)
    (hx : ∀ a ∈ A, ev n a x ≤ 0) (hA : ∀ a ∈ A, a.length = n) : Spec.InConeOf n F0 x := by
  obtain ⟨N, r, hN, hr, heq⟩ := exists_int_multiple x
  have hN' : (0 : ℚ) < N := by exact_mod_cast hN
  obtain ⟨c, hc, hsum⟩ := h.gen r hr (by simp) (by
    intro a ha
    have h1 : (dot a r : ℚ) = N * ev n a x := by rw [← ev_row (hA a ha), heq, map_smul, smul_eq_mul]
    have h3 := mul_nonpos_of_nonneg_of_nonpos hN'.le (hx a ha)
    rw [← h1] at h3
    rw [dot_comm]; exact_mod_cast h3)
  refine ⟨fun j => (N : ℚ)⁻¹ * c j, fun j => mul_nonneg (inv_nonneg.mpr hN'.le) (hc j), ?_⟩
  have : x = (N : ℚ)⁻¹ • toV n r := by rw [heq, smul_smul, inv_mul_cancel₀ hN'.ne', one_smul]
  rw [this, hsum, Finset.smul_sum]
  exact Finset.sum_congr rfl fun j _ => by rw [smul_smul]; rfl

theorem extreme_of_facet {r : Row} (hA : ∀ a ∈ A, a.length = n) (hE : ∀ x : Fin n → ℚ, (∀ a ∈ A, ev n a x = 0) → x = 0)
    (hr : r.length = n) (h0 : toV n r ≠ 0) (hf : FacetP n A r) : Spec.IsExtremeRay n A r := by
  refine ⟨fun a ha => by rw [ip_eq_dot, dot_comm]; exact hf.valid a ha, h0, ?_⟩
  have key : ∀ x y : Fin n → ℚ, (∀ a ∈ A, ev n a x ≤ 0) → (∀ a ∈ A, ev n a y ≤ 0) → toV n r = x + y →
      ∃ t : ℚ, x = t • toV n r := by
    intro x y hx hy hxy
    obtain ⟨N, b, hN, hb, heq⟩ := exists_int_multiple x
    have hN' : (N : ℚ) ≠ 0 := by exact_mod_cast hN.ne'
    have hbev : ∀ a ∈ A, (dot b a : ℚ) = N * ev n a x := by
      intro a ha; rw [dot_comm, ← ev_row (hA a ha), heq, map_smul, smul_eq_mul]
    obtain ⟨t, ht⟩ := hf.tight b hb (by
      intro a ha hz
      have h1 := congrArg (ev n a) hxy
      rw [ev_row (hA a ha), dot_comm, hz, map_add] at h1
      have h2 := hx a ha
      have h3 := hy a ha
      have h4 : ev n a x = 0 := by
        simp only [Int.cast_zero] at h1; linarith
      have := hbev a ha
      rw [h4, mul_zero] at this; exact_mod_cast this)
    refine ⟨t / N, ?_⟩
    rw [← sub_eq_zero]
    apply hE
    intro a ha
    rw [map_sub, map_smul, ev_row (hA a ha), smul_eq_mul]
    have h1 := ht a ha
    rw [hbev a ha, dot_comm] at h1
    field_simp
    rw [dot_comm]
    rw [dot_comm] at h1
    linarith
  intro x y hx hy hxy
  have hx' : ∀ a ∈ A, ev n a x ≤ 0 := fun a ha => by rw [← lin_eq]; exact hx a ha
  have hy' : ∀ a ∈ A, ev n a y ≤ 0 := fun a ha => by rw [← lin_eq]; exact hy a ha
  exact ⟨key x y hx' hy' hxy, key y x hy' hx' (by rw [← vec_eq_toV, hxy, add_comm])⟩

/-- the elimination behind vertex enumeration -/
theorem ve_elim (hA : ∀ a ∈ A, a.length = d + 1)
    (htriv : List.replicate d 0 ++ [-1] ∈ A) (hsat : ∃ p, Spec.Solves d A p) (hline : ¬ Spec.HasLine d A) :
    ∃ W, fourierMotzkinElimination A = .ok W ∧ Elim A (d+1) [] W ∧ (gaussSplit A).1 = [] ∧
      (∀ x : Fin (d+1) → ℚ, (∀ a ∈ A, ev (d+1) a x = 0) → x = 0) ∧ ∀ r ∈ W, 0 ≤ r.getD d 0 := by
  have htriv' : trivialRow d ∈ A := htriv
  have hrect : Rect A A.length (d+1) := ⟨rfl, hA⟩
  have hlen : 0 < A.length := List.length_pos_of_mem htriv
  obtain ⟨F0, hel, heq⟩ := fme_elim' hrect hlen (Nat.succ_pos d)
    ⟨trivialRow d, htriv', by simp [trivialRow_getD, -List.getD_eq_getElem?_getD]⟩
  have hsp := gaussSplit_spec hrect hlen (Nat.succ_pos d)
  -- no vector is annihilated by all rows
  have hE : ∀ x : Fin (d+1) → ℚ, (∀ a ∈ A, ev (d+1) a x = 0) → x = 0 := by
    intro x hx
    by_contra hne
    obtain ⟨p, hp⟩ := hsat
    apply hline
    have hlast : x (Fin.last d) = 0 := by
      have := hx _ htriv'
      rw [ev_trivialRow] at this; linarith
    refine ⟨p, fun i => x i.castSucc, ?_, ?_⟩
    · intro h0
      apply hne
      funext i
      refine Fin.lastCases hlast (fun i => ?_) i
      exact congrFun h0 i
    · intro t a ha
      have h1 := hp a ha
      rw [value_eq] at h1 ⊢
      have : hom d (p + t • fun i => x i.castSucc) = hom d p + t • x := by
        funext i
        refine Fin.lastCases ?_ (fun i => ?_) i
        · simp [hom_last, hlast]
        · simp [hom_castSucc]
      rw [this, map_add, map_smul, hx a ha, smul_zero, add_zero]; exact h1
  have hnil : (gaussSplit A).1 = [] := by
    rw [List.eq_nil_iff_forall_not_mem]
    intro e he
    have h0 := hE (toV (d+1) e) (fun a ha => by
      rw [ev_row (hA a ha), dot_comm, hsp.E_zero e he a ha]; simp)
    exact toV_ne_zero_of_primitive (hsp.E_len e he) (hsp.E_prim e he) h0
  rw [hnil] at hel
  have hbad : ∀ r ∈ F0, isBadRow r = false := by
    intro r hr
    by_contra hb
    rw [Bool.not_eq_false] at hb
    have hnf := (hel.mem r).mp hr
    have h1 := hnf.2.2.2.valid _ htriv'
    rw [(isBadRow_eq_trivialRow hnf.1).mp hb, dot_trivialRow, trivialRow_getD, if_pos rfl] at h1
    omega
  have hF : F0.filter (fun a => !(isBadRow a)) = F0 := by
    rw [List.filter_eq_self]; intro r hr; simp [hbad r hr]
  rw [hF] at heq
  have hlastW : ∀ r ∈ F0, 0 ≤ r.getD d 0 := by
    intro r hr
    have h1 := ((hel.mem r).mp hr).2.2.2.valid _ htriv'
    rw [dot_comm, dot_trivialRow] at h1; omega
  exact ⟨F0, heq, hel, hnil, hE, hlastW⟩

/-- **C12** vertex enumeration: for every satisfiable system (which contains the homogenising row, as
the code always adds) whose solution set contains no line, a point satisfies the system iff it is a
convex combination of the reported vertices plus a conic combination of the reported rays; every
reported row has a non-negative last entry, is primitive, is an extreme ray of the homogenised solution
cone, and is reported once. -/
theorem C12_vertex_enumeration (hA : ∀ a ∈ A, a.length = d + 1)
    (htriv : List.replicate d 0 ++ [-1] ∈ A) (hsat : ∃ p, Spec.Solves d A p) (hline : ¬ Spec.HasLine d A) :
    ∃ W, fourierMotzkinElimination A = .ok W ∧ W.Nodup ∧
      (∀ r ∈ W, r.length = d + 1 ∧ 0 ≤ r.getD d 0 ∧ Spec.PrimitiveRow r ∧ Spec.IsExtremeRay (d+1) A r) ∧
      ∀ p : Fin d → ℚ, Spec.Solves d A p ↔ Spec.InPolyhedron d W p := by
  obtain ⟨F0, heq, hel, -, hE, hlastW⟩ := ve_elim hA htriv hsat hline
  refine ⟨F0, heq, hel.nodup, ?_, ?_⟩
  · intro r hr
    have hnf := (hel.mem r).mp hr
    exact ⟨hnf.1, hlastW r hr, (primitiveRow_iff r).mpr hnf.2.1,
      extreme_of_facet hA hE hnf.1 (toV_ne_zero_of_primitive hnf.1 hnf.2.1) hnf.2.2.2⟩
  · intro p
    rw [inPolyhedron_iff hlastW]
    unfold Spec.Solves
    simp only [value_eq]
    constructor
    · intro h; exact hel.gen_rat _ h hA
    · intro h a ha
      exact ev_inConeOf (hA a ha) (fun r hr => by
        rw [dot_comm]; exact ((hel.mem r).mp hr).2.2.2.valid a ha) h

/-- the hypotheses are met by a triangle, and its three vertices are reported -/
example : fourierMotzkinElimination [[-1, 0, 0], [0, -1, 0], [1, 1, -2], [0, 0, -1]] =
    .ok [[2, 0, 1], [0, 2, 1], [0, 0, 1]] ∧
    Spec.Solves 2 [[-1, 0, 0], [0, -1, 0], [1, 1, -2], [0, 0, -1]] (fun _ => 0) ∧
    ¬ Spec.HasLine 2 [[-1, 0, 0], [0, -1, 0], [1, 1, -2], [0, 0, -1]] := by
  refine ⟨by decide, ?_, ?_⟩
  · intro a ha
    simp only [List.mem_cons, List.not_mem_nil, or_false] at ha
    rcases ha with rfl | rfl | rfl | rfl <;> simp [Spec.value]
  · rintro ⟨p, q, hq, h⟩
    apply hq
    have h1 : ∀ t : ℚ, -(p 0 + t * q 0) ≤ 0 := fun t => by
      have := h t [-1, 0, 0] (by simp); simpa [Spec.value, Fin.sum_univ_two] using this
    have h2 : ∀ t : ℚ, -(p 1 + t * q 1) ≤ 0 := fun t => by
      have := h t [0, -1, 0] (by simp); simpa [Spec.value, Fin.sum_univ_two] using this
    have key : ∀ a b : ℚ, (∀ t : ℚ, -(a + t * b) ≤ 0) → b = 0 := by
      intro a b hab
      by_contra hb
      have := hab (-(a + 1) / b)
      rw [div_mul_cancel₀ _ hb] at this
      linarith
    funext i
    fin_cases i
    · exact key _ _ h1
    · exact key _ _ h2

/-- **C13 is false of the code**: for `x ≤ 1` in the plane the lines of the solution set are not
reported: (0, 5) satisfies the system but is not generated by the output. -/
theorem C13_lines_false :
    ∃ (A W : Matrix) (p : Fin 2 → ℚ), (∀ a ∈ A, a.length = 3) ∧ List.replicate 2 0 ++ [-1] ∈ A ∧
      fourierMotzkinElimination A = .ok W ∧ Spec.Solves 2 A p ∧ ¬ Spec.InPolyhedron 2 W p := by
  refine ⟨[[1, 0, -1], [0, 0, -1]], [[-1, 0, 0], [1, 0, 1]], ![0, 5], by decide, by decide, by decide, ?_, ?_⟩
  · intro a ha
    simp only [List.mem_cons, List.not_mem_nil, or_false] at ha
    rcases ha with rfl | rfl <;> simp [Spec.value, Fin.sum_univ_two]
  · rintro ⟨c, hc, hs, hp⟩
    have := congrFun hp 1
    simp [Spec.coord, Fin.sum_univ_two] at this

/-- **C13**, the true part: whatever lines there are, every reported vertex and ray lies in the
homogenised solution cone (so nothing wrong is generated), and modulo the lines (the vectors on which
all rows vanish) everything is generated. -/
theorem C13_lines_partial (hA : ∀ a ∈ A, a.length = d + 1) (htriv : List.replicate d 0 ++ [-1] ∈ A) :
    ∃ W, fourierMotzkinElimination A = .ok W ∧
      (∀ r ∈ W, r.length = d + 1 ∧ ∀ a ∈ A, Spec.ip a r ≤ 0) ∧
      ∀ p : Fin d → ℚ, Spec.Solves d A p →
        ∃ y : Fin (d+1) → ℚ, Spec.InConeOf (d+1) W y ∧
          ∀ a ∈ A, Spec.lin (d+1) a y = Spec.value d a p := by
  have htriv' : trivialRow d ∈ A := htriv
  have hrect : Rect A A.length (d+1) := ⟨rfl, hA⟩
  have hlen : 0 < A.length := List.length_pos_of_mem htriv
  obtain ⟨F0, hel, heq⟩ := fme_elim' hrect hlen (Nat.succ_pos d)
    ⟨trivialRow d, htriv', by simp [trivialRow_getD, -List.getD_eq_getElem?_getD]⟩
  have hsp := gaussSplit_spec hrect hlen (Nat.succ_pos d)
  have hbad : ∀ r ∈ F0, isBadRow r = false := by
    intro r hr
    by_contra hb
    rw [Bool.not_eq_false] at hb
    have hnf := (hel.mem r).mp hr
    have h1 := hnf.2.2.2.valid _ htriv'
    rw [(isBadRow_eq_trivialRow hnf.1).mp hb, dot_trivialRow, trivialRow_getD, if_pos rfl] at h1
    omega
  have hF : F0.filter (fun a => !(isBadRow a)) = F0 := by
    rw [List.filter_eq_self]; intro r hr; simp [hbad r hr]
  rw [hF] at heq
  refine ⟨F0, heq, fun r hr => ⟨((hel.mem r).mp hr).1, fun a ha => ?_⟩, ?_⟩
  · rw [ip_eq_dot, dot_comm]; exact ((hel.mem r).mp hr).2.2.2.valid a ha
  · intro p hp
    obtain ⟨N, r, hN, hr, heqr⟩ := exists_int_multiple (hom d p)
    have hN' : (0 : ℚ) < N := by exact_mod_cast hN
    obtain ⟨b, -, hbl, ⟨s, hs, hspan⟩, hz, -⟩ := normalizeLoop_spec (gaussSplit A).1 r hsp.echelon hr
    have hs' : (0 : ℚ) < s := by exact_mod_cast hs
    have hba : ∀ a ∈ A, (dot b a : ℚ) = s * (N * Spec.value d a p) := by
      intro a ha
      have h1 := dot_of_span hsp.E_len (fun e he => hsp.E_zero e he a ha) hbl hr hspan
      have h2 : (dot r a : ℚ) = N * Spec.value d a p := by
        rw [dot_comm, ← ev_row (hA a ha), heqr, map_smul, smul_eq_mul, value_eq]
      rw [← h2]; exact_mod_cast h1
    obtain ⟨c, hc, hsum⟩ := hel.gen b hbl hz (by
      intro a ha
      have h1 := hp a ha
      have h2 := mul_nonpos_of_nonneg_of_nonpos hs'.le (mul_nonpos_of_nonneg_of_nonpos hN'.le h1)
      rw [← hba a ha] at h2; exact_mod_cast h2)
    refine ⟨(s * N : ℚ)⁻¹ • toV (d+1) b, ⟨fun j => (s * N : ℚ)⁻¹ * c j, fun j => ?_, ?_⟩, ?_⟩
    · exact mul_nonneg (inv_nonneg.mpr (mul_pos hs' hN').le) (hc j)
    · rw [hsum, Finset.smul_sum]
      exact Finset.sum_congr rfl fun j _ => by rw [smul_smul]; rfl
    · intro a ha
      rw [lin_eq, map_smul, ev_row (hA a ha), dot_comm, hba a ha, smul_eq_mul]
      field_simp

/-- **C14** at every step `k` of the elimination of every input that is not identically zero: there is
one bit set per row; bit `j` of the set of a row is on iff `j` is one of the `d + k` rows processed so
far and the row is strictly satisfied there; all rows are primitive and satisfied by everything
processed so far; no row is a multiple of another. -/
theorem C14_bookkeeping (hV : ∀ v ∈ V, v.length = n) (hnz : ∃ v ∈ V, ∃ x ∈ v, x ≠ 0) :
    ∃ (vs : Matrix) (d : Nat), 0 < d ∧ d ≤ vs.length ∧ vs.length = V.length ∧
      ∀ k, d + k ≤ vs.length → ∃ (m : Matrix) (R : List Words), eliminationState V k = (vs, d, m, R) ∧
        m.length = R.length ∧
        (∀ i (hi : i < m.length) (hi' : i < R.length),
          (∀ j, Spec.hasBit R[i] j = true ↔ j < d + k ∧ Spec.ip m[i] (vs.getD j []) < 0) ∧
          Spec.PrimitiveRow m[i] ∧ ∀ j < d + k, Spec.ip m[i] (vs.getD j []) ≤ 0) ∧
        m.Pairwise fun a b => ∀ t : ℚ, Spec.vec d a ≠ t • Spec.vec d b := by
  obtain ⟨v, hv, x, hx, hx0⟩ := hnz
  have h0 : V ≠ [] := List.ne_nil_of_mem hv
  have hn : 0 < n := by rw [← hV v hv]; exact List.length_pos_of_mem hx
  obtain ⟨vs, d, law, hlaw, hd, hdv, hvl, hp, hst⟩ :=
    stage_spec (V := V) (n := n) ⟨rfl, hV⟩ (List.length_pos_of_ne_nil h0) hn ⟨v, hv, x, hx, hx0⟩
  refine ⟨vs, d, hd, hdv, hvl, fun k hk => ?_⟩
  obtain ⟨⟨m, R⟩, he, hpt⟩ := hst k hk
  have hpk : Pointed (wOf d vs) (d + k) := hp.mono (by omega)
  refine ⟨m, R, he, hpt.rows.length_eq, ?_, ?_⟩
  · intro i hi hi'
    obtain ⟨hl, -, habs, hprim⟩ := (List.forall₂_iff_get.mp hpt.rows).2 i hi hi'
    simp only [List.get_eq_getElem] at hl habs hprim
    have hw : ∀ j, wOf d vs j (toV d m[i]) = (dot m[i] (vs.getD j []) : ℚ) := fun j => ev_toV d _ _ hl.le
    refine ⟨fun j => ?_, (primitiveRow_iff _).mpr hprim, fun j hj => ?_⟩
    · have h1 : Spec.hasBit R[i] j = true ↔ j ∈ bsAbs R[i] := mem_bsAbs.symm
      rw [h1, ← hlaw, habs, mem_supp, hw, ip_eq_dot]; norm_cast
    · have h2 := (hpt.inv.ext (toV d m[i]) (List.mem_map.mpr ⟨_, List.getElem_mem hi, rfl⟩)).2.1 j hj
      rw [hw] at h2; rw [ip_eq_dot]; exact_mod_cast h2
  · have hnd := List.pairwise_map.mp hpt.inv.nodup
    refine List.Pairwise.imp_of_mem ?_ hnd
    intro a b ha hb hne t ht
    have hea := hpt.inv.ext (toV d a) (List.mem_map.mpr ⟨_, ha, rfl⟩)
    have heb := hpt.inv.ext (toV d b) (List.mem_map.mpr ⟨_, hb, rfl⟩)
    simp only [vec_eq_toV] at ht
    rcases lt_or_ge 0 t with hpos | hneg
    · apply hne
      show supp _ _ (toV d a) = supp _ _ (toV d b)
      rw [ht, supp_smul hpos]
    · apply hea.1
      apply hpk
      intro j hj
      apply le_antisymm (hea.2.1 j hj)
      rw [ht, map_smul, smul_eq_mul]
      exact mul_nonneg_of_nonpos_of_nonpos hneg (heb.2.1 j hj)

/-- the last of these states is what the elimination returns -/
theorem C14_final_state (hV : ∀ v ∈ V, v.length = n) (hnz : ∃ v ∈ V, ∃ x ∈ v, x ≠ 0) :
    fourierMotzkinElimination V =
      .ok (reinsertZeroColumns (detectBadRow (eliminationState V V.length).2.2.1)
        (eliminateZeroColumns (gaussSplit V).2.1 V).2.2) := by
  obtain ⟨v, hv, x, hx, hx0⟩ := hnz
  have h0 : V ≠ [] := List.ne_nil_of_mem hv
  have hn : 0 < n := by rw [← hV v hv]; exact List.length_pos_of_mem hx
  obtain ⟨vs, d, law, hlaw, hd, hdv, hvl, hp, hst⟩ :=
    stage_spec (V := V) (n := n) ⟨rfl, hV⟩ (List.length_pos_of_ne_nil h0) hn ⟨v, hv, x, hx, hx0⟩
  unfold fourierMotzkinElimination
  rw [if_pos (validInput_iff.mpr ⟨⟨n, hn, List.length_pos_of_ne_nil h0, rfl, hV⟩, v, hv, x, hx, hx0⟩)]
  obtain ⟨mR, he, -⟩ := hst 0 (by omega)
  have hvs : reorder (eliminateZeroColumns (gaussSplit V).2.1 V).2.1 (gaussSplit V).2.2 = vs :=
    congrArg (·.1) he
  simp only [eliminationState, phaseTwo, hvs]
  rw [List.take_of_length_le]
  rw [List.length_drop, hvl]; omega

example : (eliminationState [[0, 0, 1], [2, 0, 1], [0, 2, 1], [1, 2, 1]] 1).2.2 =
    ([[-1, 0, 0], [0, -1, 0], [2, 1, -4], [0, 1, -2]], [[10#32], [9#32], [5#32], [6#32]]) := by decide

/-- **C15** the abortable elimination returns, without repetition, only primitive rows defining facets of
the homogenised input (so facets or the trivial inequality), and at least one whenever the input
contains a vertex. -/
theorem C15_initial_facets (hV : Spec.IsVInput d V) :
    ∃ H, fourierMotzkinEliminationHeuristic V = .ok H ∧ H ≠ [] ∧ H.Nodup ∧
      ∀ a ∈ H, Spec.IsFacet (d+1) V a ∧ Spec.PrimitiveRow a ∧
        (a = List.replicate d 0 ++ [-1] ∨ ∃ F, fourierMotzkinElimination V = .ok F ∧ a ∈ F) := by
  obtain ⟨h1, h2, h3⟩ := IsVInput.rect hV
  have hnz : ∃ v ∈ V, ∃ x ∈ v, x ≠ 0 := by
    obtain ⟨v, hv, h0⟩ := hV.vertex
    refine ⟨v, hv, v.getD d 0, ?_, h0.ne'⟩
    have hl := hV.size v hv
    rw [List.getD_eq_getElem?_getD, List.getElem?_eq_getElem (by omega)]
    exact List.getElem_mem _
  obtain ⟨H, g1, g2, g3, g4⟩ := heuristic_elim h1 h2 (Nat.succ_pos d) hnz
  obtain ⟨E, F0, e1, rfl, e3, e4, e5⟩ := dd_ok hV
  refine ⟨H, g1, g4 ?_, g2, ?_⟩
  · -- otherwise the trivial row would be the zero row on the input
    by_contra hno
    have hF0 : F0 = [] := by
      rw [List.eq_nil_iff_forall_not_mem]
      intro a ha; exact hno ⟨a, (e4.mem a).mp ha⟩
    obtain ⟨v0, hv0, hp0⟩ := hV.vertex
    obtain ⟨c, hc, hs⟩ := e4.gen (trivialRow d) (trivialRow_length d) (by
        intro e he
        rw [trivialRow_getD, if_neg]
        have := last_not_mem e3.echelon e3.E_zero h3 e he
        simpa using this)
      (fun v hv => by rw [dot_trivialRow]; have := hV.last v hv; omega)
    subst hF0
    have h5 : toV (d+1) (trivialRow d) = 0 := by
      rw [hs]; exact Finset.sum_eq_zero fun j _ => absurd j.2 (by simp)
    exact toV_ne_zero_of_primitive (trivialRow_length d) (trivialRow_primitive d) h5
  · intro a ha
    have hnf := g3 a ha
    refine ⟨isFacet_iff.mpr ⟨hnf.1, hnf.2.2.2⟩, (primitiveRow_iff a).mpr hnf.2.1, ?_⟩
    by_cases hb : isBadRow a = true
    · exact Or.inl ((isBadRow_eq_trivialRow hnf.1).mp hb)
    · exact Or.inr ⟨_, e5, List.mem_filter.mpr ⟨(e4.mem a).mpr hnf, by simpa using hb⟩⟩

example : fourierMotzkinEliminationHeuristic [[0, 0, 1], [2, 0, 1], [0, 2, 1], [1, 2, 1]] =
    .ok [[-1, 0, 0], [0, -1, 0]] := by decide

/-- the trivial row may indeed be returned (input 0 with the ray 1) -/
example : fourierMotzkinEliminationHeuristic [[0, 1], [1, 0]] = .ok [[-1, 0], [0, -1]] := by decide

end

end Panda
