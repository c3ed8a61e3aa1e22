import Verif.Proofs.FME
import Verif.Proofs.Bitset

/-! # The rows returned by the elimination -/

namespace Panda

open Cone

/-- the dispatched bit set implementation is large enough -/
theorem dispatch_lawful (N : Nat) : Nonempty (LawfulBitset (dispatchOps N) N) := by
  unfold dispatchOps
  simp only
  have key : ∀ s, 1 + (N - 1) / 32 ≤ s → Nonempty (LawfulBitset (fixedOps s) N) :=
    fun s hs => ⟨fixedOps_lawful s N (by omega)⟩
  have ite : ∀ (s k : Nat) (rest : BitsetOps Words),
      (s = 1 + (N - 1) / 32) → Nonempty (LawfulBitset rest N) →
      Nonempty (LawfulBitset (if s ≤ k then fixedOps k else rest) N) := by
    intro s k rest hs h
    by_cases hk : s ≤ k
    · rw [if_pos hk]; exact key k (by omega)
    · rw [if_neg hk]; exact h
  generalize hs : 1 + (N - 1) / 32 = s
  iterate 17 refine ite _ _ _ hs.symm ?_
  exact ⟨variableOps_lawful N⟩

/-! ## The input condition -/

theorem validInput_iff {V : Matrix} : validInput V = true ↔
    (∃ n, 0 < n ∧ 0 < V.length ∧ Rect V V.length n) ∧ ∃ v ∈ V, ∃ x ∈ v, x ≠ 0 := by
  unfold validInput
  simp only [Bool.and_eq_true, List.all_eq_true, List.any_eq_true, beq_iff_eq, bne_iff_ne, ne_eq]
  constructor
  · rintro ⟨h1, v, hv, x, hx, hx0⟩
    refine ⟨⟨colSize V, ?_, List.length_pos_of_mem hv, rfl, h1⟩, v, hv, x, hx, hx0⟩
    rw [← h1 v hv]; exact List.length_pos_of_mem hx
  · rintro ⟨⟨n, hn, hl, hr⟩, h⟩
    refine ⟨?_, h⟩
    rw [hr.colSize hl]; exact hr.2

/-! ## The trivial row -/

theorem isBadRow_cons {y : Int} {l : Row} (h : l ≠ []) : isBadRow (y :: l) = (y == 0 && isBadRow l) := by
  cases l with
  | nil => exact absurd rfl h
  | cons z zs =>
    unfold isBadRow
    simp [List.dropLast_cons_of_ne_nil, Bool.and_assoc]

theorem isBadRow_insertIdx : ∀ (c : Nat) (x : Row), c < x.length →
    isBadRow (x.insertIdx c 0) = isBadRow x := by
  intro c
  induction c with
  | zero =>
    intro x hx
    have : x ≠ [] := List.ne_nil_of_length_pos hx
    rw [List.insertIdx_zero, isBadRow_cons this]; simp
  | succ c ih =>
    intro x hx
    cases x with
    | nil => simp at hx
    | cons y ys =>
      have hc : c < ys.length := by simpa using hx
      rw [List.insertIdx_succ_cons, isBadRow_cons, isBadRow_cons (List.ne_nil_of_length_pos (by omega)), ih ys hc]
      apply List.ne_nil_of_length_pos
      rw [List.length_insertIdx]; split <;> omega

theorem isBadRow_insertAll : ∀ {zs : List Nat} {n : Nat} {r : Row}, Stack n zs →
    r.length = n - zs.length → n - 1 ∉ zs → isBadRow (insertAll zs r) = isBadRow r := by
  intro zs
  induction zs with
  | nil => intro n r _ _ _; rfl
  | cons c zs ih =>
    intro n r h hr hn
    have hc := h.2 c (by simp)
    have hcn : c ≠ n - 1 := fun he => hn (by simp [he])
    have hr' : r.length = n - 1 - zs.length := by rw [hr, List.length_cons]; omega
    have hl := insertAll_length h.tail hr'
    rw [insertAll_cons, isBadRow_insertIdx c _ (by omega)]
    apply ih h.tail hr'
    intro hmem
    have := (List.pairwise_cons.mp h.1).1 _ hmem
    omega

theorem isBadRow_iff {r : Row} : isBadRow r = true ↔
    r ≠ [] ∧ r = List.replicate (r.length - 1) 0 ++ [-1] := by
  induction r with
  | nil => simp [isBadRow]
  | cons y l ih =>
    by_cases hl : l = []
    · subst hl; simp [isBadRow]
    · rw [isBadRow_cons hl, Bool.and_eq_true, ih]
      have : l.length - 1 + 1 = l.length := by
        have := List.length_pos_of_ne_nil hl; omega
      have h2 : List.replicate l.length (0 : Int) = 0 :: List.replicate (l.length - 1) 0 := by
        conv_lhs => rw [← this, List.replicate_succ]
      simp only [beq_iff_eq, List.length_cons, Nat.add_sub_cancel, ne_eq, reduceCtorEq, not_false_eq_true, true_and]
      rw [h2, List.cons_append, List.cons.injEq]
      exact ⟨fun h => ⟨h.1, h.2.2⟩, fun h => ⟨h.1, hl, h.2⟩⟩

theorem detectBadRow_eq_filter : ∀ (m : Matrix), m.Nodup →
    (∀ r ∈ m, ∀ r' ∈ m, isBadRow r = true → isBadRow r' = true → r = r') →
    detectBadRow m = m.filter fun r => !(isBadRow r) := by
  intro m
  induction m using detectBadRow.induct with
  | case1 => intro _ _; rfl
  | case2 r h => intro _ _; simp [detectBadRow, h]
  | case3 r h r' rest ih =>
    intro hnd hu
    have hnd' := List.nodup_cons.mp hnd
    have hr' : isBadRow r' = false := by
      by_contra hb
      rw [Bool.not_eq_false] at hb
      have := hu r (by simp) r' (by simp) h hb
      exact hnd'.1 (by simp [this])
    have := ih (List.nodup_cons.mp hnd'.2).2 (fun a ha b hb => hu a (by simp [ha]) b (by simp [hb]))
    simp [detectBadRow, h, hr', this]
  | case4 r rest h ih =>
    intro hnd hu
    have := ih (List.nodup_cons.mp hnd).2 (fun a ha b hb => hu a (by simp [ha]) b (by simp [hb]))
    rw [List.filter_cons_of_pos (by simpa using h), ← this]
    conv_lhs => unfold detectBadRow
    rw [if_neg h]

/-! ## The rows before the trivial row is removed -/

/-- `a` is a primitive facet row, zero at the leading positions of the equations -/
def NormalFacet (n : Nat) (V E : Matrix) (a : Row) : Prop :=
  a.length = n ∧ Primitive a ∧ (∀ e ∈ E, a.getD (firstNonzero e) 0 = 0) ∧ FacetP n V a

theorem Reduced.mem_iff {V : Matrix} {n : Nat} {E : Matrix} {zs : List Nat} {d : Nat} {vs m : Matrix}
    (h : Reduced V n E zs d vs) (hrows : ∀ r ∈ m, r.length = d ∧ Primitive r)
    (hinv : Inv (wOf d vs) vs.length (m.map (toV d))) (a : Row) :
    a ∈ m.map (insertAll zs) ↔ NormalFacet n V E a := by
  rw [List.mem_map]
  constructor
  · rintro ⟨r, hr, rfl⟩
    obtain ⟨h1, h2⟩ := hrows r hr
    have hrd : r.length = n - zs.length := by rw [h1, ← h.dsub]
    refine ⟨insertAll_length h.stack hrd, ?_, ?_, ?_⟩
    · unfold Primitive; rw [listGcd_insertAll]; exact h2
    · intro e he; exact insertAll_getD h.stack hrd _ ((h.leads _).mpr ⟨e, he, rfl⟩)
    · apply h.facet_of_ext (insertAll_length h.stack hrd) (insertAll_getD h.stack hrd)
      rw [eraseAll_insertAll]
      exact hinv.ext _ (List.mem_map.mpr ⟨r, hr, rfl⟩)
  · rintro ⟨h1, h2, h3, h4⟩
    have hz : ∀ c ∈ zs, a.getD c 0 = 0 := by
      intro c hc; obtain ⟨e, he, rfl⟩ := (h.leads c).mp hc; exact h3 e he
    have hext := h.ext_of_facet h1 hz h4
    obtain ⟨b, hb, t, ht, heq⟩ := hinv.complete _ hext
    obtain ⟨r, hr, rfl⟩ := List.mem_map.mp hb
    refine ⟨r, hr, ?_⟩
    obtain ⟨hr1, hr2⟩ := hrows r hr
    have hp : Primitive (eraseAll zs a) := by
      unfold Primitive
      rw [← listGcd_insertAll zs, insertAll_eraseAll h.stack h1 hz]; exact h2
    have := prim_eq (n := d) (by rw [eraseAll_length h.stack h1, ← h.dsub]) hr1 hp hr2 ht heq
    rw [← this, insertAll_eraseAll h.stack h1 hz]

theorem nodup_of_inv {d : Nat} {vs m : Matrix} {i : Nat} (hinv : Inv (wOf d vs) i (m.map (toV d))) :
    m.Nodup := by
  have := hinv.nodup
  rw [List.pairwise_map] at this
  exact this.imp fun h heq => h (by rw [heq])

/-- every point satisfying the equations and the facet rows is a conic combination of the input -/
theorem Reduced.cone {V : Matrix} {n : Nat} {E : Matrix} {zs : List Nat} {d : Nat} {vs m : Matrix}
    (h : Reduced V n E zs d vs) (hrows : ∀ r ∈ m, r.length = d ∧ Primitive r)
    (hinv : Inv (wOf d vs) vs.length (m.map (toV d))) {x : Row} (hx : x.length = n)
    (hE : ∀ e ∈ E, dot e x = 0) (hF : ∀ a ∈ m.map (insertAll zs), dot a x ≤ 0) :
    ∃ c : Fin V.length → ℚ, (∀ j, 0 ≤ c j) ∧ toV n x = ∑ j, c j • toV n V[j] := by
  -- in the reduced coordinates
  have h1 : InCone (wOf d vs) vs.length (ev d (eraseAll zs x)) := by
    apply h.primal
    intro a ha
    refine Gen.nonpos (S := (· ∈ m.map (toV d))) ?_ ((hinv.gen h.pointed' ha).mono fun e he => he.1)
    intro b hb
    obtain ⟨r, hr, rfl⟩ := List.mem_map.mp hb
    have hr1 := (hrows r hr).1
    rw [ev_toV d _ _ hr1.le, ← dot_insertAll h.stack (by rw [hr1, ← h.dsub]) hx]
    exact_mod_cast hF _ (List.mem_map.mpr ⟨r, hr, rfl⟩)
  -- coefficients indexed by V
  have h2 : Gen ℚ (fun y => ∃ j : Fin V.length, y = ev d (eraseAll zs V[j])) (ev d (eraseAll zs x)) := by
    refine Gen.mono ?_ h1
    rintro y ⟨j, hj, rfl⟩
    have hmem : vs.getD j [] ∈ V.map (eraseAll zs) := by
      rw [← h.perm.mem_iff, List.getD_eq_getElem?_getD, List.getElem?_eq_getElem hj]
      exact List.getElem_mem hj
    obtain ⟨v, hv, hve⟩ := List.mem_map.mp hmem
    obtain ⟨k, hk, rfl⟩ := List.getElem_of_mem hv
    refine ⟨⟨k, hk⟩, ?_⟩
    show ev d (vs.getD j []) = _
    rw [← hve]; rfl
  obtain ⟨c, hc, hcx⟩ : ∃ c : Fin V.length → ℚ, (∀ j, 0 ≤ c j) ∧
      ev d (eraseAll zs x) = ∑ j, c j • ev d (eraseAll zs V[j]) := by
    have h3 : InCone (fun j => ev d (eraseAll zs (V.getD j []))) V.length (ev d (eraseAll zs x)) := by
      refine Gen.mono ?_ h2
      rintro y ⟨j, rfl⟩
      refine ⟨j, j.2, ?_⟩
      simp only
      rw [List.getD_eq_getElem?_getD, List.getElem?_eq_getElem j.2]; rfl
    obtain ⟨c, hc, heq⟩ := h3.coeffs
    refine ⟨c, hc, heq.trans (Finset.sum_congr rfl fun j _ => ?_)⟩
    rw [List.getD_eq_getElem?_getD, List.getElem?_eq_getElem j.2]; rfl
  refine ⟨c, hc, ?_⟩
  have hVj : ∀ j : Fin V.length, V[j] ∈ V := fun j => List.getElem_mem _
  -- rows zero at the leading positions
  have hrow : ∀ a : Row, a.length = n → (∀ k ∈ zs, a.getD k 0 = 0) →
      (dot a x : ℚ) = ∑ j : Fin V.length, c j * (dot a V[j] : ℚ) := by
    intro a ha haz
    have hl : (eraseAll zs a).length = d := by rw [eraseAll_length h.stack ha, ← h.dsub]
    have h4 := congrArg (fun f => f (toV d (eraseAll zs a))) hcx
    simp only [LinearMap.sum_apply, LinearMap.smul_apply, smul_eq_mul] at h4
    rw [ev_toV d _ _ hl.le, dot_eraseAll h.stack ha hx haz] at h4
    rw [h4]
    apply Finset.sum_congr rfl
    intro j _
    rw [h.w_row ha haz (hVj j)]
  -- unit vectors
  have unit_dot : ∀ (k : Nat) (f : Int) (y : Row), k < n → y.length = n →
      dot ((List.replicate n 0).set k f) y = f * y.getD k 0 := by
    intro k f y hk hy
    have h5 := dot_eq_sum n ((List.replicate n 0).set k f) y (by simp)
    rw [Finset.sum_eq_single (⟨k, hk⟩ : Fin n)] at h5
    · simp only [toV] at h5
      have h6 : (((List.replicate n (0:Int)).set k f).getD k 0) = f := by
        simp [List.getD_eq_getElem?_getD, hk]
      rw [h6] at h5
      exact_mod_cast h5
    · intro i _ hi
      have h6 : (((List.replicate n (0:Int)).set k f).getD i 0) = 0 := by
        rw [List.getD_eq_getElem?_getD, List.getElem?_set_ne (fun he => hi (Fin.ext he.symm))]
        simp
      simp only [toV]
      rw [h6]; simp
    · simp
  funext i
  simp only [Finset.sum_apply, Pi.smul_apply, smul_eq_mul, toV]
  by_cases hi : (i : Nat) ∈ zs
  · obtain ⟨e, he, hei⟩ := (h.leads i).mp hi
    obtain ⟨hlt, hpos⟩ := h.ech.lead e he
    have hel := h.ech.len e he
    rw [hei] at hpos
    -- e without its leading coefficient
    have hsplit : ∀ y : Row, y.length = n → dot e y = e.getD i 0 * y.getD i 0 + dot (e.set i 0) y := by
      intro y hy
      have e1 := dot_eq_sum n e y hel.le
      have e2 := dot_eq_sum n (e.set i 0) y (by simp [hel])
      have : (dot e y : ℚ) = e.getD i 0 * y.getD i 0 + dot (e.set i 0) y := by
        rw [e1, e2, ← Finset.add_sum_erase _ _ (Finset.mem_univ i),
          ← Finset.add_sum_erase (f := fun k => toV n (e.set i 0) k * toV n y k) _ (Finset.mem_univ i)]
        have z0 : toV n (e.set i 0) i = 0 := by
          simp [toV, List.getD_eq_getElem?_getD, hel]
        rw [z0, zero_mul, zero_add]
        congr 1
        apply Finset.sum_congr rfl
        intro k hk
        have hne : k ≠ i := (Finset.mem_erase.mp hk).1
        congr 1
        simp only [toV, List.getD_eq_getElem?_getD]
        rw [List.getElem?_set_ne (fun he => hne (Fin.ext he.symm))]
      exact_mod_cast this
    have hz : ∀ k ∈ zs, (e.set i 0).getD k 0 = 0 := by
      intro k hk
      by_cases hki : k = i
      · subst hki; simp [List.getD_eq_getElem?_getD, hel]
      · have : (e.set i 0).getD k 0 = e.getD k 0 := by
          simp only [List.getD_eq_getElem?_getD]
          rw [List.getElem?_set_ne (fun he => hki he.symm)]
        rw [this]
        obtain ⟨e', he', hek⟩ := (h.leads k).mp hk
        have hne : e ≠ e' := by rintro rfl; exact hki (by rw [← hek, hei])
        have := List.Pairwise.forall_of_forall_of_flip (l := E)
          (R := fun e e' => e = e' ∨ (e'.getD (firstNonzero e) 0 = 0 ∧ e.getD (firstNonzero e') 0 = 0))
          (fun _ _ => Or.inl rfl) (h.ech.iso.imp fun h => Or.inr h)
          (h.ech.iso.imp fun h => Or.inr ⟨h.2, h.1⟩) he he'
        rcases this with h' | h'
        · exact absurd h' hne
        · rw [← hek]; exact h'.2
    have h6 := hrow (e.set i 0) (by simp [hel]) hz
    have h7 := hsplit x hx
    rw [hE e he] at h7
    have h8 : (e.getD i 0 : ℚ) * x.getD i 0 = - (dot (e.set i 0) x : ℚ) := by
      have : e.getD i 0 * x.getD i 0 = - dot (e.set i 0) x := by omega
      exact_mod_cast this
    have h9 : ∀ j : Fin V.length, (dot (e.set i 0) V[j] : ℚ) = - ((e.getD i 0 : ℚ) * (V[j].getD i 0 : ℚ)) := by
      intro j
      have h10 := hsplit V[j] (h.V_len _ (hVj j))
      rw [h.E_zero e he _ (hVj j)] at h10
      have : dot (e.set i 0) V[j] = - (e.getD i 0 * V[j].getD i 0) := by omega
      exact_mod_cast this
    simp only [h9] at h6
    rw [h6] at h8
    have hne : (e.getD i 0 : ℚ) ≠ 0 := by exact_mod_cast hpos.ne'
    apply mul_left_cancel₀ hne
    rw [h8, ← Finset.sum_neg_distrib, Finset.mul_sum]
    apply Finset.sum_congr rfl
    intro j _; ring
  · have hu := hrow ((List.replicate n 0).set i 1) (by simp) (by
      intro k hk
      have : k ≠ i := by rintro rfl; exact hi hk
      simp only [List.getD_eq_getElem?_getD]
      rw [List.getElem?_set_ne (fun he => this he.symm), List.getElem?_replicate]
      split <;> rfl)
    rw [unit_dot i 1 x i.2 hx] at hu
    simp only [one_mul] at hu
    rw [hu]
    apply Finset.sum_congr rfl
    intro j _
    rw [unit_dot i 1 _ i.2 (h.V_len _ (hVj j)), one_mul]

end Panda
