import Verif.Props.Vertices
import Verif.Proofs.RotationRows

/-! # C10 and C13: exactly when the output is incomplete -/

namespace Panda

open Cone

/-- the rows that are dropped, in terms of the columns: minus the unit vector of the last column that is not erased -/
theorem isBadRow_eraseAll : ∀ {zs : List Nat} {n : Nat} {r : Row}, Stack n zs → zs.length < n → r.length = n → (∀ c ∈ zs, r.getD c 0 = 0) →
    (isBadRow (eraseAll zs r) = true ↔ ∃ j < n, j ∉ zs ∧ (∀ c, j < c → c < n → c ∈ zs) ∧ ∀ i, r.getD i 0 = if i = j then -1 else 0) := by
  intro zs
  induction zs with
  | nil =>
    intro n r _ hn hr _
    obtain ⟨d, rfl⟩ : ∃ d, n = d + 1 := ⟨n - 1, by simp only [List.length_nil] at hn; omega⟩
    rw [eraseAll_nil, isBadRow_eq_trivialRow hr]
    constructor
    · rintro rfl
      exact ⟨d, by omega, by simp, fun c h1 h2 => by omega, trivialRow_getD d⟩
    · rintro ⟨j, hj, -, h2, h3⟩
      have : j = d := by
        by_contra hne
        exact absurd (h2 d (by omega) (by omega)) (by simp)
      subst this
      refine List.ext_getElem (by rw [hr, trivialRow_length]) fun i h4 h5 => ?_
      have e1 := h3 i
      rw [← trivialRow_getD] at e1
      simpa [List.getD_eq_getElem?_getD, List.getElem?_eq_getElem h4, List.getElem?_eq_getElem h5] using e1
  | cons c zs ih =>
    intro n r h hn hr hz
    have hc := h.2 c (by simp)
    have hlt := (List.pairwise_cons.mp h.1).1
    simp only [List.length_cons] at hn
    have hlo : ∀ k < c, (r.eraseIdx c).getD k 0 = r.getD k 0 := fun k hk => eraseIdx_getD_lt hk
    have hhi : ∀ k, c ≤ k → (r.eraseIdx c).getD k 0 = r.getD (k + 1) 0 := by
      intro k hk
      simp [List.getD_eq_getElem?_getD, List.getElem?_eraseIdx, Nat.not_lt.2 hk]
    have hc0 := hz c (by simp)
    rw [eraseAll_cons, ih h.tail (by omega) (by rw [List.length_eraseIdx_of_lt (by omega)]; omega)
      (fun k hk => by rw [hlo k (hlt k hk)]; exact hz k (by simp [hk]))]
    constructor
    · rintro ⟨j, hj, h1, h2, h3⟩
      by_cases hjc : j < c
      · refine ⟨j, by omega, by simp only [List.mem_cons, not_or]; exact ⟨by omega, h1⟩, fun k hk hkn => ?_, fun i => ?_⟩
        · by_cases hkc : k = c
          · simp [hkc]
          · have hcn : c = n - 1 := by
              by_contra hne
              have := hlt _ (h2 c (by omega) (by omega))
              omega
            exact List.mem_cons_of_mem _ (h2 k hk (by omega))
        · rcases Nat.lt_trichotomy i c with hi | rfl | hi
          · rw [← hlo i hi]; exact h3 i
          · rw [hc0, if_neg (by omega)]
          · have := h3 (i - 1)
            rw [hhi _ (by omega), show i - 1 + 1 = i by omega, if_neg (by omega)] at this
            rw [this, if_neg (by omega)]
      · refine ⟨j + 1, by omega, ?_, fun k hk hkn => ?_, fun i => ?_⟩
        · simp only [List.mem_cons, not_or]
          exact ⟨by omega, fun hm => by have := hlt _ hm; omega⟩
        · have := hlt _ (h2 (k - 1) (by omega) (by omega))
          omega
        · rcases Nat.lt_trichotomy i c with hi | rfl | hi
          · rw [← hlo i hi, h3 i, if_neg (by omega), if_neg (by omega)]
          · rw [hc0, if_neg (by omega)]
          · have := h3 (i - 1)
            rw [hhi _ (by omega), show i - 1 + 1 = i by omega] at this
            rw [this]
            by_cases hij : i = j + 1
            · rw [if_pos (by omega), if_pos hij]
            · rw [if_neg (by omega), if_neg hij]
    · rintro ⟨j, hj, h1, h2, h3⟩
      simp only [List.mem_cons, not_or] at h1
      by_cases hjc : j < c
      · have hcn : c = n - 1 := by
          by_contra hne
          have := h2 (c + 1) (by omega) (by omega)
          simp only [List.mem_cons] at this
          rcases this with e | e
          · omega
          · have := hlt _ e; omega
        refine ⟨j, by omega, h1.2, fun k hk hkn => ?_, fun i => ?_⟩
        · have := h2 k hk (by omega)
          simp only [List.mem_cons] at this
          exact this.resolve_left (by omega)
        · by_cases hi : i < c
          · rw [hlo i hi]; exact h3 i
          · rw [hhi i (by omega), h3, if_neg (by omega), if_neg (by omega)]
      · refine ⟨j - 1, by omega, fun hm => by have := hlt _ hm; omega, fun k hk hkn => ?_, fun i => ?_⟩
        · have := h2 (k + 1) (by omega) (by omega)
          simp only [List.mem_cons] at this
          rcases this with e | e
          · omega
          · have := hlt _ e; omega
        · by_cases hi : i < c
          · rw [hlo i hi, h3, if_neg (by omega), if_neg (by omega)]
          · rw [hhi i (by omega), h3]
            by_cases hij : i + 1 = j
            · rw [if_pos hij, if_pos (by omega)]
            · rw [if_neg hij, if_neg (by omega)]

section
variable {d n : Nat} {A V : Matrix}

/-- **C10**, exactly: for every input that is not identically zero, with or without vertices, let `j` be the last column in which no
equation starts.  The reported inequalities are all facets (each in its normal form, once) except `-x_j ≤ 0`.  If there is
a vertex then `j` is the column of the constants and the exception is `0 ≤ 1`; for a pure cone it is an honest inequality, and
the output is incomplete iff it defines a facet. -/
theorem C10_exact (hV : ∀ v ∈ V, v.length = n) (hnz : ∃ v ∈ V, ∃ x ∈ v, x ≠ 0) :
    ∃ E F, extractEquations V = .ok E ∧ fourierMotzkinElimination V = .ok F ∧ F.Nodup ∧
      ∃ j < n, (∀ e ∈ E, ¬ Spec.Lead e j) ∧ (∀ c, j < c → c < n → ∃ e ∈ E, Spec.Lead e c) ∧
        ∀ a, a ∈ F ↔ Spec.NormalisedFacet n V E a ∧ ¬ ∀ i, a.getD i 0 = if i = j then -1 else 0 := by
  obtain ⟨v, hv, x, hx, hx0⟩ := hnz
  have h0 : V ≠ [] := List.ne_nil_of_mem hv
  have hn : 0 < n := by rw [← hV v hv]; exact List.length_pos_of_mem hx
  obtain ⟨e1, e2, e3⟩ := extractEquations_ok hV h0 hn
  have hm := List.length_pos_of_ne_nil h0
  obtain ⟨F0, hel, heq⟩ := fme_elim e3 hm hn ⟨v, hv, x, hx, hx0⟩
  set zs := zeroCols (gaussSplit V).2.1 with hzs
  have hR := e2.rows_ne_nil hV ⟨v, hv, x, hx, hx0⟩
  have hred := reduced_of_split e3 e2 hR
  have hlead : ∀ c, c ∈ zs ↔ ∃ e ∈ (gaussSplit V).1, Spec.Lead e c := by
    intro c
    rw [hred.leads]
    constructor
    · rintro ⟨e, he, hc⟩
      exact ⟨e, he, Panda.lead_iff.mpr ⟨by rw [e2.E_len e he]; exact (e2.E_lead e he).1, hc⟩⟩
    · rintro ⟨e, he, hc⟩
      exact ⟨e, he, (Panda.lead_iff.mp hc).2⟩
  have hzn : zs.length < n := by
    have h1 : (gaussSplit V).2.1.length + zs.length = n := hred.dlen
    have h2 : 0 < (gaussSplit V).2.1.length := hred.dpos
    omega
  have hj : ∃ j < n, j ∉ zs ∧ ∀ c, j < c → c < n → c ∈ zs := by
    by_contra hno
    push Not at hno
    have hall : ∀ k c, c < n → n ≤ c + k → c ∈ zs := by
      intro k
      induction k with
      | zero => intro c h1 h2; omega
      | succ k ih =>
        intro c h1 h2
        by_contra hc
        obtain ⟨c', h3, h4, h5⟩ := hno c h1 hc
        exact h5 (ih c' h4 (by omega))
    have hsub : List.range n ⊆ zs := fun c hc => hall n c (List.mem_range.1 hc) (by omega)
    have := (List.nodup_range.subperm hsub).length_le
    rw [List.length_range] at this
    omega
  obtain ⟨j, hj1, hj2, hj3⟩ := hj
  refine ⟨_, _, e1, heq, hel.nodup.filter _, j, hj1, fun e he hl => hj2 ((hlead j).2 ⟨e, he, hl⟩), fun c h1 h2 => (hlead c).1 (hj3 c h1 h2), fun a => ?_⟩
  rw [List.mem_filter, hel.mem, ← normalisedFacet_iff e2]
  refine and_congr_right fun ha => ?_
  have hza : ∀ c ∈ zs, a.getD c 0 = 0 := by
    intro c hc
    obtain ⟨e, he, hl⟩ := (hlead c).1 hc
    exact ha.2.2 e he c hl
  have hb := isBadRow_eraseAll hred.stack hzn ha.1.1 hza
  have huniq : (∃ j < n, j ∉ zs ∧ (∀ c, j < c → c < n → c ∈ zs) ∧ ∀ i, a.getD i 0 = if i = j then -1 else 0) ↔ ∀ i, a.getD i 0 = if i = j then -1 else 0 := by
    constructor
    · rintro ⟨k, h1, h2, h3, h4⟩
      have : k = j := by
        rcases Nat.lt_trichotomy k j with h | h | h
        · exact absurd (h3 j h hj1) hj2
        · exact h
        · exact absurd (hj3 k h h1) h2
      rwa [this] at h4
    · exact fun h => ⟨j, hj1, hj2, hj3, h⟩
  rw [← huniq, ← hb, ← hzs]
  simp

/-- the positive quadrant as a pure cone: the last column without an equation is the second one -/
example : extractEquations [[1, 0, 0], [0, 1, 0]] = .ok [[0, 0, 1]] ∧ fourierMotzkinElimination [[1, 0, 0], [0, 1, 0]] = .ok [[-1, 0, 0]] := by decide

/-- **C13 fails whenever it can**: if the solution set contains a line, then it is not generated by the output. -/
theorem C13_line_false (hA : ∀ a ∈ A, a.length = d + 1) (htriv : List.replicate d 0 ++ [-1] ∈ A) (hline : Spec.HasLine d A) :
    ∃ W, fourierMotzkinElimination A = .ok W ∧ ∃ p, Spec.Solves d A p ∧ ¬ Spec.InPolyhedron d W p := by
  have htriv' : trivialRow d ∈ A := htriv
  have hrect : Rect A A.length (d+1) := ⟨rfl, hA⟩
  have hlen : 0 < A.length := List.length_pos_of_mem htriv
  obtain ⟨F0, hel, heq⟩ := fme_elim' hrect hlen (Nat.succ_pos d)
    ⟨trivialRow d, htriv', by simp [trivialRow_getD, -List.getD_eq_getElem?_getD]⟩
  have hsp := gaussSplit_spec hrect hlen (Nat.succ_pos d)
  refine ⟨_, heq, ?_⟩
  set W := F0.filter fun a => !(isBadRow a) with hW
  have hw : ∀ w ∈ W, NormalFacet (d+1) A (gaussSplit A).1 w := fun w hw => (hel.mem w).1 (List.mem_of_mem_filter hw)
  have hlast : ∀ w ∈ W, 0 ≤ w.getD d 0 := by
    intro w hw'
    have := (hw w hw').2.2.2.valid _ htriv'
    rw [dot_comm, dot_trivialRow] at this
    omega
  obtain ⟨p, q, hq, hl⟩ := hline
  by_contra hno
  push Not at hno
  have hgen : ∀ t : ℚ, Spec.InConeOf (d+1) W (hom d (p + t • q)) := fun t => (inPolyhedron_iff hlast _).1 (hno _ (hl t))
  have hzero : ∀ t : ℚ, ∀ e ∈ (gaussSplit A).1, ∀ hc : firstNonzero e < d + 1, hom d (p + t • q) ⟨firstNonzero e, hc⟩ = 0 := by
    intro t e he hc
    obtain ⟨c, -, hs⟩ := hgen t
    rw [hs, Finset.sum_apply]
    refine Finset.sum_eq_zero fun j _ => ?_
    rw [Pi.smul_apply]
    have : (W[j]).getD (firstNonzero e) 0 = 0 := (hw _ (List.getElem_mem _)).2.2.1 e he
    simp only [Spec.vec, this, Int.cast_zero, smul_zero]
  -- the direction of the line is zero where the equations start, and all rows vanish on it
  have hx : hom d (p + (1:ℚ) • q) - hom d p = 0 := by
    refine hsp.annih_zero_rat hrect (fun e he hc => ?_) fun a ha => ?_
    · have h1 := hzero 1 e he hc
      have h2 := hzero 0 e he hc
      rw [zero_smul, add_zero] at h2
      rw [Pi.sub_apply, h1, h2, sub_zero]
    · have key : ∀ t : ℚ, ev (d+1) a (hom d (p + t • q)) = ev (d+1) a (hom d p) + t * (ev (d+1) a (hom d (p + (1:ℚ) • q)) - ev (d+1) a (hom d p)) := by
        intro t
        simp only [← value_eq, Spec.value, Pi.add_apply, Pi.smul_apply, smul_eq_mul, one_mul, mul_add, Finset.sum_add_distrib]
        have : ∑ x : Fin d, (a.getD x 0 : ℚ) * (t * q x) = t * ∑ x : Fin d, (a.getD x 0 : ℚ) * q x := by
          rw [Finset.mul_sum]; exact Finset.sum_congr rfl fun i _ => by ring
        rw [this]; ring
      rw [map_sub]
      by_contra hne
      set g := ev (d+1) a (hom d (p + (1:ℚ) • q)) - ev (d+1) a (hom d p) with hg
      have h1 := hl ((1 - ev (d+1) a (hom d p)) / g) a ha
      rw [value_eq, key, div_mul_cancel₀ _ hne] at h1
      linarith
  refine hq (funext fun i => ?_)
  have := congrFun hx i.castSucc
  rw [Pi.sub_apply, hom_castSucc, hom_castSucc, Pi.add_apply, Pi.smul_apply, smul_eq_mul, one_mul] at this
  simpa using this

/-- C13, exactly: for a system with a solution, the output generates the solution set iff it contains no line -/
theorem C13_exact (hA : ∀ a ∈ A, a.length = d + 1) (htriv : List.replicate d 0 ++ [-1] ∈ A) (hfeas : ∃ p, Spec.Solves d A p) :
    ∃ W, fourierMotzkinElimination A = .ok W ∧ ((∀ p, Spec.Solves d A p ↔ Spec.InPolyhedron d W p) ↔ ¬ Spec.HasLine d A) := by
  by_cases hl : Spec.HasLine d A
  · obtain ⟨W, h1, p, h2, h3⟩ := C13_line_false hA htriv hl
    exact ⟨W, h1, iff_of_false (fun h => h3 ((h p).1 h2)) (not_not.2 hl)⟩
  · obtain ⟨W, h1, -, -, h2⟩ := C12_vertex_enumeration hA htriv hfeas hl
    exact ⟨W, h1, iff_of_true h2 hl⟩

/-- a half plane contains a line, a quadrant does not -/
example : Spec.HasLine 2 [[1, 0, -1], [0, 0, -1]] ∧ fourierMotzkinElimination [[-1, 0, 0], [0, -1, 0], [0, 0, -1]] = .ok [[1, 0, 0], [0, 1, 0], [0, 0, 1]] := by
  refine ⟨⟨0, ![0, 1], fun h => by simpa using congrFun h 1, fun t a ha => ?_⟩, by decide⟩
  simp only [List.mem_cons, List.not_mem_nil, or_false] at ha
  rcases ha with rfl | rfl <;> simp [Spec.value, Fin.sum_univ_two]

end

end Panda
