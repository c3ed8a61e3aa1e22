import Verif.Proofs.RowsBridge
import Verif.Proofs.FacetFacts
import Verif.Props.Arith

/-! # Properties C07–C15: facet and vertex enumeration by double description -/

namespace Panda

open Cone

section
variable {d n : Nat} {V : Matrix}

/-- both computations succeed on every input with a vertex -/
theorem dd_ok (hV : Spec.IsVInput d V) :
    ∃ E F0, extractEquations V = .ok E ∧ E = (gaussSplit V).1 ∧
      Split V (d+1) E (gaussSplit V).2.1 (gaussSplit V).2.2 ∧ Elim V (d+1) E F0 ∧
      fourierMotzkinElimination V = .ok (F0.filter fun a => !(isBadRow a)) := by
  obtain ⟨h1, h2, h3⟩ := IsVInput.rect hV
  obtain ⟨e1, e2, -⟩ := extractEquations_ok hV.size (List.ne_nil_of_length_pos h2) (Nat.succ_pos d)
  obtain ⟨F0, hel, heq⟩ := fme_elim' h1 h2 (Nat.succ_pos d) h3
  exact ⟨_, F0, e1, rfl, e2, hel, heq⟩

/-- **C07** every reported inequality and equation is satisfied by every input row (any input that is
not identically zero, with or without vertices) -/
theorem C07_dd_sound (hV : ∀ v ∈ V, v.length = n) (hnz : ∃ v ∈ V, ∃ x ∈ v, x ≠ 0) :
    ∃ E F, extractEquations V = .ok E ∧ fourierMotzkinElimination V = .ok F ∧
      (∀ e ∈ E, e.length = n ∧ ∀ v ∈ V, Spec.ip e v = 0) ∧ ∀ a ∈ F, a.length = n ∧ ∀ v ∈ V, Spec.ip a v ≤ 0 := by
  obtain ⟨v, hv, x, hx, hx0⟩ := hnz
  have h0 : V ≠ [] := List.ne_nil_of_mem hv
  have hn : 0 < n := by rw [← hV v hv]; exact List.length_pos_of_mem hx
  obtain ⟨e1, e2, e3⟩ := extractEquations_ok hV h0 hn
  obtain ⟨F0, hel, heq⟩ := fme_elim e3 (List.length_pos_of_ne_nil h0) hn ⟨v, hv, x, hx, hx0⟩
  refine ⟨_, _, e1, heq, fun e he => ⟨e2.E_len e he, fun v hv => by rw [ip_eq_dot]; exact e2.E_zero e he v hv⟩, ?_⟩
  intro a ha
  have hnf := (hel.mem a).mp (List.mem_of_mem_filter ha)
  exact ⟨hnf.1, fun v hv => by rw [ip_eq_dot]; exact hnf.2.2.2.valid v hv⟩

/-- the excluded inputs have no defined behaviour -/
theorem C07_undefined : fourierMotzkinElimination [] = .ub ∧ fourierMotzkinElimination [[0, 0], [0, 0]] = .ub := by
  decide

theorem value_trivialRow (d : Nat) (p : Fin d → ℚ) : Spec.value d (trivialRow d) p = -1 := by
  rw [value_eq, ev_trivialRow, hom_last]

/-- **C08** a point is in conv(vertices) + cone(rays) iff it satisfies all reported equations and
inequalities -/
theorem C08_dd_complete (hV : Spec.IsVInput d V) :
    ∃ E F, extractEquations V = .ok E ∧ fourierMotzkinElimination V = .ok F ∧
      ∀ p : Fin d → ℚ, Spec.InPolyhedron d V p ↔ Spec.Satisfies d E F p := by
  obtain ⟨E, F0, h1, rfl, h3, h4, h5⟩ := dd_ok hV
  refine ⟨_, _, h1, h5, fun p => ?_⟩
  rw [inPolyhedron_iff hV.last, h4.inConeOf_iff h3.E_len h3.E_zero]
  unfold Spec.Satisfies
  simp only [value_eq]
  refine and_congr Iff.rfl ⟨fun h a ha => h a (List.mem_of_mem_filter ha), fun h a ha => ?_⟩
  by_cases hb : isBadRow a = true
  · rw [(isBadRow_eq_trivialRow ((h4.mem a).mp ha).1).mp hb, ev_trivialRow, hom_last]; norm_num
  · exact h a (List.mem_filter.mpr ⟨ha, by simpa using hb⟩)

/-- a square with one redundant point and one ray -/
example : Spec.IsVInput 2 [[0, 0, 1], [2, 0, 1], [0, 2, 1], [1, 1, 1], [1, 0, 0]] ∧
    fourierMotzkinElimination [[0, 0, 1], [2, 0, 1], [0, 2, 1], [1, 1, 1], [1, 0, 0]] =
      .ok [[0, -1, 0], [-1, 0, 0], [0, 1, -2]] :=
  ⟨⟨by decide, by decide, by decide⟩, by decide⟩

/-- **C09** every reported inequality defines a facet (rank one less than the input) and is primitive;
none is reported twice, not even as a multiple modulo the equations; and for each of them there is a
point satisfying all the others and all the equations but not it. -/
theorem C09_dd_irredundant (hV : Spec.IsVInput d V) :
    ∃ E F, extractEquations V = .ok E ∧ fourierMotzkinElimination V = .ok F ∧ F.Nodup ∧
      (∀ a ∈ F, Spec.IsFacet (d+1) V a ∧ Spec.PrimitiveRow a) ∧
      (∀ a ∈ F, ∀ b ∈ F, a ≠ b → ∀ t : ℚ, Spec.vec (d+1) b - t • Spec.vec (d+1) a ∉ Spec.span (d+1) E) ∧
      ∀ a ∈ F, ∃ p : Fin d → ℚ, Spec.Satisfies d E (F.filter fun b => decide (b ≠ a)) p ∧
        ¬ Spec.InPolyhedron d V p := by
  obtain ⟨E, F0, h1, rfl, h3, h4, h5⟩ := dd_ok hV
  have hrect := (IsVInput.rect hV).1
  have hnf : ∀ a ∈ F0.filter (fun a => !(isBadRow a)), NormalFacet (d+1) V (gaussSplit V).1 a :=
    fun a ha => (h4.mem a).mp (List.mem_of_mem_filter ha)
  refine ⟨_, _, h1, h5, h4.nodup.filter _, ?_, ?_, ?_⟩
  · intro a ha
    exact ⟨isFacet_iff.mpr ⟨(hnf a ha).1, (hnf a ha).2.2.2⟩, (primitiveRow_iff a).mpr (hnf a ha).2.1⟩
  · intro a ha b hb hne t ht
    exact hne ((hnf a ha).not_proportional h3 hrect (hnf b hb) ht).symm
  · intro a ha
    have hbad : a ≠ trivialRow d := by
      intro h
      have := (List.mem_filter.mp ha).2
      rw [(isBadRow_eq_trivialRow (hnf a ha).1).mpr h] at this
      exact absurd this (by decide)
    obtain ⟨p, hp, hpos⟩ := drop_facet h3 hV hnf (hnf a ha) hbad
    refine ⟨p, hp, fun hin => ?_⟩
    rw [inPolyhedron_iff hV.last] at hin
    have := ev_inConeOf (hnf a ha).1 (hnf a ha).2.2.2.valid hin
    rw [value_eq] at hpos
    linarith

/-- converse of C09: every facet is reported, up to a positive factor and modulo the equations, unless
it is the trivial inequality `0 ≤ 1` -/
theorem C09_every_facet_reported (hV : Spec.IsVInput d V) :
    ∃ E F, extractEquations V = .ok E ∧ fourierMotzkinElimination V = .ok F ∧
      ∀ a, Spec.IsFacet (d+1) V a → ∃ b, (b ∈ F ∨ b = trivialRow d) ∧ ∃ s : ℚ, 0 < s ∧
        Spec.vec (d+1) b - s • Spec.vec (d+1) a ∈ Spec.span (d+1) E := by
  obtain ⟨E, F0, h1, rfl, h3, h4, h5⟩ := dd_ok hV
  refine ⟨_, _, h1, h5, fun a ha => ?_⟩
  obtain ⟨hl, hf⟩ := isFacet_iff.mp ha
  obtain ⟨r, -, hr, ⟨s, hs, hsp⟩, hz, hprim⟩ := normalize_spec h3.echelon hl
  have hval : ∀ v ∈ V, (dot r v : ℚ) = s * dot a v := by
    intro v hv
    have := ev_rowSpan_zero h3.E_len (fun e he => h3.E_zero e he v hv) hsp
    rw [map_sub, map_smul, ev_toV _ r v hr.le, ev_toV _ a v hl.le, smul_eq_mul, sub_eq_zero] at this
    exact this
  have hnf : NormalFacet (d+1) V (gaussSplit V).1 r := by
    obtain ⟨v, hv, hne⟩ := hf.strict
    refine ⟨hr, ?_, hz, ?_, ⟨v, hv, ?_⟩, ?_⟩
    · rcases hprim with h | h
      · exact h
      · exfalso
        have h0 : dot r v = 0 := by
          have h6 := (toV_eq_zero_iff (d+1) r hr).mpr h
          have := ev_toV (d+1) r v hr.le
          rw [h6, map_zero] at this; exact_mod_cast this.symm
        have := hval v hv
        rw [h0] at this
        have h7 : (dot a v : ℚ) ≠ 0 := by exact_mod_cast hne
        exact mul_ne_zero hs.ne' h7 (by simpa using this.symm)
    · intro v hv
      have h6 : (dot a v : ℚ) ≤ 0 := by exact_mod_cast hf.valid v hv
      have : (dot r v : ℚ) ≤ 0 := by rw [hval v hv]; exact mul_nonpos_of_nonneg_of_nonpos hs.le h6
      exact_mod_cast this
    · have h7 : (dot a v : ℚ) ≠ 0 := by exact_mod_cast hne
      have : (dot r v : ℚ) ≠ 0 := by rw [hval v hv]; exact mul_ne_zero hs.ne' h7
      exact_mod_cast this
    · intro b hb hbz
      obtain ⟨t, ht⟩ := hf.tight b hb (fun v hv h0 => hbz v hv (by
        have := hval v hv
        rw [h0] at this; simp only [Int.cast_zero, mul_zero] at this; exact_mod_cast this))
      exact ⟨t / s, fun v hv => by rw [ht v hv, hval v hv]; field_simp⟩
  refine ⟨r, ?_, s, hs, hsp⟩
  by_cases hb : isBadRow r = true
  · exact Or.inr ((isBadRow_eq_trivialRow hr).mp hb)
  · exact Or.inl (List.mem_filter.mpr ⟨(h4.mem r).mpr hnf, by simpa using hb⟩)

/-- **C10 is false of the code**: for the cone generated by the rays (1,0) and (0,1) (no vertex), the
facet `-y ≤ 0` is not reported. -/
theorem C10_pure_cone_false :
    ∃ V : Matrix, (∀ v ∈ V, v.length = 3 ∧ v.getD 2 0 = 0) ∧
      fourierMotzkinElimination V = .ok [[-1, 0, 0]] ∧ Spec.IsFacet 3 V [0, -1, 0] := by
  refine ⟨[[1, 0, 0], [0, 1, 0]], by decide, by decide, isFacet_iff.mpr ⟨rfl, ?_, ?_, ?_⟩⟩
  · decide
  · exact ⟨[0, 1, 0], by simp, by decide⟩
  · intro b hb h
    have h1 := h [1, 0, 0] (by simp) (by decide)
    refine ⟨-(dot b [0, 1, 0] : ℚ), ?_⟩
    intro v hv
    simp only [List.mem_cons, List.not_mem_nil, or_false] at hv
    rcases hv with rfl | rfl
    · rw [h1]; norm_num [dot]
    · norm_num [dot]

/-- **C10**, the true part: for every input that is not identically zero, all facets are reported
except at most one. -/
theorem C10_pure_cone_partial (hV : ∀ v ∈ V, v.length = n) (hnz : ∃ v ∈ V, ∃ x ∈ v, x ≠ 0) :
    ∃ E F F0 : Matrix, extractEquations V = .ok E ∧ fourierMotzkinElimination V = .ok F ∧
      (∀ a ∈ F, a ∈ F0) ∧ F0.length ≤ F.length + 1 ∧ F0.Nodup ∧ (∀ a ∈ F0, Spec.IsFacet n V a) ∧
      ∀ x : Fin n → ℚ, Spec.InConeOf n V x ↔
        (∀ e ∈ E, Spec.lin n e x = 0) ∧ ∀ a ∈ F0, Spec.lin n a x ≤ 0 := by
  obtain ⟨v, hv, x, hx, hx0⟩ := hnz
  have h0 : V ≠ [] := List.ne_nil_of_mem hv
  have hn : 0 < n := by rw [← hV v hv]; exact List.length_pos_of_mem hx
  obtain ⟨e1, e2, e3⟩ := extractEquations_ok hV h0 hn
  have hm := List.length_pos_of_ne_nil h0
  obtain ⟨F0, hel, heq⟩ := fme_elim e3 hm hn ⟨v, hv, x, hx, hx0⟩
  refine ⟨_, _, F0, e1, heq, fun a ha => List.mem_of_mem_filter ha, ?_, hel.nodup, ?_, ?_⟩
  · -- the filtered rows are all equal
    set zs := zeroCols (gaussSplit V).2.1 with hzs
    have hR := e2.rows_ne_nil hV ⟨v, hv, x, hx, hx0⟩
    have hred := reduced_of_split e3 e2 hR
    have hbad : ∀ a ∈ F0, ∀ b ∈ F0, isBadRow (eraseAll zs a) = true → isBadRow (eraseAll zs b) = true → a = b := by
      intro a ha b hb h1 h2
      have ha' := (hel.mem a).mp ha
      have hb' := (hel.mem b).mp hb
      have hza : ∀ c ∈ zs, a.getD c 0 = 0 := by
        intro c hc; obtain ⟨e, he, rfl⟩ := (hred.leads c).mp hc; exact ha'.2.2.1 e he
      have hzb : ∀ c ∈ zs, b.getD c 0 = 0 := by
        intro c hc; obtain ⟨e, he, rfl⟩ := (hred.leads c).mp hc; exact hb'.2.2.1 e he
      have := isBadRow_unique (eraseAll_length hred.stack ha'.1) (eraseAll_length hred.stack hb'.1) h1 h2
      rw [← insertAll_eraseAll hred.stack ha'.1 hza, ← insertAll_eraseAll hred.stack hb'.1 hzb, this]
    have hlen : F0.length = (F0.filter fun a => !(isBadRow (eraseAll zs a))).length +
        (F0.filter fun a => isBadRow (eraseAll zs a)).length := by
      rw [← List.countP_eq_length_filter, ← List.countP_eq_length_filter, Nat.add_comm]
      have := List.length_eq_countP_add_countP (fun a => isBadRow (eraseAll zs a)) (l := F0)
      rw [this]; congr 1
      apply List.countP_congr; intro a _; simp
    have hle : (F0.filter fun a => isBadRow (eraseAll zs a)).length ≤ 1 := by
      have hnd := hel.nodup.filter (fun a => isBadRow (eraseAll zs a))
      rcases hl : F0.filter (fun a => isBadRow (eraseAll zs a)) with _ | ⟨a, _ | ⟨b, l⟩⟩
      · simp
      · simp
      · exfalso
        rw [hl] at hnd
        have ha := List.mem_filter.mp (by rw [hl]; simp : a ∈ F0.filter fun a => isBadRow (eraseAll zs a))
        have hb := List.mem_filter.mp (by rw [hl]; simp : b ∈ F0.filter fun a => isBadRow (eraseAll zs a))
        have := hbad a ha.1 b hb.1 ha.2 hb.2
        subst this; simp at hnd
    omega
  · intro a ha
    have := (hel.mem a).mp ha
    exact isFacet_iff.mpr ⟨this.1, this.2.2.2⟩
  · intro x
    simp only [lin_eq]
    exact hel.inConeOf_iff e2.E_len e2.E_zero x

/-- **C11** permuting or repeating input rows changes neither the set of reported equations nor the set
of reported inequalities (both are lists without repetition, equal up to order) -/
theorem C11_order_independent {V' : Matrix} (hV : Spec.IsVInput d V) (hset : ∀ v, v ∈ V ↔ v ∈ V') :
    ∃ E E' F F', extractEquations V = .ok E ∧ extractEquations V' = .ok E' ∧
      fourierMotzkinElimination V = .ok F ∧ fourierMotzkinElimination V' = .ok F' ∧
      E.Perm E' ∧ F.Perm F' := by
  have hV' : Spec.IsVInput d V' := by
    obtain ⟨h1, h2, h3⟩ := hV
    simp only [hset] at h1 h2 h3
    exact ⟨h1, h2, h3⟩
  obtain ⟨E, F0, h1, rfl, h3, h4, h5⟩ := dd_ok hV
  obtain ⟨E', F0', h1', rfl, h3', h4', h5'⟩ := dd_ok hV'
  obtain ⟨r1, r2, r3⟩ := IsVInput.rect hV
  obtain ⟨r1', r2', r3'⟩ := IsVInput.rect hV'
  refine ⟨_, _, _, _, h1, h1', h5, h5', equations_perm r1 r1' r2 r2' (Nat.succ_pos d) hset, ?_⟩
  apply List.Perm.filter
  rw [List.perm_ext_iff_of_nodup h4.nodup h4'.nodup]
  intro a
  rw [h4.mem, h4'.mem]
  exact NormalFacet.congr r1 r1' r2 r2' (Nat.succ_pos d) hset

example : fourierMotzkinElimination [[0, 0, 1], [1, 0, 1], [0, 1, 1]] = .ok [[-1, 0, 0], [0, -1, 0], [1, 1, -1]] ∧
    fourierMotzkinElimination [[0, 1, 1], [1, 0, 1], [0, 0, 1], [0, 0, 1]] =
      .ok [[-1, 0, 0], [0, -1, 0], [1, 1, -1]] := by decide

end

end Panda
