import Verif.Proofs.RowsBridge
import Verif.Proofs.Rank

/-! # Properties C01–C06: integers, rows, rank, equations -/

namespace Panda

/-- **C01** `gcd(a, b)` is the non-negative greatest common divisor, for all integers. -/
theorem C01_gcd (a b : Int) : Spec.IsGcd [a, b] (gcd a b) := by
  rw [gcd_eq]; exact isGcd_pair a b

/-- **C01** `lcm(a, b)` is the non-negative least common multiple unless both are zero; then the code
divides by zero. -/
theorem C01_lcm (a b : Int) :
    if a = 0 ∧ b = 0 then lcm a b = .ub else ∃ m, lcm a b = .ok m ∧ Spec.IsLcm [a, b] m := by
  split
  · next h => obtain ⟨rfl, rfl⟩ := h; exact lcm_zero_zero
  · next h => exact ⟨_, lcm_eq a b (by tauto), isLcm_pair a b⟩

example : gcd (-12) 18 = 6 ∧ lcm (-4) 6 = .ok 12 ∧ lcm 0 5 = .ok 0 := by decide

/-- **C02** the gcd of a row is the gcd of all its entries -/
theorem C02_row_gcd (r : Row) : Spec.IsGcd r (rowGcd r) := isGcd_row r

/-- **C02** the lcm of a row of non-zero entries is the (positive) lcm of all its entries -/
theorem C02_row_lcm (r : Row) (h : ∀ x ∈ r, x ≠ 0) : ∃ L, rowLcm r = .ok L ∧ 0 < L ∧ Spec.IsLcm r L :=
  rowLcm_spec r h

/-- **C02** dividing by the gcd is exact and yields the primitive row on the same ray: the row is a
positive multiple (by its gcd) of the result, whose entries have gcd one. -/
theorem C02_primitive (r : Row) (h : ∃ x ∈ r, x ≠ 0) :
    0 < rowGcd r ∧ r = (makePrimitive r).map (· * rowGcd r) ∧ Spec.PrimitiveRow (makePrimitive r) := by
  obtain ⟨g, hg, heq, hp⟩ := makePrimitive_spec r
  obtain ⟨h1, rfl⟩ := hp h
  rw [rowGcd_eq]
  exact ⟨hg, heq, (primitiveRow_iff _).mpr h1⟩

example : makePrimitive [0, -4, 6] = [0, -2, 3] ∧ rowLcm [1, 4, 6] = .ok 12 := by decide

/-- **C03** normalising an inequality modulo equations in reduced echelon form with positive leading
coefficients: the result is zero at every leading position, primitive (or zero), differs from a positive
multiple of the input by a combination of the equations, and so has the same sign as the input wherever
the equations hold. -/
theorem C03_normalize (n : Nat) (E : Matrix) (row : Row) (hE : Spec.ReducedEchelon n E)
    (hl : row.length = n) :
    ∃ r, normalize row E = .ok r ∧ r.length = n ∧
      (∀ e ∈ E, ∀ k, Spec.Lead e k → r.getD k 0 = 0) ∧
      (Spec.PrimitiveRow r ∨ ∀ x ∈ r, x = 0) ∧
      ∃ s : ℚ, 0 < s ∧ Spec.vec n r - s • Spec.vec n row ∈ Spec.span n E ∧
        ∀ x : Fin n → ℚ, (∀ e ∈ E, Spec.lin n e x = 0) → Spec.lin n r x = s * Spec.lin n row x := by
  have hE' := reducedEchelon_iff.mp hE
  obtain ⟨r, h1, h2, ⟨s, hs, h3⟩, h4, h5⟩ := normalize_spec hE' hl
  refine ⟨r, h1, h2, ?_, ?_, s, hs, h3, ?_⟩
  · intro e he k hk
    obtain ⟨_, rfl⟩ := lead_iff.mp hk; exact h4 e he
  · rw [primitiveRow_iff]; exact h5
  · intro x hx
    simp only [lin_eq] at hx ⊢
    have := ev_span_zero hx h3
    simp only [Pi.sub_apply, Pi.smul_apply, smul_eq_mul, sub_mul, Finset.sum_sub_distrib, mul_assoc,
      ← Finset.mul_sum] at this
    rw [ev_as_sum, ev_as_sum]; linarith

example : Spec.ReducedEchelon 3 [[2, 0, 1], [0, 1, 1]] ∧
    normalize [3, 3, 3] [[2, 0, 1], [0, 1, 1]] = .ok [0, 0, -1] :=
  ⟨reducedEchelon_iff.mpr ⟨by decide, by decide, by decide⟩, by decide⟩

/-- **C03** the hypothesis on the sign matters: with a negative leading coefficient the inequality is
reversed. -/
theorem C03_negative_lead_reverses :
    normalize [1, 1, 0] [[-1, 0, 0]] = .ok [0, -1, 0] := by decide

/-- **C04** the dimension of a matrix is the rank over the rationals of its rows -/
theorem C04_dimension_eq_rank (n : Nat) (m : Matrix) (hm : ∀ r ∈ m, r.length = n) :
    dimension m = Spec.rank n m := dimension_eq hm

example : dimension [[1, 2, 3], [2, 4, 6], [0, 1, 1], [1, 3, 4]] = 2 := by decide

section
variable {n : Nat} {V : Matrix}

theorem extractEquations_ok (hV : ∀ v ∈ V, v.length = n) (h0 : V ≠ []) (hn : 0 < n) :
    extractEquations V = .ok (gaussSplit V).1 ∧
      Split V n (gaussSplit V).1 (gaussSplit V).2.1 (gaussSplit V).2.2 ∧ Rect V V.length n := by
  have hr : Rect V V.length n := ⟨rfl, hV⟩
  have hl : 0 < V.length := List.length_pos_of_ne_nil h0
  refine ⟨?_, gaussSplit_spec hr hl hn, hr⟩
  unfold extractEquations
  rw [if_neg]
  rw [hr.colSize hl]; rintro (h | h)
  · exact h0 h
  · omega

/-- **C05** the reported equations hold on every row, are linearly independent, every equation holding
on all rows is a combination of them, and a vector satisfies all of them iff it is in the linear span
of the input. -/
theorem C05_equations_describe_span (hV : ∀ v ∈ V, v.length = n) (h0 : V ≠ []) (hn : 0 < n) :
    ∃ E, extractEquations V = .ok E ∧ (∀ e ∈ E, e.length = n) ∧
      (∀ e ∈ E, ∀ v ∈ V, Spec.ip e v = 0) ∧
      LinearIndependent ℚ (fun k : Fin E.length => Spec.vec n E[k]) ∧
      (∀ a : Row, a.length = n → (∀ v ∈ V, Spec.ip a v = 0) → Spec.vec n a ∈ Spec.span n E) ∧
      ∀ x : Fin n → ℚ, (∀ e ∈ E, Spec.lin n e x = 0) ↔ x ∈ Spec.span n V := by
  obtain ⟨h1, h2, h3⟩ := extractEquations_ok hV h0 hn
  refine ⟨_, h1, h2.E_len, fun e he v hv => by rw [ip_eq_dot]; exact h2.E_zero e he v hv,
    h2.echelon.linearIndependent, ?_, ?_⟩
  · intro a ha hav
    simp only [ip_eq_dot] at hav
    exact h2.annih_span h3 ha hav
  · intro x
    constructor
    · intro hx
      by_contra hno
      obtain ⟨g, hg, hgk⟩ := Submodule.exists_le_ker_of_notMem hno
      obtain ⟨N, b, hN, hb, heq⟩ := exists_row_of_dual g
      have hN' : (N : ℚ) ≠ 0 := by exact_mod_cast hN.ne'
      have hz : ∀ v ∈ V, dot b v = 0 := by
        intro v hv
        have h4 : g (toV n v) = 0 := LinearMap.mem_ker.mp (hgk (Submodule.subset_span ⟨v, hv, rfl⟩))
        have := heq v
        rw [h4, mul_zero] at this; exact_mod_cast this
      have hsp := h2.annih_span h3 hb hz
      simp only [lin_eq] at hx
      have h5 := ev_span_zero hx hsp
      apply hg
      -- b is N times g, also at x
      obtain ⟨M, r, hM, hr, hreq⟩ := exists_int_multiple x
      have hM' : (M : ℚ) ≠ 0 := by exact_mod_cast hM.ne'
      have h6 := heq r
      rw [dot_eq_sum n b r hb.le, hreq, map_smul] at h6
      have h7 : ∑ i, toV n b i * ((M : ℚ) • x) i = 0 := by
        have : ∀ i, toV n b i * ((M : ℚ) • x) i = M * (toV n b i * x i) := by
          intro i; simp only [Pi.smul_apply, smul_eq_mul]; ring
        simp only [this, ← Finset.mul_sum, h5, mul_zero]
      rw [h7, smul_eq_mul] at h6
      have := (mul_eq_zero.mp h6.symm).resolve_left hN'
      exact (mul_eq_zero.mp this).resolve_left hM'
    · intro hx e he
      rw [lin_eq]
      have : Spec.span n V ≤ LinearMap.ker (ev n e) := by
        apply Submodule.span_le.mpr
        rintro _ ⟨v, hv, rfl⟩
        simp only [SetLike.mem_coe, LinearMap.mem_ker, vec_eq_toV]
        rw [ev_row (h2.E_len e he), h2.E_zero e he v hv]; simp
      exact LinearMap.mem_ker.mp (this hx)

example : extractEquations [[0, 1, 1], [2, 3, 1], [4, 5, 1]] = .ok [[1, -1, 1]] := by decide

/-- the inputs on which the code has no defined behaviour -/
theorem C05_undefined : extractEquations [] = .ub ∧ extractEquations [[]] = .ub := by decide

/-- **C06** the reported equations are primitive and in reduced echelon form with positive leading
coefficients, and the inequalities of the facet enumeration are zero at their leading positions. -/
theorem C06_reduced_echelon (hV : ∀ v ∈ V, v.length = n) (h0 : V ≠ []) (hn : 0 < n) :
    ∃ E, extractEquations V = .ok E ∧ (∀ e ∈ E, Spec.PrimitiveRow e) ∧ Spec.ReducedEchelon n E ∧
      ∀ F, fourierMotzkinElimination V = .ok F →
        ∀ a ∈ F, Spec.PrimitiveRow a ∧ ∀ e ∈ E, ∀ k, Spec.Lead e k → a.getD k 0 = 0 := by
  obtain ⟨h1, h2, h3⟩ := extractEquations_ok hV h0 hn
  refine ⟨_, h1, fun e he => (primitiveRow_iff e).mpr (h2.E_prim e he), reducedEchelon_iff.mpr h2.echelon, ?_⟩
  intro F hF a ha
  have hvalid : validInput V = true := by
    by_contra hcon
    unfold fourierMotzkinElimination at hF
    rw [if_neg hcon] at hF; cases hF
  have hnz := (validInput_iff.mp hvalid).2
  obtain ⟨F0, hel, heq⟩ := fme_elim h3 (List.length_pos_of_ne_nil h0) hn hnz
  rw [heq] at hF
  obtain rfl := Outcome.ok.inj hF
  have hnf := (hel.mem a).mp (List.mem_of_mem_filter ha)
  refine ⟨(primitiveRow_iff a).mpr hnf.2.1, fun e he k hk => ?_⟩
  obtain ⟨_, rfl⟩ := lead_iff.mp hk
  exact hnf.2.2.1 e he

end

end Panda
