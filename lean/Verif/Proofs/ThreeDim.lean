import Verif.Proofs.Closure
import Mathlib.LinearAlgebra.FiniteDimensional.Lemmas
import Mathlib.LinearAlgebra.Dimension.Constructions

/-! # When there are three independent inequalities -/

namespace Panda

open Cone

section
variable {V : Matrix} {n d : Nat}

theorem ThreeDim.of_independent (h : Spec.ThreeIndependent n V) : ThreeDim n V := by
  obtain ⟨a, b, c, ⟨la, lb, lc⟩, ⟨va, vb, vc⟩, hind⟩ := h
  rintro ⟨x, y, hxy⟩
  have hval : ∀ r : Row, r.length = n → Spec.Valid V r → valL n V (toV n r) ∈ Submodule.span ℚ {x, y} := by
    intro r hr hv
    apply hxy
    intro v hv'
    rw [ev_toV n r v hr.le]
    have := hv v hv'
    rw [ip_eq_dot] at this
    exact_mod_cast this
  have hli : LinearIndependent ℚ ![valL n V (toV n a), valL n V (toV n b), valL n V (toV n c)] := by
    rw [Fintype.linearIndependent_iff]
    intro g hg
    rw [Fin.sum_univ_three] at hg
    simp only [Matrix.cons_val_zero, Matrix.cons_val_one, Matrix.cons_val_two, Matrix.tail_cons, Matrix.head_cons] at hg
    have := hind (g 0) (g 1) (g 2) (fun v hv => by
      obtain ⟨j, hj, rfl⟩ := List.getElem_of_mem hv
      have h1 := congrFun hg ⟨j, hj⟩
      simp only [Pi.add_apply, Pi.smul_apply, valL_apply, smul_eq_mul, Pi.zero_apply, ev_toV n a _ la.le, ev_toV n b _ lb.le,
        ev_toV n c _ lc.le] at h1
      rw [ip_eq_dot, ip_eq_dot, ip_eq_dot]
      exact h1)
    intro i
    fin_cases i
    · exact this.1
    · exact this.2.1
    · exact this.2.2
  have h1 := finrank_span_eq_card hli
  have h2 : Submodule.span ℚ (Set.range ![valL n V (toV n a), valL n V (toV n b), valL n V (toV n c)]) ≤ Submodule.span ℚ {x, y} := by
    rw [Submodule.span_le]
    rintro _ ⟨i, rfl⟩
    fin_cases i
    · exact hval a la va
    · exact hval b lb vb
    · exact hval c lc vc
  have h3 := Submodule.finrank_mono h2
  classical
  have h4 : Module.finrank ℚ (Submodule.span ℚ (({x, y} : Finset (Fin V.length → ℚ)) : Set (Fin V.length → ℚ))) ≤ _ :=
    finrank_span_finset_le_card ({x, y} : Finset (Fin V.length → ℚ))
  have h5 : ({x, y} : Finset (Fin V.length → ℚ)).card ≤ 2 := Finset.card_le_two
  rw [Finset.coe_insert, Finset.coe_singleton] at h4
  rw [h1, Fintype.card_fin] at h3
  omega

/-- combination of the rows -/
noncomputable def combL (n : Nat) (V : Matrix) : (Fin V.length → ℚ) →ₗ[ℚ] (Fin n → ℚ) :=
  ∑ j, (LinearMap.proj j).smulRight (toV n V[j])

theorem combL_apply (c : Fin V.length → ℚ) : combL n V c = ∑ j, c j • toV n V[j] := by
  simp [combL]

theorem combL_range : LinearMap.range (combL n V) = rowSpan n V := by
  apply le_antisymm
  · rintro _ ⟨c, rfl⟩
    rw [combL_apply]
    exact Submodule.sum_mem _ fun j _ => Submodule.smul_mem _ _ (Submodule.subset_span ⟨V[j], List.getElem_mem _, rfl⟩)
  · rw [rowSpan, Submodule.span_le]
    rintro _ ⟨v, hv, rfl⟩
    obtain ⟨j, hj, rfl⟩ := List.getElem_of_mem hv
    refine ⟨Pi.single ⟨j, hj⟩ 1, ?_⟩
    rw [combL_apply, Finset.sum_eq_single ⟨j, hj⟩]
    · simp
    · intro i _ hi; rw [Pi.single_eq_of_ne hi, zero_smul]
    · intro h; exact absurd (Finset.mem_univ _) h

theorem sum_comb (c : Fin V.length → ℚ) (a : Fin n → ℚ) : ∑ i, combL n V c i * a i = ∑ j, c j * valL n V a j := by
  rw [combL_apply]
  simp only [Finset.sum_apply, Pi.smul_apply, smul_eq_mul, Finset.sum_mul, valL_apply, ev_apply, Finset.mul_sum]
  rw [Finset.sum_comm]
  exact Finset.sum_congr rfl fun j _ => Finset.sum_congr rfl fun i _ => by ring

/-- a polyhedron of dimension at least two without lines -/
theorem ThreeDim.of_pointed (hI : Spec.IsVInput d V) (hr : 3 ≤ Spec.rank (d+1) V) (hl : ¬ Spec.ContainsLine d V) :
    ThreeDim (d+1) V := by
  rintro ⟨x, y, hxy⟩
  obtain ⟨E, F0, -, rfl, hsp, hel, -⟩ := dd_ok hI
  -- a combination of the rows on which all valid inequalities vanish
  let Ψ : (Fin V.length → ℚ) →ₗ[ℚ] (Fin 2 → ℚ) :=
    LinearMap.pi ![∑ j, (x j) • LinearMap.proj j, ∑ j, (y j) • LinearMap.proj j]
  have hnle : ¬ LinearMap.ker Ψ ≤ LinearMap.ker (combL (d+1) V) := by
    intro hle
    have h1 := Submodule.finrank_mono hle
    have h2 := LinearMap.finrank_range_add_finrank_ker Ψ
    have h3 := LinearMap.finrank_range_add_finrank_ker (combL (d+1) V)
    rw [combL_range] at h3
    have h4 := Submodule.finrank_le (LinearMap.range Ψ)
    rw [Module.finrank_fin_fun] at h4
    have hr' : 3 ≤ Module.finrank ℚ (rowSpan (d+1) V) := hr
    omega
  obtain ⟨c, hc, hcz⟩ := SetLike.not_le_iff_exists.mp hnle
  have hcx : ∑ j, c j * x j = 0 := by
    have := congrFun (LinearMap.mem_ker.mp hc) 0
    simp only [Ψ, LinearMap.pi_apply, Matrix.cons_val_zero, LinearMap.sum_apply, LinearMap.smul_apply, LinearMap.proj_apply,
      smul_eq_mul, Pi.zero_apply] at this
    rw [← this]; exact Finset.sum_congr rfl fun j _ => mul_comm _ _
  have hcy : ∑ j, c j * y j = 0 := by
    have := congrFun (LinearMap.mem_ker.mp hc) 1
    simp only [Ψ, LinearMap.pi_apply, Matrix.cons_val_one, Matrix.cons_val_fin_one, LinearMap.sum_apply, LinearMap.smul_apply, LinearMap.proj_apply,
      smul_eq_mul, Pi.zero_apply] at this
    rw [← this]; exact Finset.sum_congr rfl fun j _ => mul_comm _ _
  set z := combL (d+1) V c with hz
  have hz0 : z ≠ 0 := fun h => hcz (LinearMap.mem_ker.mpr h)
  have hann : ∀ a : Row, a.length = d + 1 → (∀ v ∈ V, dot a v ≤ 0) → ev (d+1) a z = 0 := by
    intro a hal ha
    have h1 : valL (d+1) V (toV (d+1) a) ∈ Submodule.span ℚ {x, y} := hxy _ (fun v hv => by
      rw [ev_toV _ a v hal.le]; exact_mod_cast ha v hv)
    obtain ⟨s, t, hst⟩ := Submodule.mem_span_pair.mp h1
    have h2 := sum_comb (V := V) c (toV (d+1) a)
    rw [ev_apply, ← hz] at *
    rw [h2, ← hst]
    simp only [Pi.add_apply, Pi.smul_apply, smul_eq_mul]
    calc ∑ j, c j * (s * x j + t * y j) = s * ∑ j, c j * x j + t * ∑ j, c j * y j := by
          rw [Finset.mul_sum, Finset.mul_sum, ← Finset.sum_add_distrib]
          exact Finset.sum_congr rfl fun j _ => by ring
      _ = 0 := by rw [hcx, hcy]; ring
  have hzlast : z (Fin.last d) = 0 := by
    have := hann (trivialRow d) (trivialRow_length d) (trivialRow_valid hI.last)
    rw [ev_trivialRow] at this; linarith
  obtain ⟨v, hv, hvpos⟩ := hI.vertex
  have hw : (0 : ℚ) < (v.getD d 0 : ℚ) := by exact_mod_cast hvpos
  apply hl
  refine ⟨fun i => (v.getD i 0 : ℚ) / (v.getD d 0 : ℚ), fun i => z i.castSucc, ?_, fun t => ?_⟩
  · intro h
    apply hz0
    funext i
    refine Fin.lastCases ?_ (fun j => ?_) i
    · exact hzlast
    · exact congrFun h j
  · rw [inPolyhedron_iff hI.last, hel.inConeOf_iff hsp.E_len hsp.E_zero]
    have hhom : hom d ((fun i : Fin d => (v.getD i 0 : ℚ) / (v.getD d 0 : ℚ)) + t • fun i => z i.castSucc) =
        (v.getD d 0 : ℚ)⁻¹ • toV (d+1) v + t • z := by
      funext i
      refine Fin.lastCases ?_ (fun j => ?_) i
      · rw [hom_last]
        simp only [Pi.add_apply, Pi.smul_apply, smul_eq_mul, hzlast, toV, Fin.val_last]
        field_simp; ring
      · rw [hom_castSucc]
        simp only [Pi.add_apply, Pi.smul_apply, smul_eq_mul, toV, Fin.val_castSucc]
        ring
    rw [hhom]
    constructor
    · intro e he
      have h1 : ev (d+1) e z = 0 := hann e (hsp.E_len e he) (fun v hv => (hsp.E_zero e he v hv).le)
      rw [map_add, map_smul, map_smul, h1, ev_row (hsp.E_len e he), hsp.E_zero e he v hv]; simp
    · intro a ha
      have hnf := (hel.mem a).mp ha
      have h1 := hann a hnf.1 hnf.2.2.2.valid
      rw [map_add, map_smul, map_smul, h1, ev_row hnf.1, smul_zero, add_zero, smul_eq_mul]
      have h2 : (dot a v : ℚ) ≤ 0 := by exact_mod_cast hnf.2.2.2.valid v hv
      exact mul_nonpos_of_nonneg_of_nonpos (inv_nonneg.mpr hw.le) h2

end

end Panda
