import Verif.Proofs.Cone
import Mathlib.LinearAlgebra.Dual.Lemmas

/-! # Extreme rays and tight functionals -/

set_option linter.unusedSectionVars false

namespace Panda.Cone

variable {K M : Type*} [Field K] [LinearOrder K] [IsStrictOrderedRing K]
  [AddCommGroup M] [Module K M]

/-- a small step keeps finitely many strict inequalities -/
theorem exists_eps {ι : Type*} (s : Finset ι) (f g : ι → K) (hf : ∀ j ∈ s, f j < 0) :
    ∃ ε : K, 0 < ε ∧ ∀ δ, 0 ≤ δ → δ ≤ ε → ∀ j ∈ s, f j + δ * g j < 0 := by
  classical
  induction s using Finset.cons_induction with
  | empty => exact ⟨1, one_pos, by simp⟩
  | cons a s ha ih =>
    obtain ⟨ε, h0, h⟩ := ih (fun j hj => hf j (by simp [hj]))
    have hfa := hf a (by simp)
    -- bound for `a`
    obtain ⟨η, hη, h1⟩ : ∃ η : K, 0 < η ∧ ∀ δ, 0 ≤ δ → δ ≤ η → f a + δ * g a < 0 := by
      rcases le_or_gt (g a) 0 with hg | hg
      · exact ⟨1, one_pos, fun δ h1 _ => by nlinarith [mul_nonpos_of_nonneg_of_nonpos h1 hg]⟩
      · refine ⟨-(f a) / (2 * g a), div_pos (by linarith) (by linarith), fun δ h1 h2 => ?_⟩
        rw [le_div_iff₀ (by linarith)] at h2
        nlinarith
    refine ⟨min ε η, lt_min h0 hη, fun δ h2 h3 j hj => ?_⟩
    rw [Finset.mem_cons] at hj
    rcases hj with rfl | hj
    · exact h1 δ h2 (le_trans h3 (min_le_right _ _))
    · exact h δ h2 (le_trans h3 (min_le_left _ _)) j hj

variable {w : ℕ → Module.Dual K M} {i : ℕ}

theorem Ext.tight {a : M} (h : Ext w i a) {b : M} (hb : ∀ j < i, w j a = 0 → w j b = 0) :
    ∃ t : K, b = t • a := by
  obtain ⟨ε, h0, hε⟩ := exists_eps (supp w i a) (fun j => w j a) (fun j => w j b)
    (fun j hj => (mem_supp.mp hj).2)
  have hC : InC w i (a + ε • b) := by
    intro j hj
    rw [map_add, map_smul, smul_eq_mul]
    rcases lt_or_eq_of_le (h.2.1 j hj) with hlt | heq
    · exact (hε ε h0.le le_rfl j (mem_supp.mpr ⟨hj, hlt⟩)).le
    · rw [heq, hb j hj heq]; simp
  obtain ⟨t, _, ht⟩ := h.2.2 _ hC (by
    intro j hj
    obtain ⟨hj1, hj2⟩ := mem_supp.mp hj
    refine mem_supp.mpr ⟨hj1, lt_of_le_of_ne (h.2.1 j hj1) fun heq => ?_⟩
    rw [map_add, map_smul, heq, hb j hj1 heq] at hj2
    simp at hj2)
  refine ⟨ε⁻¹ * (t - 1), ?_⟩
  have : ε • b = (t - 1) • a := by rw [sub_smul, one_smul, ← ht]; abel
  rw [mul_smul, ← this, smul_smul, inv_mul_cancel₀ h0.ne', one_smul]

theorem ext_of_tight (hp : Pointed w i) {a : M} (h0 : a ≠ 0) (hC : InC w i a)
    (h : ∀ b, (∀ j < i, w j a = 0 → w j b = 0) → ∃ t : K, b = t • a) : Ext w i a := by
  refine ⟨h0, hC, fun b hb hs => ?_⟩
  obtain ⟨t, rfl⟩ := h b (fun j hj hz => by
    by_contra hne
    have := (mem_supp.mp (hs (mem_supp.mpr ⟨hj, lt_of_le_of_ne (hb j hj) hne⟩))).2
    rw [hz] at this; exact lt_irrefl _ this)
  refine ⟨t, ?_, rfl⟩
  by_contra hneg
  push Not at hneg
  apply h0
  apply hp
  intro j hj
  have h1 := hb j hj
  rw [map_smul, smul_eq_mul] at h1
  have h2 := hC j hj
  by_contra hne
  have h3 : w j a < 0 := lt_of_le_of_ne h2 hne
  nlinarith [mul_pos_of_neg_of_neg hneg h3]

/-- coefficients of a conic combination -/
theorem InCone.coeffs {x : Module.Dual K M} (h : InCone w i x) :
    ∃ c : Fin i → K, (∀ j, 0 ≤ c j) ∧ x = ∑ j : Fin i, c j • w j := by
  unfold InCone at h
  induction h with
  | zero => exact ⟨fun _ => 0, fun _ => le_rfl, by simp⟩
  | add t y z ht hy _ ih =>
    obtain ⟨j, hj, rfl⟩ := hy
    obtain ⟨c, hc, rfl⟩ := ih
    refine ⟨fun k => c k + if k = ⟨j, hj⟩ then t else 0, ?_, ?_⟩
    · intro k; simp only; split
      · exact add_nonneg (hc k) ht
      · simpa using hc k
    · simp only [add_smul, Finset.sum_add_distrib, ite_smul, zero_smul, Finset.sum_ite_eq',
        Finset.mem_univ, if_true]
      rw [add_comm]

/-- Functionals `S` and one functional `f`-tight part: rank one less iff every functional vanishing
on the tight part is a multiple of `f` on `S`. -/
theorem rank_iff [FiniteDimensional K M] (S : Set M) (f : Module.Dual K M) :
    ((∃ s ∈ S, f s ≠ 0) ∧ ∀ g : Module.Dual K M, (∀ s ∈ S, f s = 0 → g s = 0) →
      ∃ t : K, ∀ s ∈ S, g s = t * f s) ↔
    Module.finrank K (Submodule.span K {s ∈ S | f s = 0}) + 1 = Module.finrank K (Submodule.span K S) := by
  set S0 := {s ∈ S | f s = 0} with hS0
  have hle : Submodule.span K S0 ≤ Submodule.span K S := Submodule.span_mono fun _ h => h.1
  have hker : Submodule.span K S0 ≤ LinearMap.ker f := Submodule.span_le.mpr fun s hs => hs.2
  -- adding one non-tight element increases the rank by one
  have hins : ∀ s ∈ S, f s ≠ 0 →
      Module.finrank K (Submodule.span K (insert s S0)) = Module.finrank K (Submodule.span K S0) + 1 := by
    intro s _ hfs
    rw [Submodule.span_insert, sup_comm]
    have hdis : Submodule.span K S0 ⊓ (Submodule.span K {s}) = ⊥ := by
      rw [Submodule.eq_bot_iff]
      rintro x ⟨hx1, hx2⟩
      obtain ⟨c, rfl⟩ := Submodule.mem_span_singleton.mp hx2
      have := hker hx1
      rw [LinearMap.mem_ker, map_smul, smul_eq_mul] at this
      rcases mul_eq_zero.mp this with h | h
      · rw [h, zero_smul]
      · exact absurd h hfs
    have hs0 : s ≠ 0 := by rintro rfl; simp at hfs
    have := Submodule.finrank_sup_add_finrank_inf_eq (Submodule.span K S0) (Submodule.span K {s})
    rw [hdis, finrank_bot, finrank_span_singleton hs0] at this
    simpa using this
  constructor
  · rintro ⟨⟨s, hs, hfs⟩, h⟩
    rw [← hins s hs hfs]
    suffices Submodule.span K (insert s S0) = Submodule.span K S by rw [this]
    apply le_antisymm
    · exact Submodule.span_mono (Set.insert_subset hs fun _ h => h.1)
    · rw [Submodule.span_le]
      intro y hy
      by_contra hny
      obtain ⟨g, hg, hgk⟩ := Submodule.exists_le_ker_of_notMem hny
      obtain ⟨t, ht⟩ := h g (fun x hx hfx => by
        exact LinearMap.mem_ker.mp (hgk (Submodule.subset_span (Set.mem_insert_of_mem _ ⟨hx, hfx⟩))))
      have h1 : g s = 0 := LinearMap.mem_ker.mp (hgk (Submodule.subset_span (Set.mem_insert _ _)))
      rw [ht s hs] at h1
      have ht0 : t = 0 := (mul_eq_zero.mp h1).resolve_right hfs
      rw [ht y hy, ht0, zero_mul] at hg
      exact hg rfl
  · intro hr
    have hex : ∃ s ∈ S, f s ≠ 0 := by
      by_contra hno
      push Not at hno
      have : S0 = S := by ext s; exact ⟨fun h => h.1, fun h => ⟨h, hno s h⟩⟩
      rw [this] at hr; omega
    refine ⟨hex, fun g hg => ?_⟩
    obtain ⟨s, hs, hfs⟩ := hex
    have heq : Submodule.span K (insert s S0) = Submodule.span K S := by
      apply Submodule.eq_of_le_of_finrank_eq
      · exact Submodule.span_mono (Set.insert_subset hs fun _ h => h.1)
      · rw [hins s hs hfs, hr]
    refine ⟨g s / f s, fun y hy => ?_⟩
    have hy' : y ∈ Submodule.span K (insert s S0) := by rw [heq]; exact Submodule.subset_span hy
    obtain ⟨c, z, hz, rfl⟩ := Submodule.mem_span_insert.mp hy'
    have hfz : f z = 0 := LinearMap.mem_ker.mp (hker hz)
    have hgz : g z = 0 := by
      have : Submodule.span K S0 ≤ LinearMap.ker g := Submodule.span_le.mpr fun s hs => hg s hs.1 hs.2
      exact LinearMap.mem_ker.mp (this hz)
    simp only [map_add, map_smul, smul_eq_mul, hfz, hgz, add_zero]
    field_simp

end Panda.Cone
