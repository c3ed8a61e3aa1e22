import Verif.Spec.Facet
import Verif.Spec.Polyhedron
import Mathlib.Tactic.Linarith
import Mathlib.Tactic.Ring
import Mathlib.Tactic.FieldSimp
import Mathlib.Tactic.ByContra
import Mathlib.Tactic.Positivity
import Mathlib.Tactic.LinearCombination
import Mathlib.LinearAlgebra.AffineSpace.AffineSubspace.Basic

/-! # An irredundant system lists exactly the facets -/

namespace Panda

variable {n : Nat}

/-- affine functions -/
def Aff (f : (Fin n → ℚ) → ℚ) : Prop := ∀ w u v (c : ℚ), f (w + c • (u - v)) = f w + c * (f u - f v)

theorem value_aff (a : List Int) : Aff (Spec.value n a) := by
  intro w u v c
  unfold Spec.value
  have : (∑ i : Fin n, (a.getD i 0 : ℚ) * (w + c • (u - v)) i) =
      (∑ i : Fin n, (a.getD i 0 : ℚ) * w i) + c * ((∑ i : Fin n, (a.getD i 0 : ℚ) * u i) - ∑ i : Fin n, (a.getD i 0 : ℚ) * v i) := by
    rw [← Finset.sum_sub_distrib, Finset.mul_sum, ← Finset.sum_add_distrib]
    refine Finset.sum_congr rfl fun i _ => ?_
    simp only [Pi.add_apply, Pi.smul_apply, Pi.sub_apply, smul_eq_mul]
    ring
  rw [this]; ring

theorem linear_aff (g : Fin n → ℚ) (b : ℚ) : Aff fun p => ∑ i, g i * p i - b := by
  intro w u v c
  have : (∑ i : Fin n, g i * (w + c • (u - v)) i) = (∑ i : Fin n, g i * w i) + c * ((∑ i : Fin n, g i * u i) - ∑ i : Fin n, g i * v i) := by
    rw [← Finset.sum_sub_distrib, Finset.mul_sum, ← Finset.sum_add_distrib]
    refine Finset.sum_congr rfl fun i _ => ?_
    simp only [Pi.add_apply, Pi.smul_apply, Pi.sub_apply, smul_eq_mul]
    ring
  dsimp only
  rw [this]; ring

/-- an affine function that vanishes on a set vanishes on its affine hull -/
theorem Aff.span {f : (Fin n → ℚ) → ℚ} (hf : Aff f) {s : Set (Fin n → ℚ)} (h : ∀ x ∈ s, f x = 0) {x : Fin n → ℚ} (hx : x ∈ affineSpan ℚ s) :
    f x = 0 := by
  refine affineSpan_induction (p := fun x => f x = 0) hx h fun c u v w hu hv hw => ?_
  have := hf w u v c
  rw [hu, hv, hw] at this
  rw [vsub_eq_sub, vadd_eq_add, add_comm, this]; ring

/-- a point of a convex set where many functions are negative at once -/
theorem exists_negative {T : (Fin n → ℚ) → Prop} (hconv : ∀ x y, T x → T y → T (x + (1 / 2 : ℚ) • (y - x))) (hne : ∃ x, T x) (L : List (List Int))
    (hle : ∀ a ∈ L, ∀ x, T x → Spec.value n a x ≤ 0) (hlt : ∀ a ∈ L, ∃ x, T x ∧ Spec.value n a x < 0) :
    ∃ x, T x ∧ ∀ a ∈ L, Spec.value n a x < 0 := by
  induction L with
  | nil => obtain ⟨x, hx⟩ := hne; exact ⟨x, hx, by simp⟩
  | cons b L ih =>
    obtain ⟨x, hx, h1⟩ := ih (fun a ha => hle a (by simp [ha])) (fun a ha => hlt a (by simp [ha]))
    obtain ⟨y, hy, h2⟩ := hlt b (by simp)
    refine ⟨_, hconv x y hx hy, fun a ha => ?_⟩
    rw [value_aff a]
    rcases List.mem_cons.1 ha with rfl | ha
    · have := hle a (by simp) x hx; linarith
    · have := h1 a ha
      have := hle a (by simp [ha]) y hy
      linarith

/-- from such a point one can move a little in every direction -/
theorem exists_room {m : Fin n → ℚ} (L : List (List Int)) (h : ∀ a ∈ L, Spec.value n a m < 0) (y : Fin n → ℚ) :
    ∃ e : ℚ, 0 < e ∧ ∀ e', 0 < e' → e' ≤ e → ∀ a ∈ L, Spec.value n a (m + e' • (y - m)) ≤ 0 := by
  induction L with
  | nil => exact ⟨1, one_pos, by simp⟩
  | cons b L ih =>
    obtain ⟨e, he, h1⟩ := ih fun a ha => h a (by simp [ha])
    have hb := h b (by simp)
    by_cases hy : Spec.value n b y ≤ Spec.value n b m
    · refine ⟨e, he, fun e' h0 hle a ha => ?_⟩
      rcases List.mem_cons.1 ha with rfl | ha
      · rw [value_aff]
        nlinarith
      · exact h1 e' h0 hle a ha
    · push Not at hy
      have hpos : 0 < Spec.value n b y - Spec.value n b m := by linarith
      refine ⟨min e (-Spec.value n b m / (Spec.value n b y - Spec.value n b m)), lt_min he (div_pos (by linarith) hpos),
        fun e' h0 hle a ha => ?_⟩
      rcases List.mem_cons.1 ha with rfl | ha
      · rw [value_aff]
        have := (le_div_iff₀ hpos).1 (le_trans hle (min_le_right _ _))
        linarith
      · exact h1 e' h0 (le_trans hle (min_le_left _ _)) a ha

variable {S : (Fin n → ℚ) → Prop} {E F : List (List Int)}

theorem satisfies_mid (hS : ∀ p, S p ↔ Spec.Satisfies n E F p) {x y : Fin n → ℚ} (hx : S x) (hy : S y) : S (x + (1 / 2 : ℚ) • (y - x)) := by
  rw [hS] at hx hy ⊢
  refine ⟨fun e he => ?_, fun a ha => ?_⟩
  · rw [value_aff e, hx.1 e he, hy.1 e he]; ring
  · have := hx.2 a ha
    have := hy.2 a ha
    rw [value_aff a]; linarith

theorem exists_inner (hS : ∀ p, S p ↔ Spec.Satisfies n E F p) (hne : ∃ p, S p) (hstrict : ∀ a ∈ F, ∃ p, S p ∧ Spec.value n a p ≠ 0) :
    ∃ m, S m ∧ ∀ a ∈ F, Spec.value n a m < 0 := by
  have hle : ∀ a ∈ F, ∀ x, S x → Spec.value n a x ≤ 0 := fun a ha x hx => ((hS x).1 hx).2 a ha
  refine exists_negative (T := S) (fun x y hx hy => satisfies_mid hS hx hy) hne F hle fun a ha => ?_
  obtain ⟨p, hp, h0⟩ := hstrict a ha
  exact ⟨p, hp, lt_of_le_of_ne (hle a ha p hp) h0⟩

/-- every facet is listed -/
theorem facet_listed (hS : ∀ p, S p ↔ Spec.Satisfies n E F p) (hstrict : ∀ a ∈ F, ∃ p, S p ∧ Spec.value n a p ≠ 0)
    {f : (Fin n → ℚ) → ℚ} (hf : Aff f) (h : Spec.DefinesFacet S (fun p => f p ≤ 0) (fun p => f p = 0)) :
    ∃ a ∈ F, ∃ t : ℚ, 0 < t ∧ ∀ p, (∀ e ∈ E, Spec.value n e p = 0) → Spec.value n a p = t * f p := by
  obtain ⟨h1, ⟨q0, hq0, hq0'⟩, p0, hp0, hp0', hspan⟩ := h
  have hle : ∀ a ∈ F, ∀ x, S x → Spec.value n a x ≤ 0 := fun a ha x hx => ((hS x).1 hx).2 a ha
  have hf0 : f p0 < 0 := lt_of_le_of_ne (h1 p0 hp0) hp0'
  -- one of the inequalities is tight wherever `f` is
  have key : ∃ a ∈ F, ∀ q, S q → f q = 0 → Spec.value n a q = 0 := by
    by_contra hcon
    push Not at hcon
    obtain ⟨t, ⟨ht, ht0⟩, hneg⟩ := exists_negative (n := n) (T := fun q => S q ∧ f q = 0)
      (fun x y hx hy => ⟨satisfies_mid hS hx.1 hy.1, by rw [hf, hx.2, hy.2]; ring⟩) ⟨q0, hq0, hq0'⟩ F
      (fun a ha x hx => hle a ha x hx.1)
      (fun a ha => by
        obtain ⟨q, hq, hq1, hq2⟩ := hcon a ha
        exact ⟨q, ⟨hq, hq1⟩, lt_of_le_of_ne (hle a ha q hq) hq2⟩)
    obtain ⟨e, he, hroom⟩ := exists_room F hneg (t + (-1 : ℚ) • (p0 - t))
    have hmem : S (t + e • (t + (-1 : ℚ) • (p0 - t) - t)) := by
      rw [hS]
      refine ⟨fun a ha => ?_, hroom e he le_rfl⟩
      rw [value_aff a, value_aff a, ((hS t).1 ht).1 a ha, ((hS p0).1 hp0).1 a ha]; ring
    have := h1 _ hmem
    dsimp only at this
    rw [hf, hf, ht0] at this
    nlinarith
  obtain ⟨a, ha, htight⟩ := key
  -- it is negative where `f` is
  have ha0 : Spec.value n a p0 < 0 := by
    refine lt_of_le_of_ne (hle a ha p0 hp0) fun h0 => ?_
    obtain ⟨s, hs, hs0⟩ := hstrict a ha
    refine hs0 ((value_aff a).span (s := insert p0 {q | S q ∧ f q = 0}) ?_ (hspan s hs))
    rintro x (rfl | ⟨hx, hx0⟩)
    · exact h0
    · exact htight x hx hx0
  have hh : Aff fun p => Spec.value n a p - Spec.value n a p0 / f p0 * f p := by
    intro w u v c
    dsimp only
    rw [value_aff a, hf]; ring
  have hzero : ∀ p, S p → Spec.value n a p - Spec.value n a p0 / f p0 * f p = 0 := by
    intro p hp
    refine hh.span (s := insert p0 {q | S q ∧ f q = 0}) ?_ (hspan p hp)
    rintro x (rfl | ⟨hx, hx0⟩)
    · rw [div_mul_cancel₀ _ hf0.ne]; ring
    · rw [htight x hx hx0, hx0]; ring
  obtain ⟨m, hm, hneg⟩ := exists_inner hS ⟨p0, hp0⟩ hstrict
  refine ⟨a, ha, _, div_pos_of_neg_of_neg ha0 hf0, fun p hp => ?_⟩
  obtain ⟨e, he, hroom⟩ := exists_room F hneg p
  have hmem : S (m + e • (p - m)) := by
    rw [hS]
    refine ⟨fun b hb => ?_, hroom e he le_rfl⟩
    rw [value_aff b, ((hS m).1 hm).1 b hb, hp b hb]; ring
  have h2 := hzero _ hmem
  have h3 := hh m p m e
  dsimp only at h3
  rw [h2, hzero m hm] at h3
  have h4 : e * (Spec.value n a p - Spec.value n a p0 / f p0 * f p) = 0 := by linarith
  have := (mul_eq_zero.1 h4).resolve_left he.ne'
  linarith

/-- everything listed is a facet -/
theorem listed_facet (hS : ∀ p, S p ↔ Spec.Satisfies n E F p) (hne : ∃ p, S p) (hstrict : ∀ a ∈ F, ∃ p, S p ∧ Spec.value n a p ≠ 0)
    {a : List Int} (ha : a ∈ F) (hirr : ∃ p : Fin n → ℚ, Spec.Satisfies n E (F.filter fun b => decide (b ≠ a)) p ∧ ¬ S p) :
    Spec.DefinesFacet S (fun p => Spec.value n a p ≤ 0) (fun p => Spec.value n a p = 0) := by
  obtain ⟨m, hm, hneg⟩ := exists_inner hS hne hstrict
  obtain ⟨q, ⟨hq1, hq2⟩, hq3⟩ := hirr
  have ham := hneg a ha
  have haq : 0 < Spec.value n a q := by
    by_contra hcon
    push Not at hcon
    refine hq3 ((hS q).2 ⟨hq1, fun b hb => ?_⟩)
    by_cases e : b = a
    · rw [e]; exact hcon
    · exact hq2 b (List.mem_filter.2 ⟨hb, by simpa using e⟩)
  have hpos : 0 < Spec.value n a q - Spec.value n a m := by linarith
  set th := -Spec.value n a m / (Spec.value n a q - Spec.value n a m) with hth
  have th0 : 0 < th := div_pos (by linarith) hpos
  have th1 : th < 1 := by rw [hth, div_lt_one hpos]; linarith
  have eth : th * (Spec.value n a q - Spec.value n a m) = -Spec.value n a m := div_mul_cancel₀ _ hpos.ne'
  set t := m + th • (q - m) with ht
  have hta : Spec.value n a t = 0 := by rw [ht, value_aff a]; linarith
  have hte : ∀ e ∈ E, Spec.value n e t = 0 := fun e he => by rw [ht, value_aff e, hq1 e he, ((hS m).1 hm).1 e he]; ring
  have htn : ∀ b ∈ F.filter fun b => decide (b ≠ a), Spec.value n b t < 0 := by
    intro b hb
    have h1 := hneg b (List.mem_of_mem_filter hb)
    have h2 := hq2 b hb
    rw [ht, value_aff b]
    nlinarith
  have hmem : ∀ x, (∀ e ∈ E, Spec.value n e x = 0) → Spec.value n a x = 0 → (∀ b ∈ F.filter fun b => decide (b ≠ a), Spec.value n b x ≤ 0) → S x := by
    intro x h1 h2 h3
    refine (hS x).2 ⟨h1, fun b hb => ?_⟩
    by_cases e : b = a
    · rw [e, h2]
    · exact h3 b (List.mem_filter.2 ⟨hb, by simpa using e⟩)
  have htS : S t := hmem t hte hta fun b hb => (htn b hb).le
  refine ⟨fun p hp => ((hS p).1 hp).2 a ha, ⟨t, htS, hta⟩, m, hm, ham.ne, fun x hx => ?_⟩
  set mu := Spec.value n a x / Spec.value n a m with hmu
  have emu : mu * Spec.value n a m = Spec.value n a x := div_mul_cancel₀ _ ham.ne
  set z := x + mu • (t - m) with hz
  have hza : Spec.value n a z = 0 := by rw [hz, value_aff a, hta]; linarith
  have hze : ∀ e ∈ E, Spec.value n e z = 0 := fun e he => by
    rw [hz, value_aff e, hte e he, ((hS m).1 hm).1 e he, ((hS x).1 hx).1 e he]; ring
  obtain ⟨e, he, hroom⟩ := exists_room _ htn z
  have hw : S (t + e • (z - t)) := hmem _ (fun b hb => by rw [value_aff b, hte b hb, hze b hb]; ring) (by rw [value_aff a, hta, hza]; ring)
    (hroom e he le_rfl)
  have hwa : Spec.value n a (t + e • (z - t)) = 0 := by rw [value_aff a, hta, hza]; ring
  set A := affineSpan ℚ (insert m {q | S q ∧ Spec.value n a q = 0}) with hA
  have m1 : m ∈ A := subset_affineSpan _ _ (Set.mem_insert _ _)
  have m2 : t ∈ A := subset_affineSpan _ _ (Set.mem_insert_of_mem _ ⟨htS, hta⟩)
  have m3 : t + e • (z - t) ∈ A := subset_affineSpan _ _ (Set.mem_insert_of_mem _ ⟨hw, hwa⟩)
  have m4 : z ∈ A := by
    have := A.smul_vsub_vadd_mem e⁻¹ m3 m2 m2
    rwa [vsub_eq_sub, vadd_eq_add, add_sub_cancel_left, smul_smul, inv_mul_cancel₀ he.ne', one_smul, sub_add_cancel] at this
  have := A.smul_vsub_vadd_mem mu m1 m2 m4
  rwa [vsub_eq_sub, vadd_eq_add, hz, show mu • (m - t) + (x + mu • (t - m)) = x by rw [← neg_sub t m, smul_neg]; abel] at this

/-- the equations describe the affine hull -/
theorem affineHull_iff (hS : ∀ p, S p ↔ Spec.Satisfies n E F p) (hne : ∃ p, S p) (hstrict : ∀ a ∈ F, ∃ p, S p ∧ Spec.value n a p ≠ 0)
    (p : Fin n → ℚ) : (∀ e ∈ E, Spec.value n e p = 0) ↔ p ∈ affineSpan ℚ {q | S q} := by
  constructor
  · intro hp
    obtain ⟨m, hm, hneg⟩ := exists_inner hS hne hstrict
    obtain ⟨e, he, hroom⟩ := exists_room F hneg p
    have hmem : S (m + e • (p - m)) := by
      rw [hS]
      refine ⟨fun b hb => ?_, hroom e he le_rfl⟩
      rw [value_aff b, ((hS m).1 hm).1 b hb, hp b hb]; ring
    have m1 : m ∈ affineSpan ℚ {q | S q} := subset_affineSpan _ _ hm
    have m2 : m + e • (p - m) ∈ affineSpan ℚ {q | S q} := subset_affineSpan _ _ hmem
    have := (affineSpan ℚ {q | S q}).smul_vsub_vadd_mem e⁻¹ m2 m1 m1
    rwa [vsub_eq_sub, vadd_eq_add, add_sub_cancel_left, smul_smul, inv_mul_cancel₀ he.ne', one_smul, sub_add_cancel] at this
  · exact fun hp e he => (value_aff e).span (fun x hx => ((hS x).1 hx).1 e he) hp

end Panda
