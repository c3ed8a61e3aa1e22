import Mathlib.LinearAlgebra.Dual.Lemmas
import Mathlib.LinearAlgebra.FiniteDimensional.Lemmas
import Mathlib.Algebra.Order.Field.Basic
import Mathlib.Data.Finset.Max
import Mathlib.Tactic.Linarith
import Mathlib.Tactic.FieldSimp
import Mathlib.Tactic.Module

/-! # Cones given by finitely many functionals, and their support-minimal elements

Pure mathematics, no code.  `w 0, w 1, ...` are linear functionals; stage `i`
looks at the cone of all `a` with `w j a ≤ 0` for `j < i`. -/

set_option linter.unusedSectionVars false

namespace Panda.Cone

variable {K M : Type*} [Field K] [LinearOrder K] [IsStrictOrderedRing K]
  [AddCommGroup M] [Module K M]

/-- membership in the cone of stage `i` -/
def InC (w : ℕ → Module.Dual K M) (i : ℕ) (a : M) : Prop := ∀ j < i, w j a ≤ 0

/-- the functionals strictly satisfied -/
def supp (w : ℕ → Module.Dual K M) (i : ℕ) (a : M) : Finset ℕ :=
  (Finset.range i).filter (fun j => w j a < 0)

def Pointed (w : ℕ → Module.Dual K M) (i : ℕ) : Prop :=
  ∀ a, (∀ j < i, w j a = 0) → a = 0

/-- `a` spans an extreme ray: non-zero and support-minimal -/
def Ext (w : ℕ → Module.Dual K M) (i : ℕ) (a : M) : Prop :=
  a ≠ 0 ∧ InC w i a ∧ ∀ b, InC w i b → supp w i b ⊆ supp w i a → ∃ t : K, 0 ≤ t ∧ b = t • a

variable {w : ℕ → Module.Dual K M} {i : ℕ}

lemma mem_supp {a : M} {j : ℕ} : j ∈ supp w i a ↔ j < i ∧ w j a < 0 := by
  simp [supp]

lemma Pointed.mono (h : Pointed w i) {k : ℕ} (hk : i ≤ k) : Pointed w k :=
  fun a ha => h a fun j hj => ha j (lt_of_lt_of_le hj hk)

lemma InC.zero : InC w i (0 : M) := fun j _ => by simp

lemma InC.add {a b : M} (ha : InC w i a) (hb : InC w i b) : InC w i (a + b) := fun j hj => by
  have := ha j hj; have := hb j hj; simp; linarith

lemma InC.smul {a : M} (ha : InC w i a) {t : K} (ht : 0 ≤ t) : InC w i (t • a) := fun j hj => by
  have := ha j hj; simp; exact mul_nonpos_of_nonneg_of_nonpos ht this

lemma InC.succ_iff {a : M} : InC w (i+1) a ↔ InC w i a ∧ w i a ≤ 0 := by
  constructor
  · intro h; exact ⟨fun j hj => h j (by omega), h i (by omega)⟩
  · rintro ⟨h, h'⟩ j hj
    rcases Nat.lt_succ_iff_lt_or_eq.mp hj with h1 | h1
    · exact h j h1
    · subst h1; exact h'

lemma supp_add {a b : M} (ha : InC w i a) (hb : InC w i b) :
    supp w i (a + b) = supp w i a ∪ supp w i b := by
  ext j
  simp only [mem_supp, Finset.mem_union, map_add]
  constructor
  · rintro ⟨hj, h⟩
    have h1 := ha j hj; have h2 := hb j hj
    by_cases h3 : w j a < 0
    · exact Or.inl ⟨hj, h3⟩
    · right; refine ⟨hj, ?_⟩; linarith
  · rintro (⟨hj, h⟩ | ⟨hj, h⟩) <;> refine ⟨hj, ?_⟩
    · have := hb j hj; linarith
    · have := ha j hj; linarith

lemma supp_smul {a : M} {t : K} (ht : 0 < t) : supp w i (t • a) = supp w i a := by
  ext j
  simp only [mem_supp, map_smul, smul_eq_mul]
  constructor
  · rintro ⟨hj, h⟩; refine ⟨hj, ?_⟩; by_contra h'; push Not at h'
    have := mul_nonneg ht.le h'; linarith
  · rintro ⟨hj, h⟩; exact ⟨hj, mul_neg_of_pos_of_neg ht h⟩

lemma supp_smul_subset {a : M} {t : K} (ht : 0 ≤ t) : supp w i (t • a) ⊆ supp w i a := by
  rcases ht.eq_or_lt with rfl | h
  · intro j; simp [mem_supp]
  · rw [supp_smul h]

lemma supp_empty_iff (hp : Pointed w i) {a : M} (ha : InC w i a) : supp w i a = ∅ ↔ a = 0 := by
  constructor
  · intro h
    apply hp; intro j hj
    by_contra h'
    have : j ∈ supp w i a := mem_supp.mpr ⟨hj, lt_of_le_of_ne (ha j hj) h'⟩
    simp [h] at this
  · rintro rfl; ext j; simp [mem_supp]

lemma supp_succ_subset {a : M} : supp w i a ⊆ supp w (i+1) a := by
  intro j; simp only [mem_supp]; rintro ⟨h, h'⟩; exact ⟨by omega, h'⟩

lemma supp_succ_of_nonneg {a : M} (h : 0 ≤ w i a) : supp w (i+1) a = supp w i a := by
  ext j; simp only [mem_supp]
  constructor
  · rintro ⟨h1, h2⟩; refine ⟨?_, h2⟩
    rcases Nat.lt_succ_iff_lt_or_eq.mp h1 with h3 | h3
    · exact h3
    · subst h3; linarith
  · rintro ⟨h1, h2⟩; exact ⟨by omega, h2⟩

lemma supp_succ_of_neg {a : M} (h : w i a < 0) : supp w (i+1) a = insert i (supp w i a) := by
  ext j; simp only [mem_supp, Finset.mem_insert]
  constructor
  · rintro ⟨h1, h2⟩
    rcases Nat.lt_succ_iff_lt_or_eq.mp h1 with h3 | h3
    · exact Or.inr ⟨h3, h2⟩
    · exact Or.inl h3
  · rintro (h1 | ⟨h1, h2⟩)
    · subst h1; exact ⟨by omega, h⟩
    · exact ⟨by omega, h2⟩

lemma supp_subset_of_succ {a b : M} (h : supp w (i+1) a ⊆ supp w (i+1) b) :
    supp w i a ⊆ supp w i b := by
  intro j hj
  have hj' := mem_supp.mp hj
  have := h (mem_supp.mpr ⟨by omega, hj'.2⟩)
  exact mem_supp.mpr ⟨hj'.1, (mem_supp.mp this).2⟩

/-- the longest step `a - t b` staying in the cone, for `supp b ⊆ supp a` -/
lemma max_step (hp : Pointed w i) {a b : M} (ha : InC w i a) (hb : InC w i b) (hb0 : b ≠ 0)
    (hs : supp w i b ⊆ supp w i a) :
    ∃ t : K, 0 < t ∧ InC w i (a - t • b) ∧ supp w i (a - t • b) ⊂ supp w i a := by
  have hne : (supp w i b).Nonempty := by
    rw [Finset.nonempty_iff_ne_empty]
    intro h; exact hb0 ((supp_empty_iff hp hb).mp h)
  obtain ⟨k, hk, hmin⟩ := Finset.exists_min_image (supp w i b) (fun j => w j a / w j b) hne
  have hk' := mem_supp.mp hk
  have hka := mem_supp.mp (hs hk)
  have hin : InC w i (a - (w k a / w k b) • b) := by
    intro j hj
    simp only [map_sub, map_smul, smul_eq_mul]
    by_cases hjb : w j b < 0
    · have h1 := hmin j (mem_supp.mpr ⟨hj, hjb⟩)
      have h2 : w j a / w j b * w j b = w j a := by field_simp [hjb.ne]
      have h3 := mul_le_mul_of_nonpos_right h1 hjb.le
      linarith
    · have h1 : w j b = 0 := le_antisymm (hb j hj) (by push Not at hjb; exact hjb)
      have := ha j hj
      simp [h1]; exact this
  refine ⟨w k a / w k b, div_pos_of_neg_of_neg hka.2 hk'.2, hin, ?_⟩
  refine ⟨?_, ?_⟩
  · intro j hj
    have hj' := mem_supp.mp hj
    by_contra hja
    have h1 : w j a = 0 := by
      by_contra h2
      exact hja (mem_supp.mpr ⟨hj'.1, lt_of_le_of_ne (ha j hj'.1) h2⟩)
    have h2 : w j b = 0 := by
      by_contra h2
      exact hja (hs (mem_supp.mpr ⟨hj'.1, lt_of_le_of_ne (hb j hj'.1) h2⟩))
    have := hj'.2
    simp [h1, h2] at this
  · intro h
    have := mem_supp.mp (h (hs hk))
    have h2 : w k a / w k b * w k b = w k a := by field_simp [hk'.2.ne]
    simp at this
    linarith [this.2]

/-- conic combinations of elements of a set -/
inductive Gen (K : Type*) {M : Type*} [Field K] [LinearOrder K] [AddCommGroup M] [Module K M]
    (S : M → Prop) : M → Prop
  | zero : Gen K S 0
  | add (t : K) (a b : M) : 0 ≤ t → S a → Gen K S b → Gen K S (t • a + b)

omit [IsStrictOrderedRing K] in
lemma Gen.add' {S : M → Prop} {a b : M} (ha : Gen K S a) (hb : Gen K S b) : Gen K S (a + b) := by
  induction ha with
  | zero => simpa
  | add t x y ht hx _ ih => rw [add_assoc]; exact Gen.add t x _ ht hx ih

lemma Gen.smul {S : M → Prop} {a : M} (ha : Gen K S a) {t : K} (ht : 0 ≤ t) :
    Gen K S (t • a) := by
  induction ha with
  | zero => simpa using Gen.zero
  | add s x y hs hx _ ih =>
    rw [smul_add, smul_smul]; exact Gen.add _ x _ (mul_nonneg ht hs) hx ih

omit [IsStrictOrderedRing K] in
lemma Gen.mono {S T : M → Prop} (h : ∀ a, S a → T a) {a : M} (ha : Gen K S a) : Gen K T a := by
  induction ha with
  | zero => exact Gen.zero
  | add s x y hs hx _ ih => exact Gen.add s x y hs (h x hx) ih

lemma Gen.of {S : M → Prop} {a : M} (ha : S a) : Gen K S a := by
  have := Gen.add (1 : K) a 0 zero_le_one ha Gen.zero
  simpa using this

lemma Gen.bind {S T : M → Prop} (h : ∀ a, S a → Gen K T a) {a : M} (ha : Gen K S a) :
    Gen K T a := by
  induction ha with
  | zero => exact Gen.zero
  | add s x y hs hx _ ih => exact ((h x hx).smul hs).add' ih

lemma Gen.inC {S : M → Prop} (h : ∀ a, S a → InC w i a) {a : M} (ha : Gen K S a) :
    InC w i a := by
  induction ha with
  | zero => exact InC.zero
  | add s x y hs hx _ ih => exact ((h x hx).smul hs).add ih

/-- every element of a pointed cone is a conic combination of extreme elements
whose supports are inside its own -/
theorem gen_ext (hp : Pointed w i) : ∀ (n : ℕ) (a : M), (supp w i a).card ≤ n → InC w i a →
    Gen K (fun e => Ext w i e ∧ supp w i e ⊆ supp w i a) a := by
  intro n
  induction n with
  | zero =>
    intro a hc ha
    have : supp w i a = ∅ := by simpa using hc
    rw [(supp_empty_iff hp ha).mp this]; exact Gen.zero
  | succ n ih =>
    intro a hc ha
    by_cases ha0 : a = 0
    · rw [ha0]; exact Gen.zero
    by_cases he : Ext w i a
    · exact Gen.of ⟨he, subset_rfl⟩
    -- a smaller non-zero element
    have key : ∃ b, b ≠ 0 ∧ InC w i b ∧ supp w i b ⊂ supp w i a := by
      unfold Ext at he
      push Not at he
      obtain ⟨b, hb, hsb, hnb⟩ := he ha0 ha
      have hb0 : b ≠ 0 := by
        rintro rfl; exact hnb 0 le_rfl (by simp)
      obtain ⟨t, ht, hin, hss⟩ := max_step hp ha hb hb0 hsb
      refine ⟨a - t • b, ?_, hin, hss⟩
      intro h0
      apply hnb t⁻¹ (inv_nonneg.mpr ht.le)
      have : a = t • b := by rwa [sub_eq_zero] at h0
      rw [this, smul_smul, inv_mul_cancel₀ ht.ne', one_smul]
    obtain ⟨b, hb0, hb, hsb⟩ := key
    obtain ⟨t, ht, hin, hss⟩ := max_step hp ha hb hb0 hsb.subset
    have h1 := ih b (by have := Finset.card_lt_card hsb; omega) hb
    have h2 := ih (a - t • b) (by have := Finset.card_lt_card hss; omega) hin
    have h3 : a = t • b + (a - t • b) := by abel
    rw [h3]
    apply Gen.add'
    · apply Gen.smul _ ht.le
      exact h1.mono fun e he => ⟨he.1, by rw [← h3]; exact he.2.trans hsb.subset⟩
    · exact h2.mono fun e he => ⟨he.1, by rw [← h3]; exact he.2.trans hss.subset⟩

lemma Ext.smul {a : M} (h : Ext w i a) {t : K} (ht : 0 < t) : Ext w i (t • a) := by
  refine ⟨smul_ne_zero ht.ne' h.1, h.2.1.smul ht.le, ?_⟩
  intro b hb hs
  rw [supp_smul ht] at hs
  obtain ⟨s, hs0, rfl⟩ := h.2.2 b hb hs
  refine ⟨s * t⁻¹, mul_nonneg hs0 (inv_nonneg.mpr ht.le), ?_⟩
  rw [smul_smul, mul_assoc, inv_mul_cancel₀ ht.ne', mul_one]

/-- extreme elements with nested supports are proportional -/
lemma Ext.proportional {a b : M} (ha : Ext w i a) (hb : InC w i b) (hb0 : b ≠ 0)
    (hs : supp w i b ⊆ supp w i a) : ∃ t : K, 0 < t ∧ b = t • a := by
  obtain ⟨t, ht, rfl⟩ := ha.2.2 b hb hs
  refine ⟨t, lt_of_le_of_ne ht ?_, rfl⟩
  rintro rfl; simp at hb0

lemma Ext.of_proportional {a b : M} (ha : Ext w i a) (hb : InC w i b) (hb0 : b ≠ 0)
    (hs : supp w i b ⊆ supp w i a) : Ext w i b ∧ supp w i b = supp w i a := by
  obtain ⟨t, ht, rfl⟩ := ha.proportional hb hb0 hs
  exact ⟨ha.smul ht, supp_smul ht⟩

/-- extremality only loses when constraints are dropped -/
lemma Ext.succ {a : M} (h : Ext w i a) (hw : w i a ≤ 0) : Ext w (i+1) a := by
  refine ⟨h.1, InC.succ_iff.mpr ⟨h.2.1, hw⟩, ?_⟩
  intro b hb hs
  exact h.2.2 b (InC.succ_iff.mp hb).1 (supp_subset_of_succ hs)

lemma Ext.le {a : M} (h : Ext w i a) {k : ℕ} (hk : i ≤ k) (hc : InC w k a) : Ext w k a := by
  induction k, hk using Nat.le_induction with
  | base => exact h
  | succ k _ ih =>
    have := InC.succ_iff.mp hc
    exact (ih this.1).succ this.2

/-- strictly satisfied new constraint: extremality was there before -/
lemma Ext.pred_of_neg (hp : Pointed w i) {a : M} (h : Ext w (i+1) a) (hw : w i a < 0) :
    Ext w i a := by
  refine ⟨h.1, (InC.succ_iff.mp h.2.1).1, ?_⟩
  intro b hb hs
  -- a + ε b
  obtain ⟨ε, hε, hle⟩ : ∃ ε : K, 0 < ε ∧ w i a + ε * w i b ≤ 0 := by
    by_cases hwb : w i b ≤ 0
    · exact ⟨1, one_pos, by linarith⟩
    · push Not at hwb
      refine ⟨- w i a / w i b, div_pos (by linarith) hwb, ?_⟩
      rw [div_mul_cancel₀ _ hwb.ne']; linarith
  have ha := (InC.succ_iff.mp h.2.1).1
  have hin : InC w (i+1) (a + ε • b) := by
    rw [InC.succ_iff]; refine ⟨ha.add (hb.smul hε.le), ?_⟩
    simpa using hle
  have hss : supp w (i+1) (a + ε • b) ⊆ supp w (i+1) a := by
    rw [supp_succ_of_neg hw]
    intro j hj
    have hj' := mem_supp.mp hj
    rcases Nat.lt_succ_iff_lt_or_eq.mp hj'.1 with h3 | h3
    · have : j ∈ supp w i (a + ε • b) := mem_supp.mpr ⟨h3, hj'.2⟩
      rw [supp_add ha (hb.smul hε.le), supp_smul hε, Finset.union_eq_left.mpr hs] at this
      exact Finset.mem_insert_of_mem this
    · subst h3; simp
  obtain ⟨t, ht, heq⟩ := h.2.2 _ hin hss
  have hb' : b = ((t - 1) * ε⁻¹) • a := by
    have h1 : ε • b = (t - 1) • a := by
      rw [sub_smul, one_smul, ← heq]; abel
    calc b = ε⁻¹ • ε • b := by rw [smul_smul, inv_mul_cancel₀ hε.ne', one_smul]
      _ = _ := by rw [h1, smul_smul, mul_comm]
  by_cases hb0 : b = 0
  · exact ⟨0, le_rfl, by simp [hb0]⟩
  refine ⟨_, ?_, hb'⟩
  by_contra hneg
  push Not at hneg
  apply hb0
  apply hp; intro j hj
  have h1 := hb j hj
  rw [hb'] at h1 ⊢
  simp only [map_smul, smul_eq_mul] at h1 ⊢
  have h2 := ha j hj
  have h3 := mul_nonneg_of_nonpos_of_nonpos hneg.le h2
  linarith

/-! ## The list invariant and one elimination step -/

/-- `L` lists the extreme rays of stage `i`, each exactly once. -/
structure Inv (w : ℕ → Module.Dual K M) (i : ℕ) (L : List M) : Prop where
  ext : ∀ a ∈ L, Ext w i a
  complete : ∀ a, Ext w i a → ∃ b ∈ L, ∃ t : K, 0 < t ∧ a = t • b
  nodup : L.Pairwise (fun a b => supp w i a ≠ supp w i b)

lemma Inv.perm {L L' : List M} (h : Inv w i L) (hp : L.Perm L') : Inv w i L' where
  ext a ha := h.ext a (hp.mem_iff.mpr ha)
  complete a ha := by
    obtain ⟨b, hb, t, ht⟩ := h.complete a ha
    exact ⟨b, hp.mem_iff.mp hb, t, ht⟩
  nodup := (hp.pairwise_iff (fun h => Ne.symm h)).mp h.nodup

lemma Inv.gen (hp : Pointed w i) {L : List M} (h : Inv w i L) {a : M} (ha : InC w i a) :
    Gen K (fun e => e ∈ L ∧ supp w i e ⊆ supp w i a) a := by
  refine (gen_ext hp _ a le_rfl ha).bind ?_
  rintro e ⟨he, hs⟩
  obtain ⟨b, hb, t, ht, rfl⟩ := h.complete e he
  rw [supp_smul ht] at hs
  exact (Gen.of ⟨hb, hs⟩).smul ht.le

/-- the union of supports of a pair -/
def U (w : ℕ → Module.Dual K M) (i : ℕ) (q : M × M) : Finset ℕ := supp w i q.1 ∪ supp w i q.2

/-- the combination of a pair lying on the new hyperplane -/
def comb (w : ℕ → Module.Dual K M) (i : ℕ) (q : M × M) : M :=
  (w i q.2) • q.1 - (w i q.1) • q.2

/-- a pair the elimination considers -/
structure Cand (w : ℕ → Module.Dual K M) (i d : ℕ) (L : List M) (q : M × M) : Prop where
  n_mem : q.1 ∈ L
  n_neg : w i q.1 < 0
  p_mem : q.2 ∈ L
  p_pos : 0 < w i q.2
  count : (U w i q).card ≤ i + 2 - d
  cont : ∀ z ∈ L, w i z = 0 → ¬ supp w i z ⊆ U w i q

lemma comb_inC {n p : M} (hn : InC w i n) (hp : InC w i p) (hn' : w i n < 0)
    (hp' : 0 < w i p) : InC w (i+1) (comb w i (n, p)) ∧ w i (comb w i (n,p)) = 0 ∧
      supp w i (comb w i (n,p)) = U w i (n,p) := by
  have h1 : comb w i (n,p) = (w i p) • n + (-(w i n)) • p := by
    simp [comb, sub_eq_add_neg]
  have hz : w i (comb w i (n,p)) = 0 := by
    simp [comb]; ring
  refine ⟨?_, hz, ?_⟩
  · rw [InC.succ_iff]; refine ⟨?_, hz.le⟩
    rw [h1]; exact (hn.smul hp'.le).add (hp.smul (by linarith))
  · rw [h1, supp_add (hn.smul hp'.le) (hp.smul (by linarith)), supp_smul hp',
      supp_smul (by linarith : 0 < -(w i n))]; rfl

lemma comb_ne_zero (hpt : Pointed w i) {n p : M} (hn : InC w i n) (hp : InC w i p)
    (hn' : w i n < 0) (hp' : 0 < w i p) : comb w i (n, p) ≠ 0 := by
  intro h0
  have hs := (comb_inC hn hp hn' hp').2.2
  rw [h0, (supp_empty_iff hpt InC.zero).mpr rfl] at hs
  have : supp w i n = ∅ := by
    apply Finset.subset_empty.mp
    rw [hs]; exact Finset.subset_union_left
  rw [supp_empty_iff hpt hn] at this
  simp [this] at hn'

/-- an extreme ray of the new stage on the new hyperplane which is not old comes from a pair -/
lemma exists_pair (hp : Pointed w i) {L : List M} (h : Inv w i L) {e : M} (he : Ext w (i+1) e)
    (hw : w i e = 0) (hold : ¬ Ext w i e) :
    ∃ n ∈ L, ∃ p ∈ L, w i n < 0 ∧ 0 < w i p ∧ ∃ t : K, 0 < t ∧ comb w i (n,p) = t • e ∧
      U w i (n,p) = supp w i e := by
  have heC := (InC.succ_iff.mp he.2.1).1
  have hgen := h.gen hp heC
  -- no element of L on the hyperplane is below e
  have hnz : ∀ a ∈ L, supp w i a ⊆ supp w i e → w i a ≠ 0 := by
    intro a ha hs h0
    have hae := h.ext a ha
    have := he.of_proportional (b := a) (InC.succ_iff.mpr ⟨hae.2.1, h0.le⟩) hae.1
      (by rw [supp_succ_of_nonneg h0.ge, supp_succ_of_nonneg hw.ge]; exact hs)
    obtain ⟨t, ht, heq⟩ := he.proportional (b := a) (InC.succ_iff.mpr ⟨hae.2.1, h0.le⟩) hae.1
      (by rw [supp_succ_of_nonneg h0.ge, supp_succ_of_nonneg hw.ge]; exact hs)
    apply hold
    have : e = t⁻¹ • a := by rw [heq, smul_smul, inv_mul_cancel₀ ht.ne', one_smul]
    rw [this]; exact hae.smul (inv_pos.mpr ht)
  -- both signs occur
  have aux : ∀ a, Gen K (fun x => x ∈ L ∧ supp w i x ⊆ supp w i e) a →
      (w i a < 0 → ∃ x ∈ L, supp w i x ⊆ supp w i e ∧ w i x < 0) ∧
      (0 < w i a → ∃ x ∈ L, supp w i x ⊆ supp w i e ∧ 0 < w i x) ∧
      (a ≠ 0 → w i a = 0 → (∃ x ∈ L, supp w i x ⊆ supp w i e ∧ w i x < 0) ∧
         ∃ x ∈ L, supp w i x ⊆ supp w i e ∧ 0 < w i x) := by
    intro a ha
    induction ha with
    | zero => simp
    | add t x y ht hx _ ih =>
      obtain ⟨ih1, ih2, ih3⟩ := ih
      have hx0 := hnz x hx.1 hx.2
      simp only [map_add, map_smul, smul_eq_mul]
      rcases ht.eq_or_lt with rfl | ht'
      · simpa using ⟨ih1, ih2, ih3⟩
      rcases lt_or_gt_of_ne hx0 with hlt | hgt
      · have hm := mul_neg_of_pos_of_neg ht' hlt
        refine ⟨fun _ => ⟨x, hx.1, hx.2, hlt⟩, fun hgt => ih2 (by linarith), fun _ heq => ?_⟩
        exact ⟨⟨x, hx.1, hx.2, hlt⟩, ih2 (by linarith)⟩
      · have hm := mul_pos ht' hgt
        refine ⟨fun hlt => ih1 (by linarith), fun _ => ⟨x, hx.1, hx.2, hgt⟩, fun _ heq => ?_⟩
        exact ⟨ih1 (by linarith), ⟨x, hx.1, hx.2, hgt⟩⟩
  obtain ⟨⟨n, hnL, hns, hn⟩, p, hpL, hps, hp'⟩ := (aux e hgen).2.2 he.1 hw
  refine ⟨n, hnL, p, hpL, hn, hp', ?_⟩
  obtain ⟨hcin, hcz, hcs⟩ := comb_inC (h.ext n hnL).2.1 (h.ext p hpL).2.1 hn hp'
  have hsub : supp w (i+1) (comb w i (n,p)) ⊆ supp w (i+1) e := by
    rw [supp_succ_of_nonneg hcz.ge, supp_succ_of_nonneg hw.ge, hcs]
    exact Finset.union_subset hns hps
  have hne := comb_ne_zero hp (h.ext n hnL).2.1 (h.ext p hpL).2.1 hn hp'
  obtain ⟨t, ht, heq⟩ := he.proportional hcin hne hsub
  refine ⟨t, ht, heq, ?_⟩
  rw [← hcs, heq, supp_smul ht]

/-- every non-zero element of a pointed cone has an extreme element below it -/
lemma exists_ext_below (hp : Pointed w i) {a : M} (ha : InC w i a) (h0 : a ≠ 0) :
    ∃ e, Ext w i e ∧ supp w i e ⊆ supp w i a := by
  have h := gen_ext hp _ a le_rfl ha
  by_contra hno
  push Not at hno
  apply h0
  have : ∀ b, Gen K (fun e => Ext w i e ∧ supp w i e ⊆ supp w i a) b → b = 0 := by
    intro b hb
    induction hb with
    | zero => rfl
    | add t x y _ hx _ _ => exact absurd hx.2 (hno x hx.1)
  exact this a h

/-- number of strictly satisfied constraints of an extreme ray -/
theorem Ext.card_le [FiniteDimensional K M] {a : M} (h : Ext w i a) (_hd : Module.finrank K M ≤ i) :
    (supp w i a).card + Module.finrank K M ≤ i + 1 := by
  classical
  by_contra hcon
  push Not at hcon
  set T := (Finset.range i).filter (fun j => w j a = 0) with hT
  have hsplit : (supp w i a).card + T.card = i := by
    have h1 : supp w i a ∪ T = Finset.range i := by
      ext j; simp only [Finset.mem_union, mem_supp, hT, Finset.mem_filter, Finset.mem_range]
      constructor
      · rintro (h | h) <;> exact h.1
      · intro hj; rcases (h.2.1 j hj).lt_or_eq with h1 | h1
        · exact Or.inl ⟨hj, h1⟩
        · exact Or.inr ⟨hj, h1⟩
    have h2 : Disjoint (supp w i a) T := by
      rw [Finset.disjoint_left]; intro j hj hj'
      have := (mem_supp.mp hj).2
      simp only [hT, Finset.mem_filter] at hj'
      rw [hj'.2] at this; exact lt_irrefl _ this
    rw [← Finset.card_union_of_disjoint h2, h1, Finset.card_range]
  have hTc : T.card + 1 < Module.finrank K M := by omega
  -- kernel of the tight functionals has dimension ≥ 2
  let f : M →ₗ[K] (T → K) := LinearMap.pi (fun j => w j.1)
  have hrank := LinearMap.finrank_range_add_finrank_ker f
  have hle : Module.finrank K (LinearMap.range f) ≤ T.card := by
    have := Submodule.finrank_le (LinearMap.range f)
    simpa using this
  have hker : 1 < Module.finrank K (LinearMap.ker f) := by omega
  have : ∃ x ∈ LinearMap.ker f, ∀ s : K, x ≠ s • a := by
    by_contra hno
    push Not at hno
    have hle' : LinearMap.ker f ≤ Submodule.span K {a} := by
      intro x hx
      obtain ⟨s, hs⟩ := hno x hx
      rw [hs]; exact Submodule.smul_mem _ _ (Submodule.mem_span_singleton_self a)
    have h1 := Submodule.finrank_mono hle'
    have h2 := finrank_span_singleton (K := K) h.1
    omega
  obtain ⟨x, hx, hxa⟩ := this
  have hx0 : ∀ j ∈ T, w j x = 0 := by
    intro j hj
    have := congrFun (LinearMap.mem_ker.mp hx) ⟨j, hj⟩
    simpa [f] using this
  -- small perturbation
  have hpert : ∃ ε : K, 0 < ε ∧ ∀ j ∈ supp w i a, w j a + ε * w j x ≤ 0 := by
    by_cases hne : (supp w i a).Nonempty
    · obtain ⟨k, hk, hmin⟩ := Finset.exists_min_image (supp w i a)
        (fun j => - w j a / (|w j x| + 1)) hne
      have hk' := (mem_supp.mp hk).2
      refine ⟨- w k a / (|w k x| + 1), div_pos (by linarith) (by positivity), ?_⟩
      intro j hj
      have h1 := hmin j hj
      have h2 : (0:K) < |w j x| + 1 := by positivity
      have hε : 0 ≤ - w k a / (|w k x| + 1) := (div_pos (by linarith) (by positivity)).le
      have h3 : - w k a / (|w k x| + 1) * w j x ≤ - w k a / (|w k x| + 1) * (|w j x| + 1) := by
        apply mul_le_mul_of_nonneg_left _ hε
        have := le_abs_self (w j x); linarith
      have h4 : - w k a / (|w k x| + 1) * (|w j x| + 1) ≤ - w j a := by
        calc _ ≤ - w j a / (|w j x| + 1) * (|w j x| + 1) :=
              mul_le_mul_of_nonneg_right h1 h2.le
          _ = _ := by field_simp
      linarith
    · refine ⟨1, one_pos, fun j hj => absurd ⟨j, hj⟩ hne⟩
  obtain ⟨ε, hε, hεle⟩ := hpert
  have hin : InC w i (a + ε • x) := by
    intro j hj
    simp only [map_add, map_smul, smul_eq_mul]
    rcases (h.2.1 j hj).lt_or_eq with h1 | h1
    · exact hεle j (mem_supp.mpr ⟨hj, h1⟩)
    · have : w j x = 0 := hx0 j (by simp [hT, hj, h1])
      simp [this, h1]
  have hss : supp w i (a + ε • x) ⊆ supp w i a := by
    intro j hj
    have hj' := mem_supp.mp hj
    rcases (h.2.1 j hj'.1).lt_or_eq with h1 | h1
    · exact mem_supp.mpr ⟨hj'.1, h1⟩
    · have : w j x = 0 := hx0 j (by simp [hT, hj'.1, h1])
      have h3 := hj'.2
      simp [this, h1] at h3
  obtain ⟨t, _, heq⟩ := h.2.2 _ hin hss
  apply hxa ((t - 1) * ε⁻¹)
  have h1 : ε • x = (t - 1) • a := by
    rw [sub_smul, one_smul, ← heq]; abel
  calc x = ε⁻¹ • ε • x := by rw [smul_smul, inv_mul_cancel₀ hε.ne', one_smul]
    _ = _ := by rw [h1, smul_smul, mul_comm]

/-- an old zero below a new extreme ray makes it old -/
lemma not_zero_below {L : List M} (h : Inv w i L) {e : M} (he : Ext w (i+1) e)
    (hw : w i e = 0) (hold : ¬ Ext w i e) {z : M} (hz : z ∈ L) (hwz : w i z = 0) :
    ¬ supp w i z ⊆ supp w i e := by
  intro hs
  have hze := h.ext z hz
  obtain ⟨t, ht, heq⟩ := he.proportional (b := z) (InC.succ_iff.mpr ⟨hze.2.1, hwz.le⟩) hze.1
      (by rw [supp_succ_of_nonneg hwz.ge, supp_succ_of_nonneg hw.ge]; exact hs)
  apply hold
  have : e = t⁻¹ • z := by rw [heq, smul_smul, inv_mul_cancel₀ ht.ne', one_smul]
  rw [this]; exact hze.smul (inv_pos.mpr ht)

theorem cand_of_new [FiniteDimensional K M] (hp : Pointed w i)
    (hd : Module.finrank K M ≤ i) {L : List M} (h : Inv w i L) {e : M} (he : Ext w (i+1) e)
    (hw : w i e = 0) (hold : ¬ Ext w i e) :
    ∃ q, Cand w i (Module.finrank K M) L q ∧ U w i q = supp w i e := by
  obtain ⟨n, hn, p, hpL, hn', hp', t, ht, heq, hU⟩ := exists_pair hp h he hw hold
  refine ⟨(n,p), ⟨hn, hn', hpL, hp', ?_, ?_⟩, hU⟩
  · rw [hU, ← supp_succ_of_nonneg hw.ge]
    have := he.card_le (by omega)
    omega
  · intro z hz hwz
    rw [hU]; exact not_zero_below h he hw hold hz hwz

/-- **One elimination step.**  Keep the rows on the hyperplane and on the right side, and add one
combination per minimal candidate pair. -/
theorem Inv.step [FiniteDimensional K M] (hp : Pointed w i) (hd : Module.finrank K M ≤ i)
    {L : List M} (h : Inv w i L) {ι : Type*} (P : List ι) (g : ι → M × M) (f : ι → M)
    (hf : ∀ q ∈ P, ∃ t : K, 0 < t ∧ f q = t • comb w i (g q))
    (hcand : ∀ q ∈ P, Cand w i (Module.finrank K M) L (g q))
    (hanti : P.Pairwise (fun q q' => ¬ U w i (g q) ⊆ U w i (g q') ∧ ¬ U w i (g q') ⊆ U w i (g q)))
    (hdom : ∀ q, Cand w i (Module.finrank K M) L q → ∃ q' ∈ P, U w i (g q') ⊆ U w i q) :
    Inv w (i+1) (L.filter (fun a => decide (w i a = 0)) ++
      L.filter (fun a => decide (w i a < 0)) ++ P.map f) := by
  -- facts on members of P
  have hPfact : ∀ q ∈ P, InC w (i+1) (f q) ∧ w i (f q) = 0 ∧ supp w i (f q) = U w i (g q) ∧ f q ≠ 0 := by
    intro q hq
    obtain ⟨t, ht, heq⟩ := hf q hq
    have hc := hcand q hq
    have h1 := comb_inC (h.ext _ hc.n_mem).2.1 (h.ext _ hc.p_mem).2.1 hc.n_neg hc.p_pos
    rw [heq]
    refine ⟨h1.1.smul ht.le, by rw [map_smul, h1.2.1, smul_zero], by rw [supp_smul ht]; exact h1.2.2, ?_⟩
    apply smul_ne_zero ht.ne'
    exact comb_ne_zero hp (h.ext _ hc.n_mem).2.1 (h.ext _ hc.p_mem).2.1 hc.n_neg hc.p_pos
  have hPext : ∀ q ∈ P, Ext w (i+1) (f q) := by
    intro q hq
    obtain ⟨hin, hz, hs, hne⟩ := hPfact q hq
    obtain ⟨e, he, hes⟩ := exists_ext_below (hp.mono (Nat.le_succ i)) hin hne
    have hwe : w i e = 0 := by
      by_contra hne'
      have : i ∈ supp w (i+1) e := mem_supp.mpr ⟨by omega,
        lt_of_le_of_ne (InC.succ_iff.mp he.2.1).2 hne'⟩
      have := (mem_supp.mp (hes this)).2
      rw [hz] at this; exact lt_irrefl _ this
    have hes' : supp w i e ⊆ U w i (g q) := by rw [← hs]; exact supp_subset_of_succ hes
    have hnold : ¬ Ext w i e := by
      intro hold
      obtain ⟨z, hzL, t, ht, heq⟩ := h.complete e hold
      have hwz : w i z = 0 := by
        rw [heq, map_smul, smul_eq_mul] at hwe
        rcases mul_eq_zero.mp hwe with h0 | h0
        · exact absurd h0 ht.ne'
        · exact h0
      apply (hcand q hq).cont z hzL hwz
      rwa [heq, supp_smul ht] at hes'
    obtain ⟨q', hq', hU'⟩ := cand_of_new hp hd h he hwe hnold
    obtain ⟨q'', hq'', hsub⟩ := hdom q' hq'
    have hsub' : U w i (g q'') ⊆ U w i (g q) := hsub.trans (hU' ▸ hes')
    have heqU : U w i (g q'') = U w i (g q) := by
      by_contra hneU
      have hneq : q'' ≠ q := by rintro rfl; exact hneU rfl
      have hsym : Std.Symm (fun q q' : ι => ¬ U w i (g q) ⊆ U w i (g q') ∧ ¬ U w i (g q') ⊆ U w i (g q)) :=
        ⟨fun _ _ h => ⟨h.2, h.1⟩⟩
      have := hanti.forall hq'' hq hneq
      exact this.1 hsub'
    have hsame : supp w (i+1) (f q) ⊆ supp w (i+1) e := by
      rw [supp_succ_of_nonneg hz.ge, supp_succ_of_nonneg hwe.ge, hs, ← heqU, ← hU']
      exact hsub
    exact (he.of_proportional hin hne hsame).1
  refine ⟨?_, ?_, ?_⟩
  · intro a ha
    simp only [List.mem_append, List.mem_filter, List.mem_map, decide_eq_true_eq] at ha
    rcases ha with (⟨ha, hw⟩ | ⟨ha, hw⟩) | ⟨q, hq, rfl⟩
    · exact (h.ext a ha).succ hw.le
    · exact (h.ext a ha).succ hw.le
    · exact hPext q hq
  · intro e he
    have hwe := (InC.succ_iff.mp he.2.1).2
    have hfin : Ext w i e → ∃ b ∈ L.filter (fun a => decide (w i a = 0)) ++
        L.filter (fun a => decide (w i a < 0)) ++ P.map f, ∃ t : K, 0 < t ∧ e = t • b := by
      intro hold
      obtain ⟨b, hb, t, ht, heq⟩ := h.complete e hold
      refine ⟨b, ?_, t, ht, heq⟩
      simp only [List.mem_append, List.mem_filter, decide_eq_true_eq]
      left
      have hwb : w i b ≤ 0 := by
        rw [heq, map_smul, smul_eq_mul] at hwe
        by_contra h0; push Not at h0
        have := mul_pos ht h0; linarith
      rcases hwb.eq_or_lt with h0 | h0
      · exact Or.inl ⟨hb, h0⟩
      · exact Or.inr ⟨hb, h0⟩
    rcases hwe.lt_or_eq with hlt | heq0
    · exact hfin (he.pred_of_neg hp hlt)
    · by_cases hold : Ext w i e
      · exact hfin hold
      · obtain ⟨q, hq, hU⟩ := cand_of_new hp hd h he heq0 hold
        obtain ⟨q', hq', hsub⟩ := hdom q hq
        obtain ⟨hin, hz, hs, hne⟩ := hPfact q' hq'
        have hss : supp w (i+1) (f q') ⊆ supp w (i+1) e := by
          rw [supp_succ_of_nonneg hz.ge, supp_succ_of_nonneg heq0.ge, hs, ← hU]; exact hsub
        obtain ⟨t, ht, heq⟩ := he.proportional hin hne hss
        refine ⟨f q', ?_, t⁻¹, inv_pos.mpr ht, ?_⟩
        · simp only [List.mem_append, List.mem_map]
          exact Or.inr ⟨q', hq', rfl⟩
        · rw [heq, smul_smul, inv_mul_cancel₀ ht.ne', one_smul]
  · have hsub : ∀ a b : M, supp w i a ≠ supp w i b → supp w (i+1) a ≠ supp w (i+1) b := by
      intro a b hne heq
      apply hne
      exact le_antisymm (supp_subset_of_succ heq.subset) (supp_subset_of_succ heq.symm.subset)
    have hL : ∀ (pr : M → Bool), (L.filter pr).Pairwise (fun a b => supp w (i+1) a ≠ supp w (i+1) b) :=
      fun pr => (h.nodup.filter pr).imp (fun {a b} => hsub a b)
    rw [List.pairwise_append, List.pairwise_append]
    refine ⟨⟨hL _, hL _, ?_⟩, ?_, ?_⟩
    · intro a ha b hb heq
      simp only [List.mem_filter, decide_eq_true_eq] at ha hb
      have : i ∈ supp w (i+1) b := mem_supp.mpr ⟨by omega, hb.2⟩
      rw [← heq] at this
      have := (mem_supp.mp this).2
      rw [ha.2] at this; exact lt_irrefl _ this
    · rw [List.pairwise_map]
      refine hanti.imp_of_mem ?_
      intro q q' hq hq' hh heq
      obtain ⟨_, hz, hs, _⟩ := hPfact q hq
      obtain ⟨_, hz', hs', _⟩ := hPfact q' hq'
      rw [supp_succ_of_nonneg hz.ge, supp_succ_of_nonneg hz'.ge, hs, hs'] at heq
      exact hh.1 heq.subset
    · intro a ha b hb heq
      simp only [List.mem_map] at hb
      obtain ⟨q, hq, rfl⟩ := hb
      obtain ⟨_, hz, hs, _⟩ := hPfact q hq
      simp only [List.mem_append, List.mem_filter, decide_eq_true_eq] at ha
      rcases ha with ⟨ha, hw⟩ | ⟨ha, hw⟩
      · apply (hcand q hq).cont a ha hw
        rw [supp_succ_of_nonneg hw.ge, supp_succ_of_nonneg hz.ge, hs] at heq
        exact heq.subset
      · have : i ∈ supp w (i+1) a := mem_supp.mpr ⟨by omega, hw⟩
        rw [heq] at this
        have := (mem_supp.mp this).2
        rw [hz] at this; exact lt_irrefl _ this

/-! ## The base case -/

/-- rows dual (up to negative scaling and order) to the first `d` functionals -/
theorem Inv.base {d : ℕ} (b : Fin d → M) (σ : Fin d → Fin d) (hσ : Function.Bijective σ)
    (hneg : ∀ k, w (σ k) (b k) < 0) (hz : ∀ k (j : Fin d), j ≠ σ k → w j (b k) = 0)
    (hp : Pointed w d) : Inv w d (List.ofFn b) := by
  have hsupp : ∀ k, supp w d (b k) = {(σ k : ℕ)} := by
    intro k; ext j; simp only [mem_supp, Finset.mem_singleton]
    constructor
    · rintro ⟨hj, hlt⟩
      by_contra hne
      have := hz k ⟨j, hj⟩ (by intro h; apply hne; rw [← h])
      simp only at this
      rw [this] at hlt; exact lt_irrefl _ hlt
    · rintro rfl; exact ⟨(σ k).2, hneg k⟩
  have hInC : ∀ k, InC w d (b k) := by
    intro k j hj
    by_cases h : (⟨j, hj⟩ : Fin d) = σ k
    · have : j = (σ k : ℕ) := by rw [← h]
      rw [this]; exact (hneg k).le
    · exact (hz k ⟨j, hj⟩ h).le
  have hprop : ∀ k x, InC w d x → supp w d x ⊆ {(σ k : ℕ)} → ∃ t : K, 0 ≤ t ∧ x = t • b k := by
    intro k x hx hs
    refine ⟨w (σ k) x / w (σ k) (b k), div_nonneg_of_nonpos (hx _ (σ k).2) (hneg k).le, ?_⟩
    rw [← sub_eq_zero]
    apply hp; intro j hj
    simp only [map_sub, map_smul, smul_eq_mul]
    by_cases h : j = (σ k : ℕ)
    · subst h; rw [div_mul_cancel₀ _ (hneg k).ne]; simp
    · have h1 : w j (b k) = 0 := hz k ⟨j, hj⟩ (by intro h'; apply h; rw [← h'])
      have h2 : w j x = 0 := by
        by_contra hne
        have := hs (mem_supp.mpr ⟨hj, lt_of_le_of_ne (hx j hj) hne⟩)
        exact h (by simpa using this)
      simp [h1, h2]
  have hb0 : ∀ k, b k ≠ 0 := by
    intro k h; have := hneg k; rw [h] at this; simp at this
  refine ⟨?_, ?_, ?_⟩
  · intro a ha
    rw [List.mem_ofFn] at ha
    obtain ⟨k, rfl⟩ := ha
    exact ⟨hb0 k, hInC k, fun x hx hs => hprop k x hx (by rw [← hsupp k]; exact hs)⟩
  · intro a ha
    have hne : (supp w d a).Nonempty := by
      rw [Finset.nonempty_iff_ne_empty]; intro h
      exact ha.1 ((supp_empty_iff hp ha.2.1).mp h)
    obtain ⟨j, hj⟩ := hne
    have hj' := mem_supp.mp hj
    obtain ⟨k, hk⟩ := hσ.2 ⟨j, hj'.1⟩
    refine ⟨b k, by rw [List.mem_ofFn]; exact ⟨k, rfl⟩, ?_⟩
    obtain ⟨t, ht, heq⟩ := ha.proportional (hInC k) (hb0 k) (by
      rw [hsupp k, hk]; simpa using hj)
    exact ⟨t⁻¹, inv_pos.mpr ht, by rw [heq, smul_smul, inv_mul_cancel₀ ht.ne', one_smul]⟩
  · rw [List.pairwise_ofFn]
    intro k l hkl heq
    rw [hsupp, hsupp] at heq
    have : σ k = σ l := Fin.ext (by simpa using heq)
    exact hkl.ne (hσ.1 this)

/-! ## The primal side (Farkas) -/

/-- conic combinations of the first `i` functionals -/
def InCone (w : ℕ → Module.Dual K M) (i : ℕ) (x : Module.Dual K M) : Prop :=
  Gen K (fun y => ∃ j < i, y = w j) x

lemma InCone.nonpos {x : Module.Dual K M} (hx : InCone w i x) {a : M} (ha : InC w i a) : x a ≤ 0 := by
  unfold InCone at hx
  induction hx with
  | zero => simp
  | add t y z ht hy _ ih =>
    obtain ⟨j, hj, rfl⟩ := hy
    have := mul_nonpos_of_nonneg_of_nonpos ht (ha j hj)
    simp; linarith

lemma Gen.nonpos {S : M → Prop} {x : Module.Dual K M} (h : ∀ a, S a → x a ≤ 0) {a : M}
    (ha : Gen K S a) : x a ≤ 0 := by
  induction ha with
  | zero => simp
  | add t y z ht hy _ ih =>
    have := mul_nonpos_of_nonneg_of_nonpos ht (h y hy)
    simp; linarith

/-- The primal statement at the base: `x` non-positive on the dual basis is a conic combination. -/
theorem primal_base {d : ℕ} (b : Fin d → M) (σ : Fin d → Fin d) (hσ : Function.Bijective σ)
    (hneg : ∀ k, w (σ k) (b k) < 0) (hz : ∀ k (j : Fin d), j ≠ σ k → w j (b k) = 0)
    (hspan : ∀ y : Module.Dual K M, (∀ k, y (b k) = 0) → y = 0)
    (x : Module.Dual K M) (hx : ∀ a, InC w d a → x a ≤ 0) : InCone w d x := by
  have hInC : ∀ k, InC w d (b k) := by
    intro k j hj
    by_cases h : (⟨j, hj⟩ : Fin d) = σ k
    · have : j = (σ k : ℕ) := by rw [← h]
      rw [this]; exact (hneg k).le
    · exact (hz k ⟨j, hj⟩ h).le
  have heq : x = ∑ k : Fin d, (x (b k) / w (σ k) (b k)) • w (σ k) := by
    rw [← sub_eq_zero]
    apply hspan; intro k
    simp only [LinearMap.sub_apply, LinearMap.sum_apply, LinearMap.smul_apply, smul_eq_mul]
    rw [Finset.sum_eq_single k]
    · rw [div_mul_cancel₀ _ (hneg k).ne]; simp
    · intro l _ hl
      rw [hz k (σ l) (fun h => hl (hσ.1 h))]; simp
    · simp
  rw [heq]
  unfold InCone
  have : ∀ s : Finset (Fin d), Gen K (fun y => ∃ j < d, y = w j)
      (∑ k ∈ s, (x (b k) / w (σ k) (b k)) • w (σ k)) := by
    intro s
    induction s using Finset.cons_induction with
    | empty => simpa using Gen.zero
    | cons k s hk ih =>
      rw [Finset.sum_cons]
      exact Gen.add _ _ _ (div_nonneg_of_nonpos (hx _ (hInC k)) (hneg k).le) ⟨σ k, (σ k).2, rfl⟩ ih
  exact this _

/-- The primal statement, one step, given any finite generating list of the old cone. -/
theorem primal_step {L : List M} (hL : ∀ a ∈ L, InC w i a)
    (hgen : ∀ a, InC w i a → Gen K (· ∈ L) a)
    (ih : ∀ x : Module.Dual K M, (∀ a, InC w i a → x a ≤ 0) → InCone w i x)
    (x : Module.Dual K M) (hx : ∀ a, InC w (i+1) a → x a ≤ 0) : InCone w (i+1) x := by
  classical
  -- find t ≥ 0 with x - t • w i nonpositive on L
  have ht : ∃ t : K, 0 ≤ t ∧ ∀ a ∈ L, x a - t * w i a ≤ 0 := by
    -- lower bounds: positives
    let Pos := L.toFinset.filter (fun a => 0 < w i a)
    by_cases hpos : Pos.Nonempty
    · obtain ⟨p, hp, hmax⟩ := Finset.exists_max_image Pos (fun a => x a / w i a) hpos
      simp only [Pos, Finset.mem_filter, List.mem_toFinset] at hp
      refine ⟨max 0 (x p / w i p), le_max_left _ _, ?_⟩
      intro a ha
      rcases lt_trichotomy (w i a) 0 with h | h | h
      · -- negative
        have hxa : x a ≤ 0 := hx a (InC.succ_iff.mpr ⟨hL a ha, h.le⟩)
        have hc := hx _ (comb_inC (hL a ha) (hL p hp.1) h hp.2).1
        simp only [comb, map_sub, map_smul, smul_eq_mul] at hc
        rcases le_total 0 (x p / w i p) with h0 | h0
        · rw [max_eq_right h0]
          have : x p / w i p * w i a = (x p * w i a) / w i p := by ring
          rw [this, sub_nonpos, le_div_iff₀ hp.2]; linarith
        · rw [max_eq_left h0]; linarith
      · rw [h]; simp; exact hx a (InC.succ_iff.mpr ⟨hL a ha, h.le⟩)
      · have h1 := hmax a (by simp [Pos, ha, h])
        have h2 : x a / w i a ≤ max 0 (x p / w i p) := le_trans h1 (le_max_right _ _)
        rw [div_le_iff₀ h] at h2; linarith
    · refine ⟨0, le_rfl, fun a ha => ?_⟩
      have : w i a ≤ 0 := by
        by_contra h0; push Not at h0
        exact hpos ⟨a, by simp [Pos, ha, h0]⟩
      have := hx a (InC.succ_iff.mpr ⟨hL a ha, this⟩)
      simpa using this
  obtain ⟨t, ht0, ht⟩ := ht
  have h1 : InCone w i (x - t • w i) := by
    apply ih; intro a ha
    exact Gen.nonpos (S := (· ∈ L)) (fun b hb => by simpa using ht b hb) (hgen a ha)
  have h2 : x = t • w i + (x - t • w i) := by abel
  rw [h2]
  refine Gen.add t (w i) _ ht0 ⟨i, by omega, rfl⟩ ?_
  exact h1.mono fun y ⟨j, hj, he⟩ => ⟨j, by omega, he⟩

end Panda.Cone
