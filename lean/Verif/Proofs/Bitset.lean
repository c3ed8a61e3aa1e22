import Verif.Model.Bitset
import Mathlib.Data.Finset.Card
import Mathlib.Data.Finset.Lattice.Basic
import Mathlib.Order.Interval.Finset.Nat
import Mathlib.Algebra.Order.BigOperators.Group.Finset
import Mathlib.Tactic.Ring

/-! # Bit sets implement finite sets of indices -/

namespace Panda

/-- What the elimination relies on: on bit sets for indices below `N`, the operations are those of
finite sets (`abs`), as long as the hint `max` bounds the members. -/
structure LawfulBitset {B : Type} (ops : BitsetOps B) (N : Nat) where
  wf : B → Prop
  abs : B → Finset Nat
  new_wf : wf (ops.new N)
  new_abs : abs (ops.new N) = ∅
  set_wf : ∀ b i, wf b → i < N → wf (ops.set b i)
  set_abs : ∀ b i, wf b → i < N → abs (ops.set b i) = insert i (abs b)
  merge_wf : ∀ a b max, wf a → wf b → 0 < max → max ≤ N → wf (ops.merge a b max)
  merge_abs : ∀ a b max, wf a → wf b → 0 < max → max ≤ N → (∀ i ∈ abs b, i < max) →
    abs (ops.merge a b max) = abs a ∪ abs b
  count_eq : ∀ a max, wf a → 0 < max → max ≤ N → (∀ i ∈ abs a, i < max) →
    ops.count a max = (abs a).card
  contains_iff : ∀ a b max, wf a → wf b → 0 < max → max ≤ N → (∀ i ∈ abs b, i < max) →
    (ops.contains a b max = true ↔ abs b ⊆ abs a)
  unionContains_iff : ∀ a b c max, wf a → wf b → wf c → 0 < max → max ≤ N →
    (∀ i ∈ abs c, i < max) → (ops.unionContains a b c max = true ↔ abs c ⊆ abs a ∪ abs b)
  unionCount_eq : ∀ a b max, wf a → wf b → 0 < max → max ≤ N → (∀ i ∈ abs a, i < max) →
    (∀ i ∈ abs b, i < max) → ops.unionCount a b max = (abs a ∪ abs b).card

/-- bit `k` of a bit set -/
def bitAt (b : Words) (k : Nat) : Bool := (wordAt b (k / 32)).getLsbD (k % 32)

/-- the set of indices a bit set stands for -/
def bsAbs (b : Words) : Finset Nat := (Finset.range (32 * b.length)).filter fun k => bitAt b k = true

theorem bitAt_of_ge {b : Words} {k : Nat} (h : 32 * b.length ≤ k) : bitAt b k = false := by
  have : b.length ≤ k / 32 := by omega
  simp [bitAt, wordAt, List.getD_eq_getElem?_getD, List.getElem?_eq_none this]

theorem mem_bsAbs {b : Words} {k : Nat} : k ∈ bsAbs b ↔ bitAt b k = true := by
  simp only [bsAbs, Finset.mem_filter, Finset.mem_range]
  constructor
  · exact fun h => h.2
  · intro h; refine ⟨?_, h⟩
    by_contra hlt
    rw [bitAt_of_ge (by omega)] at h; simp at h

theorem wordAt_set {b : Words} {i j : Nat} {x : BitVec 32} (hi : i < b.length) :
    wordAt (b.set i x) j = if j = i then x else wordAt b j := by
  unfold wordAt
  simp only [List.getD_eq_getElem?_getD, List.getElem?_set]
  by_cases h : i = j
  · subst h; simp [hi]
  · have : ¬ j = i := fun h' => h h'.symm
    simp [h, this]

theorem bitAt_bsSet {b : Words} {i k : Nat} (hi : i < 32 * b.length) :
    bitAt (bsSet b i) k = (bitAt b k || decide (k = i)) := by
  unfold bitAt bsSet
  rw [wordAt_set (by omega)]
  split
  · next h =>
    rw [BitVec.getLsbD_or, h]
    congr 1
    have h32 : k % 32 < 32 := Nat.mod_lt _ (by omega)
    have hi32 : i % 32 < 32 := Nat.mod_lt _ (by omega)
    rw [BitVec.getLsbD_shiftLeft, BitVec.getLsbD_one]
    simp only [h32, decide_true, Bool.true_and]
    by_cases hki : k = i
    · subst hki; simp
    · have : k % 32 ≠ i % 32 := by omega
      simp only [hki, decide_false]
      by_cases hlt : k % 32 < i % 32
      · simp [hlt]
      · have : ¬ (k % 32 - i % 32 = 0) := by omega
        simp [this]
  · next h =>
    have : k ≠ i := by rintro rfl; exact h rfl
    simp [this]

theorem foldl_merge_length (b : Words) (l : List Nat) (a : Words) :
    (l.foldl (fun r i => r.set i (wordAt r i ||| wordAt b i)) a).length = a.length := by
  induction l generalizing a with
  | nil => rfl
  | cons x xs ih => simp only [List.foldl_cons]; rw [ih]; simp

theorem wordAt_bsMerge_aux (a b : Words) (W : Nat) (hW : W ≤ a.length) (j : Nat) :
    wordAt ((List.range W).foldl (fun r i => r.set i (wordAt r i ||| wordAt b i)) a) j =
      if j < W then wordAt a j ||| wordAt b j else wordAt a j := by
  induction W generalizing j with
  | zero => simp
  | succ W ih =>
    rw [List.range_succ, List.foldl_append, List.foldl_cons, List.foldl_nil]
    have ih' := ih (by omega)
    rw [wordAt_set (by rw [foldl_merge_length]; omega)]
    by_cases hj : j = W
    · subst hj; rw [if_pos rfl, ih' j]; simp
    · rw [if_neg hj, ih' j]
      by_cases h1 : j < W
      · rw [if_pos h1, if_pos (by omega)]
      · rw [if_neg h1, if_neg (by omega)]

theorem bitAt_bsMerge {a b : Words} {max k : Nat} (hmax : wordsFor max ≤ a.length) :
    bitAt (bsMerge a b max) k =
      (bitAt a k || (decide (k / 32 < wordsFor max) && bitAt b k)) := by
  unfold bitAt bsMerge
  rw [wordAt_bsMerge_aux _ _ _ hmax]
  split
  · next h => simp [h, BitVec.getLsbD_or]
  · next h => simp [h]

theorem word_subset_iff {x y : BitVec 32} :
    x &&& y = y ↔ ∀ i < 32, y.getLsbD i = true → x.getLsbD i = true := by
  constructor
  · intro h i _ hy
    rw [← h, BitVec.getLsbD_and] at hy
    simp only [Bool.and_eq_true] at hy; exact hy.1
  · intro h
    apply BitVec.eq_of_getLsbD_eq
    intro i hi
    rw [BitVec.getLsbD_and]
    cases hy : y.getLsbD i with
    | false => simp
    | true => simp [h i hi hy]

theorem bsContains_iff {a b : Words} {max : Nat} :
    bsContains a b max = true ↔ ∀ k, k / 32 < wordsFor max → bitAt b k = true → bitAt a k = true := by
  unfold bsContains
  simp only [List.all_eq_true, List.mem_range, beq_iff_eq, word_subset_iff]
  constructor
  · intro h k hk hb; exact h (k / 32) hk (k % 32) (Nat.mod_lt _ (by omega)) hb
  · intro h i hi j hj hb
    have := h (32 * i + j) (by rw [show (32 * i + j) / 32 = i by omega]; exact hi)
    unfold bitAt at this
    rw [show (32 * i + j) / 32 = i by omega, show (32 * i + j) % 32 = j by omega] at this
    exact this hb

theorem bsUnionContains_iff {a b c : Words} {max : Nat} :
    bsUnionContains a b c max = true ↔
      ∀ k, k / 32 < wordsFor max → bitAt c k = true → (bitAt a k = true ∨ bitAt b k = true) := by
  unfold bsUnionContains
  simp only [List.all_eq_true, List.mem_range, beq_iff_eq, word_subset_iff, BitVec.getLsbD_or,
    Bool.or_eq_true]
  constructor
  · intro h k hk hb; exact h (k / 32) hk (k % 32) (Nat.mod_lt _ (by omega)) hb
  · intro h i hi j hj hb
    have := h (32 * i + j) (by rw [show (32 * i + j) / 32 = i by omega]; exact hi)
    unfold bitAt at this
    rw [show (32 * i + j) / 32 = i by omega, show (32 * i + j) % 32 = j by omega] at this
    exact this hb

/-- the number of one bits is the size of the set of positions of one bits -/
theorem bitCount_eq_card (x : BitVec 32) :
    bitCount x = ((Finset.range 32).filter fun i => x.getLsbD i = true).card := by
  have h : ∀ (p : Nat → Bool) (n : Nat),
      (List.range n).countP p = ((Finset.range n).filter fun i => p i = true).card := by
    intro p n
    induction n with
    | zero => simp
    | succ n ih =>
      rw [List.range_succ, List.countP_append, ih, Finset.range_add_one, Finset.filter_insert]
      by_cases hp : p n = true
      · simp [hp]
      · simp [hp]
  exact h (fun i => x.getLsbD i) 32

theorem bitCount_or (x y : BitVec 32) :
    bitCount (x ||| y) + bitCount (x &&& y) = bitCount x + bitCount y := by
  simp only [bitCount_eq_card]
  rw [← Finset.card_union_add_card_inter (Finset.filter (fun i => x.getLsbD i = true) _)]
  congr 2
  · ext i; simp only [Finset.mem_filter, Finset.mem_union, BitVec.getLsbD_or, Bool.or_eq_true]; tauto
  · ext i; simp only [Finset.mem_filter, Finset.mem_inter, BitVec.getLsbD_and, Bool.and_eq_true]; tauto

/-- counting word by word counts the set -/
theorem card_filter_words (f : Nat → BitVec 32) (W : Nat) :
    ((Finset.range (32 * W)).filter fun k => (f (k / 32)).getLsbD (k % 32) = true).card =
      ∑ i ∈ Finset.range W, bitCount (f i) := by
  induction W with
  | zero => simp
  | succ W ih =>
    rw [Finset.sum_range_succ, ← ih, bitCount_eq_card]
    have : (Finset.range (32 * (W + 1))) =
        Finset.range (32 * W) ∪ (Finset.range 32).map (addLeftEmbedding (32 * W)) := by
      ext k
      simp only [Finset.mem_range, Finset.mem_union, Finset.mem_map, addLeftEmbedding_apply]
      constructor
      · intro h
        by_cases h' : k < 32 * W
        · exact Or.inl h'
        · exact Or.inr ⟨k - 32 * W, by omega, by omega⟩
      · rintro (h | ⟨i, hi, rfl⟩) <;> omega
    rw [this, Finset.filter_union, Finset.card_union_of_disjoint, Finset.filter_map,
      Finset.card_map]
    · congr 2
      ext i
      simp only [Finset.mem_filter, Finset.mem_range, Function.comp, addLeftEmbedding_apply]
      constructor
      · rintro ⟨h, h'⟩
        rw [show (32 * W + i) / 32 = W by omega, show (32 * W + i) % 32 = i by omega] at h'
        exact ⟨h, h'⟩
      · rintro ⟨h, h'⟩
        rw [show (32 * W + i) / 32 = W by omega, show (32 * W + i) % 32 = i by omega]
        exact ⟨h, h'⟩
    · rw [Finset.disjoint_left]
      intro k hk hk'
      simp only [Finset.mem_filter, Finset.mem_range, Finset.mem_map, addLeftEmbedding_apply] at hk hk'
      obtain ⟨⟨i, _, rfl⟩, _⟩ := hk'
      omega

theorem foldl_add_range (g : Nat → Nat) (W s : Nat) :
    (List.range W).foldl (fun t i => t + g i) s = s + ∑ i ∈ Finset.range W, g i := by
  induction W with
  | zero => simp
  | succ W ih => rw [List.range_succ, List.foldl_append, ih, Finset.sum_range_succ]; simp; ring

theorem abs_eq_filter {b : Words} {max : Nat} (h : ∀ i ∈ bsAbs b, i < max) :
    bsAbs b = (Finset.range (32 * wordsFor max)).filter
      fun k => (wordAt b (k / 32)).getLsbD (k % 32) = true := by
  ext k
  rw [mem_bsAbs, Finset.mem_filter, Finset.mem_range]
  constructor
  · intro hk
    have := h k (mem_bsAbs.mpr hk)
    refine ⟨?_, hk⟩
    unfold wordsFor; omega
  · exact fun hk => hk.2

theorem bsCount_eq {b : Words} {max : Nat} (h : ∀ i ∈ bsAbs b, i < max) :
    bsCount b max = (bsAbs b).card := by
  rw [abs_eq_filter h, card_filter_words]
  unfold bsCount; rw [foldl_add_range]; simp

theorem bsUnionCount_eq {a b : Words} {max : Nat} (ha : ∀ i ∈ bsAbs a, i < max)
    (hb : ∀ i ∈ bsAbs b, i < max) : bsUnionCount a b max = (bsAbs a ∪ bsAbs b).card := by
  have h1 : bsAbs a ∪ bsAbs b = (Finset.range (32 * wordsFor max)).filter
      fun k => ((fun i => wordAt a i ||| wordAt b i) (k / 32)).getLsbD (k % 32) = true := by
    rw [abs_eq_filter ha, abs_eq_filter hb, ← Finset.filter_or]
    ext k; simp [BitVec.getLsbD_or]
  rw [h1, card_filter_words (fun i => wordAt a i ||| wordAt b i)]
  have h2 : ∀ W, (List.range W).foldl (fun t i =>
      t + bitCount (wordAt a i) + bitCount (wordAt b i) - bitCount (wordAt a i &&& wordAt b i)) 0 =
      ∑ i ∈ Finset.range W, bitCount (wordAt a i ||| wordAt b i) := by
    intro W
    induction W with
    | zero => simp
    | succ W ih =>
      rw [List.range_succ, List.foldl_append, ih, Finset.sum_range_succ]
      simp only [List.foldl_cons, List.foldl_nil]
      have := bitCount_or (wordAt a W) (wordAt b W)
      omega
  exact h2 _

theorem wordsFor_le {max N size : Nat} (_h0 : 0 < max) (h : max ≤ N) (hN : N ≤ 32 * size) :
    wordsFor max ≤ size := by
  unfold wordsFor; omega

theorem div_lt_wordsFor {k max : Nat} (h : k < max) : k / 32 < wordsFor max := by
  unfold wordsFor; omega

/-- every constructor giving enough zero words makes the word operations lawful -/
def wordsOps_lawful (new : Nat → Words) (N size : Nat) (hnew : new N = List.replicate size 0#32)
    (hN : N ≤ 32 * size) : LawfulBitset (wordsOps new) N where
  wf b := b.length = size
  abs := bsAbs
  new_wf := by simp [wordsOps, hnew]
  new_abs := by
    ext k
    rw [mem_bsAbs]
    simp only [wordsOps, hnew, Finset.notMem_empty, iff_false]
    unfold bitAt wordAt
    simp only [List.getD_eq_getElem?_getD, List.getElem?_replicate]
    split <;> simp
  set_wf b i hb _ := by simp [wordsOps, bsSet, hb]
  set_abs b i hb hi := by
    ext k
    simp only [wordsOps, mem_bsAbs, Finset.mem_insert]
    rw [bitAt_bsSet (by omega)]
    simp only [Bool.or_eq_true, decide_eq_true_eq]; tauto
  merge_wf a b max ha _ _ _ := by simp only [wordsOps, bsMerge]; rw [foldl_merge_length]; exact ha
  merge_abs a b max ha hb h0 hm hbm := by
    ext k
    simp only [wordsOps, mem_bsAbs, Finset.mem_union]
    rw [bitAt_bsMerge (by rw [ha]; exact wordsFor_le h0 hm hN)]
    simp only [Bool.or_eq_true, Bool.and_eq_true, decide_eq_true_eq]
    constructor
    · rintro (h | h)
      · exact Or.inl h
      · exact Or.inr h.2
    · rintro (h | h)
      · exact Or.inl h
      · exact Or.inr ⟨div_lt_wordsFor (hbm k (mem_bsAbs.mpr h)), h⟩
  count_eq a max _ _ _ h := bsCount_eq h
  contains_iff a b max _ _ _ _ h := by
    simp only [wordsOps, bsContains_iff]
    constructor
    · intro hh k hk
      exact mem_bsAbs.mpr (hh k (div_lt_wordsFor (h k hk)) (mem_bsAbs.mp hk))
    · intro hh k _ hk
      exact mem_bsAbs.mp (hh (mem_bsAbs.mpr hk))
  unionContains_iff a b c max _ _ _ _ _ h := by
    simp only [wordsOps, bsUnionContains_iff]
    constructor
    · intro hh k hk
      rw [Finset.mem_union, mem_bsAbs, mem_bsAbs]
      exact hh k (div_lt_wordsFor (h k hk)) (mem_bsAbs.mp hk)
    · intro hh k _ hk
      have := hh (mem_bsAbs.mpr hk)
      rwa [Finset.mem_union, mem_bsAbs, mem_bsAbs] at this
  unionCount_eq a b max _ _ _ _ ha hb := bsUnionCount_eq ha hb

def fixedOps_lawful (size N : Nat) (h : N ≤ 32 * size) : LawfulBitset (fixedOps size) N :=
  wordsOps_lawful _ N size rfl h

def variableOps_lawful (N : Nat) : LawfulBitset variableOps N :=
  wordsOps_lawful _ N (wordsFor N) rfl (by unfold wordsFor; omega)

end Panda
