import Verif.Proofs.Bitset
import Mathlib.Data.Nat.Bitwise
import Mathlib.Tactic.Linarith
import Mathlib.Tactic.NormNum

/-! # C37 and C38: bit sets and the population count -/

namespace Panda

/-! ## C37

A history of a bit set: starting empty, indices are set and other bit sets merged in.  `meaning` is the finite
set it stands for; `run` executes it with an implementation. -/

/-- histories of bit sets -/
inductive BitHistory
  | empty
  | set (b : BitHistory) (i : Nat)
  | merge (a b : BitHistory) (max : Nat)

namespace BitHistory

/-- the set of indices -/
def meaning : BitHistory → Finset Nat
  | empty => ∅
  | set b i => insert i b.meaning
  | merge a b _ => a.meaning ∪ b.meaning

/-- executing a history with bit sets of capacity `N` -/
def run {B : Type} (ops : BitsetOps B) (N : Nat) : BitHistory → B
  | empty => ops.new N
  | set b i => ops.set (b.run ops N) i
  | merge a b max => ops.merge (a.run ops N) (b.run ops N) max

/-- indices are below the capacity; the bound given to `merge` is not larger than the capacity and bounds the
elements merged in -/
def Proper (N : Nat) : BitHistory → Prop
  | empty => True
  | set b i => b.Proper N ∧ i < N
  | merge a b max => a.Proper N ∧ b.Proper N ∧ 0 < max ∧ max ≤ N ∧ ∀ i ∈ b.meaning, i < max

end BitHistory

open BitHistory in
theorem run_lawful {B : Type} {ops : BitsetOps B} {N : Nat} (L : LawfulBitset ops N) (t : BitHistory) (h : t.Proper N) :
    L.wf (t.run ops N) ∧ L.abs (t.run ops N) = t.meaning := by
  induction t with
  | empty => exact ⟨L.new_wf, L.new_abs⟩
  | set b i ih =>
    obtain ⟨h1, h2⟩ := ih h.1
    exact ⟨L.set_wf _ _ h1 h.2, by rw [run, L.set_abs _ _ h1 h.2, h2]; rfl⟩
  | merge a b max iha ihb =>
    obtain ⟨ha, hb, h0, hm, hi⟩ := h
    obtain ⟨a1, a2⟩ := iha ha
    obtain ⟨b1, b2⟩ := ihb hb
    exact ⟨L.merge_wf _ _ _ a1 b1 h0 hm, by rw [run, L.merge_abs _ _ _ a1 b1 h0 hm (by rw [b2]; exact hi), a2, b2]; rfl⟩

/-- the queries of an implementation agree with those of finite sets, after every history -/
def AgreesWithSets {B : Type} (ops : BitsetOps B) (N : Nat) : Prop :=
  ∀ a b c : BitHistory, a.Proper N → b.Proper N → c.Proper N → ∀ max, 0 < max → max ≤ N →
    (∀ i ∈ a.meaning ∪ b.meaning ∪ c.meaning, i < max) →
    ops.count (a.run ops N) max = a.meaning.card
    ∧ (ops.contains (a.run ops N) (b.run ops N) max = true ↔ b.meaning ⊆ a.meaning)
    ∧ (ops.unionContains (a.run ops N) (b.run ops N) (c.run ops N) max = true ↔ c.meaning ⊆ a.meaning ∪ b.meaning)
    ∧ ops.unionCount (a.run ops N) (b.run ops N) max = (a.meaning ∪ b.meaning).card

theorem agrees_of_lawful {B : Type} {ops : BitsetOps B} {N : Nat} (L : LawfulBitset ops N) : AgreesWithSets ops N := by
  intro a b c ha hb hc max h0 hm hi
  obtain ⟨a1, a2⟩ := run_lawful L a ha
  obtain ⟨b1, b2⟩ := run_lawful L b hb
  obtain ⟨c1, c2⟩ := run_lawful L c hc
  have ia : ∀ i ∈ L.abs (a.run ops N), i < max := by
    intro i h; rw [a2] at h; exact hi i (by simp [h])
  have ib : ∀ i ∈ L.abs (b.run ops N), i < max := by
    intro i h; rw [b2] at h; exact hi i (by simp [h])
  have ic : ∀ i ∈ L.abs (c.run ops N), i < max := by
    intro i h; rw [c2] at h; exact hi i (by simp [h])
  refine ⟨?_, ?_, ?_, ?_⟩
  · rw [L.count_eq _ _ a1 h0 hm ia, a2]
  · rw [L.contains_iff _ _ _ a1 b1 h0 hm ib, a2, b2]
  · rw [L.unionContains_iff _ _ _ _ a1 b1 c1 h0 hm ic, a2, b2, c2]
  · rw [L.unionCount_eq _ _ _ a1 b1 h0 hm ia ib, a2, b2]

/-- **C37** fixed size: every number of words, every capacity that fits -/
theorem C37_fixed (size N : Nat) (h : N ≤ 32 * size) : AgreesWithSets (fixedOps size) N :=
  agrees_of_lawful (fixedOps_lawful size N h)

/-- **C37** variable size: every capacity -/
theorem C37_variable (N : Nat) : AgreesWithSets variableOps N := agrees_of_lawful (variableOps_lawful N)

/-- **C37** hence both answer all queries alike after the same history, and the choice by size does not matter -/
theorem C37_same_answers (size N : Nat) (h : N ≤ 32 * size) (a b c : BitHistory) (ha : a.Proper N) (hb : b.Proper N)
    (hc : c.Proper N) (max : Nat) (h0 : 0 < max) (hm : max ≤ N) (hi : ∀ i ∈ a.meaning ∪ b.meaning ∪ c.meaning, i < max) :
    let F := fixedOps size
    let V := variableOps
    F.count (a.run F N) max = V.count (a.run V N) max
    ∧ F.contains (a.run F N) (b.run F N) max = V.contains (a.run V N) (b.run V N) max
    ∧ F.unionContains (a.run F N) (b.run F N) (c.run F N) max = V.unionContains (a.run V N) (b.run V N) (c.run V N) max
    ∧ F.unionCount (a.run F N) (b.run F N) max = V.unionCount (a.run V N) (b.run V N) max := by
  obtain ⟨f1, f2, f3, f4⟩ := C37_fixed size N h a b c ha hb hc max h0 hm hi
  obtain ⟨v1, v2, v3, v4⟩ := C37_variable N a b c ha hb hc max h0 hm hi
  refine ⟨by rw [f1, v1], ?_, ?_, by rw [f4, v4]⟩
  · rw [Bool.eq_iff_iff, f2, v2]
  · rw [Bool.eq_iff_iff, f3, v3]

theorem bsEquals_iff {a b : Words} {max : Nat} :
    bsEquals a b max = true ↔ bsContains a b max = true ∧ bsContains b a max = true := by
  unfold bsEquals bsContains
  simp only [List.all_eq_true, beq_iff_eq]
  constructor
  · intro h
    exact ⟨fun i hi => by rw [h i hi, BitVec.and_self], fun i hi => by rw [h i hi, BitVec.and_self]⟩
  · rintro ⟨h1, h2⟩ i hi
    rw [← h2 i hi, BitVec.and_comm, h1 i hi]

/-- **C37** the comparison of two bit sets: it answers whether they have the same elements, after every history, for both
implementations -/
theorem C37_equals (ops : BitsetOps Words) (N : Nat)
    (ho : (∃ size, N ≤ 32 * size ∧ ops = fixedOps size) ∨ ops = variableOps) (a b : BitHistory) (ha : a.Proper N) (hb : b.Proper N)
    (max : Nat) (h0 : 0 < max) (hm : max ≤ N) (hi : ∀ i ∈ a.meaning ∪ b.meaning, i < max) :
    bsEquals (a.run ops N) (b.run ops N) max = true ↔ a.meaning = b.meaning := by
  have hag : AgreesWithSets ops N := by
    rcases ho with ⟨size, h, rfl⟩ | rfl
    · exact C37_fixed size N h
    · exact C37_variable N
  have hc : ops.contains = bsContains := by rcases ho with ⟨size, h, rfl⟩ | rfl <;> rfl
  have h1 := (hag a b a ha hb ha max h0 hm (by simpa [or_assoc, or_comm, or_left_comm] using hi)).2.1
  have h2 := (hag b a b hb ha hb max h0 hm (by simpa [or_assoc, or_comm, or_left_comm] using hi)).2.1
  rw [hc] at h1 h2
  rw [bsEquals_iff, h1, h2]
  exact ⟨fun ⟨x, y⟩ => Finset.Subset.antisymm y x, fun e => by rw [e]; exact ⟨subset_rfl, subset_rfl⟩⟩

example : bsEquals ((BitHistory.set (.set .empty 31) 32).run variableOps 70) ((BitHistory.set (.set .empty 32) 31).run variableOps 70) 33 = true
    ∧ bsEquals ((BitHistory.set .empty 32).run variableOps 70) ((BitHistory.set .empty 33).run variableOps 70) 34 = false := by
  decide +kernel

/-- a history across a word boundary that meets the hypotheses -/
example : (BitHistory.merge (.set (.set .empty 31) 32) (.set .empty 64) 65).Proper 70 := by
  refine ⟨⟨⟨trivial, by decide⟩, by decide⟩, ⟨trivial, by decide⟩, by decide, by decide, ?_⟩
  simp [BitHistory.meaning]

/-! ## C38 -/

namespace Pop

/-- `n - ((n >> 1) & mask)` for a mask `0x55…` -/
def s1 (mask n : Nat) : Nat := n - ((n / 2) &&& mask)
/-- `(n & mask) + ((n >> 2) & mask)` for a mask `0x33…` -/
def s2 (mask n : Nat) : Nat := (n &&& mask) + ((n / 4) &&& mask)
/-- `(n + (n >> 4)) & mask` for a mask `0x0F…` -/
def s3 (mask n : Nat) : Nat := (n + n / 16) &&& mask

theorem land_split (a b c d : Nat) (hb : b < 256) (hd : d < 256) :
    (256 * a + b) &&& (256 * c + d) = 256 * (a &&& c) + (b &&& d) := by
  have hbd : b &&& d < 2 ^ 8 := Nat.and_lt_two_pow _ (by omega)
  apply Nat.eq_of_testBit_eq
  intro i
  rw [Nat.testBit_and, show (256 : Nat) = 2 ^ 8 from rfl, Nat.testBit_two_pow_mul_add a hb, Nat.testBit_two_pow_mul_add c hd,
    Nat.testBit_two_pow_mul_add _ hbd]
  split_ifs
  · rw [Nat.testBit_and]
  · rw [Nat.testBit_and]

theorem byte1 : ∀ b < 256, ∀ e < 2, (128 * e + b / 2) &&& 85 = (b / 2) &&& 85 := by decide +kernel
theorem byte2 : ∀ b < 256, ∀ e < 4, (64 * e + b / 4) &&& 51 = (b / 4) &&& 51 := by decide +kernel
theorem byte3 : ∀ b < 256, ∀ e < 5, (s2 51 (s1 85 b) + 16 * e + s2 51 (s1 85 b) / 16) &&& 15
    = s3 15 (s2 51 (s1 85 b)) := by decide +kernel
theorem byteBounds : ∀ b < 256, s1 85 b < 256 ∧ s2 51 (s1 85 b) ≤ 68 ∧ s2 51 (s1 85 b) % 16 ≤ 4 := by decide +kernel
theorem byteCount : ∀ b < 256, s3 15 (s2 51 (s1 85 b)) = (List.range 8).countP (fun i => b.testBit i) := by decide +kernel

theorem s1_split (m a b : Nat) (hb : b < 256) : s1 (256 * m + 85) (256 * a + b) = 256 * s1 m a + s1 85 b := by
  unfold s1
  have h1 : (256 * a + b) / 2 = 256 * (a / 2) + (128 * (a % 2) + b / 2) := by omega
  rw [h1, land_split _ _ _ _ (by omega) (by norm_num), byte1 b hb _ (Nat.mod_lt _ (by norm_num))]
  have h2 : (a / 2) &&& m ≤ a := le_trans Nat.and_le_left (Nat.div_le_self _ _)
  have h3 : (b / 2) &&& 85 ≤ b := le_trans Nat.and_le_left (Nat.div_le_self _ _)
  omega

theorem s2_split (m a b : Nat) (hb : b < 256) : s2 (256 * m + 51) (256 * a + b) = 256 * s2 m a + s2 51 b := by
  unfold s2
  have h1 : (256 * a + b) / 4 = 256 * (a / 4) + (64 * (a % 4) + b / 4) := by omega
  rw [h1, land_split (a / 4) _ _ _ (by omega) (by norm_num), land_split a _ _ _ hb (by norm_num),
    byte2 b hb _ (Nat.mod_lt _ (by norm_num))]
  omega

theorem s3_split (m a b : Nat) (hb : b < 256) (ha : a % 16 ≤ 4) :
    s3 (256 * m + 15) (256 * a + s2 51 (s1 85 b)) = 256 * s3 m a + s3 15 (s2 51 (s1 85 b)) := by
  obtain ⟨_, h2, _⟩ := byteBounds b hb
  have h3 := byte3 b hb (a % 16) (by omega)
  rw [← h3]
  unfold s3
  generalize s2 51 (s1 85 b) = c at *
  have h1 : 256 * a + c + (256 * a + c) / 16 = 256 * (a + a / 16) + (c + 16 * (a % 16) + c / 16) := by omega
  rw [h1, land_split _ _ _ _ (by omega) (by norm_num)]

theorem toNat_fallback (n : BitVec 32) : (popcountFallback n).toNat =
    (s3 252645135 (s2 858993459 (s1 1431655765 n.toNat)) * 16843009) % 2 ^ 32 / 2 ^ 24 := by
  have hn := n.isLt
  have hle : (n.toNat / 2) &&& 1431655765 ≤ n.toNat := le_trans Nat.and_le_left (Nat.div_le_self _ _)
  have e1 : (n - ((n >>> 1) &&& 0x55555555#32)).toNat = s1 1431655765 n.toNat := by
    rw [BitVec.toNat_sub, BitVec.toNat_and, BitVec.toNat_ushiftRight, Nat.shiftRight_eq_div_pow]
    simp only [BitVec.toNat_ofNat, pow_one]
    unfold s1
    rw [show 1431655765 % 2 ^ 32 = 1431655765 from rfl]
    omega
  have hb : ∀ x : Nat, x &&& 858993459 ≤ 858993459 := fun x => Nat.and_le_right
  unfold popcountFallback
  simp only
  generalize hm : n - ((n >>> 1) &&& 0x55555555#32) = m at e1 ⊢
  have e2 : ((m &&& 0x33333333#32) + ((m >>> 2) &&& 0x33333333#32)).toNat = s2 858993459 m.toNat := by
    rw [BitVec.toNat_add, BitVec.toNat_and, BitVec.toNat_and, BitVec.toNat_ushiftRight, Nat.shiftRight_eq_div_pow]
    simp only [BitVec.toNat_ofNat]
    rw [show 858993459 % 2 ^ 32 = 858993459 from rfl]
    unfold s2
    have h1 := hb m.toNat
    have h2 := hb (m.toNat / 4)
    rw [show (2 : Nat) ^ 2 = 4 from rfl, Nat.mod_eq_of_lt (by omega)]
  generalize hk : (m &&& 0x33333333#32) + ((m >>> 2) &&& 0x33333333#32) = k at e2 ⊢
  have hkle : k.toNat ≤ 1717986918 := by
    rw [e2]
    unfold s2
    have h1 := hb m.toNat
    have h2 := hb (m.toNat / 4)
    omega
  have e3 : ((k + (k >>> 4)) &&& 0x0F0F0F0F#32).toNat = s3 252645135 k.toNat := by
    rw [BitVec.toNat_and, BitVec.toNat_add, BitVec.toNat_ushiftRight, Nat.shiftRight_eq_div_pow]
    simp only [BitVec.toNat_ofNat]
    rw [show 252645135 % 2 ^ 32 = 252645135 from rfl]
    unfold s3
    rw [show (2 : Nat) ^ 4 = 16 from rfl, Nat.mod_eq_of_lt (by omega)]
  rw [BitVec.toNat_ushiftRight, BitVec.toNat_mul, e3, Nat.shiftRight_eq_div_pow, e2, e1]
  simp only [BitVec.toNat_ofNat]

theorem count_split (k a b : Nat) (hb : b < 256) :
    (List.range (8 + k)).countP (fun i => (256 * a + b).testBit i)
      = (List.range 8).countP (fun i => b.testBit i) + (List.range k).countP (fun i => a.testBit i) := by
  rw [List.range_add, List.countP_append, List.countP_map]
  congr 1
  · apply List.countP_congr
    intro i hi
    have hi : i < 8 := by simpa using hi
    rw [show (256 : Nat) = 2 ^ 8 from rfl, Nat.testBit_two_pow_mul_add a hb, if_pos hi]
  · apply List.countP_congr
    intro i _
    simp only [Function.comp]
    rw [show (256 : Nat) = 2 ^ 8 from rfl, Nat.testBit_two_pow_mul_add a hb, if_neg (by omega), Nat.add_sub_cancel_left]

end Pop

open Pop in
/-- **C38** the portable population count is the number of one bits, for every 32-bit word -/
theorem C38_popcount (n : BitVec 32) : (popcountFallback n).toNat = (List.range 32).countP (fun i => n.getLsbD i) := by
  rw [toNat_fallback]
  have hn := n.isLt
  have hc : ((List.range 32).countP fun i => n.getLsbD i) = (List.range (8 + (8 + (8 + 8)))).countP (fun i => n.toNat.testBit i) := rfl
  rw [hc]
  obtain ⟨b0, b1, b2, b3, h0, h1, h2, h3, hn'⟩ : ∃ b0 b1 b2 b3 : Nat, b0 < 256 ∧ b1 < 256 ∧ b2 < 256 ∧ b3 < 256 ∧
      n.toNat = 256 * (256 * (256 * b3 + b2) + b1) + b0 :=
    ⟨n.toNat % 256, n.toNat / 256 % 256, n.toNat / 65536 % 256, n.toNat / 16777216, by omega, by omega, by omega, by omega,
      by omega⟩
  rw [hn', count_split _ _ _ h0, count_split _ _ _ h1, count_split _ _ _ h2]
  rw [show 1431655765 = 256 * (256 * (256 * 85 + 85) + 85) + 85 from rfl, s1_split _ _ _ h0, s1_split _ _ _ h1, s1_split _ _ _ h2]
  obtain ⟨q0, p0, r0⟩ := byteBounds b0 h0
  obtain ⟨q1, p1, r1⟩ := byteBounds b1 h1
  obtain ⟨q2, p2, r2⟩ := byteBounds b2 h2
  obtain ⟨q3, p3, r3⟩ := byteBounds b3 h3
  rw [show 858993459 = 256 * (256 * (256 * 51 + 51) + 51) + 51 from rfl, s2_split _ _ _ q0, s2_split _ _ _ q1, s2_split _ _ _ q2]
  rw [show 252645135 = 256 * (256 * (256 * 15 + 15) + 15) + 15 from rfl, s3_split _ _ _ h0 (by omega), s3_split _ _ _ h1 (by omega),
    s3_split _ _ _ h2 (by omega)]
  rw [byteCount b0 h0, byteCount b1 h1, byteCount b2 h2, byteCount b3 h3]
  have c : ∀ b : Nat, (List.range 8).countP (fun i => b.testBit i) ≤ 8 := fun b => by
    simpa using List.countP_le_length (p := fun i => b.testBit i) (l := List.range 8)
  have c0 := c b0
  have c1 := c b1
  have c2 := c b2
  have c3 := c b3
  generalize (List.range 8).countP (fun i => b0.testBit i) = p0 at c0 ⊢
  generalize (List.range 8).countP (fun i => b1.testBit i) = p1 at c1 ⊢
  generalize (List.range 8).countP (fun i => b2.testBit i) = p2 at c2 ⊢
  generalize (List.range 8).countP (fun i => b3.testBit i) = p3 at c3 ⊢
  have e : (256 * (256 * (256 * p3 + p2) + p1) + p0) * 16843009
      = 2 ^ 32 * (p1 + p2 + p3 + 256 * (p2 + p3) + 65536 * p3)
        + (2 ^ 24 * (p0 + p1 + p2 + p3) + (65536 * (p0 + p1 + p2) + 256 * (p0 + p1) + p0)) := by ring
  rw [e, Nat.mul_add_mod, Nat.mod_eq_of_lt (by omega), Nat.mul_add_div (by norm_num), Nat.div_eq_of_lt (by omega)]
  omega

end Panda
