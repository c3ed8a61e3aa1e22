import Verif.Model.SafeInteger
import Mathlib.Tactic.Linarith
import Mathlib.Tactic.Ring
import Mathlib.Tactic.NormNum

/-! # C30: SafeInteger computes exactly or throws -/

namespace Panda

open Safe

/-- the values of a 64-bit signed integer -/
abbrev InInt64 (x : Int) : Prop := -9223372036854775808 ≤ x ∧ x ≤ 9223372036854775807


/-- the outcome is the exact value if this fits, and an exception otherwise; never undefined behaviour -/
def ExactOrThrow (exact : Int) (o : Outcome Int) : Prop := o = if InInt64 exact then .ok exact else .thrown

theorem machine_eq (x : Int) : machine x = if InInt64 x then .ok x else .ub := by
  unfold machine InInt64 minValue maxValue; norm_num

/-- **C30** addition -/
theorem C30_add {a b : Int} (ha : InInt64 a) (hb : InInt64 b) : ExactOrThrow (a + b) (add a b) := by
  unfold ExactOrThrow add
  simp only [machine_eq, minValue, maxValue]
  unfold InInt64 at *
  norm_num
  by_cases h1 : 0 < a ∧ 0 < b
  · rw [if_pos h1, if_pos (by omega)]
    simp only [Outcome.bind]
    by_cases h2 : 9223372036854775807 - a < b
    · simp only [h2, decide_true, if_true]
      rw [if_neg (by omega)]
    · simp only [h2, decide_false]
      rw [if_neg (by simp), if_neg (by omega)]
      simp only [Outcome.bind]
      rw [if_neg (by simp), if_pos (by omega), if_pos (by omega)]
  · rw [if_neg h1]
    simp only [Outcome.bind]
    rw [if_neg (by simp)]
    by_cases h3 : a < 0 ∧ b < 0
    · rw [if_pos h3, if_pos (by omega)]
      simp only [Outcome.bind]
      by_cases h2 : b < -9223372036854775808 - a
      · simp only [h2, decide_true, if_true]
        rw [if_neg (by omega)]
      · simp only [h2, decide_false]
        rw [if_neg (by simp), if_pos (by omega), if_pos (by omega)]
    · rw [if_neg h3]
      simp only [Outcome.bind]
      rw [if_neg (by simp), if_pos (by omega), if_pos (by omega)]

/-- **C30** subtraction -/
theorem C30_sub {a b : Int} (ha : InInt64 a) (hb : InInt64 b) : ExactOrThrow (a - b) (sub a b) := by
  unfold ExactOrThrow sub
  simp only [machine_eq, minValue, maxValue]
  unfold InInt64 at *
  norm_num
  by_cases h1 : b < 0
  · rw [if_pos h1, if_pos (by omega)]
    simp only [Outcome.bind]
    by_cases h2 : 9223372036854775807 + b < a
    · simp only [h2, decide_true, if_true]
      rw [if_neg (by omega)]
    · simp only [h2, decide_false]
      rw [if_neg (by simp), if_neg (by omega)]
      simp only [Outcome.bind]
      rw [if_neg (by simp), if_pos (by omega), if_pos (by omega)]
  · rw [if_neg h1]
    simp only [Outcome.bind]
    rw [if_neg (by simp)]
    by_cases h3 : 0 < b
    · rw [if_pos h3, if_pos (by omega)]
      simp only [Outcome.bind]
      by_cases h2 : a < -9223372036854775808 + b
      · simp only [h2, decide_true, if_true]
        rw [if_neg (by omega)]
      · simp only [h2, decide_false]
        rw [if_neg (by simp), if_pos (by omega), if_pos (by omega)]
    · rw [if_neg h3]
      simp only [Outcome.bind]
      rw [if_neg (by simp), if_pos (by omega), if_pos (by omega)]

/-- **C30** negation -/
theorem C30_neg {a : Int} (ha : InInt64 a) : ExactOrThrow (-a) (neg a) := by
  unfold ExactOrThrow neg
  simp only [machine_eq, minValue]
  unfold InInt64 at *
  norm_num
  by_cases h : a = -9223372036854775808
  · rw [if_pos h, if_neg (by omega)]
  · rw [if_neg h, if_pos (by omega), if_pos (by omega)]

/-- **C30** absolute value -/
theorem C30_abs {a : Int} (ha : InInt64 a) : ExactOrThrow (|a|) (Safe.abs a) := by
  unfold Safe.abs
  by_cases h : a < 0
  · rw [if_pos h, abs_of_neg h]; exact C30_neg ha
  · rw [if_neg h, abs_of_nonneg (by omega)]
    unfold ExactOrThrow; rw [if_pos ha]

theorem tdiv_pos_pos {m b : Int} (hm : 0 ≤ m) : m.tdiv b = m / b := Int.tdiv_eq_ediv_of_nonneg hm

/-- **C30** multiplication -/
theorem C30_mul {a b : Int} (ha : InInt64 a) (hb : InInt64 b) : ExactOrThrow (a * b) (mul a b) := by
  unfold mul
  by_cases h0 : a = 0 ∨ b = 0
  · rw [if_pos h0]
    have : a * b = 0 := mul_eq_zero.mpr h0
    rw [this]; unfold ExactOrThrow; rw [if_pos (by decide)]
  rw [if_neg h0]
  push Not at h0
  obtain ⟨ha0, hb0⟩ := h0
  by_cases h1 : b = -1
  · rw [if_pos h1, h1, mul_neg_one]; exact C30_neg ha
  rw [if_neg h1]
  unfold ExactOrThrow
  simp only [machineDiv, machine_eq, minValue, maxValue, if_neg hb0]
  unfold InInt64 at *
  norm_num
  rcases lt_or_gt_of_ne ha0 with han | hap <;> rcases lt_or_gt_of_ne hb0 with hbn | hbp
  · -- both negative
    have hlim : (9223372036854775807 : Int).tdiv b = -(9223372036854775807 / (-b)) := by
      have := Int.tdiv_neg (a := 9223372036854775807) (b := -b)
      rw [neg_neg] at this
      rw [this, tdiv_pos_pos (by norm_num)]
    have hq := Int.le_ediv_iff_mul_le (a := -a) (b := 9223372036854775807) (show 0 < -b by omega)
    have hq1 : 0 ≤ 9223372036854775807 / (-b) := Int.ediv_nonneg (by norm_num) (by omega)
    have hq2 : 9223372036854775807 / (-b) ≤ 9223372036854775807 := Int.ediv_le_self _ (by norm_num)
    have hm : -a * -b = a * b := by ring
    rw [hm] at hq
    have hpos : 0 < a * b := mul_pos_of_neg_of_neg han hbn
    have hc : (0 < a ↔ 0 < b) := by omega
    simp only [hc, if_true, hlim]
    rw [if_pos (by omega)]
    simp only [Outcome.bind]
    by_cases hle : a * b ≤ 9223372036854775807
    · have := hq.mpr hle
      rw [if_neg (by omega), if_pos (by omega), if_pos (by omega)]
    · have : ¬ (-a ≤ 9223372036854775807 / (-b)) := fun h => hle (hq.mp h)
      rw [if_pos (by omega), if_neg (by omega)]
  · -- a < 0 < b
    have hlim : (-9223372036854775808 : Int).tdiv b = -(9223372036854775808 / b) := by
      rw [Int.neg_tdiv, tdiv_pos_pos (by norm_num)]
    have hq := Int.le_ediv_iff_mul_le (a := -a) (b := 9223372036854775808) hbp
    have hq1 : 0 ≤ 9223372036854775808 / b := Int.ediv_nonneg (by norm_num) (by omega)
    have hq2 : 9223372036854775808 / b ≤ 9223372036854775808 := Int.ediv_le_self _ (by norm_num)
    have hm : -a * b = -(a * b) := by ring
    rw [hm] at hq
    have hpos : a * b < 0 := mul_neg_of_neg_of_pos han hbp
    have hc : ¬ (0 < a ↔ 0 < b) := by omega
    simp only [hc, if_false, hlim]
    rw [if_pos (by omega)]
    simp only [Outcome.bind]
    by_cases hle : -(a * b) ≤ 9223372036854775808
    · have := hq.mpr hle
      rw [if_neg (by omega), if_pos (by omega), if_pos (by omega)]
    · have : ¬ (-a ≤ 9223372036854775808 / b) := fun h => hle (hq.mp h)
      rw [if_pos (by omega), if_neg (by omega)]
  · -- b < 0 < a
    have hlim : (-9223372036854775808 : Int).tdiv b = 9223372036854775808 / (-b) := by
      have := Int.neg_tdiv_neg (a := 9223372036854775808) (b := -b)
      rw [neg_neg] at this
      rw [this, tdiv_pos_pos (by norm_num)]
    have hq := Int.le_ediv_iff_mul_le (a := a) (b := 9223372036854775808) (show 0 < -b by omega)
    have hq1 : 0 ≤ 9223372036854775808 / (-b) := Int.ediv_nonneg (by norm_num) (by omega)
    have hq2 : 9223372036854775808 / (-b) * 2 ≤ 9223372036854775808 := by
      have h2 := Int.ediv_mul_le 9223372036854775808 (show -b ≠ 0 by omega)
      have h3 : 9223372036854775808 / (-b) * 2 ≤ 9223372036854775808 / (-b) * (-b) := mul_le_mul_of_nonneg_left (by omega) hq1
      omega
    have hm : a * -b = -(a * b) := by ring
    rw [hm] at hq
    have hpos : a * b < 0 := mul_neg_of_pos_of_neg hap hbn
    have hc : ¬ (0 < a ↔ 0 < b) := by omega
    simp only [hc, if_false, hlim]
    rw [if_pos (by omega)]
    simp only [Outcome.bind]
    by_cases hle : -(a * b) ≤ 9223372036854775808
    · have := hq.mpr hle
      rw [if_neg (by omega), if_pos (by omega), if_pos (by omega)]
    · have : ¬ (a ≤ 9223372036854775808 / (-b)) := fun h => hle (hq.mp h)
      rw [if_pos (by omega), if_neg (by omega)]
  · -- both positive
    have hlim : (9223372036854775807 : Int).tdiv b = 9223372036854775807 / b := tdiv_pos_pos (by norm_num)
    have hq := Int.le_ediv_iff_mul_le (a := a) (b := 9223372036854775807) hbp
    have hq1 : 0 ≤ 9223372036854775807 / b := Int.ediv_nonneg (by norm_num) (by omega)
    have hq2 : 9223372036854775807 / b ≤ 9223372036854775807 := Int.ediv_le_self _ (by norm_num)
    have hpos : 0 < a * b := mul_pos hap hbp
    have hc : (0 < a ↔ 0 < b) := by omega
    simp only [hc, if_true, hlim]
    rw [if_pos (by omega)]
    simp only [Outcome.bind]
    by_cases hle : a * b ≤ 9223372036854775807
    · have := hq.mpr hle
      rw [if_neg (by omega), if_pos (by omega), if_pos (by omega)]
    · have : ¬ (a ≤ 9223372036854775807 / b) := fun h => hle (hq.mp h)
      rw [if_pos (by omega), if_neg (by omega)]

theorem natAbs_tdiv_le (a b : Int) : (a.tdiv b).natAbs ≤ a.natAbs := by
  rw [Int.natAbs_tdiv]; exact Nat.div_le_self _ _

/-- a quotient that does not come from `min / -1` fits -/
theorem tdiv_inRange {a b : Int} (ha : InInt64 a) (hb : b ≠ -1) : InInt64 (a.tdiv b) := by
  unfold InInt64 at *
  have h := natAbs_tdiv_le a b
  by_cases hm : a = -9223372036854775808
  · rcases le_or_gt 0 b with h0 | h0
    · have : a.tdiv b ≤ 0 := by
        have h5 := Int.neg_tdiv (a := a) (b := b)
        have h6 : 0 ≤ (-a).tdiv b := Int.tdiv_nonneg (by omega) h0
        omega
      omega
    · have h2 : (a.tdiv b).natAbs = a.natAbs / b.natAbs := Int.natAbs_tdiv a b
      have h3 : a.natAbs / b.natAbs ≤ a.natAbs / 2 := Nat.div_le_div_left (by omega) (by norm_num)
      omega
  · omega

/-- **C30** division truncates towards zero; dividing by zero throws -/
theorem C30_div {a b : Int} (ha : InInt64 a) (hb : b ≠ 0) : ExactOrThrow (a.tdiv b) (div a b) := by
  unfold div
  rw [if_neg hb]
  by_cases h1 : b = -1
  · rw [if_pos h1, h1]
    have : a.tdiv (-1) = -a := by rw [Int.tdiv_neg, Int.tdiv_one]
    rw [this]; exact C30_neg ha
  · rw [if_neg h1]
    unfold ExactOrThrow machineDiv
    rw [if_neg hb, machine_eq, if_pos (tdiv_inRange ha h1), if_pos (tdiv_inRange ha h1)]

theorem C30_div_zero (a : Int) : div a 0 = .thrown := rfl

/-- **C30** the remainder modulo a positive number is the mathematical one, in `[0, b)`; modulo zero or a
negative number throws -/
theorem C30_mod {a b : Int} (ha : InInt64 a) (hb : InInt64 b) : mod a b = if 0 < b then .ok (a % b) else .thrown := by
  unfold mod
  rcases lt_trichotomy b 0 with h | h | h
  · rw [if_neg h.ne, if_pos h, if_neg (by omega)]
  · rw [if_pos h, if_neg (by omega)]
  · rw [if_neg h.ne', if_neg (by omega), if_pos h]
    have hd := tdiv_inRange ha (show b ≠ -1 by omega)
    have hr1 := Int.emod_nonneg a h.ne'
    have hr2 := Int.emod_lt_of_pos a h
    simp only [machineMod, machineDiv, if_neg h.ne', machine_eq, if_pos hd, Outcome.bind]
    rcases le_or_gt 0 a with h0 | h0
    · have : a.tmod b = a % b := Int.tmod_eq_emod_of_nonneg h0
      rw [this, if_pos (by unfold InInt64 at *; omega)]
      simp only []
      rw [if_neg (by omega)]
    · have he : a.tmod b = -((-a) % b) := by
        have := Int.neg_tmod (-a) b
        rw [neg_neg] at this
        rw [this, Int.tmod_eq_emod_of_nonneg (by omega)]
      have hs1 := Int.emod_nonneg (-a) h.ne'
      have hs2 := Int.emod_lt_of_pos (-a) h
      rw [he, if_pos (by unfold InInt64 at *; omega)]
      simp only []
      by_cases hz : (-a) % b = 0
      · rw [hz]
        have : a % b = 0 := by
          have := Int.dvd_of_emod_eq_zero hz
          exact Int.emod_eq_zero_of_dvd (by simpa using this)
        simp [this]
      · rw [if_pos (by omega), if_pos (by unfold InInt64 at *; omega)]
        congr 1
        have h2 : -(-a % b) + b = (b - (-a) % b) := by ring
        rw [h2]
        have h3 : (b - (-a) % b) % b = b - (-a) % b := Int.emod_eq_of_lt (by omega) (by omega)
        rw [← h3, Int.sub_emod, Int.emod_emod_of_dvd _ (dvd_refl b), ← Int.sub_emod]
        rw [show b - -a = a + b by ring, Int.add_emod_right]

/-- **C30** construction: values of all signed types up to 64 bits are accepted, of unsigned types iff they fit -/
theorem C30_construct_signed {v : Int} (h : InInt64 v) : ofSigned v = .ok v := by
  unfold ofSigned InInt64 at *
  rw [if_neg (by simp only [maxValue, minValue]; norm_num; omega)]

theorem C30_construct_unsigned {v : Nat} (h : v < 2 ^ 64) : ExactOrThrow v (ofUnsigned v) := by
  unfold ExactOrThrow ofUnsigned InInt64
  rw [Nat.mod_eq_of_lt h]
  have : maxValue.toNat % 2 ^ 64 = 9223372036854775807 := by decide
  rw [this]
  by_cases hv : v > 9223372036854775807
  · rw [if_pos hv, if_neg (by omega)]
  · rw [if_neg hv, if_pos (by omega)]

/-- **C30** conversion to `int` -/
theorem C30_to_int (a : Int) : toInt a = if -2147483648 ≤ a ∧ a ≤ 2147483647 then .ok a else .thrown := by
  unfold toInt
  norm_num
  by_cases h : -2147483648 ≤ a ∧ a ≤ 2147483647
  · rw [if_neg (by omega), if_pos h]
  · rw [if_pos (by omega), if_neg h]

/-- **C30** comparisons -/
theorem C30_compare (a b : Int) :
    (eq a b = true ↔ a = b) ∧ (ne a b = true ↔ a ≠ b) ∧ (lt a b = true ↔ a < b) ∧ (gt a b = true ↔ a > b) ∧
      (le a b = true ↔ a ≤ b) ∧ (ge a b = true ↔ a ≥ b) := by
  simp [eq, ne, lt, gt, le, ge]

/-- boundary cases: `min * -1` and `min / -1` throw, `max + 1` throws, `-7 mod 3 = 2` -/
example : mul (-9223372036854775808) (-1) = .thrown ∧ div (-9223372036854775808) (-1) = .thrown ∧
    add 9223372036854775807 1 = .thrown ∧ mul 3037000500 3037000500 = .thrown ∧ mul 3037000499 3037000499 = .ok 9223372030926249001 ∧
    mod (-7) 3 = .ok 2 ∧ mod (-9) 3 = .ok 0 ∧ mod 7 (-3) = .thrown ∧ mul (-2) 4611686018427387904 = .ok (-9223372036854775808) := by decide

end Panda
