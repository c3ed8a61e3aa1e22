import Verif.Proofs.BigDiv
import Verif.Model.Cast
import Verif.Props.SafeInteger

/-! # C32 to C36 and C51: BigInteger, conversions

`w` is the number of bits of a block (64 with glibc on x86-64, at least 32).  `wrap = true` is a compiler on
which negating `INT_MIN` wraps around; `wrap = false` the language's reading, where it is undefined. -/

namespace Panda

open Big

variable {w : Nat} {wrap : Bool}

/-! ## C32 -/

/-- **C32** construction from signed machine integers up to 64 bits, blocks having 64 bits -/
theorem C32_construct_signed (hw : 64 ≤ w) {v : Int} (hv : InInt64 v) :
    Valid w (ofSigned w v) ∧ value w (ofSigned w v) = v := by
  have hB : (18446744073709551616 : Int) ≤ 2 ^ w := by
    calc (18446744073709551616 : Int) = 2 ^ 64 := by norm_num
      _ ≤ 2 ^ w := pow_le_pow_right₀ (by norm_num) hw
  unfold InInt64 at hv
  exact ofSigned_spec v (by omega) (by omega)

/-- **C32** construction from unsigned machine integers up to 64 bits -/
theorem C32_construct_unsigned (hw : 64 ≤ w) {v : Nat} (hv : v < 2 ^ 64) :
    Valid w (ofUnsigned w v) ∧ value w (ofUnsigned w v) = v := by
  have hB : v < 2 ^ w := lt_of_lt_of_le hv (Nat.pow_le_pow_right (by norm_num) hw)
  unfold ofUnsigned
  rw [Nat.mod_eq_of_lt hB]
  exact ⟨⟨⟨by simp, by simpa using hB, by simp⟩, by simp⟩, by simp [value, magnitude]⟩

/-- **C32** with blocks of 32 bits (where `uint_fast32_t` has 32 bits) the constructor from `int64_t` loses bits -/
theorem C32_narrow_blocks_false : value 32 (ofSigned 32 (2 ^ 40)) ≠ 2 ^ 40 := by decide

/-- **C32** every integer has exactly one well formed representation -/
theorem C32_representation (hw : 0 < w) (z : Int) : ∃ x, (Valid w x ∧ value w x = z) ∧ ∀ y, Valid w y → value w y = z → y = x := by
  have hB : 1 < 2 ^ w := Nat.one_lt_two_pow (by omega)
  have nat : ∀ n : Nat, ∃ l, Norm w l ∧ magnitude w l = n := by
    intro n
    induction n using Nat.strong_induction_on with
    | _ n ih =>
      by_cases hn : n < 2 ^ w
      · exact ⟨[n], ⟨by simp, by simpa using hn, by simp⟩, by simp [magnitude]⟩
      · have hq : n / 2 ^ w < n := Nat.div_lt_self (by omega) hB
        have hq0 : 0 < n / 2 ^ w := Nat.div_pos (by omega) (by omega)
        obtain ⟨l, h1, h2⟩ := ih _ hq
        refine ⟨n % 2 ^ w :: l, ⟨by simp, ?_, ?_⟩, ?_⟩
        · intro d hd
          rcases List.mem_cons.mp hd with rfl | hd
          · exact Nat.mod_lt _ (by omega)
          · exact h1.digits d hd
        · intro _
          obtain ⟨e, es, rfl⟩ := List.exists_cons_of_ne_nil h1.nonempty
          rw [List.getLast?_cons_cons]
          cases es with
          | nil =>
            simp only [magnitude, Nat.mul_zero, Nat.add_zero] at h2
            simp
            omega
          | cons f fs => exact h1.lead (by simp)
        · simp only [magnitude, h2]
          rw [Nat.mul_comm, Nat.mod_add_div']
  obtain ⟨l, h1, h2⟩ := nat z.natAbs
  refine ⟨⟨decide (z < 0), l⟩, ⟨⟨h1, fun h => ?_⟩, ?_⟩, fun y hy hv => ?_⟩
  · have := (mag_zero_iff h1).mpr h
    simp only [decide_eq_false_iff_not]
    omega
  · unfold value
    simp only [h2, decide_eq_true_eq]
    split_ifs <;> omega
  · apply Valid.ext hy (w := w) ⟨h1, fun h => ?_⟩
    · rw [hv]
      unfold value
      simp only [h2, decide_eq_true_eq]
      split_ifs <;> omega
    · have := (mag_zero_iff h1).mpr h
      simp only [decide_eq_false_iff_not]
      omega

/-- **C32** reading back: the value if it fits an `int`, an exception otherwise.  Missing: `-2^31`, see
`C32_read_back_undefined_false`. -/
theorem C32_read_back_partial (hw : 32 ≤ w) {x : Big} (hx : Valid w x) (h : wrap = true ∨ value w x ≠ -2 ^ 31) :
    Big.toInt w wrap x = if -2 ^ 31 ≤ value w x ∧ value w x ≤ 2 ^ 31 - 1 then .ok (value w x) else .thrown := by
  rw [toInt_spec hw hx]
  norm_num at h ⊢
  split_ifs with h1 h2
  · rcases h with h | h
    · rw [h] at h2; exact absurd h2.2 (by simp)
    · exact absurd h2.1 h
  · rfl
  · rfl

/-- **C32** reading back `-2^31` negates the smallest `int` -/
theorem C32_read_back_undefined_false : Big.toInt 64 false (ofSigned 64 (-2 ^ 31)) = .ub := by decide

example : Big.toInt 64 true (ofSigned 64 (-2 ^ 31)) = .ok (-2 ^ 31) := by decide

/-! ## C33 -/

/-- **C33** addition -/
theorem C33_add_partial (hw : 32 ≤ w) {x y : Big} (hx : Valid w x) (hy : Valid w y)
    (h : wrap = true ∨ (value w x ≠ -2 ^ 31 ∧ value w y ≠ -2 ^ 31)) :
    ∃ r, add w wrap x y = .ok r ∧ Valid w r ∧ value w r = value w x + value w y := by
  refine (add_spec hw hx hy).2 ?_
  rintro ⟨h1, _, h2⟩
  norm_num at h
  rcases h with h | h
  · rw [h] at h1; exact absurd h1 (by simp)
  · omega

/-- **C33** subtraction -/
theorem C33_sub_partial (hw : 32 ≤ w) {x y : Big} (hx : Valid w x) (hy : Valid w y)
    (h : wrap = true ∨ (value w x ≠ -2 ^ 31 ∧ value w y ≠ -2 ^ 31)) :
    ∃ r, sub w wrap x y = .ok r ∧ Valid w r ∧ value w r = value w x - value w y := by
  refine (sub_spec hw hx hy).2 ?_
  rintro ⟨h1, _, h2⟩
  norm_num at h
  rcases h with h | h
  · rw [h] at h1; exact absurd h1 (by simp)
  · omega

/-- **C33** multiplication.  Without wrap-around, a negative first operand may meet `-2^31` on the way. -/
theorem C33_mul_partial (hw : 32 ≤ w) {x y : Big} (hx : Valid w x) (hy : Valid w y)
    (h : wrap = true ∨ (0 ≤ value w x ∧ value w y ≠ -2 ^ 31)) :
    ∃ r, mul w wrap x y = .ok r ∧ Valid w r ∧ value w r = value w x * value w y := by
  rcases mul_spec (wrap := wrap) hw hx hy with h1 | ⟨h1, h2, _⟩
  · exact h1
  · norm_num at h
    rcases h with h | h
    · rw [h] at h1; exact absurd h1 (by simp)
    · omega

/-- **C33** whatever the compiler, a product that is computed is the exact one -/
theorem C33_mul_never_wrong (hw : 32 ≤ w) {x y r : Big} (hx : Valid w x) (hy : Valid w y) (h : mul w wrap x y = .ok r) :
    Valid w r ∧ value w r = value w x * value w y := by
  rcases mul_spec (wrap := wrap) hw hx hy with ⟨r', h1, h2, h3⟩ | ⟨_, _, h2⟩
  · rw [h1] at h
    cases h
    exact ⟨h2, h3⟩
  · rw [h2] at h; exact absurd h (by simp)

/-- **C33** negation and absolute value -/
theorem C33_negate {x : Big} (hx : Valid w x) : Valid w (negate x) ∧ value w (negate x) = -value w x := flipSign_spec hx
theorem C33_abs {x : Big} (hx : Valid w x) : Valid w (Big.abs x) ∧ value w (Big.abs x) = |value w x| := by
  refine ⟨⟨hx.norm, fun _ => rfl⟩, ?_⟩
  have h := hx.neg_iff
  unfold Big.abs value at *
  cases hn : x.neg <;> simp

/-- **C33** adding to `-2^31` is undefined behaviour -/
theorem C33_undefined_false : ∃ x y : Big, Valid 64 x ∧ Valid 64 y ∧ value 64 x = -2 ^ 31 ∧ value 64 y = 1 ∧
    add 64 false x y = .ub := by
  refine ⟨ofSigned 64 (-2 ^ 31), ofSigned 64 1, (C32_construct_signed le_rfl (by decide)).1,
    (C32_construct_signed le_rfl (by decide)).1, by decide, by decide, by decide⟩

/-- **C33** multiplying a number by itself in place (`x *= x`) gives zero for large numbers, and the object is not
even well formed for negative ones -/
theorem C33_self_false : mulSelf 64 true (ofSigned 64 (2 ^ 40)) = .ok Big.zero ∧ value 64 (ofSigned 64 (2 ^ 40)) = 2 ^ 40
    ∧ mulSelf 64 true (ofSigned 64 (-2 ^ 40)) = .ok { neg := true, data := [0] } := by
  refine ⟨by decide +kernel, by decide +kernel, by decide +kernel⟩

example : Valid 64 (ofSigned 64 (2 ^ 62)) ∧ value 64 (ofSigned 64 (2 ^ 62)) = 2 ^ 62 :=
  C32_construct_signed le_rfl (by decide)

/-! ## C34 -/

/-- **C34** exactly what `/` computes: the truncated quotient, except that the sign is wrong for a negative dividend
unless both operands fit an `int`, they are equal, or the divisor is `1` or `-1` -/
theorem C34_quotient (hw : 32 ≤ w) {x y : Big} (hx : Valid w x) (hy : Valid w y) (hy0 : value w y ≠ 0) :
    let a := value w x
    let b := value w y
    let bothInt := (-2 ^ 31 ≤ a ∧ a ≤ 2 ^ 31 - 1) ∧ (-2 ^ 31 ≤ b ∧ b ≤ 2 ^ 31 - 1)
    ∃ r, div w true x y = .ok r ∧ Valid w r ∧
      value w r = if a < 0 ∧ ¬ bothInt ∧ a ≠ b ∧ b ≠ 1 ∧ b ≠ -1 then -(a.tdiv b) else a.tdiv b := by
  rcases div_spec (wrap := true) hw hx hy hy0 with h | h
  · obtain ⟨r, h1, h2, h3⟩ := h
    refine ⟨r, h1, h2, ?_⟩
    rw [h3]
    simp only [WrongSign, InInt]
    norm_num
  · exact absurd h.1 (by simp)

/-- **C34** a non-negative dividend (and `-2^31` is not the divisor, unless the compiler wraps) gives the truncated
quotient.  Missing: negative dividends, see `C34_false`. -/
theorem C34_nonnegative_partial (hw : 32 ≤ w) {x y : Big} (hx : Valid w x) (hy : Valid w y) (hy0 : value w y ≠ 0)
    (hx0 : 0 ≤ value w x) (h : wrap = true ∨ value w y ≠ -2 ^ 31) :
    ∃ r, div w wrap x y = .ok r ∧ Valid w r ∧ value w r = (value w x).tdiv (value w y) := by
  rcases div_spec (wrap := wrap) hw hx hy hy0 with h' | ⟨h1, _, h3⟩
  · have : ¬ WrongSign (value w x) (value w y) := by
      rintro ⟨q, _⟩
      omega
    rw [if_neg this] at h'
    exact h'
  · norm_num at h
    rcases h with h | h
    · rw [h] at h1; exact absurd h1 (by simp)
    · exact absurd (h3 hx0) h

/-- **C34** division by zero throws -/
theorem C34_division_by_zero {x y : Big} (hy : Valid w y) (hy0 : value w y = 0) : div w wrap x y = .thrown := by
  unfold div
  rw [if_pos]
  rw [isZero_iff]
  exact (value_eq_zero hy.norm).mp hy0

/-- **C34** is false: `-2^40 / 2 = +2^39` -/
theorem C34_false : ∃ x y : Big, Valid 64 x ∧ Valid 64 y ∧ value 64 x = -2 ^ 40 ∧ value 64 y = 2 ∧
    ∃ r, div 64 true x y = .ok r ∧ value 64 r = 2 ^ 39 := by
  obtain ⟨h1, h2⟩ := C32_construct_signed (w := 64) (v := -2 ^ 40) le_rfl (by decide)
  obtain ⟨h3, h4⟩ := C32_construct_signed (w := 64) (v := 2) le_rfl (by decide)
  refine ⟨_, _, h1, h3, h2, h4, ?_⟩
  obtain ⟨r, k1, _, k3⟩ := C34_quotient (w := 64) (by norm_num) h1 h3 (by rw [h4]; decide)
  refine ⟨r, k1, ?_⟩
  simp only [h2, h4] at k3
  rw [k3]
  decide

/-- **C34** consequence: dividing a row by the greatest common divisor of its entries changes the row's direction -/
theorem C34_gcd_division_false : ∃ x y g : Big, Valid 64 x ∧ Valid 64 y ∧ Valid 64 g ∧
    value 64 x = -2 ^ 40 ∧ value 64 y = 2 ^ 41 ∧ value 64 g = 2 ^ 40 ∧
    ∃ r s, div 64 true x g = .ok r ∧ div 64 true y g = .ok s ∧ value 64 r = 1 ∧ value 64 s = 2 := by
  obtain ⟨h1, h2⟩ := C32_construct_signed (w := 64) (v := -2 ^ 40) le_rfl (by decide)
  obtain ⟨h3, h4⟩ := C32_construct_signed (w := 64) (v := 2 ^ 41) le_rfl (by decide)
  obtain ⟨h5, h6⟩ := C32_construct_signed (w := 64) (v := 2 ^ 40) le_rfl (by decide)
  refine ⟨_, _, _, h1, h3, h5, h2, h4, h6, ?_⟩
  obtain ⟨r, k1, _, k3⟩ := C34_quotient (w := 64) (by norm_num) h1 h5 (by rw [h6]; decide)
  obtain ⟨s, m1, _, m3⟩ := C34_quotient (w := 64) (by norm_num) h3 h5 (by rw [h6]; decide)
  refine ⟨r, s, k1, m1, ?_, ?_⟩
  · simp only [h2, h6] at k3
    rw [k3]
    decide
  · simp only [h4, h6] at m3
    rw [m3]
    decide

/-! ## C35 -/

/-- **C35** remainder of a non-negative number by a positive one -/
theorem C35_remainder (hw : 32 ≤ w) {x y : Big} (hx : Valid w x) (hy : Valid w y) (hx0 : 0 ≤ value w x)
    (hy0 : 0 < value w y) :
    ∃ r, mod w wrap x y = .ok r ∧ Valid w r ∧ value w r = value w x % value w y := by
  rcases mod_spec (wrap := wrap) hw hx hy hy0 with h | ⟨_, _, h⟩
  · obtain ⟨r, h1, h2, h3⟩ := h
    exact ⟨r, h1, h2, by rw [h3, modValue, if_pos hx0]⟩
  · omega

/-- **C35** a negative dividend: some number congruent to it, in the range from `-b` to `b` -/
theorem C35_negative_congruent (hw : 32 ≤ w) {x y : Big} (hx : Valid w x) (hy : Valid w y) (hy0 : 0 < value w y) :
    ∃ r, mod w true x y = .ok r ∧ Valid w r ∧ value w y ∣ value w r - value w x
      ∧ -value w y < value w r ∧ value w r ≤ value w y := by
  rcases mod_spec (wrap := true) hw hx hy hy0 with h | ⟨h, _⟩
  · obtain ⟨r, h1, h2, h3⟩ := h
    refine ⟨r, h1, h2, ?_⟩
    rw [h3, modValue]
    have q1 := Int.emod_nonneg (value w x) (by omega : value w y ≠ 0)
    have q2 := Int.emod_lt_of_pos (value w x) hy0
    have q3 := Int.emod_nonneg (-value w x) (by omega : value w y ≠ 0)
    have q4 := Int.emod_lt_of_pos (-value w x) hy0
    split_ifs with a1 a2
    · refine ⟨?_, by omega, by omega⟩
      rw [show value w x % value w y - value w x = -(value w x - value w x % value w y) by ring]
      exact Int.dvd_neg.mpr Int.dvd_self_sub_emod
    · exact ⟨by simp, a2.1, by omega⟩
    · refine ⟨?_, by omega, by omega⟩
      rw [show value w y - -value w x % value w y - value w x = value w y + (-value w x - -value w x % value w y) by ring]
      exact Int.dvd_add (Int.dvd_refl _) Int.dvd_self_sub_emod
  · exact absurd h (by simp)

/-- **C35** for a negative dividend the result need not be in `[0, b)` (unlike SafeInteger's `%`) -/
theorem C35_negative_false :
    (∃ x y r : Big, Valid 64 x ∧ Valid 64 y ∧ value 64 x = -4 ∧ value 64 y = 2 ∧ mod 64 true x y = .ok r ∧ value 64 r = 2)
    ∧ (∃ x y r : Big, Valid 64 x ∧ Valid 64 y ∧ value 64 x = -5 ∧ value 64 y = 2 ^ 40 ∧ mod 64 true x y = .ok r
        ∧ value 64 r = -5) := by
  constructor
  · exact ⟨ofSigned 64 (-4), ofSigned 64 2, ofSigned 64 2, (C32_construct_signed le_rfl (by decide)).1,
      (C32_construct_signed le_rfl (by decide)).1, by decide, by decide, by decide, by decide⟩
  · exact ⟨ofSigned 64 (-5), ofSigned 64 (2 ^ 40), ofSigned 64 (-5), (C32_construct_signed le_rfl (by decide)).1,
      (C32_construct_signed le_rfl (by decide)).1, by decide, by decide, by decide, by decide⟩

/-- **C35** a divisor that is not positive throws -/
theorem C35_bad_divisor {x y : Big} (hy : Valid w y) (h : value w y ≤ 0) : mod w wrap x y = .thrown := by
  unfold mod
  rw [if_pos]
  simp only [isPositive, Bool.not_and, Bool.not_not, Bool.or_eq_true]
  by_cases h0 : value w y = 0
  · exact Or.inr ((isZero_iff y).mpr ((value_eq_zero hy.norm).mp h0))
  · exact Or.inl (hy.neg_iff.mpr (by omega))

/-! ## C36 -/

theorem lt_iff {x y : Big} (hx : Valid w x) (hy : Valid w y) : x.lt y = true ↔ value w x < value w y := by
  have h1 := hx.neg_iff
  have h2 := hy.neg_iff
  unfold lt
  by_cases hs : x.neg = y.neg
  · rw [if_neg (by simpa using hs)]
    cases hn : x.neg
    · simp only [if_true]
      rw [magLess_iff hx.norm hy.norm, value_pos hn, value_pos (by rw [← hs, hn])]
      omega
    · simp only [Bool.true_eq_false, if_false]
      rw [magGreater_eq, magLess_iff hy.norm hx.norm, value_neg hn, value_neg (by rw [← hs, hn])]
      omega
  · rw [if_pos hs]
    cases hn : x.neg
    · have : y.neg = true := by
        rw [hn] at hs
        simpa using Ne.symm hs
      have := h2.mp this
      have : ¬ value w x < 0 := fun h => by rw [h1.mpr h] at hn; exact absurd hn (by simp)
      simp; omega
    · have hy' : y.neg = false := by
        rw [hn] at hs
        simpa using Ne.symm hs
      have := h1.mp hn
      have : ¬ value w y < 0 := fun h => by rw [h2.mpr h] at hy'; exact absurd hy' (by simp)
      simp; omega

/-- **C36** comparisons of two BigIntegers -/
theorem C36_compare {x y : Big} (hx : Valid w x) (hy : Valid w y) :
    (x.eq y = decide (value w x = value w y)) ∧ (x.ne y = decide (value w x ≠ value w y))
    ∧ (x.lt y = decide (value w x < value w y)) ∧ (x.gt y = decide (value w x > value w y))
    ∧ (x.le y = decide (value w x ≤ value w y)) ∧ (x.ge y = decide (value w x ≥ value w y)) := by
  have hl : ∀ {x y : Big}, Valid w x → Valid w y → x.lt y = decide (value w x < value w y) := by
    intro x y hx hy
    rw [Bool.eq_iff_iff, lt_iff hx hy]; simp
  have he : x.eq y = decide (value w x = value w y) := by
    rw [Bool.eq_iff_iff, decide_eq_true_eq]
    unfold Big.eq
    constructor
    · intro h
      split_ifs at h with hc
      push Not at hc
      simp only [decide_eq_true_eq] at h
      unfold value
      rw [hc.1, h]
    · intro h
      rw [Valid.ext hx hy h]
      simp
  refine ⟨he, ?_, hl hx hy, hl hy hx, ?_, ?_⟩
  · unfold ne; rw [he]; simp
  · unfold le Big.gt
    rw [hl hy hx]
    rw [Bool.eq_iff_iff]; simp
  · unfold ge
    rw [hl hx hy]
    rw [Bool.eq_iff_iff]; simp

/-- **C36** comparisons with an `int` other than the smallest one (for which `std::abs` is undefined) -/
theorem C36_compare_int (hw : 32 ≤ w) {x : Big} (hx : Valid w x) {v : Int} (hv : -2 ^ 31 < v ∧ v ≤ 2 ^ 31 - 1) :
    (eqInt w x v = .ok (decide (value w x = v))) ∧ (ltInt w x v = .ok (decide (value w x < v)))
    ∧ (gtInt w x v = .ok (decide (value w x > v))) := by
  have hB : 4294967296 ≤ 2 ^ w := by
    calc 4294967296 = 2 ^ 32 := by norm_num
      _ ≤ 2 ^ w := Nat.pow_le_pow_right (by norm_num) hw
  norm_num at hv
  have habs : intAbs v = .ok v.natAbs := by
    unfold intAbs
    rw [if_neg (by norm_num; omega)]
  have e1 : v.natAbs % 2 ^ w = v.natAbs := Nat.mod_eq_of_lt (by omega)
  have e2 : v.toNat % 2 ^ w = v.toNat := Nat.mod_eq_of_lt (by omega)
  have hneg := hx.neg_iff
  unfold eqInt ltInt gtInt
  simp only [habs, Outcome.bind, e1, e2]
  rcases hd : x.data with _ | ⟨d, rest⟩
  · exact absurd hd hx.norm.nonempty
  by_cases hr : rest = []
  · subst hr
    have hm : magnitude w x.data = d := by simp [hd, magnitude]
    simp only [ne_eq, not_true_eq_false, if_false]
    cases hn : x.neg
    · have hval := value_pos (w := w) hn
      rw [hm] at hval
      by_cases hv0 : v ≥ 0
      · simp [hv0]
        refine ⟨?_, ?_, ?_⟩ <;> omega
      · simp [hv0]
        omega
    · have hval := value_neg (w := w) hn
      rw [hm] at hval
      have := hneg.mp hn
      by_cases hv0 : v ≥ 0
      · simp [hv0]
        omega
      · simp [hv0]
        refine ⟨?_, ?_, ?_⟩ <;> omega
  · have hlen : 1 < x.data.length := by
      rw [hd]
      have := List.length_pos_iff.mpr hr
      simp; omega
    have h1 := hx.norm.lower hlen
    have h2 : (2 ^ w) ^ 1 ≤ (2 ^ w) ^ (x.data.length - 1) := Nat.pow_le_pow_right (by positivity) (by omega)
    rw [pow_one] at h2
    simp only [ne_eq, hr, not_false_eq_true, if_true, Outcome.ok.injEq]
    cases hn : x.neg
    · have hval := value_pos (w := w) hn
      simp
      omega
    · have hval := value_neg (w := w) hn
      simp
      omega

/-- **C36** comparing a negative number of one block with the smallest `int` is undefined -/
theorem C36_compare_int_undefined_false : ltInt 64 (ofSigned 64 (-1)) (-2 ^ 31) = .ub := by decide

/-! ## C51 -/

theorem castRow_ok {α β : Type} {conv : α → Outcome β} {a : List α} {b : List β} (h : castRow conv a = .ok b) :
    a.length = b.length ∧ ∀ p ∈ a.zip b, conv p.1 = .ok p.2 := by
  induction a generalizing b with
  | nil => simp only [castRow, Outcome.ok.injEq] at h; subst h; simp
  | cons x a ih =>
    simp only [castRow] at h
    cases hc : conv x with
    | ok y =>
      rw [hc] at h
      simp only [Outcome.bind] at h
      cases hr : castRow conv a with
      | ok l =>
        rw [hr] at h
        simp only [Outcome.bind, Outcome.ok.injEq] at h
        subst h
        obtain ⟨h1, h2⟩ := ih hr
        refine ⟨by simp [h1], ?_⟩
        intro p hp
        rcases List.mem_cons.mp hp with rfl | hp
        · exact hc
        · exact h2 p hp
      | thrown => rw [hr] at h; simp [Outcome.bind] at h
      | ub => rw [hr] at h; simp [Outcome.bind] at h
    | thrown => rw [hc] at h; simp [Outcome.bind] at h
    | ub => rw [hc] at h; simp [Outcome.bind] at h

/-- **C51** a row of BigIntegers that is converted for printing has the same values -/
theorem C51_big_partial (hw : 32 ≤ w) {a : List Big} {b : List Int} (hv : ∀ x ∈ a, Valid w x)
    (h : castRow (Big.toInt w wrap) a = .ok b) : b = a.map (value w) := by
  induction a generalizing b with
  | nil => simpa [castRow, eq_comm] using h
  | cons x a ih =>
    simp only [castRow] at h
    rw [toInt_spec hw (hv x (by simp))] at h
    split_ifs at h with h1 h2
    · simp [Outcome.bind] at h
    · cases hr : castRow (Big.toInt w wrap) a with
      | ok l =>
        rw [hr] at h
        simp only [Outcome.bind, Outcome.ok.injEq] at h
        rw [← h, ih (fun x hx => hv x (by simp [hx])) hr]
        rfl
      | thrown => rw [hr] at h; simp [Outcome.bind] at h
      | ub => rw [hr] at h; simp [Outcome.bind] at h
    · simp [Outcome.bind] at h

/-- **C51** a row of SafeIntegers that is converted for printing is unchanged, and otherwise an exception is thrown -/
theorem C51_safe (a : List Int) : castRow Safe.toInt a = .ok a ∨ castRow Safe.toInt a = .thrown := by
  induction a with
  | nil => exact Or.inl rfl
  | cons x a ih =>
    simp only [castRow, Safe.toInt]
    split_ifs
    · exact Or.inr rfl
    · rcases ih with h | h
      · left; simp only [Outcome.bind, h]
      · right; simp only [Outcome.bind, h]

/-- **C51** narrower types are unchanged -/
theorem C51_int32 {v : Int} (h : -2 ^ 31 ≤ v ∧ v ≤ 2 ^ 31 - 1) : int16ToInt v = .ok v := by
  unfold int16ToInt narrow
  norm_num at h ⊢
  omega

/-- **C51** 64-bit integers are printed unchanged exactly if they fit in 32 bits; otherwise the printed number differs by a
multiple of `2^32`. -/
theorem C51_int64 (v : Int) : ∃ r, int64ToInt v = .ok r ∧ (r = v ↔ -2 ^ 31 ≤ v ∧ v ≤ 2 ^ 31 - 1) ∧ (2 ^ 32 : Int) ∣ v - r := by
  refine ⟨narrow 32 v, rfl, ?_, ?_⟩ <;> unfold narrow <;> norm_num <;> omega

/-- **C51** numbers read for the 16-bit type are unchanged exactly if they fit in 16 bits. -/
theorem C51_int16 (v : Int) : ∃ r, intToInt16 v = .ok r ∧ (r = v ↔ -2 ^ 15 ≤ v ∧ v ≤ 2 ^ 15 - 1) ∧ (2 ^ 16 : Int) ∣ v - r := by
  refine ⟨narrow 16 v, rfl, ?_, ?_⟩ <;> unfold narrow <;> norm_num <;> omega

/-- **C51** 64-bit integers are silently truncated when printed; 16-bit ones when read -/
theorem C51_int64_false : int64ToInt (2 ^ 32 + 5) = .ok 5 ∧ intToInt16 (2 ^ 16 + 5) = .ok 5 := by decide

end Panda
