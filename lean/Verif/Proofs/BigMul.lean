import Verif.Proofs.BigArith

/-! # Proofs about BigInteger shifting, multiplication and division -/

namespace Panda.Big

variable {w : Nat} {wrap : Bool}

theorem topbit (hw : 0 < w) {d : Nat} (hd : d < 2 ^ w) : (d &&& 2 ^ (w - 1) ≠ 0) ↔ 2 ^ (w - 1) ≤ d := by
  have h2 : 2 ^ w = 2 * 2 ^ (w - 1) := by
    rw [← pow_succ', Nat.sub_add_cancel hw]
  rw [Nat.and_two_pow, Nat.testBit_eq_decide_div_mod_eq]
  have hp : 0 < 2 ^ (w - 1) := by positivity
  by_cases h : 2 ^ (w - 1) ≤ d
  · have : d / 2 ^ (w - 1) = 1 := Nat.div_eq_of_lt_le (by omega) (by omega)
    simp [this, h]
  · have : d / 2 ^ (w - 1) = 0 := Nat.div_eq_of_lt (by omega)
    simp [this, h]

theorem shiftLoop_spec (hw : 0 < w) (ds above : List Nat) (hd : ∀ d ∈ ds, d < 2 ^ w)
    (ha : above = [0] ∨ (above = [] ∧ ∀ l, ds.getLast? = some l → l < 2 ^ (w - 1))) :
    magnitude w (shiftLoop w ds above) = 2 * magnitude w ds
    ∧ (shiftLoop w ds above).length = ds.length + above.length
    ∧ (∀ d ∈ shiftLoop w ds above, d < 2 ^ w)
    ∧ (∀ y, (shiftLoop w ds above).head? = some y → y % 2 = 0) := by
  have h2 : 2 ^ w = 2 * 2 ^ (w - 1) := by
    rw [← pow_succ', Nat.sub_add_cancel hw]
  have hp : 0 < 2 ^ (w - 1) := by positivity
  induction ds with
  | nil =>
    rcases ha with rfl | ⟨rfl, _⟩
    · simp [shiftLoop, magnitude]
    · simp [shiftLoop, magnitude]
  | cons d ds ih =>
    have hd0 : d < 2 ^ w := hd d (by simp)
    have ha' : above = [0] ∨ (above = [] ∧ ∀ l, ds.getLast? = some l → l < 2 ^ (w - 1)) := by
      rcases ha with h | ⟨h, hl⟩
      · exact Or.inl h
      · refine Or.inr ⟨h, fun l hl' => hl l ?_⟩
        cases ds with
        | nil => simp at hl'
        | cons e es => simpa [List.getLast?_cons_cons] using hl'
    obtain ⟨h1, h3, h4, h5⟩ := ih (fun e he => hd e (by simp [he])) ha'
    simp only [shiftLoop]
    have heven : (2 * d % 2 ^ w) % 2 = 0 := by
      rw [h2, Nat.mul_mod_mul_left]; omega
    by_cases ht : d &&& 2 ^ (w - 1) ≠ 0
    · rw [if_pos ht]
      rw [topbit hw hd0] at ht
      have hq : d / 2 ^ (w - 1) = 1 := by
        apply Nat.div_eq_of_lt_le <;> omega
      have hm : 2 * d % 2 ^ w = 2 * d - 2 ^ w := by
        rw [Nat.mod_eq_sub_mod (by omega), Nat.mod_eq_of_lt (by omega)]
      rcases hr : shiftLoop w ds above with _ | ⟨y, ys⟩
      · exfalso
        rw [hr] at h3
        simp only [List.length_nil] at h3
        have hds : ds = [] := List.length_eq_zero_iff.mp (by omega)
        have hab : above = [] := List.length_eq_zero_iff.mp (by omega)
        rcases ha with h | ⟨_, hl⟩
        · rw [hab] at h; simp at h
        · have := hl d (by simp [hds])
          omega
      · rw [hr] at h1 h3 h4 h5
        have hy := h4 y (by simp)
        have hy2 := h5 y (by simp)
        have hym : (y + 1) % 2 ^ w = y + 1 := by
          apply Nat.mod_eq_of_lt
          omega
        simp only [hq, hym]
        refine ⟨?_, by simp at h3 ⊢; omega, ?_, ?_⟩
        · simp only [magnitude] at h1 ⊢
          rw [hm]
          have e : 2 * d - 2 ^ w + 2 ^ w = 2 * d := by omega
          have : 2 * d - 2 ^ w + 2 ^ w * (y + 1 + 2 ^ w * magnitude w ys)
              = (2 * d - 2 ^ w + 2 ^ w) + 2 ^ w * (y + 2 ^ w * magnitude w ys) := by ring
          rw [this, e, h1]
          ring
        · intro e he
          rcases List.mem_cons.mp he with rfl | he
          · exact Nat.mod_lt _ (by positivity)
          · rcases List.mem_cons.mp he with rfl | he
            · omega
            · exact h4 e (by simp [he])
        · intro z hz
          simp only [List.head?_cons, Option.some.injEq] at hz
          rw [← hz]; exact heven
    · rw [if_neg ht]
      rw [topbit hw hd0] at ht
      have hm : 2 * d % 2 ^ w = 2 * d := Nat.mod_eq_of_lt (by omega)
      refine ⟨?_, by simp [h3]; omega, ?_, ?_⟩
      · simp only [magnitude, h1, hm]; ring
      · intro e he
        rcases List.mem_cons.mp he with rfl | he
        · exact Nat.mod_lt _ (by positivity)
        · exact h4 e he
      · intro z hz
        simp only [List.head?_cons, Option.some.injEq] at hz
        rw [← hz]; exact heven

theorem shiftLeft_spec (hw : 0 < w) {x : Big} (hx : Norm w x.data) :
    Norm w (shiftLeft w x).data ∧ (shiftLeft w x).neg = x.neg
    ∧ magnitude w (shiftLeft w x).data = 2 * magnitude w x.data
    ∧ (∀ y, (shiftLeft w x).data.head? = some y → y % 2 = 0) := by
  have h2 : 2 ^ w = 2 * 2 ^ (w - 1) := by
    rw [← pow_succ', Nat.sub_add_cancel hw]
  unfold shiftLeft
  by_cases hz : x.isZero = true
  · rw [if_pos hz]
    rw [isZero_iff] at hz
    rw [hz]
    exact ⟨norm_zero, rfl, by simp [magnitude], by simp⟩
  · rw [if_neg hz]
    rw [isZero_iff] at hz
    obtain ⟨r, l, hrl⟩ : ∃ r l, x.data = r ++ [l] :=
      ⟨x.data.dropLast, x.data.getLast hx.nonempty, (List.dropLast_concat_getLast _).symm⟩
    have hlast : x.data.getLastD 0 = l := by rw [hrl]; simp [List.getLastD_eq_getLast?]
    have hl : l < 2 ^ w := hx.digits l (by simp [hrl])
    rw [hlast]
    by_cases ht : l &&& 2 ^ (w - 1) ≠ 0
    · rw [if_pos ht]
      rw [topbit hw hl] at ht
      obtain ⟨h1, h3, h4, h5⟩ := shiftLoop_spec hw x.data [0] hx.digits (Or.inl rfl)
      refine ⟨norm_of_lower ?_ h4 ?_, rfl, h1, h5⟩
      · intro h
        simp only at h
        rw [h] at h3; simp at h3
      · intro _
        simp only [h3, h1, List.length_singleton, Nat.add_sub_cancel]
        rw [hrl, mag_append]
        simp only [List.length_append, List.length_singleton, magnitude, Nat.mul_zero, Nat.add_zero, pow_succ]
        have := Nat.mul_le_mul_left ((2 ^ w) ^ r.length) ht
        calc (2 ^ w) ^ r.length * 2 ^ w = 2 * ((2 ^ w) ^ r.length * 2 ^ (w - 1)) := by rw [h2]; ring
          _ ≤ _ := by omega
    · rw [if_neg ht]
      rw [topbit hw hl] at ht
      obtain ⟨h1, h3, h4, h5⟩ := shiftLoop_spec hw x.data [] hx.digits (Or.inr ⟨rfl, by
        intro k hk
        rw [hrl] at hk
        simp at hk
        omega⟩)
      refine ⟨norm_of_lower ?_ h4 ?_, rfl, h1, h5⟩
      · intro h
        simp only at h
        rw [h] at h3
        simp at h3
        exact hx.nonempty (List.length_eq_zero_iff.mp h3.symm)
      · intro hlt
        simp only [h3, List.length_nil, Nat.add_zero] at hlt ⊢
        have := hx.lower hlt
        omega

theorem isUnit_spec (hw : 32 ≤ w) {y : Big} (hy : Valid w y) :
    isUnit w y = .ok (decide (value w y = 1 ∨ value w y = -1)) := by
  have hB : 4294967296 ≤ 2 ^ w := by
    calc 4294967296 = 2 ^ 32 := by norm_num
      _ ≤ 2 ^ w := Nat.pow_le_pow_right (by norm_num) hw
  unfold isUnit eqInt
  rcases hd : y.data with _ | ⟨d, rest⟩
  · exact absurd hd hy.norm.nonempty
  by_cases hr : rest = []
  · subst hr
    have hm : magnitude w y.data = d := by simp [hd, magnitude]
    have e1 : intAbs 1 = .ok 1 := by decide
    have e2 : intAbs (-1) = .ok 1 := by decide
    have e3 : 1 % 2 ^ w = 1 := Nat.mod_eq_of_lt (by omega)
    unfold value
    rw [hm, e1, e2]
    cases hn : y.neg
    · simp [Outcome.bind, e3]
      by_cases h : d = 1
      · simp [h]
      · simp [h]
    · simp [Outcome.bind, e3]
      by_cases h : d = 1
      · simp [h]
      · simp [h]
        omega
  · have hlen : 1 < y.data.length := by
      rw [hd]
      have := List.length_pos_iff.mpr hr
      simp; omega
    have h1 := hy.norm.lower hlen
    have h2 : (2 ^ w) ^ 1 ≤ (2 ^ w) ^ (y.data.length - 1) := Nat.pow_le_pow_right (by positivity) (by omega)
    rw [pow_one] at h2
    have h3 : ¬ (value w y = 1 ∨ value w y = -1) := by
      cases hn : y.neg
      · rw [value_pos hn]; omega
      · rw [value_neg hn]; omega
    simp [hr, Outcome.bind, h3]

/-! ### Multiplication -/

theorem mulBits_spec (hw : 32 ≤ w) (entry : Nat) (s : Bool) (n j : Nat) (acc copy : Big) (ha : Norm w acc.data)
    (has : acc.neg = s) (hc : Valid w copy) (hcs : copy.neg = s) (hc0 : copy.data ≠ [0]) :
    (∃ acc' copy', mulBits w wrap entry n j (acc, copy) = .ok (acc', copy') ∧ Norm w acc'.data ∧ acc'.neg = s
      ∧ Valid w copy' ∧ copy'.neg = s ∧ copy'.data ≠ [0]
      ∧ magnitude w acc'.data = magnitude w acc.data + magnitude w copy.data * (entry / 2 ^ j % 2 ^ n)
      ∧ magnitude w copy'.data = magnitude w copy.data * 2 ^ n)
    ∨ (wrap = false ∧ s = true ∧ mulBits w wrap entry n j (acc, copy) = .ub) := by
  induction n generalizing j acc copy with
  | zero =>
    left
    exact ⟨acc, copy, rfl, ha, has, hc, hcs, hc0, by simp [Nat.mod_one], by simp⟩
  | succ n ih =>
    have hmc : magnitude w copy.data ≠ 0 := fun h => hc0 ((mag_zero_iff hc.norm).mp h)
    obtain ⟨k1, k2, k3, _⟩ := shiftLeft_spec (by omega : 0 < w) hc.norm
    have k4 : (shiftLeft w copy).data ≠ [0] := by
      intro h
      have := (mag_zero_iff k1).mpr h
      omega
    have hbits : entry / 2 ^ j % 2 ^ (n + 1) = entry / 2 ^ j % 2 + 2 * (entry / 2 ^ (j + 1) % 2 ^ n) := by
      rw [pow_succ' 2 n, Nat.mod_mul, Nat.div_div_eq_div_mul, ← pow_succ]
    simp only [mulBits]
    -- the rest of the loop
    have rest : ∀ acc', Norm w acc'.data → acc'.neg = s →
        magnitude w acc'.data = magnitude w acc.data + magnitude w copy.data * (entry / 2 ^ j % 2) →
        (∃ acc'' copy', mulBits w wrap entry n (j + 1) (acc', shiftLeft w copy) = .ok (acc'', copy') ∧ Norm w acc''.data
      ∧ acc''.neg = s ∧ Valid w copy' ∧ copy'.neg = s ∧ copy'.data ≠ [0]
      ∧ magnitude w acc''.data = magnitude w acc.data + magnitude w copy.data * (entry / 2 ^ j % 2 ^ (n + 1))
      ∧ magnitude w copy'.data = magnitude w copy.data * 2 ^ (n + 1))
      ∨ (wrap = false ∧ s = true ∧ mulBits w wrap entry n (j + 1) (acc', shiftLeft w copy) = .ub) := by
      intro acc' h1 h2 h3
      rcases ih (j + 1) acc' (shiftLeft w copy) h1 h2 ⟨k1, fun h => absurd h k4⟩ (by rw [k2, hcs]) k4 with h | h
      · left
        obtain ⟨a, c, q1, q2, q3, q4, q5, q6, q7, q8⟩ := h
        refine ⟨a, c, q1, q2, q3, q4, q5, q6, ?_, ?_⟩
        · rw [q7, h3, k3, hbits]; ring
        · rw [q8, k3]; ring
      · exact Or.inr h
    rw [Nat.and_two_pow, Nat.testBit_eq_decide_div_mod_eq]
    have hp : 2 ^ j ≠ 0 := by positivity
    by_cases hb : entry / 2 ^ j % 2 = 1
    · simp only [hb, decide_true, Bool.toNat_true, one_mul, ne_eq, hp, not_false_eq_true, if_true]
      rcases add_same_sign (wrap := wrap) hw ha hc hc0 (by rw [has, hcs]) with ⟨r, q1, q2, q3, q4⟩ | ⟨q1, q0, q2⟩
      · rw [q1]
        simp only [Outcome.bind]
        exact rest r q2 (by rw [q3, hcs]) (by rw [q4, hb]; ring)
      · rw [q2]
        exact Or.inr ⟨q1, by rw [← hcs]; exact q0, rfl⟩
    · have hb0 : entry / 2 ^ j % 2 = 0 := by omega
      simp only [hb0, Nat.zero_ne_one, decide_false, Bool.toNat_false, zero_mul, ne_eq, not_true_eq_false, if_false,
        Outcome.bind]
      exact rest acc ha has (by rw [hb0]; ring)

theorem mulBlocks_spec (hw : 32 ≤ w) (s : Bool) (es : List Nat) (hes : ∀ e ∈ es, e < 2 ^ w) (acc copy : Big)
    (ha : Norm w acc.data) (has : acc.neg = s) (hc : Valid w copy) (hcs : copy.neg = s) (hc0 : copy.data ≠ [0]) :
    (∃ acc' copy', mulBlocks w wrap es (acc, copy) = .ok (acc', copy') ∧ Norm w acc'.data ∧ acc'.neg = s
      ∧ magnitude w acc'.data = magnitude w acc.data + magnitude w copy.data * magnitude w es)
    ∨ (wrap = false ∧ s = true ∧ mulBlocks w wrap es (acc, copy) = .ub) := by
  induction es generalizing acc copy with
  | nil => exact Or.inl ⟨acc, copy, rfl, ha, has, by simp [magnitude]⟩
  | cons e es ih =>
    simp only [mulBlocks]
    rcases mulBits_spec (wrap := wrap) hw e s w 0 acc copy ha has hc hcs hc0 with h | ⟨h1, h0, h2⟩
    · obtain ⟨a, c, q1, q2, q3, q4, q5, q6, q7, q8⟩ := h
      rw [q1]
      simp only [Outcome.bind]
      rcases ih (fun d hd => hes d (by simp [hd])) a c q2 q3 q4 q5 q6 with h | h
      · left
        obtain ⟨a', c', r1, r2, r3, r4⟩ := h
        refine ⟨a', c', r1, r2, r3, ?_⟩
        rw [r4, q7, q8, pow_zero, Nat.div_one, Nat.mod_eq_of_lt (hes e (by simp))]
        simp only [magnitude]
        ring
      · exact Or.inr h
    · rw [h2]
      exact Or.inr ⟨h1, h0, rfl⟩

theorem intDiv_eq {a b : Int} (hb : b ≠ 0) (h : InInt (a.tdiv b)) : intDiv a b = .ok (a.tdiv b) := by
  unfold intDiv
  rw [if_neg hb, intMachine_eq, if_pos h]

theorem tdiv_inInt {a b : Int} (ha : InInt a) (hb : b ≠ -1) (hb0 : b ≠ 0) : InInt (a.tdiv b) := by
  have h1 : (a.tdiv b).natAbs = a.natAbs / b.natAbs := Int.natAbs_tdiv a b
  have h2 : a.natAbs / b.natAbs ≤ a.natAbs := Nat.div_le_self _ _
  unfold InInt at *
  by_cases hb1 : b = 1
  · subst hb1; simpa using ha
  · have h3 : a.natAbs / b.natAbs ≤ a.natAbs / 2 := Nat.div_le_div_left (by omega) (by omega)
    generalize a.natAbs / b.natAbs = q at h1 h2 h3
    omega

theorem fallbackMul_eq {x y : Big} {a b : Int} (hx : toInt w wrap x = .ok a) (hy : toInt w wrap y = .ok b)
    (ha : InInt a) (hb : InInt b) (hb0 : b ≠ 0) (hb1 : b ≠ -1) :
    fallbackMul w wrap x y = if InInt (a * b) then .ok (ofSigned w (a * b)) else .thrown := by
  have fits : ∀ L : Int, L = 2147483647 ∨ L = -2147483648 → intDiv L b = .ok (L.tdiv b) := by
    intro L hL
    apply intDiv_eq hb0 (tdiv_inInt _ hb1 hb0)
    unfold InInt; omega
  unfold fallbackMul
  rw [hx, hy]
  simp only [Outcome.bind, show (2 : Int) ^ 31 - 1 = 2147483647 from by norm_num,
    show -(2 : Int) ^ 31 = -2147483648 from by norm_num, intMachine_eq]
  -- truncated quotients
  rcases lt_trichotomy a 0 with h | h | h
  · have n1 : ¬ (a > 0) := by omega
    simp only [n1, if_false, decide_false, Bool.false_eq_true]
    rw [if_pos h]
    rcases lt_or_gt_of_ne hb0 with hbn | hbp
    · have n2 : ¬ (b > 0) := by omega
      simp only [n2, decide_false, if_true, fits _ (Or.inl rfl)]
      have hq : ((2147483647 : Int).tdiv b > a) ↔ ¬ InInt (a * b) := by
        have e : (2147483647 : Int).tdiv b = -((2147483647 : Int).tdiv (-b)) := by rw [Int.tdiv_neg]; simp
        rw [e, Int.tdiv_eq_ediv_of_nonneg (by norm_num)]
        have h1 := Int.mul_ediv_self_le (x := 2147483647) (k := -b) (by omega)
        have h2 := Int.lt_mul_ediv_self_add (x := 2147483647) (k := -b) (by omega)
        generalize (2147483647 : Int) / -b = q at h1 h2
        unfold InInt
        constructor
        · intro hlt hle
          nlinarith
        · intro hnot
          by_contra hge
          apply hnot
          constructor <;> nlinarith
      by_cases hin : InInt (a * b)
      · have : ¬ ((2147483647 : Int).tdiv b > a) := fun h => (hq.mp h) hin
        simp only [this, decide_false, Bool.false_eq_true, if_false, if_pos hin]
      · simp only [hq.mpr hin, decide_true, if_true, if_neg hin]
    · have n2 : ¬ (false = decide (b > 0)) := by simp [hbp]
      simp only [n2, if_false, fits _ (Or.inr rfl)]
      have hq : ((-2147483648 : Int).tdiv b > a) ↔ ¬ InInt (a * b) := by
        have e : (-2147483648 : Int).tdiv b = -((2147483648 : Int).tdiv b) := by rw [← Int.neg_tdiv]
        rw [e, Int.tdiv_eq_ediv_of_nonneg (by norm_num)]
        have h1 := Int.mul_ediv_self_le (x := 2147483648) (k := b) (by omega)
        have h2 := Int.lt_mul_ediv_self_add (x := 2147483648) (k := b) (by omega)
        generalize (2147483648 : Int) / b = q at h1 h2
        unfold InInt
        constructor
        · intro hlt hle
          nlinarith
        · intro hnot
          by_contra hge
          apply hnot
          constructor <;> nlinarith
      by_cases hin : InInt (a * b)
      · have : ¬ ((-2147483648 : Int).tdiv b > a) := fun h => (hq.mp h) hin
        simp only [this, decide_false, Bool.false_eq_true, if_false, if_pos hin]
      · simp only [hq.mpr hin, decide_true, if_true, if_neg hin]
  · subst h
    simp [InInt]
  · have n1 : ¬ (a < 0) := by omega
    rw [if_pos h]
    simp only [n1, if_false]
    rcases lt_or_gt_of_ne hb0 with hbn | hbp
    · have n2 : ¬ (decide (a > 0) = decide (b > 0)) := by simp [h]; omega
      simp only [n2, if_false, fits _ (Or.inr rfl)]
      have hq : ((-2147483648 : Int).tdiv b < a) ↔ ¬ InInt (a * b) := by
        have e : (-2147483648 : Int).tdiv b = (2147483648 : Int).tdiv (-b) := by rw [← Int.neg_tdiv_neg]; simp
        rw [e, Int.tdiv_eq_ediv_of_nonneg (by norm_num)]
        have h1 := Int.mul_ediv_self_le (x := 2147483648) (k := -b) (by omega)
        have h2 := Int.lt_mul_ediv_self_add (x := 2147483648) (k := -b) (by omega)
        generalize (2147483648 : Int) / -b = q at h1 h2
        unfold InInt
        constructor
        · intro hlt hle
          nlinarith
        · intro hnot
          by_contra hge
          apply hnot
          constructor <;> nlinarith
      by_cases hin : InInt (a * b)
      · have : ¬ ((-2147483648 : Int).tdiv b < a) := fun h => (hq.mp h) hin
        simp only [this, decide_false, Bool.false_eq_true, if_false, if_pos hin]
      · simp only [hq.mpr hin, decide_true, if_true, if_neg hin]
    · have n2 : decide (a > 0) = decide (b > 0) := by simp [h, hbp]
      simp only [n2, if_true, fits _ (Or.inl rfl)]
      have hq : ((2147483647 : Int).tdiv b < a) ↔ ¬ InInt (a * b) := by
        rw [Int.tdiv_eq_ediv_of_nonneg (by norm_num)]
        have h1 := Int.mul_ediv_self_le (x := 2147483647) (k := b) (by omega)
        have h2 := Int.lt_mul_ediv_self_add (x := 2147483647) (k := b) (by omega)
        generalize (2147483647 : Int) / b = q at h1 h2
        unfold InInt
        constructor
        · intro hlt hle
          nlinarith
        · intro hnot
          by_contra hge
          apply hnot
          constructor <;> nlinarith
      by_cases hin : InInt (a * b)
      · have : ¬ ((2147483647 : Int).tdiv b < a) := fun h => (hq.mp h) hin
        simp only [this, decide_false, Bool.false_eq_true, if_false, if_pos hin]
      · simp only [hq.mpr hin, decide_true, if_true, if_neg hin]

/-- the outcomes of converting two operands to `int` -/
theorem conv_cases (hw : 32 ≤ w) {x y : Big} (hx : Valid w x) (hy : Valid w y) (wrap : Bool) :
    (InInt (value w x) ∧ InInt (value w y) ∧ toInt w wrap x = .ok (value w x) ∧ toInt w wrap y = .ok (value w y))
    ∨ (wrap = false ∧ (toInt w wrap x = .ub ∨ (∃ a, toInt w wrap x = .ok a) ∧ toInt w wrap y = .ub)
        ∧ (value w x = -2147483648 ∨ value w y = -2147483648))
    ∨ (¬ (InInt (value w x) ∧ InInt (value w y)) ∧
        (toInt w wrap x = .thrown ∨ (∃ a, toInt w wrap x = .ok a) ∧ toInt w wrap y = .thrown)) := by
  rw [toInt_spec hw hx, toInt_spec hw hy]
  by_cases h1 : InInt (value w x)
  · rw [if_pos h1]
    by_cases h2 : value w x = -2147483648 ∧ wrap = false
    · rw [if_pos h2]
      exact Or.inr (Or.inl ⟨h2.2, Or.inl rfl, Or.inl h2.1⟩)
    · rw [if_neg h2]
      by_cases h3 : InInt (value w y)
      · rw [if_pos h3]
        by_cases h4 : value w y = -2147483648 ∧ wrap = false
        · rw [if_pos h4]
          exact Or.inr (Or.inl ⟨h4.2, Or.inr ⟨⟨_, rfl⟩, rfl⟩, Or.inr h4.1⟩)
        · rw [if_neg h4]
          exact Or.inl ⟨h1, h3, rfl, rfl⟩
      · rw [if_neg h3]
        exact Or.inr (Or.inr ⟨fun h => h3 h.2, Or.inr ⟨⟨_, rfl⟩, rfl⟩⟩)
  · rw [if_neg h1]
    exact Or.inr (Or.inr ⟨fun h => h1 h.1, Or.inl rfl⟩)

theorem mul_spec (hw : 32 ≤ w) {x y : Big} (hx : Valid w x) (hy : Valid w y) :
    Holds w (mul w wrap x y) (value w x * value w y) ∨ (wrap = false ∧ (value w x < 0 ∨ value w y = -2147483648) ∧ mul w wrap x y = .ub) := by
  unfold mul
  by_cases hz : x.isZero = true ∨ y.isZero = true
  · left
    rw [if_pos hz]
    refine ⟨zero, rfl, valid_zero, ?_⟩
    rw [value_zero]
    rcases hz with h | h
    · rw [(value_eq_zero hx.norm).mpr ((isZero_iff x).mp h)]; simp
    · rw [(value_eq_zero hy.norm).mpr ((isZero_iff y).mp h)]; simp
  · rw [if_neg hz]
    push Not at hz
    have hx0 : x.data ≠ [0] := fun h => hz.1 ((isZero_iff x).mpr h)
    have hy0 : y.data ≠ [0] := fun h => hz.2 ((isZero_iff y).mpr h)
    have hvy : value w y ≠ 0 := fun h => hy0 ((value_eq_zero hy.norm).mp h)
    have hmx : magnitude w x.data ≠ 0 := fun h => hx0 ((mag_zero_iff hx.norm).mp h)
    have hmy : magnitude w y.data ≠ 0 := fun h => hy0 ((mag_zero_iff hy.norm).mp h)
    rw [isUnit_spec hw hy]
    simp only [Outcome.bind, decide_eq_true_eq]
    by_cases hu : value w y = 1 ∨ value w y = -1
    · rw [if_pos hu]
      left
      by_cases hn : y.neg = true
      · rw [if_pos hn]
        obtain ⟨f1, f2⟩ := flipSign_spec hx
        refine ⟨_, rfl, f1, ?_⟩
        have := hy.neg_iff.mp hn
        rw [f2, show value w y = -1 by omega]; ring
      · rw [if_neg hn]
        have : ¬ value w y < 0 := fun h => hn (hy.neg_iff.mpr h)
        exact ⟨x, rfl, hx, by rw [show value w y = 1 by omega]; ring⟩
    · rw [if_neg hu]
      have big : Holds w ((mulBlocks w wrap y.data ({ x with data := [0] }, x)).bind fun s =>
          .ok (if y.neg then s.1.flipSign else s.1)) (value w x * value w y)
          ∨ (wrap = false ∧ x.neg = true ∧ ((mulBlocks w wrap y.data ({ x with data := [0] }, x)).bind fun s =>
          .ok (if y.neg then s.1.flipSign else s.1)) = .ub) := by
        rcases mulBlocks_spec (wrap := wrap) hw x.neg y.data hy.norm.digits { x with data := [0] } x norm_zero rfl hx rfl hx0
          with ⟨a, c, q1, q2, q3, q4⟩ | ⟨q1, q0, q2⟩
        · left
          rw [q1]
          have hm : magnitude w a.data = magnitude w x.data * magnitude w y.data := by
            rw [q4]; simp [magnitude]
          have ha0 : a.data ≠ [0] := by
            intro h
            have := (mag_zero_iff q2).mpr h
            rw [hm, Nat.mul_eq_zero] at this
            omega
          have ha : Valid w a := ⟨q2, fun h => absurd h ha0⟩
          refine ⟨_, rfl, ?_, ?_⟩
          · simp only
            split_ifs
            · exact (flipSign_spec ha).1
            · exact ha
          · simp only
            by_cases hn : y.neg = true
            · rw [if_pos hn, (flipSign_spec ha).2]
              unfold value
              rw [q3, hm, if_pos hn]
              split_ifs <;> push_cast <;> ring
            · rw [if_neg hn]
              unfold value
              rw [q3, hm, if_neg hn]
              split_ifs <;> push_cast <;> ring
        · exact Or.inr ⟨q1, q0, by rw [q2]; rfl⟩
      have big := big.imp_right (fun h : wrap = false ∧ x.neg = true ∧ _ =>
        (⟨h.1, Or.inl (hx.neg_iff.mp h.2.1), h.2.2⟩ : wrap = false ∧ (value w x < 0 ∨ value w y = -2147483648) ∧ _))
      rcases conv_cases hw hx hy wrap with ⟨h1, h2, h3, h4⟩ | ⟨h1, h2, h0⟩ | ⟨h1, h2⟩
      · rw [fallbackMul_eq h3 h4 h1 h2 hvy (by omega)]
        by_cases hin : InInt (value w x * value w y)
        · rw [if_pos hin]
          left
          obtain ⟨b1, b2⟩ := in_block hw hin
          obtain ⟨k1, k2⟩ := ofSigned_spec _ b1 b2
          exact ⟨_, rfl, k1, k2⟩
        · rw [if_neg hin]
          exact big
      · right
        refine ⟨h1, h0.imp_left (fun h => by omega), ?_⟩
        unfold fallbackMul
        rcases h2 with h2 | ⟨⟨a, h2⟩, h3⟩
        · rw [h2]; rfl
        · rw [h2, h3]; rfl
      · have : fallbackMul w wrap x y = .thrown := by
          unfold fallbackMul
          rcases h2 with h2 | ⟨⟨a, h2⟩, h3⟩
          · rw [h2]; rfl
          · rw [h2, h3]; rfl
        rw [this]
        exact big

end Panda.Big
