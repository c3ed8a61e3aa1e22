import Verif.Proofs.BigInteger

/-! # Proofs about BigInteger arithmetic -/

namespace Panda.Big

variable {w : Nat} {wrap : Bool}

theorem isZero_iff (x : Big) : x.isZero = true ↔ x.data = [0] := by simp [isZero]

theorem value_eq_zero {x : Big} (h : Norm w x.data) : value w x = 0 ↔ x.data = [0] := by
  rw [← mag_zero_iff h]
  unfold value
  split_ifs <;> simp

theorem Valid.neg_iff {x : Big} (h : Valid w x) : x.neg = true ↔ value w x < 0 := by
  have h0 := mag_zero_iff h.norm
  unfold value
  constructor
  · intro hn
    rw [if_pos hn]
    have : magnitude w x.data ≠ 0 := by
      intro h1
      rw [h.sign (h0.mp h1)] at hn
      exact absurd hn (by simp)
    omega
  · intro hv
    by_contra hn
    rw [if_neg hn] at hv
    omega

theorem Valid.ext {x y : Big} (hx : Valid w x) (hy : Valid w y) (h : value w x = value w y) : x = y := by
  have h1 : x.neg = y.neg := by
    rw [Bool.eq_iff_iff, hx.neg_iff, hy.neg_iff, h]
  have h2 : magnitude w x.data = magnitude w y.data := by
    unfold value at h
    rw [h1] at h
    split_ifs at h <;> omega
  cases x; cases y
  simp only [Big.mk.injEq]
  exact ⟨h1, mag_inj hx.norm hy.norm h2⟩

theorem valid_zero : Valid w zero := ⟨norm_zero, fun _ => rfl⟩
theorem value_zero : value w zero = 0 := by simp [value, zero, magnitude]

theorem flipSign_spec {x : Big} (h : Valid w x) : Valid w x.flipSign ∧ value w x.flipSign = -value w x := by
  unfold flipSign
  split_ifs with hz
  · rw [isZero_iff] at hz
    exact ⟨h, by rw [(value_eq_zero h.norm).mpr hz]; rfl⟩
  · rw [isZero_iff] at hz
    refine ⟨⟨h.norm, fun h' => absurd h' hz⟩, ?_⟩
    unfold value
    cases x.neg <;> simp

theorem intMachine_eq (x : Int) : intMachine x = if InInt x then .ok x else .ub := by
  unfold intMachine InInt; norm_num

theorem ofSigned_spec (v : Int) (h1 : -2 ^ w < v) (h2 : v < 2 ^ w) :
    Valid w (ofSigned w v) ∧ value w (ofSigned w v) = v := by
  have hB : (0 : Int) < 2 ^ w := by positivity
  have cast : ((2 ^ w : Nat) : Int) = 2 ^ w := by push_cast; rfl
  unfold ofSigned
  split_ifs with hv
  · have : v.toNat < 2 ^ w := by omega
    refine ⟨⟨⟨by simp, by simpa using Nat.mod_lt _ (by positivity), by simp⟩, by simp⟩, ?_⟩
    simp only [value, Bool.false_eq_true, if_false, magnitude, Nat.mod_eq_of_lt this]
    omega
  · have h3 : (-(1 + v)).toNat < 2 ^ w := by omega
    have h4 : (-(1 + v)).toNat + 1 < 2 ^ w := by omega
    rw [Nat.mod_eq_of_lt h3, Nat.mod_eq_of_lt h4]
    refine ⟨⟨⟨by simp, by simpa using h4, by simp⟩, by simp⟩, ?_⟩
    simp only [value, if_true, magnitude]
    omega

theorem toInt_spec (hw : 32 ≤ w) {x : Big} (h : Valid w x) :
    toInt w wrap x = if InInt (value w x) then
      (if value w x = -2147483648 ∧ wrap = false then .ub else .ok (value w x)) else .thrown := by
  have hB : 4294967296 ≤ 2 ^ w := by
    calc 4294967296 = 2 ^ 32 := by norm_num
      _ ≤ 2 ^ w := Nat.pow_le_pow_right (by norm_num) hw
  unfold toInt
  rcases hx : x.data with _ | ⟨d, rest⟩
  · exact absurd hx h.norm.nonempty
  have hd : d < 2 ^ w := h.norm.digits d (by simp [hx])
  by_cases hr : rest = []
  · subst hr
    have hm : magnitude w x.data = d := by simp [hx, magnitude]
    simp only [ne_eq, not_true_eq_false, if_false]
    unfold value
    rw [hm]
    by_cases hn : x.neg = true
    · have hd0 : d ≠ 0 := by
        rintro rfl
        rw [h.sign hx] at hn
        exact absurd hn (by simp)
      have e : (d + 2 ^ w - 1) % 2 ^ w = d - 1 := by
        rw [show d + 2 ^ w - 1 = (d - 1) + 2 ^ w by omega, Nat.add_mod_right, Nat.mod_eq_of_lt (by omega)]
      rw [e, hn]
      simp only [Bool.true_eq_false, if_false, if_true, InInt, show (2 : Nat) ^ 31 = 2147483648 from by norm_num,
        show (2 : Int) ^ 31 = 2147483648 from by norm_num]
      cases wrap <;> simp only [and_true, and_false, if_false, if_true, Bool.false_eq_true, Bool.true_eq_false] <;>
        split_ifs <;> first | rfl | (exfalso; omega) | (congr 1; omega)
    · simp only [Bool.not_eq_true] at hn
      rw [hn]
      simp only [Bool.false_eq_true, if_false, if_true, InInt, show (2 : Nat) ^ 31 = 2147483648 from by norm_num]
      cases wrap <;> simp only [and_true, and_false, if_false, Bool.true_eq_false] <;>
        split_ifs <;> first | rfl | (exfalso; omega)
  · simp only [ne_eq, hr, not_false_eq_true, if_true]
    have hlen : 1 < x.data.length := by
      rw [hx]
      have := List.length_pos_iff.mpr hr
      simp; omega
    have h1 := h.norm.lower hlen
    have h2 : (2 ^ w) ^ 1 ≤ (2 ^ w) ^ (x.data.length - 1) := Nat.pow_le_pow_right (by positivity) (by omega)
    rw [pow_one] at h2
    have h3 : ¬ InInt (value w x) := by
      unfold value InInt
      split_ifs <;> omega
    rw [if_neg h3]

theorem toInt_negzero (hw : 32 ≤ w) : toInt w wrap { neg := true, data := [0] } = .thrown := by
  have hB : 4294967296 ≤ 2 ^ w := by
    calc 4294967296 = 2 ^ 32 := by norm_num
      _ ≤ 2 ^ w := Nat.pow_le_pow_right (by norm_num) hw
  simp only [toInt]
  rw [if_neg (by simp), if_neg (by simp), if_pos]
  rw [Nat.mod_eq_of_lt (by omega)]
  omega

theorem in_block (hw : 32 ≤ w) {v : Int} (h : InInt v) : -2 ^ w < v ∧ v < 2 ^ w := by
  have hB : (4294967296 : Int) ≤ 2 ^ w := by
    calc (4294967296 : Int) = 2 ^ 32 := by norm_num
      _ ≤ 2 ^ w := pow_le_pow_right₀ (by norm_num) hw
  unfold InInt at h
  omega

theorem fallbackAdd_eq {x y : Big} {a b : Int} (hx : toInt w wrap x = .ok a) (hy : toInt w wrap y = .ok b)
    (ha : InInt a) (hb : InInt b) :
    fallbackAdd w wrap x y = if InInt (a + b) then .ok (ofSigned w (a + b)) else .thrown := by
  unfold fallbackAdd
  rw [hx, hy]
  simp only [Outcome.bind, intMachine_eq]
  unfold InInt at *
  norm_num
  by_cases h1 : 0 < a ∧ 0 < b
  · rw [if_pos h1, if_pos (by omega)]
    by_cases h2 : 2147483647 - a < b
    · simp only [h2, decide_true, if_true]
      rw [if_neg (by omega)]
    · simp only [h2, decide_false, Bool.false_eq_true, if_false]
      rw [if_neg (by omega)]
      simp only [Bool.false_eq_true, if_false]
      rw [if_pos (by omega), if_pos (by omega)]
  · rw [if_neg h1]
    simp only [Bool.false_eq_true, if_false]
    by_cases h3 : a < 0 ∧ b < 0
    · rw [if_pos h3, if_pos (by omega)]
      by_cases h2 : b < -2147483648 - a
      · simp only [h2, decide_true, if_true]
        rw [if_neg (by omega)]
      · simp only [h2, decide_false, Bool.false_eq_true, if_false]
        rw [if_pos (by omega), if_pos (by omega)]
    · rw [if_neg h3]
      simp only [Bool.false_eq_true, if_false]
      rw [if_pos (by omega), if_pos (by omega)]

theorem fallbackSub_eq {x y : Big} {a b : Int} (hx : toInt w wrap x = .ok a) (hy : toInt w wrap y = .ok b)
    (ha : InInt a) (hb : InInt b) :
    fallbackSub w wrap x y = if InInt (a - b) then .ok (ofSigned w (a - b)) else .thrown := by
  unfold fallbackSub
  rw [hx, hy]
  simp only [Outcome.bind, intMachine_eq]
  unfold InInt at *
  norm_num
  by_cases h1 : b < 0
  · rw [if_pos h1, if_pos (by omega)]
    by_cases h2 : 2147483647 + b < a
    · simp only [h2, decide_true, if_true]
      rw [if_neg (by omega)]
    · simp only [h2, decide_false, Bool.false_eq_true, if_false]
      rw [if_neg (by omega)]
      simp only [Bool.false_eq_true, if_false]
      rw [if_pos (by omega), if_pos (by omega)]
  · rw [if_neg h1]
    simp only [Bool.false_eq_true, if_false]
    by_cases h3 : 0 < b
    · rw [if_pos h3, if_pos (by omega)]
      by_cases h2 : a < -2147483648 + b
      · simp only [h2, decide_true, if_true]
        rw [if_neg (by omega)]
      · simp only [h2, decide_false, Bool.false_eq_true, if_false]
        rw [if_pos (by omega), if_pos (by omega)]
    · rw [if_neg h3]
      simp only [Bool.false_eq_true, if_false]
      rw [if_pos (by omega), if_pos (by omega)]

theorem value_pos {x : Big} (h : x.neg = false) : value w x = magnitude w x.data := by simp [value, h]
theorem value_neg {x : Big} (h : x.neg = true) : value w x = -(magnitude w x.data : Int) := by simp [value, h]

theorem subtract_holds (hw : 0 < w) {x : Big} {s : List Nat} (hx : Norm w x.data) (hs : Norm w s)
    (hle : magnitude w s ≤ magnitude w x.data) :
    Holds w (subtractMagnitude w x s)
      (if x.neg then -((magnitude w x.data : Int) - magnitude w s) else (magnitude w x.data : Int) - magnitude w s) := by
  obtain ⟨r, h1, h2, h3, h4⟩ := subtractMagnitude_spec hw x s hx hs hle
  refine ⟨r, h1, ⟨h2, fun h => by rw [h3, if_pos h]⟩, ?_⟩
  by_cases hz : r.data = [0]
  · have hm : magnitude w r.data = 0 := (mag_zero_iff h2).mpr hz
    rw [(value_eq_zero h2).mpr hz]
    rw [hm] at h4
    split_ifs <;> omega
  · rw [if_neg hz] at h3
    unfold value
    rw [h3]
    split_ifs <;> omega

theorem addBig (hw : 0 < w) {x y : Big} (hx : Norm w x.data) (hy : Valid w y) (hy0 : y.data ≠ [0]) :
    Holds w (if x.neg = y.neg then .ok (addMagnitude w x y.data)
      else if ({ x with neg := y.neg } : Big).eq y then .ok zero
      else if (!y.neg) = ({ x with neg := y.neg } : Big).gt y then subtractMagnitude w x y.data
      else subtractMagnitude w { neg := y.neg, data := y.data } x.data) (value w x + value w y) := by
  have hmy : magnitude w y.data ≠ 0 := fun h => hy0 ((mag_zero_iff hy.norm).mp h)
  split_ifs with h1 h2 h3
  · obtain ⟨k1, k2, k3⟩ := addMagnitude_spec hw x y.data hx hy.norm
    refine ⟨_, rfl, ⟨k1, fun h => ?_⟩, ?_⟩
    · have := (mag_zero_iff k1).mpr h
      omega
    · unfold value
      rw [k2, k3, h1]
      split_ifs <;> push_cast <;> ring
  · have : x.data = y.data := by
      unfold eq at h2
      simp at h2
      exact h2.2
    refine ⟨zero, rfl, valid_zero, ?_⟩
    rw [value_zero]
    unfold value
    rw [this]
    cases hxn : x.neg <;> cases hyn : y.neg <;> simp_all
  · have hne : magnitude w x.data ≠ magnitude w y.data := by
      intro h
      exact h2 (by simp [eq, mag_inj hx hy.norm h])
    have hle : magnitude w y.data ≤ magnitude w x.data := by
      simp only [gt, lt, ne_eq, not_true_eq_false, if_false] at h3
      cases hyn : y.neg
      · rw [hyn] at h3
        simp only [Bool.not_false, if_true] at h3
        exact le_of_lt ((magLess_iff hy.norm hx).mp h3.symm)
      · rw [hyn] at h3
        simp only [Bool.not_true, Bool.true_eq_false, if_false, magGreater_eq] at h3
        by_contra hlt
        rw [(magLess_iff (x := { neg := true, data := x.data }) hx hy.norm).mpr (by simp only; omega)] at h3
        simp at h3
    obtain ⟨r, k1, k2, k3⟩ := subtract_holds hw hx hy.norm hle
    refine ⟨r, k1, k2, ?_⟩
    rw [k3]
    unfold value
    cases hxn : x.neg <;> cases hyn : y.neg <;> simp_all
    · ring
    · ring
  · have hne : magnitude w x.data ≠ magnitude w y.data := by
      intro h
      exact h2 (by simp [eq, mag_inj hx hy.norm h])
    have hle : magnitude w x.data ≤ magnitude w y.data := by
      simp only [gt, lt, ne_eq, not_true_eq_false, if_false] at h3
      cases hyn : y.neg
      · rw [hyn] at h3
        simp only [Bool.not_false, if_true] at h3
        by_contra hlt
        exact h3 ((magLess_iff hy.norm hx).mpr (by omega)).symm
      · rw [hyn] at h3
        simp only [Bool.not_true, Bool.true_eq_false, if_false, magGreater_eq] at h3
        by_contra hlt
        apply h3
        rw [eq_comm, Bool.eq_false_iff, Ne, magLess_iff (x := { neg := true, data := x.data }) (w := w) hx hy.norm]
        simp only
        omega
    obtain ⟨r, k1, k2, k3⟩ := subtract_holds hw (x := { neg := y.neg, data := y.data }) hy.norm hx hle
    refine ⟨r, k1, k2, ?_⟩
    rw [k3]
    unfold value
    cases hxn : x.neg <;> cases hyn : y.neg <;> simp_all
    · ring
    · ring

theorem subBig (hw : 0 < w) {x y : Big} (hx : Valid w x) (hy : Valid w y) (hy0 : y.data ≠ [0]) :
    Holds w (if x.neg ≠ y.neg then .ok (addMagnitude w x y.data)
    else if x.neg = x.gt y then subtractMagnitude w (flipSign { x with data := y.data }) x.data
    else subtractMagnitude w x y.data) (value w x - value w y) := by
  have hmy : magnitude w y.data ≠ 0 := fun h => hy0 ((mag_zero_iff hy.norm).mp h)
  have hflip : flipSign { x with data := y.data } = { neg := !x.neg, data := y.data } := by
    simp [flipSign, isZero, hy0]
  rw [hflip]
  split_ifs with h1 h3
  · obtain ⟨k1, k2, k3⟩ := addMagnitude_spec hw x y.data hx.norm hy.norm
    refine ⟨_, rfl, ⟨k1, fun h => ?_⟩, ?_⟩
    · have := (mag_zero_iff k1).mpr h
      omega
    · unfold value
      rw [k2, k3]
      cases hxn : x.neg <;> cases hyn : y.neg <;> simp_all
      ring
  · simp only [ne_eq, not_not] at h1
    have hle : magnitude w x.data ≤ magnitude w y.data := by
      simp only [gt, lt, h1, ne_eq, not_true_eq_false, if_false] at h3
      cases hyn : y.neg
      · rw [hyn] at h3
        simp only [if_true] at h3
        by_contra hlt
        rw [(magLess_iff hy.norm hx.norm).mpr (by omega)] at h3
        simp at h3
      · rw [hyn] at h3
        simp only [Bool.true_eq_false, if_false, magGreater_eq] at h3
        exact le_of_lt ((magLess_iff hx.norm hy.norm).mp h3.symm)
    obtain ⟨r, k1, k2, k3⟩ := subtract_holds hw (x := { neg := !x.neg, data := y.data }) hy.norm hx.norm hle
    refine ⟨r, k1, k2, ?_⟩
    rw [k3]
    unfold value
    cases hxn : x.neg <;> cases hyn : y.neg <;> simp_all
    ring
  · simp only [ne_eq, not_not] at h1
    have hle : magnitude w y.data ≤ magnitude w x.data := by
      simp only [gt, lt, h1, ne_eq, not_true_eq_false, if_false] at h3
      cases hyn : y.neg
      · rw [hyn] at h3
        simp only [if_true] at h3
        by_contra hlt
        apply h3
        rw [eq_comm, Bool.eq_false_iff, Ne, magLess_iff (w := w) hy.norm hx.norm]
        omega
      · rw [hyn] at h3
        simp only [Bool.true_eq_false, if_false, magGreater_eq] at h3
        by_contra hlt
        exact h3 ((magLess_iff hx.norm hy.norm).mpr (by omega)).symm
    obtain ⟨r, k1, k2, k3⟩ := subtract_holds hw hx.norm hy.norm hle
    refine ⟨r, k1, k2, ?_⟩
    rw [k3]
    unfold value
    cases hxn : x.neg <;> cases hyn : y.neg <;> simp_all
    ring

/-- the operands on which the conversion to `int` of an operation's operands is undefined behaviour -/
def ConvUB (wrap : Bool) (a b : Int) : Prop :=
  wrap = false ∧ b ≠ 0 ∧ (a = -2147483648 ∨ (InInt a ∧ b = -2147483648))

theorem add_spec (hw : 32 ≤ w) {x y : Big} (hx : Valid w x) (hy : Valid w y) :
    (ConvUB wrap (value w x) (value w y) → add w wrap x y = .ub)
    ∧ (¬ ConvUB wrap (value w x) (value w y) → Holds w (add w wrap x y) (value w x + value w y)) := by
  unfold add
  by_cases hz : y.isZero = true
  · rw [if_pos hz]
    have h0 : value w y = 0 := (value_eq_zero hy.norm).mpr ((isZero_iff y).mp hz)
    exact ⟨fun h => absurd h0 h.2.1, fun _ => ⟨x, rfl, hx, by rw [h0]; simp⟩⟩
  · rw [if_neg hz]
    rw [isZero_iff] at hz
    have hy0 : value w y ≠ 0 := fun h => hz ((value_eq_zero hy.norm).mp h)
    have big := addBig (by omega) hx.norm hy hz
    by_cases hxi : InInt (value w x)
    · by_cases hxm : value w x = -2147483648 ∧ wrap = false
      · refine ⟨fun _ => ?_, fun h => absurd ⟨hxm.2, hy0, Or.inl hxm.1⟩ h⟩
        unfold fallbackAdd
        rw [toInt_spec hw hx, if_pos hxi, if_pos hxm]
        rfl
      · have e1 : toInt w wrap x = .ok (value w x) := by rw [toInt_spec hw hx, if_pos hxi, if_neg hxm]
        by_cases hyi : InInt (value w y)
        · by_cases hym : value w y = -2147483648 ∧ wrap = false
          · refine ⟨fun _ => ?_, fun h => absurd ⟨hym.2, hy0, Or.inr ⟨hxi, hym.1⟩⟩ h⟩
            unfold fallbackAdd
            rw [e1, toInt_spec hw hy, if_pos hyi, if_pos hym]
            rfl
          · have e2 : toInt w wrap y = .ok (value w y) := by rw [toInt_spec hw hy, if_pos hyi, if_neg hym]
            refine ⟨fun h => ?_, fun _ => ?_⟩
            · rcases h with ⟨h1, _, h2 | h2⟩
              · exact absurd ⟨h2, h1⟩ hxm
              · exact absurd ⟨h2.2, h1⟩ hym
            · rw [fallbackAdd_eq e1 e2 hxi hyi]
              by_cases hr : InInt (value w x + value w y)
              · rw [if_pos hr]
                obtain ⟨b1, b2⟩ := in_block hw hr
                obtain ⟨k1, k2⟩ := ofSigned_spec _ b1 b2
                exact ⟨_, rfl, k1, k2⟩
              · rw [if_neg hr]
                exact big
        · refine ⟨fun h => ?_, fun _ => ?_⟩
          · rcases h with ⟨h1, _, h2 | h2⟩
            · exact absurd ⟨h2, h1⟩ hxm
            · exact absurd (by rw [h2.2]; decide) hyi
          · unfold fallbackAdd
            rw [e1, toInt_spec hw hy, if_neg hyi]
            exact big
    · refine ⟨fun h => ?_, fun _ => ?_⟩
      · rcases h with ⟨h1, _, h2 | h2⟩
        · exact absurd (by rw [h2]; decide) hxi
        · exact absurd h2.1 hxi
      · unfold fallbackAdd
        rw [toInt_spec hw hx, if_neg hxi]
        exact big

theorem sub_spec (hw : 32 ≤ w) {x y : Big} (hx : Valid w x) (hy : Valid w y) :
    (ConvUB wrap (value w x) (value w y) → sub w wrap x y = .ub)
    ∧ (¬ ConvUB wrap (value w x) (value w y) → Holds w (sub w wrap x y) (value w x - value w y)) := by
  unfold sub
  by_cases hz : y.isZero = true
  · rw [if_pos hz]
    have h0 : value w y = 0 := (value_eq_zero hy.norm).mpr ((isZero_iff y).mp hz)
    exact ⟨fun h => absurd h0 h.2.1, fun _ => ⟨x, rfl, hx, by rw [h0]; simp⟩⟩
  · rw [if_neg hz]
    rw [isZero_iff] at hz
    have hy0 : value w y ≠ 0 := fun h => hz ((value_eq_zero hy.norm).mp h)
    have big := subBig (by omega) hx hy hz
    by_cases hxi : InInt (value w x)
    · by_cases hxm : value w x = -2147483648 ∧ wrap = false
      · refine ⟨fun _ => ?_, fun h => absurd ⟨hxm.2, hy0, Or.inl hxm.1⟩ h⟩
        unfold fallbackSub
        rw [toInt_spec hw hx, if_pos hxi, if_pos hxm]
        rfl
      · have e1 : toInt w wrap x = .ok (value w x) := by rw [toInt_spec hw hx, if_pos hxi, if_neg hxm]
        by_cases hyi : InInt (value w y)
        · by_cases hym : value w y = -2147483648 ∧ wrap = false
          · refine ⟨fun _ => ?_, fun h => absurd ⟨hym.2, hy0, Or.inr ⟨hxi, hym.1⟩⟩ h⟩
            unfold fallbackSub
            rw [e1, toInt_spec hw hy, if_pos hyi, if_pos hym]
            rfl
          · have e2 : toInt w wrap y = .ok (value w y) := by rw [toInt_spec hw hy, if_pos hyi, if_neg hym]
            refine ⟨fun h => ?_, fun _ => ?_⟩
            · rcases h with ⟨h1, _, h2 | h2⟩
              · exact absurd ⟨h2, h1⟩ hxm
              · exact absurd ⟨h2.2, h1⟩ hym
            · rw [fallbackSub_eq e1 e2 hxi hyi]
              by_cases hr : InInt (value w x - value w y)
              · rw [if_pos hr]
                obtain ⟨b1, b2⟩ := in_block hw hr
                obtain ⟨k1, k2⟩ := ofSigned_spec _ b1 b2
                exact ⟨_, rfl, k1, k2⟩
              · rw [if_neg hr]
                exact big
        · refine ⟨fun h => ?_, fun _ => ?_⟩
          · rcases h with ⟨h1, _, h2 | h2⟩
            · exact absurd ⟨h2, h1⟩ hxm
            · exact absurd (by rw [h2.2]; decide) hyi
          · unfold fallbackSub
            rw [e1, toInt_spec hw hy, if_neg hyi]
            exact big
    · refine ⟨fun h => ?_, fun _ => ?_⟩
      · rcases h with ⟨h1, _, h2 | h2⟩
        · exact absurd (by rw [h2]; decide) hxi
        · exact absurd h2.1 hxi
      · unfold fallbackSub
        rw [toInt_spec hw hx, if_neg hxi]
        exact big

/-- adding a number of the same sign; the first may be the "negative zero" that occurs in `operator*=` -/
theorem add_same_sign (hw : 32 ≤ w) {x y : Big} (hx : Norm w x.data) (hy : Valid w y) (hy0 : y.data ≠ [0])
    (hs : x.neg = y.neg) :
    (∃ r, add w wrap x y = .ok r ∧ Norm w r.data ∧ r.neg = y.neg
      ∧ magnitude w r.data = magnitude w x.data + magnitude w y.data) ∨ (wrap = false ∧ y.neg = true ∧ add w wrap x y = .ub) := by
  have hmy : magnitude w y.data ≠ 0 := fun h => hy0 ((mag_zero_iff hy.norm).mp h)
  by_cases hv : Valid w x
  · obtain ⟨h1, h2⟩ := add_spec (wrap := wrap) hw hv hy
    by_cases hc : ConvUB wrap (value w x) (value w y)
    · refine Or.inr ⟨hc.1, ?_, h1 hc⟩
      rcases hc.2.2 with h | h
      · rw [← hs]; exact hv.neg_iff.mpr (by omega)
      · exact hy.neg_iff.mpr (by omega)
    · left
      obtain ⟨r, k1, k2, k3⟩ := h2 hc
      have hrn : r.neg = y.neg := by
        rw [Bool.eq_iff_iff, k2.neg_iff, k3]
        unfold value
        rw [hs]
        split_ifs with h
        · simp only [h, iff_true]; omega
        · simp only [h]
          simp only [Bool.false_eq_true, iff_false]; omega
      refine ⟨r, k1, k2.norm, hrn, ?_⟩
      unfold value at k3
      rw [hrn, hs] at k3
      split_ifs at k3 <;> omega
  · have hx0 : x.data = [0] := by
      by_contra h
      exact hv ⟨hx, fun h' => absurd h' h⟩
    have hxn : x.neg = true := by
      by_contra h
      exact hv ⟨hx, fun _ => by simpa using h⟩
    have hxe : x = { neg := true, data := [0] } := by
      cases x; simp_all
    left
    obtain ⟨k1, k2, k3⟩ := addMagnitude_spec (by omega : 0 < w) x y.data hx hy.norm
    refine ⟨addMagnitude w x y.data, ?_, k1, by rw [k2, hs], k3⟩
    unfold add
    rw [if_neg (by rw [isZero_iff]; exact hy0)]
    unfold fallbackAdd
    rw [show toInt w wrap x = .thrown by rw [hxe]; exact toInt_negzero hw]
    simp only [Outcome.bind, orElse, hs, if_true]

end Panda.Big
