import Verif.Proofs.BigMul

/-! # Proofs about BigInteger division -/

namespace Panda.Big

variable {w : Nat} {wrap : Bool}

theorem mag_bit (hw : 0 < w) (l : List Nat) (hl : ∀ d ∈ l, d < 2 ^ w) (k : Nat) :
    l.getD (k / w) 0 / 2 ^ (k % w) % 2 = magnitude w l / 2 ^ k % 2 := by
  have key : ∀ x j : Nat, x / 2 ^ j % 2 = (x.testBit j).toNat := by
    intro x j
    rw [Nat.testBit_eq_decide_div_mod_eq]
    rcases Nat.mod_two_eq_zero_or_one (x / 2 ^ j) with h | h <;> simp [h]
  rw [key, key]
  congr 1
  induction l generalizing k with
  | nil => simp [magnitude]
  | cons d l ih =>
    have hd := hl d (by simp)
    have hm : magnitude w (d :: l) = 2 ^ w * magnitude w l + d := by simp only [magnitude]; ring
    rw [hm, Nat.testBit_two_pow_mul_add _ hd]
    by_cases hk : k < w
    · rw [if_pos hk, Nat.div_eq_of_lt hk, Nat.mod_eq_of_lt hk]
      rfl
    · rw [if_neg hk, ← ih (fun e he => hl e (by simp [he])) (k - w)]
      have h1 : k / w = (k - w) / w + 1 := by
        rw [Nat.div_eq_sub_div hw (by omega)]
      have h2 : k % w = (k - w) % w := Nat.mod_eq_sub_mod (by omega)
      rw [h1, h2]
      rfl

theorem orFront_spec {x : Big} {b : Nat} (hw : 0 < w) (hx : Norm w x.data) (he : ∀ y, x.data.head? = some y → y % 2 = 0)
    (hb : b < 2) :
    Norm w (orFront x b).data ∧ (orFront x b).neg = x.neg
    ∧ magnitude w (orFront x b).data = magnitude w x.data + b := by
  have h2 : 2 ^ w = 2 * 2 ^ (w - 1) := by
    rw [← pow_succ', Nat.sub_add_cancel hw]
  unfold orFront
  rcases hd : x.data with _ | ⟨d, ds⟩
  · exact absurd hd hx.nonempty
  have hev := he d (by simp [hd])
  have hor : d ||| b = d + b := by
    have h1 : d = 2 ^ 1 * (d / 2) := by omega
    rw [h1]
    exact (Nat.two_pow_add_eq_or_of_lt (by simpa using hb) _).symm
  have hdd := hx.digits d (by simp [hd])
  have hlow := hx.lower
  simp only [hor]
  refine ⟨norm_of_lower (by simp) ?_ ?_, by simp, by simp only [magnitude]; ring⟩
  · intro e he'
    rcases List.mem_cons.mp he' with rfl | he'
    · omega
    · exact hx.digits e (by simp [hd, he'])
  · intro hlt
    rw [hd] at hlow
    have := hlow (by simpa using hlt)
    simp only [List.length_cons, magnitude] at this ⊢
    omega

theorem divLoop_spec (hw : 0 < w) (data : List Nat) (hdata : ∀ d ∈ data, d < 2 ^ w) {y : Big} (hy : Norm w y.data)
    (k : Nat) (rem res : Big) (h1 : Norm w rem.data) (h2 : rem.neg = false) (h3 : Norm w res.data) (h4 : res.neg = false)
    (h5 : magnitude w rem.data < magnitude w y.data)
    (h6 : magnitude w rem.data + magnitude w res.data * magnitude w y.data = magnitude w data / 2 ^ k) :
    ∃ rem' res', divLoop w data y k (rem, res) = .ok (rem', res') ∧ Norm w rem'.data ∧ rem'.neg = false
      ∧ Norm w res'.data ∧ res'.neg = false ∧ magnitude w rem'.data < magnitude w y.data
      ∧ magnitude w rem'.data + magnitude w res'.data * magnitude w y.data = magnitude w data := by
  induction k generalizing rem res with
  | zero => exact ⟨rem, res, rfl, h1, h2, h3, h4, h5, by simpa using h6⟩
  | succ k ih =>
    simp only [divLoop]
    obtain ⟨a1, a2, a3, a4⟩ := shiftLeft_spec hw h1
    obtain ⟨b1, b2, b3, b4⟩ := shiftLeft_spec hw h3
    obtain ⟨c1, c2, c3⟩ := orFront_spec (b := data.getD (k / w) 0 / 2 ^ (k % w) % 2) hw a1 a4 (Nat.mod_lt _ (by norm_num))
    rw [mag_bit hw data hdata k] at c1 c2 c3 ⊢
    rw [a3] at c3
    have hstep : magnitude w data / 2 ^ k = 2 * (magnitude w data / 2 ^ (k + 1)) + magnitude w data / 2 ^ k % 2 := by
      rw [pow_succ, ← Nat.div_div_eq_div_mul]; omega
    have hb : magnitude w data / 2 ^ k % 2 < 2 := Nat.mod_lt _ (by norm_num)
    generalize magnitude w data / 2 ^ k % 2 = b at *
    by_cases hlt : (orFront (shiftLeft w rem) b).magLess y = true
    · rw [hlt]
      simp only [Bool.not_true, Bool.false_eq_true, if_false]
      rw [magLess_iff c1 hy] at hlt
      refine ih _ _ c1 (by rw [c2, a2, h2]) b1 (by rw [b2, h4]) hlt ?_
      rw [c3, b3, hstep, ← h6]; ring
    · have hlt' : (orFront (shiftLeft w rem) b).magLess y = false := by simpa using hlt
      rw [hlt']
      simp only [Bool.not_false, if_true]
      rw [magLess_iff c1 hy] at hlt
      obtain ⟨r, d1, d2, d3, d4⟩ := subtractMagnitude_spec hw _ y.data c1 hy (by omega)
      rw [d1]
      simp only [Outcome.bind]
      obtain ⟨e1, e2, e3⟩ := orFront_spec (b := 1) hw b1 b4 (by norm_num)
      refine ih _ _ d2 ?_ e1 (by rw [e2, b2, h4]) ?_ ?_
      · rw [d3, c2, a2, h2]; simp
      · omega
      · rw [e3, b3, hstep, ← h6]
        have : magnitude w r.data + magnitude w y.data = 2 * magnitude w rem.data + b := by omega
        linear_combination this

/-- quotient and remainder of the magnitudes -/
theorem divLoop_result (hw : 32 ≤ w) {x y : Big} (hx : Norm w x.data) (hy : Norm w y.data) (hy0 : y.data ≠ [0]) :
    ∃ rem res, divLoop w x.data y (w * x.data.length) (ofSigned w 0, ofSigned w 0) = .ok (rem, res)
      ∧ Valid w rem ∧ rem.neg = false ∧ Valid w res ∧ res.neg = false
      ∧ magnitude w res.data = magnitude w x.data / magnitude w y.data
      ∧ magnitude w rem.data = magnitude w x.data % magnitude w y.data := by
  have hmy : magnitude w y.data ≠ 0 := fun h => hy0 ((mag_zero_iff hy).mp h)
  have e : ofSigned w 0 = { neg := false, data := [0] } := by simp [ofSigned]
  have hlt : magnitude w x.data < 2 ^ (w * x.data.length) := by
    rw [pow_mul]; exact mag_lt hx.digits
  obtain ⟨rem, res, h1, h2, h3, h4, h5, h6, h7⟩ := divLoop_spec (by omega : 0 < w) x.data hx.digits hy
    (w * x.data.length) (ofSigned w 0) (ofSigned w 0) (by rw [e]; exact norm_zero) (by rw [e])
    (by rw [e]; exact norm_zero) (by rw [e]) (by rw [e]; simp [magnitude]; omega)
    (by rw [e, Nat.div_eq_of_lt hlt]; simp [magnitude])
  refine ⟨rem, res, h1, ⟨h2, fun _ => h3⟩, h3, ⟨h4, fun _ => h5⟩, h5, ?_, ?_⟩
  · rw [← h7]
    rw [Nat.add_mul_div_right _ _ (by omega), Nat.div_eq_of_lt h6]; simp
  · rw [← h7, Nat.add_mul_mod_self_right, Nat.mod_eq_of_lt h6]

/-- the quotient gets the wrong sign: negative dividend, not both operands fit an `int`, and no shortcut -/
def WrongSign (a b : Int) : Prop := a < 0 ∧ ¬ (InInt a ∧ InInt b) ∧ a ≠ b ∧ b ≠ 1 ∧ b ≠ -1

open Classical in
theorem div_spec (hw : 32 ≤ w) {x y : Big} (hx : Valid w x) (hy : Valid w y) (hy0 : value w y ≠ 0) :
    Holds w (div w wrap x y)
      (if WrongSign (value w x) (value w y) then -((value w x).tdiv (value w y)) else (value w x).tdiv (value w y))
    ∨ (wrap = false ∧ div w wrap x y = .ub ∧ (0 ≤ value w x → value w y = -2147483648)) := by
  have hyd : y.data ≠ [0] := fun h => hy0 ((value_eq_zero hy.norm).mpr h)
  have hmy : magnitude w y.data ≠ 0 := fun h => hyd ((mag_zero_iff hy.norm).mp h)
  unfold div
  rw [if_neg (by rw [isZero_iff]; exact hyd)]
  by_cases hz : x.isZero = true
  · left
    have hx0 : value w x = 0 := (value_eq_zero hx.norm).mpr ((isZero_iff x).mp hz)
    rw [hz, if_pos rfl]
    simp only [Outcome.bind, if_true]
    have hf : x.flipSign = x := by simp [flipSign, hz]
    rw [hf]
    refine ⟨x, by simp, hx, ?_⟩
    rw [hx0]; simp [WrongSign]
  · rw [if_neg hz, isUnit_spec hw hy]
    simp only [Outcome.bind, decide_eq_true_eq]
    by_cases hu : value w y = 1 ∨ value w y = -1
    · rw [if_pos hu]
      left
      have hws : ¬ WrongSign (value w x) (value w y) := by
        rintro ⟨_, _, _, h1, h2⟩
        omega
      rw [if_neg hws]
      by_cases hn : y.neg = true
      · rw [if_pos hn]
        obtain ⟨f1, f2⟩ := flipSign_spec hx
        refine ⟨_, rfl, f1, ?_⟩
        have := hy.neg_iff.mp hn
        rw [f2, show value w y = -1 by omega]; simp
      · rw [if_neg hn]
        have : ¬ value w y < 0 := fun h => hn (hy.neg_iff.mpr h)
        exact ⟨x, rfl, hx, by rw [show value w y = 1 by omega]; simp⟩
    · rw [if_neg hu]
      push Not at hu
      rcases conv_cases hw hx hy wrap with ⟨h1, h2, h3, h4⟩ | ⟨h1, h2, h3⟩ | ⟨h1, h2⟩
      · left
        have hin := tdiv_inInt h1 hu.2 hy0
        have : fallbackDiv w wrap x y = .ok (ofSigned w ((value w x).tdiv (value w y))) := by
          unfold fallbackDiv
          rw [h3, h4]
          simp only [Outcome.bind]
          rw [if_neg hy0, if_neg (fun h => hu.2 h.1), intDiv_eq hy0 hin]
        rw [this]
        have hws : ¬ WrongSign (value w x) (value w y) := fun h => h.2.1 ⟨h1, h2⟩
        rw [if_neg hws]
        obtain ⟨b1, b2⟩ := in_block hw hin
        obtain ⟨k1, k2⟩ := ofSigned_spec _ b1 b2
        exact ⟨_, rfl, k1, k2⟩
      · right
        refine ⟨h1, ?_, ?_⟩
        · unfold fallbackDiv
          rcases h2 with h2 | ⟨⟨a, h2⟩, h3⟩
          · rw [h2]; rfl
          · rw [h2, h3]; rfl
        · intro h
          rcases h3 with h3 | h3
          · omega
          · exact h3
      · have hf : fallbackDiv w wrap x y = .thrown := by
          unfold fallbackDiv
          rcases h2 with h2 | ⟨⟨a, h2⟩, h3⟩
          · rw [h2]; rfl
          · rw [h2, h3]; rfl
        rw [hf]
        simp only [orElse]
        unfold divideMagnitudes
        by_cases hml : x.magLess y = true
        · rw [if_pos hml]
          rw [magLess_iff hx.norm hy.norm] at hml
          left
          have e : ofSigned w 0 = zero := by simp [ofSigned, zero]
          rw [e]
          have e2 : zero.flipSign = zero := by rfl
          simp only [e2, ite_self]
          refine ⟨zero, rfl, valid_zero, ?_⟩
          have : (value w x).tdiv (value w y) = 0 := by
            have q : (value w x).tdiv (value w y) = 0 ↔ (value w x).natAbs < (value w y).natAbs := by
              rw [← Int.natAbs_eq_zero, Int.natAbs_tdiv]
              exact (Nat.div_eq_zero_iff.trans (by constructor <;> intro h <;> omega))
            rw [q]
            unfold value
            split_ifs <;> omega
          rw [this, value_zero]; simp
        · rw [if_neg hml]
          rw [magLess_iff hx.norm hy.norm] at hml
          by_cases heq : x.eq y = true
          · rw [if_pos heq]
            have hxy : x = y := by
              unfold eq at heq
              split_ifs at heq with hc
              push Not at hc
              cases x; cases y
              simp_all
            left
            subst hxy
            have hws : ¬ WrongSign (value w x) (value w x) := fun h => h.2.2.1 rfl
            rw [if_neg hws, Int.tdiv_self hy0]
            simp only [ne_eq, not_true_eq_false, if_false]
            obtain ⟨b1, b2⟩ := in_block (v := 1) hw (by decide)
            obtain ⟨k1, k2⟩ := ofSigned_spec _ b1 b2
            exact ⟨_, rfl, k1, k2⟩
          · rw [if_neg heq]
            have hne : value w x ≠ value w y := by
              intro h
              apply heq
              rw [Valid.ext hx hy h]
              simp [eq]
            have hxz : x.data ≠ [0] := fun h => hz ((isZero_iff x).mpr h)
            have hfd : (if x.neg = true then x.flipSign else x).data = x.data := by
              unfold flipSign
              split_ifs <;> rfl
            simp only [hfd]
            obtain ⟨rem, res, r1, r2, r3, r4, r5, r6, r7⟩ := divLoop_result hw hx.norm hy.norm hyd
            rw [r1]
            simp only [Outcome.bind]
            have hres : value w res = (magnitude w x.data / magnitude w y.data : Nat) := by
              rw [value_pos r5, r6]
            obtain ⟨fr1, fr2⟩ := flipSign_spec r4
            by_cases hn : x.neg = true
            · rw [if_pos hn]
              have hws : WrongSign (value w x) (value w y) := ⟨hx.neg_iff.mp hn, h1, hne, hu.1, hu.2⟩
              obtain ⟨fm1, fm2⟩ := flipSign_spec r2
              obtain ⟨s1, s2⟩ := add_spec (wrap := wrap) hw fm1 hy
              by_cases hc : ConvUB wrap (value w rem.flipSign) (value w y)
              · right
                rw [s1 hc]
                refine ⟨hc.1, rfl, fun h => ?_⟩
                have := hx.neg_iff.mp hn
                omega
              · left
                obtain ⟨r, t1, t2, t3⟩ := s2 hc
                rw [t1, if_pos hws]
                simp only
                rw [hn]
                by_cases hyn : y.neg = true
                · rw [hyn]
                  simp only [ne_eq, not_true_eq_false, if_false]
                  refine ⟨_, rfl, fr1, ?_⟩
                  rw [fr2, hres, value_neg hn, value_neg hyn, Int.neg_tdiv, Int.tdiv_neg, ← Int.ofNat_tdiv]
                  simp
                · have hyn : y.neg = false := by simpa using hyn
                  rw [hyn]
                  simp only [ne_eq, Bool.false_eq_true, not_false_eq_true, if_true]
                  obtain ⟨g1, g2⟩ := flipSign_spec fr1
                  refine ⟨_, rfl, g1, ?_⟩
                  rw [g2, fr2, hres, value_neg hn, value_pos hyn, Int.neg_tdiv, ← Int.ofNat_tdiv]
            · rw [if_neg hn]
              have hn' : x.neg = false := by simpa using hn
              left
              have hws : ¬ WrongSign (value w x) (value w y) := fun h => hn (hx.neg_iff.mpr h.1)
              rw [if_neg hws]
              simp only
              rw [hn']
              by_cases hyn : y.neg = true
              · rw [hyn]
                simp only [ne_eq, Bool.true_eq_false, not_false_eq_true, if_true]
                refine ⟨_, rfl, fr1, ?_⟩
                rw [fr2, hres, value_pos hn', value_neg hyn, Int.tdiv_neg, ← Int.ofNat_tdiv]
              · have hyn : y.neg = false := by simpa using hyn
                rw [hyn]
                simp only [ne_eq, not_true_eq_false, if_false]
                refine ⟨_, rfl, r4, ?_⟩
                rw [hres, value_pos hn', value_pos hyn, ← Int.ofNat_tdiv]

/-- what `%` computes for a positive divisor -/
def modValue (a b : Int) : Int :=
  if 0 ≤ a then a % b
  else if -b < a ∧ ¬ (InInt a ∧ InInt b) then a
  else b - (-a) % b

theorem mod_spec (hw : 32 ≤ w) {x y : Big} (hx : Valid w x) (hy : Valid w y) (hy0 : 0 < value w y) :
    Holds w (mod w wrap x y) (modValue (value w x) (value w y))
    ∨ (wrap = false ∧ mod w wrap x y = .ub ∧ value w x < 0) := by
  have hyd : y.data ≠ [0] := fun h => by rw [(value_eq_zero hy.norm).mpr h] at hy0; omega
  have hyn : y.neg = false := by
    by_contra h
    have := hy.neg_iff.mp (by simpa using h)
    omega
  have hmy : magnitude w y.data ≠ 0 := fun h => hyd ((mag_zero_iff hy.norm).mp h)
  have hvy : value w y = magnitude w y.data := value_pos hyn
  unfold mod
  have hp : y.isPositive = true := by
    simp [isPositive, hyn, isZero, hyd]
  rw [hp]
  simp only [Bool.not_true, Bool.false_eq_true, if_false]
  rcases conv_cases hw hx hy wrap with ⟨h1, h2, h3, h4⟩ | ⟨h1, h2, h3⟩ | ⟨h1, h2⟩
  · left
    have hval : (if value w x < 0 then value w y else 0) + (value w x).tmod (value w y) = modValue (value w x) (value w y) := by
      unfold modValue
      by_cases hn : value w x < 0
      · rw [if_pos hn, if_neg (by omega), if_neg (fun h => h.2 ⟨h1, h2⟩)]
        have : (value w x).tmod (value w y) = -((-value w x).tmod (value w y)) := by rw [Int.neg_tmod]; simp
        rw [this, Int.tmod_eq_emod_of_nonneg (by omega)]
        ring
      · rw [if_neg hn, if_pos (by omega), Int.tmod_eq_emod_of_nonneg (by omega)]
        ring
    have hin : InInt (modValue (value w x) (value w y)) := by
      unfold modValue
      unfold InInt at *
      have q1 := Int.emod_nonneg (value w x) (by omega : value w y ≠ 0)
      have q2 := Int.emod_lt_of_pos (value w x) hy0
      have q3 := Int.emod_nonneg (-value w x) (by omega : value w y ≠ 0)
      have q4 := Int.emod_lt_of_pos (-value w x) hy0
      split_ifs <;> omega
    have : fallbackMod w wrap x y = .ok (ofSigned w (modValue (value w x) (value w y))) := by
      unfold fallbackMod
      rw [h3, h4]
      simp only [Outcome.bind]
      rw [if_neg (by omega), hval, intMachine_eq, if_pos hin]
    rw [this]
    obtain ⟨b1, b2⟩ := in_block hw hin
    obtain ⟨k1, k2⟩ := ofSigned_spec _ b1 b2
    exact ⟨_, rfl, k1, k2⟩
  · right
    refine ⟨h1, ?_, ?_⟩
    · unfold fallbackMod
      rcases h2 with h2 | ⟨⟨a, h2⟩, h3⟩
      · rw [h2]; rfl
      · rw [h2, h3]; rfl
    · rcases h3 with h3 | h3 <;> omega
  · have hf : fallbackMod w wrap x y = .thrown := by
      unfold fallbackMod
      rcases h2 with h2 | ⟨⟨a, h2⟩, h3⟩
      · rw [h2]; rfl
      · rw [h2, h3]; rfl
    rw [hf]
    simp only [orElse]
    unfold divideMagnitudes
    by_cases hml : x.magLess y = true
    · rw [if_pos hml]
      rw [magLess_iff hx.norm hy.norm] at hml
      left
      refine ⟨x, rfl, hx, ?_⟩
      unfold modValue
      by_cases hn : x.neg = true
      · have hv := value_neg (w := w) hn
        have := hx.neg_iff.mp hn
        rw [if_neg (by omega), if_pos ⟨by omega, h1⟩]
      · have hv := value_pos (w := w) (x := x) (by simpa using hn)
        rw [if_pos (by omega), Int.emod_eq_of_lt (by omega) (by omega)]
    · rw [if_neg hml]
      rw [magLess_iff hx.norm hy.norm] at hml
      by_cases heq : x.eq y = true
      · rw [if_pos heq]
        have hxy : x = y := by
          unfold eq at heq
          split_ifs at heq with hc
          push Not at hc
          cases x; cases y
          simp_all
        left
        subst hxy
        obtain ⟨b1, b2⟩ := in_block (v := 0) hw (by decide)
        obtain ⟨k1, k2⟩ := ofSigned_spec _ b1 b2
        refine ⟨_, rfl, k1, ?_⟩
        rw [k2, modValue, if_pos (by omega), Int.emod_self]
      · rw [if_neg heq]
        have hfd : (if x.neg = true then x.flipSign else x).data = x.data := by
          unfold flipSign
          split_ifs <;> rfl
        simp only [hfd]
        obtain ⟨rem, res, r1, r2, r3, r4, r5, r6, r7⟩ := divLoop_result hw hx.norm hy.norm hyd
        rw [r1]
        simp only [Outcome.bind]
        have hrem : value w rem = (magnitude w x.data % magnitude w y.data : Nat) := by
          rw [value_pos r3, r7]
        by_cases hn : x.neg = true
        · rw [if_pos hn]
          have hv := value_neg (w := w) hn
          have hlt := hx.neg_iff.mp hn
          obtain ⟨fm1, fm2⟩ := flipSign_spec r2
          obtain ⟨s1, s2⟩ := add_spec (wrap := wrap) hw fm1 hy
          by_cases hc : ConvUB wrap (value w rem.flipSign) (value w y)
          · right
            rw [s1 hc]
            exact ⟨hc.1, rfl, hlt⟩
          · left
            obtain ⟨r, t1, t2, t3⟩ := s2 hc
            rw [t1]
            refine ⟨r, rfl, t2, ?_⟩
            rw [t3, fm2, hrem, modValue, if_neg (by omega), if_neg (fun h => by omega), hv, hvy, neg_neg]
            push_cast
            ring
        · rw [if_neg hn]
          have hv := value_pos (w := w) (x := x) (by simpa using hn)
          left
          refine ⟨rem, rfl, r2, ?_⟩
          rw [hrem, modValue, if_pos (by omega), hv, hvy]
          push_cast
          rfl

end Panda.Big
