import Verif.Spec.BigInteger
import Mathlib.Tactic.Linarith
import Mathlib.Tactic.Ring
import Mathlib.Tactic.NormNum
import Mathlib.Tactic.LinearCombination
import Mathlib.Data.Nat.Bitwise

/-! # Proofs about BigInteger magnitudes -/

namespace Panda.Big

variable {w : Nat}

theorem mag_append (a b : List Nat) : magnitude w (a ++ b) = magnitude w a + (2 ^ w) ^ a.length * magnitude w b := by
  induction a with
  | nil => simp [magnitude]
  | cons x a ih => simp only [List.cons_append, magnitude, ih, List.length_cons, pow_succ]; ring

theorem mag_replicate (n : Nat) : magnitude w (List.replicate n 0) = 0 := by
  induction n with
  | zero => rfl
  | succ n ih => simp [List.replicate_succ, magnitude, ih]

theorem mag_lt {l : List Nat} (h : ∀ d ∈ l, d < 2 ^ w) : magnitude w l < (2 ^ w) ^ l.length := by
  induction l with
  | nil => simp [magnitude]
  | cons x l ih =>
    have hx := h x (by simp)
    have := ih (fun d hd => h d (by simp [hd]))
    simp only [magnitude, List.length_cons, pow_succ]
    have h2 : magnitude w l + 1 ≤ (2 ^ w) ^ l.length := this
    have := Nat.mul_le_mul_left (2 ^ w) h2
    nlinarith

theorem Norm.lower {l : List Nat} (h : Norm w l) (h1 : 1 < l.length) : (2 ^ w) ^ (l.length - 1) ≤ magnitude w l := by
  have hl := h.lead h1
  obtain ⟨r, x, rfl⟩ : ∃ r x, l = r ++ [x] := ⟨l.dropLast, l.getLast h.nonempty, (List.dropLast_concat_getLast _).symm⟩
  simp at hl
  rw [mag_append]
  simp only [List.length_append, List.length_singleton, Nat.add_sub_cancel, magnitude, Nat.mul_zero, Nat.add_zero]
  have : 1 ≤ x := by omega
  nlinarith [Nat.mul_le_mul_left ((2 ^ w) ^ r.length) this]

theorem norm_of_lower {l : List Nat} (h0 : l ≠ []) (hd : ∀ d ∈ l, d < 2 ^ w)
    (hl : 1 < l.length → (2 ^ w) ^ (l.length - 1) ≤ magnitude w l) : Norm w l := by
  refine ⟨h0, hd, fun h1 => ?_⟩
  have hl := hl h1
  obtain ⟨r, x, rfl⟩ : ∃ r x, l = r ++ [x] := ⟨l.dropLast, l.getLast h0, (List.dropLast_concat_getLast _).symm⟩
  simp only [List.length_append, List.length_singleton, Nat.add_sub_cancel, mag_append, magnitude, Nat.mul_zero,
    Nat.add_zero] at hl
  have := mag_lt (w := w) (l := r) (fun d hd' => hd d (by simp [hd']))
  simp
  rintro rfl
  simp at hl
  omega

theorem revLess_iff (a b : List Nat) (h : a.length = b.length) (ha : ∀ d ∈ a, d < 2 ^ w) (hb : ∀ d ∈ b, d < 2 ^ w) :
    revLess a b = true ↔ magnitude w a.reverse < magnitude w b.reverse := by
  induction a generalizing b with
  | nil =>
    cases b with
    | nil => simp [revLess]
    | cons => simp at h
  | cons x a ih =>
    cases b with
    | nil => simp at h
    | cons y b =>
      simp only [List.length_cons, Nat.add_right_cancel_iff] at h
      have ha' : ∀ d ∈ a, d < 2 ^ w := fun d hd => ha d (by simp [hd])
      have hb' : ∀ d ∈ b, d < 2 ^ w := fun d hd => hb d (by simp [hd])
      have h1 := mag_lt (w := w) (l := a.reverse) (by simpa using ha')
      have h2 := mag_lt (w := w) (l := b.reverse) (by simpa using hb')
      simp only [revLess, List.reverse_cons, mag_append, List.length_reverse, magnitude, Nat.mul_zero, Nat.add_zero]
      simp only [List.length_reverse, h] at h1 h2 ⊢
      set P := (2 ^ w) ^ b.length
      split_ifs with hxy
      · subst hxy
        rw [ih b h ha' hb']
        omega
      · simp only [decide_eq_true_eq]
        constructor
        · intro hlt
          have := Nat.mul_le_mul_left P (show x + 1 ≤ y from hlt)
          nlinarith
        · intro hlt
          by_contra hge
          have := Nat.mul_le_mul_left P (show y + 1 ≤ x by omega)
          nlinarith

theorem revGreater_eq (a b : List Nat) : revGreater a b = revLess b a := by
  induction a generalizing b with
  | nil => cases b <;> rfl
  | cons x a ih =>
    cases b with
    | nil => rfl
    | cons y b =>
      simp only [revGreater, revLess, ih, gt_iff_lt, eq_comm]

theorem magLess_iff {x y : Big} (hx : Norm w x.data) (hy : Norm w y.data) :
    x.magLess y = true ↔ magnitude w x.data < magnitude w y.data := by
  have key : ∀ {a b : List Nat}, Norm w a → Norm w b → a.length < b.length → magnitude w a < magnitude w b := by
    intro a b ha hb h
    have h1 := mag_lt ha.digits
    have ha0 : 0 < a.length := List.length_pos_iff.mpr ha.nonempty
    have h2 := hb.lower (by omega)
    have h3 : (2 ^ w) ^ a.length ≤ (2 ^ w) ^ (b.length - 1) := Nat.pow_le_pow_right (by positivity) (by omega)
    omega
  unfold magLess
  split_ifs with h
  · simp only [decide_eq_true_eq]
    constructor
    · exact key hx hy
    · intro hm
      by_contra hn
      have := key hy hx (by omega)
      omega
  · rw [revLess_iff (w := w) _ _ (by simpa using h) (by simpa using hx.digits) (by simpa using hy.digits)]
    simp

theorem magGreater_eq (x y : Big) : x.magGreater y = y.magLess x := by
  unfold magGreater magLess
  simp only [revGreater_eq, ne_eq, gt_iff_lt, eq_comm]

theorem revLess_eq_of (a b : List Nat) (h : a.length = b.length) (h1 : revLess a b = false) (h2 : revLess b a = false) :
    a = b := by
  induction a generalizing b with
  | nil => cases b with
    | nil => rfl
    | cons => simp at h
  | cons x a ih =>
    cases b with
    | nil => simp at h
    | cons y b =>
      simp only [List.length_cons, Nat.add_right_cancel_iff] at h
      simp only [revLess] at h1 h2
      by_cases hxy : x = y
      · subst hxy
        simp only [if_true] at h1 h2
        rw [ih b h h1 h2]
      · rw [if_neg hxy] at h1
        rw [if_neg (Ne.symm hxy)] at h2
        simp at h1 h2
        omega

theorem mag_inj {a b : List Nat} (ha : Norm w a) (hb : Norm w b) (h : magnitude w a = magnitude w b) : a = b := by
  have h1 : (Big.mk false a).magLess ⟨false, b⟩ = false := by
    rw [Bool.eq_false_iff, Ne, magLess_iff (w := w) ha hb]
    simp [h]
  have h2 : (Big.mk false b).magLess ⟨false, a⟩ = false := by
    rw [Bool.eq_false_iff, Ne, magLess_iff (w := w) hb ha]
    simp [h]
  unfold magLess at h1 h2
  by_cases hl : a.length = b.length
  · simp only [hl, ne_eq, not_true_eq_false, if_false] at h1 h2
    exact List.reverse_inj.mp (revLess_eq_of _ _ (by simpa using hl) h1 h2)
  · simp only [ne_eq, hl, not_false_eq_true, if_true, Ne.symm hl, decide_eq_false_iff_not] at h1 h2
    omega

theorem popZeros_spec (l : List Nat) (h : l ≠ []) (hd : ∀ d ∈ l, d < 2 ^ w) :
    Norm w (popZeros l).reverse ∧ magnitude w (popZeros l).reverse = magnitude w l.reverse := by
  induction l with
  | nil => simp at h
  | cons x l ih =>
    cases l with
    | nil => exact ⟨⟨by simp [popZeros], by simpa [popZeros] using hd, by simp [popZeros]⟩, rfl⟩
    | cons y l =>
      simp only [popZeros]
      split_ifs with hx
      · obtain ⟨h1, h2⟩ := ih (by simp) (fun d hd' => hd d (by simp [List.mem_cons.mp hd']))
        refine ⟨h1, ?_⟩
        rw [h2, List.reverse_cons (a := x), mag_append, hx]
        simp [magnitude]
      · refine ⟨⟨by simp, ?_, ?_⟩, rfl⟩
        · intro d hd'
          exact hd d (List.mem_reverse.mp hd')
        · intro _
          simp [hx]

theorem shrink_spec (x : Big) (h : x.data ≠ []) (hd : ∀ d ∈ x.data, d < 2 ^ w) :
    Norm w (shrinkToFit x).data ∧ magnitude w (shrinkToFit x).data = magnitude w x.data := by
  have := popZeros_spec (w := w) x.data.reverse (by simpa using h) (by simpa using hd)
  simpa [shrinkToFit] using this

theorem norm_zero : Norm w [0] := ⟨by simp, by simp, by simp⟩

theorem mag_zero_iff {l : List Nat} (h : Norm w l) : magnitude w l = 0 ↔ l = [0] := by
  constructor
  · intro hm
    exact mag_inj h norm_zero (by simpa [magnitude] using hm)
  · rintro rfl
    simp [magnitude]

/-! ### Addition and subtraction of magnitudes -/

theorem addLoop_spec (hw : 0 < w) (ds ss : List Nat) (c : Bool) (hl : ss.length ≤ ds.length)
    (hd : ∀ d ∈ ds, d < 2 ^ w) (hs : ∀ d ∈ ss, d < 2 ^ w) :
    magnitude w (addLoop w ds ss c) = magnitude w ds + magnitude w ss + (if c then 1 else 0)
    ∧ (∀ d ∈ addLoop w ds ss c, d < 2 ^ w)
    ∧ ((addLoop w ds ss c).length = ds.length
      ∨ ((addLoop w ds ss c).length = ds.length + 1 ∧ (2 ^ w) ^ ds.length ≤ magnitude w (addLoop w ds ss c))) := by
  have hB : 1 < 2 ^ w := Nat.one_lt_two_pow (by omega)
  induction ds generalizing ss c with
  | nil =>
    cases ss with
    | cons => simp at hl
    | nil =>
      cases c
      · simp [addLoop, magnitude]
      · simp [addLoop, magnitude, hB]
  | cons d ds ih =>
    have hd0 : d < 2 ^ w := hd d (by simp)
    have hd' : ∀ e ∈ ds, e < 2 ^ w := fun e he => hd e (by simp [he])
    -- how a step carries over
    have step : ∀ (ss : List Nat) (d' : Nat) (c' : Bool) (v : Nat), ss.length ≤ ds.length → (∀ e ∈ ss, e < 2 ^ w) →
        d' < 2 ^ w → d' + 2 ^ w * (if c' then 1 else 0) = d + v →
        magnitude w (d' :: addLoop w ds ss c') = magnitude w (d :: ds) + 2 ^ w * magnitude w ss + v
        ∧ (∀ e ∈ d' :: addLoop w ds ss c', e < 2 ^ w)
        ∧ ((d' :: addLoop w ds ss c').length = (d :: ds).length
          ∨ ((d' :: addLoop w ds ss c').length = (d :: ds).length + 1
            ∧ (2 ^ w) ^ (d :: ds).length ≤ magnitude w (d' :: addLoop w ds ss c'))) := by
      intro ss d' c' v hl hs hdd hv
      obtain ⟨h1, h2, h3⟩ := ih ss c' hl hd' hs
      refine ⟨?_, ?_, ?_⟩
      · simp only [magnitude, h1]
        linear_combination hv
      · intro e he
        rcases List.mem_cons.mp he with rfl | he
        · exact hdd
        · exact h2 e he
      · rcases h3 with h3 | ⟨h3, h4⟩
        · left; simp [h3]
        · right
          refine ⟨by simp [h3], ?_⟩
          simp only [magnitude, List.length_cons, pow_succ]
          have := Nat.mul_le_mul_left (2 ^ w) h4
          rw [Nat.mul_comm] at this
          omega
    cases ss with
    | nil =>
      simp only [addLoop]
      cases c
      · simp [magnitude]
        exact ⟨hd0, hd'⟩
      · simp only [if_true]
        have := step [] ((d + 1) % 2 ^ w) (decide ((d + 1) % 2 ^ w = 0)) 1 (by simp) (by simp)
          (Nat.mod_lt _ (by omega)) ?_
        · simpa [magnitude] using this
        · by_cases h : d + 1 = 2 ^ w
          · simp [h]
          · rw [Nat.mod_eq_of_lt (by omega)]
            simp
    | cons s ss =>
      have hs0 : s < 2 ^ w := hs s (by simp)
      have hs' : ∀ e ∈ ss, e < 2 ^ w := fun e he => hs e (by simp [he])
      have hl' : ss.length ≤ ds.length := by simpa using hl
      simp only [addLoop]
      have fin : ∀ (d' : Nat) (c' : Bool), d' < 2 ^ w → d' + 2 ^ w * (if c' then 1 else 0) = d + (s + (if c then 1 else 0)) →
          magnitude w (d' :: addLoop w ds ss c') = magnitude w (d :: ds) + magnitude w (s :: ss) + (if c then 1 else 0)
        ∧ (∀ e ∈ d' :: addLoop w ds ss c', e < 2 ^ w)
        ∧ ((d' :: addLoop w ds ss c').length = (d :: ds).length
          ∨ ((d' :: addLoop w ds ss c').length = (d :: ds).length + 1
            ∧ (2 ^ w) ^ (d :: ds).length ≤ magnitude w (d' :: addLoop w ds ss c'))) := by
        intro d' c' h1 h2
        obtain ⟨k1, k2, k3⟩ := step ss d' c' _ hl' hs' h1 h2
        refine ⟨?_, k2, k3⟩
        rw [k1]
        simp only [magnitude]
        ring
      by_cases hc : c = true ∧ (s + 1) % 2 ^ w = 0
      · rw [if_pos hc]
        obtain ⟨rfl, hs1⟩ := hc
        apply fin d true hd0
        have : s + 1 = 2 ^ w := by
          by_contra hne
          rw [Nat.mod_eq_of_lt (by omega)] at hs1
          omega
        simp [this]
      · rw [if_neg hc]
        have hsc : s + (if c then 1 else 0) < 2 ^ w := by
          cases c
          · simpa using hs0
          · simp only [if_true]
            by_contra hge
            have : s + 1 = 2 ^ w := by omega
            exact hc ⟨rfl, by rw [this, Nat.mod_self]⟩
        rw [Nat.mod_eq_of_lt hsc]
        apply fin _ _ (Nat.mod_lt _ (by omega))
        generalize s + (if c then 1 else 0) = t at hsc
        by_cases h : d + t < 2 ^ w
        · rw [Nat.mod_eq_of_lt h]
          simp
        · rw [Nat.mod_eq_sub_mod (by omega), Nat.mod_eq_of_lt (by omega)]
          have : d + t - 2 ^ w < d := by omega
          simp only [this, decide_true, if_true]
          omega

theorem subLoop_spec (hw : 0 < w) (ds ss : List Nat) (c : Bool) (hl : ss.length ≤ ds.length)
    (hd : ∀ d ∈ ds, d < 2 ^ w) (hs : ∀ d ∈ ss, d < 2 ^ w)
    (hle : magnitude w ss + (if c then 1 else 0) ≤ magnitude w ds) :
    ∃ r, subLoop w ds ss c = .ok r ∧ r.length = ds.length ∧ (∀ d ∈ r, d < 2 ^ w)
      ∧ magnitude w r + magnitude w ss + (if c then 1 else 0) = magnitude w ds := by
  have hB : 1 < 2 ^ w := Nat.one_lt_two_pow (by omega)
  induction ds generalizing ss c with
  | nil =>
    cases ss with
    | cons => simp at hl
    | nil =>
      cases c
      · exact ⟨[], by simp [subLoop], rfl, by simp, by simp [magnitude]⟩
      · simp [magnitude] at hle
  | cons d ds ih =>
    have hd0 : d < 2 ^ w := hd d (by simp)
    have hd' : ∀ e ∈ ds, e < 2 ^ w := fun e he => hd e (by simp [he])
    have step : ∀ (ss : List Nat) (d' : Nat) (c' : Bool) (v : Nat), ss.length ≤ ds.length → (∀ e ∈ ss, e < 2 ^ w) →
        2 ^ w * magnitude w ss + v ≤ magnitude w (d :: ds) →
        d' < 2 ^ w → d' + v = d + 2 ^ w * (if c' then 1 else 0) →
        ∃ r, (subLoop w ds ss c').bind (fun r => .ok (d' :: r)) = .ok r ∧ r.length = (d :: ds).length
          ∧ (∀ e ∈ r, e < 2 ^ w) ∧ magnitude w r + 2 ^ w * magnitude w ss + v = magnitude w (d :: ds) := by
      intro ss d' c' v hl hs hle hdd hv
      have hle' : magnitude w ss + (if c' then 1 else 0) ≤ magnitude w ds := by
        simp only [magnitude] at hle
        by_contra hcon
        have : magnitude w ds + 1 ≤ magnitude w ss + (if c' then 1 else 0) := by omega
        have := Nat.mul_le_mul_left (2 ^ w) this
        rw [Nat.mul_add, Nat.mul_add] at this
        omega
      obtain ⟨r, h1, h2, h3, h4⟩ := ih ss c' hl hd' hs hle'
      refine ⟨d' :: r, by rw [h1]; rfl, by simp [h2], ?_, ?_⟩
      · intro e he
        rcases List.mem_cons.mp he with rfl | he
        · exact hdd
        · exact h3 e he
      · simp only [magnitude, ← h4]
        linear_combination hv
    cases ss with
    | nil =>
      simp only [subLoop]
      cases c
      · exact ⟨d :: ds, by simp, rfl, hd, by simp [magnitude]⟩
      · simp only [if_true]
        have hq : (d + 2 ^ w - 1) % 2 ^ w + 1 = d + 2 ^ w * (if decide (d = 0) = true then 1 else 0) := by
          by_cases h : d = 0
          · subst h
            rw [Nat.mod_eq_of_lt (by omega)]
            simp; omega
          · rw [show d + 2 ^ w - 1 = (d - 1) + 2 ^ w by omega, Nat.add_mod_right, Nat.mod_eq_of_lt (by omega)]
            simp [h]; omega
        obtain ⟨r, h1, h2, h3, h4⟩ := step [] ((d + 2 ^ w - 1) % 2 ^ w) (decide (d = 0)) 1 (by simp) (by simp)
          (by simpa [magnitude] using hle) (Nat.mod_lt _ (by omega)) hq
        exact ⟨r, h1, h2, h3, by simpa [magnitude] using h4⟩
    | cons s ss =>
      have hs0 : s < 2 ^ w := hs s (by simp)
      have hs' : ∀ e ∈ ss, e < 2 ^ w := fun e he => hs e (by simp [he])
      have hl' : ss.length ≤ ds.length := by simpa using hl
      simp only [subLoop]
      have fin : ∀ (d' : Nat) (c' : Bool), d' < 2 ^ w → d' + (s + (if c then 1 else 0)) = d + 2 ^ w * (if c' then 1 else 0) →
          ∃ r, (subLoop w ds ss c').bind (fun r => .ok (d' :: r)) = .ok r ∧ r.length = (d :: ds).length
          ∧ (∀ e ∈ r, e < 2 ^ w) ∧ magnitude w r + magnitude w (s :: ss) + (if c then 1 else 0) = magnitude w (d :: ds) := by
        intro d' c' h1 h2
        obtain ⟨r, k1, k2, k3, k4⟩ := step ss d' c' _ hl' hs' (by simp only [magnitude] at hle ⊢; omega) h1 h2
        exact ⟨r, k1, k2, k3, by rw [← k4]; simp only [magnitude]; ring⟩
      by_cases hc : c = true ∧ (s + 1) % 2 ^ w = 0
      · rw [if_pos hc]
        obtain ⟨rfl, hs1⟩ := hc
        apply fin d true hd0
        have : s + 1 = 2 ^ w := by
          by_contra hne
          rw [Nat.mod_eq_of_lt (by omega)] at hs1
          omega
        simp [this]
      · rw [if_neg hc]
        have hsc : s + (if c then 1 else 0) < 2 ^ w := by
          cases c
          · simpa using hs0
          · simp only [if_true]
            by_contra hge
            have : s + 1 = 2 ^ w := by omega
            exact hc ⟨rfl, by rw [this, Nat.mod_self]⟩
        rw [Nat.mod_eq_of_lt hsc]
        apply fin _ _ (Nat.mod_lt _ (by omega))
        generalize s + (if c then 1 else 0) = t at hsc
        by_cases h : t ≤ d
        · rw [show d + 2 ^ w - t = (d - t) + 2 ^ w by omega, Nat.add_mod_right, Nat.mod_eq_of_lt (by omega)]
          have : ¬ (d - t > d) := by omega
          simp only [this, decide_false, Bool.false_eq_true, if_false]
          omega
        · rw [Nat.mod_eq_of_lt (by omega)]
          have : d + 2 ^ w - t > d := by omega
          simp only [this, decide_true, if_true]
          omega

theorem addMagnitude_spec (hw : 0 < w) (x : Big) (s : List Nat) (hx : Norm w x.data) (hs : Norm w s) :
    Norm w (addMagnitude w x s).data ∧ (addMagnitude w x s).neg = x.neg
      ∧ magnitude w (addMagnitude w x s).data = magnitude w x.data + magnitude w s := by
  have hpad : magnitude w (x.data ++ List.replicate (s.length - x.data.length) 0) = magnitude w x.data := by
    rw [mag_append, mag_replicate]; simp
  have hd : ∀ d ∈ x.data ++ List.replicate (s.length - x.data.length) 0, d < 2 ^ w := by
    intro d hd
    rcases List.mem_append.mp hd with h | h
    · exact hx.digits d h
    · rw [List.eq_of_mem_replicate h]; positivity
  obtain ⟨h1, h2, h3⟩ := addLoop_spec hw _ s false (by simp; omega) hd hs.digits
  have hx0 : 0 < x.data.length := List.length_pos_iff.mpr hx.nonempty
  have hlen : (x.data ++ List.replicate (s.length - x.data.length) 0).length = max x.data.length s.length := by
    simp; omega
  rw [hpad] at h1
  rw [hlen] at h3
  simp only [Bool.false_eq_true, if_false, Nat.add_zero] at h1
  refine ⟨norm_of_lower ?_ h2 ?_, rfl, h1⟩
  · intro h
    have h0 : (addLoop w (x.data ++ List.replicate (s.length - x.data.length) 0) s false).length = 0 := by
      simpa [addMagnitude] using h
    omega
  · intro hlt
    simp only [addMagnitude] at hlt ⊢
    rcases h3 with h3 | ⟨h3, h4⟩
    · rw [h3, h1]
      rw [h3] at hlt
      rcases Nat.le_total x.data.length s.length with hle | hle
      · rw [Nat.max_eq_right hle] at hlt ⊢
        have := hs.lower hlt
        omega
      · rw [Nat.max_eq_left hle] at hlt ⊢
        have := hx.lower hlt
        omega
    · rw [h3]
      simpa using h4

theorem subtractMagnitude_spec (hw : 0 < w) (x : Big) (s : List Nat) (hx : Norm w x.data) (hs : Norm w s)
    (hle : magnitude w s ≤ magnitude w x.data) :
    ∃ r, subtractMagnitude w x s = .ok r ∧ Norm w r.data ∧ r.neg = (if r.data = [0] then false else x.neg)
      ∧ magnitude w r.data + magnitude w s = magnitude w x.data := by
  have hlen : s.length ≤ x.data.length := by
    by_contra hcon
    have h1 := mag_lt hx.digits
    have hx0 : 0 < x.data.length := List.length_pos_iff.mpr hx.nonempty
    have h2 := hs.lower (by omega)
    have h3 : (2 ^ w) ^ x.data.length ≤ (2 ^ w) ^ (s.length - 1) := Nat.pow_le_pow_right (by positivity) (by omega)
    omega
  obtain ⟨r, h1, h2, h3, h4⟩ := subLoop_spec hw x.data s false hlen hx.digits hs.digits (by simpa using hle)
  have hr : r ≠ [] := by
    intro h
    rw [h] at h2
    exact hx.nonempty (List.length_eq_zero_iff.mp h2.symm)
  have hsh := shrink_spec (w := w) { x with data := r } hr h3
  refine ⟨shrinkToFit { x with data := r }, ?_, hsh.1, ?_, ?_⟩
  · unfold subtractMagnitude
    rw [if_neg (by omega), h1]
    rfl
  · simp [shrinkToFit]
  · rw [hsh.2]
    simpa using h4

end Panda.Big
