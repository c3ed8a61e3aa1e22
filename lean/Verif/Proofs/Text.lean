import Verif.Model.InputVertex
import Verif.Spec.Text
import Mathlib.Tactic.Linarith
import Mathlib.Tactic.Ring
import Mathlib.Tactic.IntervalCases

/-! # Lemmas about streams and numbers in text -/

namespace Panda

theorem digit_iff (c : Char) : isDigitChar c = true ↔ Spec.Digit c := by
  constructor
  · intro h
    unfold isDigitChar at h
    simp only [Bool.and_eq_true, decide_eq_true_eq] at h
    obtain ⟨h1, h2⟩ := h
    have h1' : 48 ≤ c.toNat := h1
    have h2' : c.toNat ≤ 57 := h2
    have key : c = Char.ofNat c.toNat := (Char.ofNat_toNat c).symm
    unfold Spec.Digit
    generalize c.toNat = n at key h1' h2'
    subst key
    interval_cases n <;> decide
  · intro h
    unfold Spec.Digit at h
    simp only [List.mem_cons, List.not_mem_nil, or_false] at h
    rcases h with rfl | rfl | rfl | rfl | rfl | rfl | rfl | rfl | rfl | rfl <;> decide

theorem digit_not_space {c : Char} (h : Spec.Digit c) : isSpace c = false ∧ isBlank c = false ∧ c ≠ '-' ∧ c ≠ '+' ∧
    c ≠ '/' ∧ c ≠ '(' ∧ c ≠ '\n' := by
  unfold Spec.Digit at h
  simp only [List.mem_cons, List.not_mem_nil, or_false] at h
  rcases h with rfl | rfl | rfl | rfl | rfl | rfl | rfl | rfl | rfl | rfl <;> decide

theorem blank_iff (c : Char) : isBlank c = true ↔ c = ' ' ∨ c = '\t' ∨ c = '\r' := by
  simp only [isBlank, Bool.or_eq_true, decide_eq_true_eq, or_assoc]

theorem blank_space {c : Char} (h : isBlank c = true) : isSpace c = true := by
  rcases (blank_iff c).mp h with rfl | rfl | rfl <;> decide

theorem dropWhile_append_of_all {p : Char → Bool} : ∀ {a b : List Char}, (∀ c ∈ a, p c = true) →
    (a ++ b).dropWhile p = b.dropWhile p
  | [], _, _ => rfl
  | c :: cs, b, h => by
    rw [List.cons_append, List.dropWhile_cons, if_pos (h c (by simp))]
    exact dropWhile_append_of_all fun x hx => h x (by simp [hx])

theorem takeWhile_append_of_all {p : Char → Bool} : ∀ {a b : List Char}, (∀ c ∈ a, p c = true) →
    (a ++ b).takeWhile p = a ++ b.takeWhile p
  | [], _, _ => rfl
  | c :: cs, b, h => by
    rw [List.cons_append, List.takeWhile_cons, if_pos (h c (by simp)), takeWhile_append_of_all fun x hx => h x (by simp [hx])]
    rfl

theorem dropWhile_head {p : Char → Bool} {l : List Char} (h : ∀ c ∈ l.head?, p c = false) : l.dropWhile p = l := by
  cases l with
  | nil => rfl
  | cons c cs => rw [List.dropWhile_cons, if_neg (by simp [h c (by simp)])]

theorem takeWhile_head {p : Char → Bool} {l : List Char} (h : ∀ c ∈ l.head?, p c = false) : l.takeWhile p = [] := by
  cases l with
  | nil => rfl
  | cons c cs => rw [List.takeWhile_cons, if_neg (by simp [h c (by simp)])]

theorem dropWhile_blanks {b t : List Char} (hb : Spec.Blanks b) : (b ++ t).dropWhile isBlank = t.dropWhile isBlank :=
  dropWhile_append_of_all fun c hc => (blank_iff c).mpr (hb c hc)

theorem dropWhile_space_blanks {b t : List Char} (hb : Spec.Blanks b) :
    (b ++ t).dropWhile isSpace = t.dropWhile isSpace :=
  dropWhile_append_of_all fun c hc => blank_space ((blank_iff c).mpr (hb c hc))

theorem digitsValue_eq (ds : List Char) : digitsValue ds = Spec.decimal ds := by
  have key : ∀ (ds : List Char) (n : Nat), ds.foldl (fun n c => 10 * n + (c.toNat - 48)) n =
      n * 10 ^ ds.length + Spec.decimal ds := by
    intro ds
    induction ds with
    | nil => intro n; simp [Spec.decimal]
    | cons c cs ih =>
      intro n
      rw [List.foldl_cons, ih, Spec.decimal, List.length_cons, pow_succ]
      have : '0'.toNat = 48 := rfl
      rw [this]; ring
  rw [digitsValue, key]; simp

/-- first character of a numeral -/
theorem Numeral.head {t : List Char} {z : Int} (h : Spec.Numeral t z) :
    ∃ c r, t = c :: r ∧ isSpace c = false ∧ isBlank c = false ∧ c ≠ '/' ∧ c ≠ '(' ∧ c ≠ '\n' ∧ (Spec.Digit c ∨ c = '+' ∨ c = '-') := by
  cases h with
  | plain ds h0 h1 =>
    cases t with
    | nil => exact absurd rfl h0
    | cons c cs =>
      have := digit_not_space (h1 c (by simp))
      exact ⟨c, cs, rfl, this.1, this.2.1, this.2.2.2.2.1, this.2.2.2.2.2.1, this.2.2.2.2.2.2, Or.inl (h1 c (by simp))⟩
  | plus ds => exact ⟨'+', _, rfl, by decide, by decide, by decide, by decide, by decide, by simp⟩
  | minus ds => exact ⟨'-', _, rfl, by decide, by decide, by decide, by decide, by decide, by simp⟩

theorem splitSign_digit {c : Char} {r : List Char} (h : Spec.Digit c) : splitSign (c :: r) = (false, c :: r) := by
  have := digit_not_space h
  unfold splitSign
  split
  · next h' => injection h' with h1 _; exact absurd h1 this.2.2.1
  · next h' => injection h' with h1 _; exact absurd h1 this.2.2.2.1
  · rfl

/-- sign, digits and value of a numeral -/
theorem Numeral.split {t : List Char} {z : Int} (h : Spec.Numeral t z) :
    ∃ (neg : Bool) (ds : List Char), ds ≠ [] ∧ (∀ c ∈ ds, isDigitChar c = true) ∧
      (∀ rest, splitSign (t ++ rest) = (neg, ds ++ rest)) ∧ z = if neg then -(digitsValue ds : Int) else digitsValue ds := by
  cases h with
  | plain ds h0 h1 =>
    refine ⟨false, t, h0, fun c hc => (digit_iff c).mpr (h1 c hc), fun rest => ?_, by simp [digitsValue_eq]⟩
    cases t with
    | nil => exact absurd rfl h0
    | cons c cs => exact splitSign_digit (h1 c (by simp))
  | plus ds h0 h1 =>
    exact ⟨false, ds, h0, fun c hc => (digit_iff c).mpr (h1 c hc), fun rest => rfl, by simp [digitsValue_eq]⟩
  | minus ds h0 h1 =>
    exact ⟨true, ds, h0, fun c hc => (digit_iff c).mpr (h1 c hc), fun rest => rfl, by simp [digitsValue_eq]⟩

theorem convertInt_ok {neg : Bool} {n : Nat} {z : Int} (h : z = if neg then -(n : Int) else n) (hz : Spec.IsInt z) :
    convertInt neg n = (z, false) := by
  unfold convertInt
  simp only [← h]
  rw [if_neg (by have := hz.2; unfold intMax; omega), if_neg (by have := hz.1; unfold intMin; omega)]

/-- reading a number after blanks -/
theorem readInt_numeral {b t rest : List Char} {z v : Int} (hb : Spec.Blanks b) (ht : Spec.Numeral t z)
    (hz : Spec.IsInt z) (hr : ∀ c ∈ rest.head?, isDigitChar c = false) :
    readInt v ⟨b ++ (t ++ rest), false, false⟩ = (⟨rest, rest.isEmpty, false⟩, z) := by
  obtain ⟨neg, ds, h0, h1, h2, h3⟩ := Numeral.split ht
  obtain ⟨c, r, hc, hsp, -⟩ := Numeral.head ht
  have hd : (b ++ (t ++ rest)).dropWhile isSpace = t ++ rest := by
    rw [dropWhile_space_blanks hb]
    apply dropWhile_head
    intro x hx
    rw [hc] at hx
    simp only [List.cons_append, List.head?_cons, Option.mem_some_iff] at hx
    exact hx ▸ hsp
  unfold readInt
  simp only [Stream.good, Bool.not_false, Bool.and_true, if_true, hd]
  rw [show t ++ rest = c :: (r ++ rest) by rw [hc]; rfl]
  simp only
  rw [show c :: (r ++ rest) = t ++ rest by rw [hc]; rfl, h2 rest]
  simp only
  rw [takeWhile_append_of_all h1, takeWhile_head hr, List.append_nil, dropWhile_append_of_all h1, dropWhile_head hr,
    if_neg h0, convertInt_ok h3 hz]

theorem readInt_end (v : Int) : readInt v ⟨[], true, false⟩ = (⟨[], true, true⟩, v) := rfl

theorem skipWhitespace_ok (l : List Char) (e : Bool) (he : e = true → l = []) :
    skipWhitespace ⟨l, e, false⟩ = ⟨l.dropWhile isBlank, false, false⟩ := by
  cases e with
  | false => rfl
  | true => rw [he rfl]; rfl

theorem skipWhitespace_isEmpty (l : List Char) : skipWhitespace ⟨l, l.isEmpty, false⟩ = ⟨l.dropWhile isBlank, false, false⟩ :=
  skipWhitespace_ok l _ (by intro h; simpa using h)

end Panda
