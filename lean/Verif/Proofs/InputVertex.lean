import Verif.Proofs.Text
import Verif.Props.Arith

/-! # Lemmas about reading vertices -/

namespace Panda

theorem peek_cleared (w : List Char) : (⟨w, false, false⟩ : Stream).peek = (⟨w, w.isEmpty, false⟩, w.head?) := by
  cases w <;> rfl

theorem blanks_nil : Spec.Blanks [] := by simp [Spec.Blanks]

theorem blanks_append {b b' : List Char} (h : Spec.Blanks b) (h' : Spec.Blanks b') : Spec.Blanks (b ++ b') := by
  intro c hc
  rcases List.mem_append.mp hc with h1 | h1
  · exact h c h1
  · exact h' c h1

theorem blanks_head_not_digit {b w : List Char} (hb : Spec.Blanks b) (hw : b = [] → ∀ c ∈ w.head?, isDigitChar c = false) :
    ∀ c ∈ (b ++ w).head?, isDigitChar c = false := by
  cases b with
  | nil => exact hw rfl
  | cons x xs =>
    intro c hc
    simp only [List.cons_append, List.head?_cons, Option.mem_some_iff] at hc
    subst hc
    rcases hb x (by simp) with rfl | rfl | rfl <;> decide

/-- one iteration of the loop of `vertex` -/
theorem vertexLoop_step {t b w : List Char} {n d : Int} (hf : Spec.Fraction t n d) (hn : Spec.IsInt n) (hd : Spec.IsInt d)
    (hb : Spec.Blanks b) (hw1 : ∀ c ∈ w.head?, isBlank c = false ∧ c ≠ '/')
    (hw2 : b = [] → ∀ c ∈ w.head?, isDigitChar c = false) (fuel : Nat) (tmp : Int) (num den : Row) :
    ∃ tmp', vertexLoop (fuel + 1) tmp ⟨t ++ (b ++ w), false, false⟩ num den =
      if d = 0 then .thrown
      else if w.head? = some '\n' then .ok (⟨w, w.isEmpty, false⟩, num ++ [n], den ++ [d])
      else vertexLoop fuel tmp' ⟨w, w.isEmpty, false⟩ (num ++ [n]) (den ++ [d]) := by
  have hdw : w.dropWhile isBlank = w := dropWhile_head fun c hc => (hw1 c hc).1
  have hnd := blanks_head_not_digit hb hw2
  cases hf with
  | whole ht =>
    have h1 := readInt_numeral (v := tmp) blanks_nil ht hn hnd
    rw [List.nil_append] at h1
    refine ⟨n, ?_⟩
    rw [vertexLoop, h1]
    simp only [Bool.false_eq_true, if_false]
    rw [skipWhitespace_isEmpty, dropWhile_blanks hb, hdw, peek_cleared]
    simp only
    rw [if_neg (by
      intro h
      exact (hw1 '/' (by rw [h]; rfl)).2 rfl)]
    rw [skipWhitespace_isEmpty, hdw, peek_cleared]
    rw [if_neg (show ¬ (1 : Int) = 0 by decide)]
  | @quotient t t' b1 b2 _ _ ht hb1 hb2 ht' =>
    have hs : t ++ b1 ++ '/' :: (b2 ++ t') ++ (b ++ w) = t ++ (b1 ++ '/' :: (b2 ++ (t' ++ (b ++ w)))) := by simp
    have h1 := readInt_numeral (v := tmp) (rest := b1 ++ '/' :: (b2 ++ (t' ++ (b ++ w)))) blanks_nil ht hn
      (blanks_head_not_digit hb1 (by
        intro _ c hc
        simp only [List.head?_cons, Option.mem_some_iff] at hc
        subst hc; decide))
    rw [List.nil_append] at h1
    have h2 := readInt_numeral (v := n) (rest := b ++ w) hb2 ht' hd hnd
    refine ⟨d, ?_⟩
    rw [vertexLoop, hs, h1]
    simp only [Bool.false_eq_true, if_false]
    rw [skipWhitespace_isEmpty, dropWhile_blanks hb1, dropWhile_head (l := '/' :: _) (by
      intro c hc
      simp only [List.head?_cons, Option.mem_some_iff] at hc
      subst hc; decide), peek_cleared]
    simp only [List.head?_cons, if_true, List.isEmpty_cons, Stream.get, Stream.good, Bool.not_false, Bool.and_true]
    rw [h2]
    simp only
    rw [skipWhitespace_isEmpty, dropWhile_blanks hb, hdw, peek_cleared]

/-- first character of a list of coordinates -/
theorem Coordinates.head {t : List Char} {cs : List (Int × Int)} (h : Spec.Coordinates t cs) :
    ∃ c r, t = c :: r ∧ isSpace c = false ∧ isBlank c = false ∧ c ≠ '/' ∧ c ≠ '(' ∧ c ≠ '\n' ∧ (Spec.Digit c ∨ c = '+' ∨ c = '-') := by
  have key : ∀ {t : List Char} {n d : Int}, Spec.Fraction t n d →
      ∃ c r, t = c :: r ∧ isSpace c = false ∧ isBlank c = false ∧ c ≠ '/' ∧ c ≠ '(' ∧ c ≠ '\n' ∧ (Spec.Digit c ∨ c = '+' ∨ c = '-') := by
    intro t n d h
    cases h with
    | whole ht => exact Numeral.head ht
    | quotient ht _ _ _ =>
      obtain ⟨c, r, rfl, h⟩ := Numeral.head ht
      exact ⟨c, _, rfl, h⟩
  cases h with
  | last hf _ => obtain ⟨c, r, rfl, h⟩ := key hf; exact ⟨c, _, rfl, h⟩
  | cons hf _ _ _ => obtain ⟨c, r, rfl, h⟩ := key hf; exact ⟨c, _, rfl, h⟩

/-- the loop on a line of coordinates; `w` is what follows: the end of the line or of the file -/
theorem vertexLoop_coordinates {t : List Char} {cs : List (Int × Int)} (h : Spec.Coordinates t cs) :
    ∀ {w : List Char}, (w = [] ∨ w.head? = some '\n') → (∀ q ∈ cs, Spec.IsInt q.1 ∧ Spec.IsInt q.2) →
    ∀ (fuel : Nat) (tmp : Int) (num den : Row), cs.length < fuel →
    vertexLoop fuel tmp ⟨t ++ w, false, false⟩ num den =
      if ∃ q ∈ cs, q.2 = 0 then .thrown
      else .ok (⟨w, w.isEmpty, w.isEmpty⟩, num ++ cs.map (·.1), den ++ cs.map (·.2)) := by
  induction h with
  | @last t b n d hf hb =>
    intro w hw hin fuel tmp num den hfuel
    obtain ⟨fuel, rfl⟩ : ∃ k, fuel = k + 1 := ⟨fuel - 1, by simp at hfuel; omega⟩
    obtain ⟨h1, h2⟩ := hin (n, d) (by simp)
    have hw1 : ∀ c ∈ w.head?, isBlank c = false ∧ c ≠ '/' := by
      rcases hw with rfl | hw
      · simp
      · rw [hw]; intro c hc; simp at hc; subst hc; decide
    have hw2 : b = [] → ∀ c ∈ w.head?, isDigitChar c = false := by
      intro _
      rcases hw with rfl | hw
      · simp
      · rw [hw]; intro c hc; simp at hc; subst hc; decide
    obtain ⟨tmp', h3⟩ := vertexLoop_step hf h1 h2 hb hw1 hw2 fuel tmp num den
    rw [List.append_assoc, h3]
    simp only [List.mem_singleton, exists_eq_left, List.map_cons, List.map_nil]
    by_cases h0 : d = 0
    · rw [if_pos h0, if_pos h0]
    · rw [if_neg h0, if_neg h0]
      rcases hw with rfl | hw
      · simp only [List.head?_nil, reduceCtorEq, if_false, List.isEmpty_nil]
        cases fuel with
        | zero => simp at hfuel
        | succ f => rw [vertexLoop, readInt_end]; rfl
      · rw [if_pos hw]
        cases w with
        | nil => simp at hw
        | cons c r => rfl
  | @cons t b ts n d cs hf hb hbne hcs ih =>
    intro w hw hin fuel tmp num den hfuel
    obtain ⟨fuel, rfl⟩ : ∃ k, fuel = k + 1 := ⟨fuel - 1, by simp at hfuel; omega⟩
    obtain ⟨h1, h2⟩ := hin (n, d) (by simp)
    obtain ⟨c, r, hc, -, hcb, hcs1, -, hcn, -⟩ := Coordinates.head hcs
    have hhead : (ts ++ w).head? = some c := by rw [hc]; rfl
    obtain ⟨tmp', h3⟩ := vertexLoop_step (w := ts ++ w) hf h1 h2 hb
      (by rw [hhead]; intro x hx; simp at hx; subst hx; exact ⟨hcb, hcs1⟩)
      (fun h => absurd h hbne) fuel tmp num den
    rw [show t ++ b ++ ts ++ w = t ++ (b ++ (ts ++ w)) by simp, h3, hhead]
    have hne : (ts ++ w).isEmpty = false := by rw [hc]; rfl
    rw [hne]
    simp only [Option.some.injEq, List.mem_cons, exists_eq_or_imp, List.map_cons]
    by_cases h0 : d = 0
    · rw [if_pos h0, if_pos (Or.inl h0)]
    · rw [if_neg h0, if_neg hcn, ih hw (fun q hq => hin q (by simp [hq])) fuel tmp' _ _ (by simp at hfuel; omega)]
      simp only [h0, false_or, List.append_assoc, List.singleton_append]

theorem optionalIdentifier_label {l t : List Char} (h : Spec.Label l) (c : Char) (r : List Char) (ht : t = c :: r)
    (hc : isBlank c = false) (hc' : c ≠ '(') :
    ∃ s, optionalIdentifier (skipWhitespace ⟨l ++ t, false, false⟩) = .ok s ∧ skipWhitespace s = ⟨t, false, false⟩ := by
  have hdt : t.dropWhile isBlank = t := dropWhile_head (by rw [ht]; intro x hx; simp at hx; exact hx ▸ hc)
  cases h with
  | none hb =>
    refine ⟨⟨t, false, false⟩, ?_, ?_⟩
    · rw [skipWhitespace_ok _ _ (by simp), dropWhile_blanks hb, hdt]
      subst ht
      unfold optionalIdentifier isIdentifier
      simp only [peek_cleared, Bool.false_eq_true, if_false, List.head?_cons, Option.some.injEq, hc', decide_false]
      rfl
    · rw [skipWhitespace_ok _ _ (by simp), hdt]
  | @some b b' l hb hb' hl =>
    refine ⟨⟨b' ++ t, false, false⟩, ?_, ?_⟩
    · rw [skipWhitespace_ok _ _ (by simp), List.append_assoc, dropWhile_blanks hb, List.cons_append,
        dropWhile_head (l := '(' :: _) (by intro c hc; simp at hc; subst hc; decide)]
      unfold optionalIdentifier isIdentifier
      simp only [peek_cleared, Bool.false_eq_true, if_false, List.head?_cons, decide_true, if_true, Stream.clear]
      unfold identifier
      simp only
      -- blanks at the start of the label do not matter
      have key : ∀ l' : List Char, (∀ c ∈ l', c ≠ ')' ∧ c ≠ '\r' ∧ c ≠ '\n') → ∀ rest,
          ((l' ++ ')' :: rest).dropWhile isBlank).dropWhile (fun c => c ≠ '\r' && c ≠ '\n' && c ≠ ')') = ')' :: rest := by
        intro l' h rest
        have h2 : ∀ l' : List Char, (∀ c ∈ l', c ≠ ')' ∧ c ≠ '\r' ∧ c ≠ '\n') →
            (l' ++ ')' :: rest).dropWhile (fun c => c ≠ '\r' && c ≠ '\n' && c ≠ ')') = ')' :: rest := by
          intro l' h
          rw [dropWhile_append_of_all (by intro c hc; simp [h c hc])]
          rfl
        induction l' with
        | nil => exact h2 [] (by simp)
        | cons x xs ih =>
          rw [List.cons_append, List.dropWhile_cons]
          split
          · exact ih fun c hc => h c (by simp [hc])
          · exact h2 (x :: xs) h
      have h3 := key l hl (b' ++ t)
      rw [show l ++ ')' :: b' ++ t = l ++ ')' :: (b' ++ t) by simp, h3]
      rfl
    · rw [skipWhitespace_ok _ _ (by simp), dropWhile_blanks hb', hdt]

theorem scaleNumerators_spec {l : Int} : ∀ {cs : List (Int × Int)}, (∀ q ∈ cs, q.2 ∣ l ∧ q.2 ≠ 0) →
    (∀ q ∈ cs, Spec.IsInt (q.1 * (l / q.2))) →
    scaleNumerators l (cs.map (·.1)) (cs.map (·.2)) = .ok (cs.map fun q => q.1 * (l / q.2))
  | [], _, _ => rfl
  | q :: cs, h, hfit => by
    have h1 : l.tdiv q.2 = l / q.2 := by
      obtain ⟨k, rfl⟩ := (h q (by simp)).1
      rw [Int.mul_tdiv_cancel_left _ (h q (by simp)).2, Int.mul_ediv_cancel_left _ (h q (by simp)).2]
    have h2 : fitInt (q.1 * l.tdiv q.2) = .ok (q.1 * (l / q.2)) := by
      rw [h1, fitInt, if_pos]; exact hfit q (by simp)
    simp only [List.map_cons, scaleNumerators, h2, Outcome.bind]
    rw [scaleNumerators_spec (fun q hq => h q (by simp [hq])) fun q hq => hfit q (by simp [hq])]

end Panda
