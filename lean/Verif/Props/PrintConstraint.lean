import Verif.Props.InputConstraint

/-! # Properties C42 (whole sections) and C43: printed inequalities and equations read back as the same rows -/

namespace Panda

/-! ## whole sections (C42) -/

/-- keywords do not end with a digit -/
theorem keyword_last {s : List Char} (h : isKeyword s = true) : s.reverse.head? ∈ "NnSsX:=MmDdL".toList.map some := by
  unfold isKeyword isKeywordConicalHull isKeywordReducedSomething isKeywordReducedConicalHull isKeywordConvexHull
    isKeywordReducedConvexHull isKeywordDimension isKeywordEquations isKeywordInequalities isKeywordReducedInequalities
    isKeywordMaps isKeywordNames isKeywordEnd at h
  simp only [List.any_cons, List.any_nil, Bool.or_false, Bool.or_eq_true, decide_eq_true_eq] at h
  repeat' (first | (subst h; decide +kernel) | (rcases h with h | h))

theorem numeral_last {t : List Char} {z : Int} (h : Spec.Numeral t z) : ∃ u d, t = u ++ [d] ∧ Spec.Digit d := by
  cases h with
  | plain ds h0 h1 => exact ⟨t.dropLast, t.getLast h0, (List.dropLast_append_getLast h0).symm, h1 _ (List.getLast_mem h0)⟩
  | plus ds h0 h1 =>
    exact ⟨'+' :: ds.dropLast, ds.getLast h0, by rw [List.cons_append, List.dropLast_append_getLast h0], h1 _ (List.getLast_mem h0)⟩
  | minus ds h0 h1 =>
    exact ⟨'-' :: ds.dropLast, ds.getLast h0, by rw [List.cons_append, List.dropLast_append_getLast h0], h1 _ (List.getLast_mem h0)⟩

/-- a line ending with a number is neither blank nor a keyword -/
theorem number_line_trim {u n b : List Char} {z : Int} (h : Spec.Numeral n z) (hb : Spec.Blanks b) :
    isKeyword (trimWhitespace (u ++ (n ++ b))) = false ∧ trimWhitespace (u ++ (n ++ b)) ≠ [] := by
  obtain ⟨m, d, rfl, hd⟩ := numeral_last h
  have hdb := (digit_not_space hd).2.1
  have key : ∀ u : List Char, ∃ u', (u ++ d :: b).dropWhile isBlank = u' ++ d :: b := by
    intro u
    induction u with
    | nil => 
      rw [List.nil_append, List.dropWhile_cons_of_neg (by simp [hdb])]
      exact ⟨[], rfl⟩
    | cons a u ih =>
      rw [List.cons_append]
      by_cases ha : isBlank a = true
      · rw [List.dropWhile_cons_of_pos ha]; exact ih
      · rw [List.dropWhile_cons_of_neg ha]; exact ⟨a :: u, rfl⟩
  obtain ⟨u', hu'⟩ := key (u ++ m)
  have ht : trimWhitespace (u ++ (m ++ [d] ++ b)) = u' ++ [d] := by
    unfold trimWhitespace
    rw [show u ++ (m ++ [d] ++ b) = u ++ m ++ d :: b by simp, hu']
    rw [List.reverse_append, List.reverse_cons, List.append_assoc, dropWhile_append_of_all, List.singleton_append,
      List.dropWhile_cons_of_neg (by simp [hdb])]
    · simp
    · intro c hc
      exact (blank_iff c).mpr (hb c (by simpa using hc))
  rw [ht]
  refine ⟨?_, by simp⟩
  by_contra hk
  rw [Bool.not_eq_false] at hk
  have := keyword_last hk
  simp only [List.reverse_append, List.reverse_singleton, List.singleton_append, List.head?_cons] at this
  unfold Spec.Digit at hd
  simp only [List.mem_cons, List.not_mem_nil, or_false] at hd
  rcases hd with rfl | rfl | rfl | rfl | rfl | rfl | rfl | rfl | rfl | rfl <;> revert this <;> decide +kernel

/-- a line of a section with names: `terms rel rhs`, over known names, one of which is found at the beginning of the
line, no variable repeated, the relation belongs into the section and the numbers fit -/
def NamedLine (equation : Bool) (names : List (List Char)) (t : List Char) (c : List (List Char × Int) × Spec.Rel × Int) : Prop :=
  Spec.ConstraintLine t c.1 c.2.1 c.2.2 ∧ Spec.NameAt names t ∧ (∀ q ∈ c.1, q.1 ∈ names ∧ Spec.Symmetric q.2) ∧
    Spec.Symmetric c.2.2 ∧ ¬ Spec.Repeated c.1 ∧ (equation = true ↔ c.2.1 = .eq)

theorem namedLine_read {equation : Bool} {names : Names} (hn : Spec.AdmissibleNames names) (hp : Spec.NoPrefix names)
    {t : List Char} {c : List (List Char × Int) × Spec.Rel × Int} (h : NamedLine equation names t c) :
    isKeyword (trimWhitespace t) = false ∧ trimWhitespace t ≠ [] ∧ ∀ w, ∃ row,
      potentiallyNamedConstraint equation names ⟨t ++ '\n' :: w, false, false⟩ = .ok (⟨'\n' :: w, false, false⟩, row) ∧
        row ≠ [] ∧ Spec.ConstraintRow names c.1 c.2.1 c.2.2 row := by
  obtain ⟨h1, h2, h3, h4, h5, h6⟩ := h
  have hl := h1
  obtain ⟨l, s, r, n, b, hl, hs, hre, hnu, hb, rfl⟩ := hl
  have ht := number_line_trim (u := l ++ (s ++ r)) hnu hb
  simp only [List.append_assoc] at ht
  refine ⟨ht.1, ht.2, fun w => ?_⟩
  have hne : names ≠ [] := by
    obtain ⟨p, q, x, r, -, hx, -⟩ := h2
    intro h0; rw [h0] at hx; simp at hx
  obtain ⟨row, h7, h8⟩ := C42_named (w := '\n' :: w) (names := names) (equation := equation) h1 hn.1 (fun q hq => (h3 q hq).2) h4
    (Or.inr rfl) (fun q hq => (h3 q hq).1) h5 h6
  refine ⟨row, ?_, ?_, h8⟩
  · unfold potentiallyNamedConstraint
    rw [if_neg, h7]
    rintro (h | h)
    · exact hne h
    · rw [containsNames_line hn.2 hp h2] at h; exact absurd h (by decide)
  · intro h0
    have := h8.1
    rw [h0] at this; simp at this

/-- **C42**, whole sections: a section of inequalities or equations over named variables whose lines are well-formed, up to
the next keyword or the end of the file, is read completely and in order, and the stream is left at that keyword (after
it for `End`). -/
theorem C42_sections {equation : Bool} {names : Names} (hn : Spec.AdmissibleNames names) (hp : Spec.NoPrefix names)
    {k t w : List Char} {cs : List (List (List Char × Int) × Spec.Rel × Int)} (h : Spec.Lines (NamedLine equation names) t cs)
    (hk : '\n' ∉ k) (hkw : sectionKeyword equation k = true) (hw : ConstraintsEnd w) :
    ∃ N, ∀ fuel ≥ N, ∃ s rows, constraints equation names fuel ⟨k ++ '\n' :: (t ++ w), false, false⟩ = some (.ok (s, rows)) ∧
      List.Forall₂ (fun c row => Spec.ConstraintRow names c.1 c.2.1 c.2.2 row) cs rows ∧
      Spec.AfterSection w s.rest s.eof s.fail (fun k => isKeywordEnd (firstWord k)) :=
  constraints_lines (fun _ _ hc => namedLine_read hn hp hc) h hk hkw hw

theorem rawLine_read {equation : Bool} {t : List Char} {row : Row} (h : Spec.RawLine t row) (hr : ∀ x ∈ row, Spec.IsInt x) :
    isKeyword (trimWhitespace t) = false ∧ trimWhitespace t ≠ [] ∧ ∀ w, ∃ row',
      potentiallyNamedConstraint equation [] ⟨t ++ '\n' :: w, false, false⟩ = .ok (⟨'\n' :: w, false, false⟩, row') ∧
        row' ≠ [] ∧ row' = row := by
  have hl := h
  obtain ⟨l, s, n, b, xs, z, -, -, hnu, hb, rfl, rfl⟩ := hl
  have ht := number_line_trim (u := l ++ s) hnu hb
  simp only [List.append_assoc] at ht
  refine ⟨ht.1, ht.2, fun w => ⟨xs ++ [z], ?_, by simp, rfl⟩⟩
  unfold potentiallyNamedConstraint
  rw [if_pos (Or.inl rfl), C42_raw h hr (Or.inr rfl)]

/-- **C42**, whole sections of rows without names -/
theorem C42_raw_sections {equation : Bool} {k t w : List Char} {m : List Row}
    (h : Spec.Lines (fun t row => Spec.RawLine t row ∧ ∀ x ∈ row, Spec.IsInt x) t m) (hk : '\n' ∉ k)
    (hkw : sectionKeyword equation k = true) (hw : ConstraintsEnd w) :
    ∃ N, ∀ fuel ≥ N, ∃ s, constraints equation [] fuel ⟨k ++ '\n' :: (t ++ w), false, false⟩ = some (.ok (s, m)) ∧
      Spec.AfterSection w s.rest s.eof s.fail (fun k => isKeywordEnd (firstWord k)) := by
  obtain ⟨N, hN⟩ := constraints_lines (R := fun a row => row = a) (equation := equation) (names := [])
    (fun _ _ hc => rawLine_read hc.1 hc.2) h hk hkw hw
  refine ⟨N, fun fuel hf => ?_⟩
  obtain ⟨s, rows, h1, h2, h3⟩ := hN fuel hf
  refine ⟨s, ?_, h3⟩
  have : rows = m := by
    clear h1 h3 hN h
    induction h2 with
    | nil => rfl
    | cons h _ ih => rw [h, ih]
  rw [← this]; exact h1

/-! ## printed constraints (C43) -/

theorem natDigits_length : ∀ fuel n k, n < 10 ^ (k + 1) → (natDigits fuel n).length ≤ k + 1
  | 0, _, _, _ => by simp [natDigits]
  | fuel + 1, n, k, h => by
    rw [natDigits]
    split
    · simp
    · next hn =>
      obtain ⟨k, rfl⟩ : ∃ j, k = j + 1 := by
        cases k with
        | zero => simp at h; omega
        | succ j => exact ⟨j, rfl⟩
      have h1 : n / 10 < 10 ^ (k + 1) := by
        rw [Nat.div_lt_iff_lt_mul (by decide)]
        calc n < 10 ^ (k + 1 + 1) := h
          _ = 10 ^ (k + 1) * 10 := pow_succ ..
      have := natDigits_length fuel (n / 10) k h1
      simp only [List.length_append, List.length_singleton]
      omega

theorem printInt_length {z : Int} (h : Spec.Symmetric z) : (printInt z).length ≤ 11 := by
  unfold Spec.Symmetric at h
  have := natDigits_length (z.natAbs + 1) z.natAbs 9 (by norm_num; omega)
  unfold printInt
  split
  · rw [List.length_cons]; omega
  · omega

theorem printInt_plus {z : Int} (h : 0 ≤ z) : Spec.Numeral ('+' :: printInt z) z := by
  have h1 := natDigits_spec (z.natAbs + 1) z.natAbs (by omega)
  have h2 : printInt z = natDigits (z.natAbs + 1) z.natAbs := by unfold printInt; rw [if_neg (by omega)]
  have h3 := Spec.Numeral.plus (printInt z) (by rw [h2]; exact h1.1) (by rw [h2]; exact h1.2.1)
  rw [h2, h1.2.2] at h3
  rw [h2]
  have : ((z.natAbs : Nat) : Int) = z := by omega
  rwa [this] at h3

/-- the terms that are printed -/
def termsOf (names : Names) (row : Row) : List (List Char × Int) := (names.zip row).filter fun q => decide (q.2 ≠ 0)

theorem prettyTerms_nil (p : Bool) (names : Names) : prettyTerms p [] names = [] := by
  rw [prettyTerms]
  intros; simp_all

theorem prettyTerms_no_names (p : Bool) (row : Row) : prettyTerms p row [] = [] := by
  rw [prettyTerms]
  intros; simp_all

theorem prettyTerms_tail : ∀ (row : Row) (names : Names), (∀ x ∈ names, Spec.Name x) →
    ∃ s, prettyTerms true row names ++ [' '] = ' ' :: s ∧ Spec.Sum s (termsOf names row)
  | [], names, _ => ⟨[], by rw [prettyTerms_nil]; rfl, by unfold termsOf; rw [List.zip_nil_right]; exact .nil⟩
  | a :: row, [], _ => ⟨[], by rw [prettyTerms_no_names]; rfl, .nil⟩
  | a :: row, x :: names, hn => by
    obtain ⟨s, h1, h2⟩ := prettyTerms_tail row names fun y hy => hn y (by simp [hy])
    rw [prettyTerms]
    by_cases ha : a = 0
    · rw [if_pos ha]
      exact ⟨s, h1, by unfold termsOf at *; rw [List.zip_cons_cons, List.filter_cons_of_neg (by simp [ha])]; exact h2⟩
    · rw [if_neg ha]
      have hsum : ∀ tok, Spec.Term (tok ++ x) x a → Spec.Sum (tok ++ x ++ [' '] ++ s) (termsOf (x :: names) (a :: row)) := by
        intro tok htok
        unfold termsOf at *
        rw [List.zip_cons_cons, List.filter_cons_of_pos (by simp [ha])]
        exact .cons (.token htok) (hn x (by simp)) (by intro c hc; simp at hc; simp [hc]) (by simp) h2
      have fin : ∀ tok, Spec.Term (tok ++ x) x a →
          ∃ s', ([' '] ++ tok ++ x ++ prettyTerms true row names) ++ [' '] = ' ' :: s' ∧ Spec.Sum s' (termsOf (x :: names) (a :: row)) := by
        intro tok htok
        refine ⟨tok ++ x ++ [' '] ++ s, ?_, hsum tok htok⟩
        rw [List.append_assoc _ (prettyTerms true row names), h1]
        simp
      by_cases h1' : a = 1
      · rw [if_pos h1']
        exact fin ['+'] (h1' ▸ .plus x)
      · rw [if_neg h1']
        by_cases h2' : a = -1
        · rw [if_pos h2']
          exact fin ['-'] (h2' ▸ .minus x)
        · rw [if_neg h2']
          by_cases h3' : a > 1
          · rw [if_pos (show a > 1 ∧ true = true from ⟨h3', rfl⟩)]
            exact fin (['+'] ++ printInt a) (.factor x (printInt_plus (by omega)))
          · rw [if_neg (show ¬ (a > 1 ∧ true = true) from fun h => h3' h.1)]
            exact fin ([] ++ printInt a) (.factor x (printInt_numeral a))

/-- the terms printed for a row that has a non-zero coefficient; the first one begins with at most eleven characters of a
number and a name -/
theorem prettyTerms_sum : ∀ (row : Row) (names : Names), (∀ x ∈ names, Spec.Name x) → (∀ a ∈ row, Spec.Symmetric a) →
    termsOf names row ≠ [] → Spec.Sum (prettyTerms false row names ++ [' ']) (termsOf names row) ∧
      ∃ tok x r, prettyTerms false row names = tok ++ (x ++ r) ∧ x ∈ names ∧ tok.length ≤ 11 ∧
        ∀ c ∈ tok, c = '+' ∨ c = '-' ∨ Spec.Digit c
  | [], names, _, _, h => absurd (by unfold termsOf; simp) h
  | a :: row, [], _, _, h => absurd (by unfold termsOf; simp) h
  | a :: row, x :: names, hn, hs, h => by
    rw [prettyTerms]
    by_cases ha : a = 0
    · have e : termsOf (x :: names) (a :: row) = termsOf names row := by
        unfold termsOf; rw [List.zip_cons_cons, List.filter_cons_of_neg (by simp [ha])]
      rw [if_pos ha, e]
      rw [e] at h
      obtain ⟨h1, tok, y, r, h2, h3, h4⟩ := prettyTerms_sum row names (fun y hy => hn y (by simp [hy])) (fun y hy => hs y (by simp [hy])) h
      exact ⟨h1, tok, y, r, h2, by simp [h3], h4⟩
    · rw [if_neg ha]
      obtain ⟨s, h1, h2⟩ := prettyTerms_tail row names fun y hy => hn y (by simp [hy])
      have fin : ∀ tok, Spec.Term (tok ++ x) x a → tok.length ≤ 11 → (∀ c ∈ tok, c = '+' ∨ c = '-' ∨ Spec.Digit c) →
          Spec.Sum (([] ++ tok ++ x ++ prettyTerms true row names) ++ [' ']) (termsOf (x :: names) (a :: row)) ∧
          ∃ tok' y r, [] ++ tok ++ x ++ prettyTerms true row names = tok' ++ (y ++ r) ∧ y ∈ x :: names ∧ tok'.length ≤ 11 ∧
            ∀ c ∈ tok', c = '+' ∨ c = '-' ∨ Spec.Digit c := by
        intro tok htok hl hc
        refine ⟨?_, tok, x, prettyTerms true row names, by simp, by simp, hl, hc⟩
        rw [List.append_assoc _ (prettyTerms true row names), h1]
        have : Spec.Sum (tok ++ x ++ [' '] ++ s) (termsOf (x :: names) (a :: row)) := by
          unfold termsOf at *
          rw [List.zip_cons_cons, List.filter_cons_of_pos (by simp [ha])]
          exact .cons (.token htok) (hn x (by simp)) (by intro c hc; simp at hc; simp [hc]) (by simp) h2
        simpa using this
      by_cases h1' : a = 1
      · rw [if_pos h1']
        exact fin [] (h1' ▸ .bare x) (by simp) (by simp)
      · rw [if_neg h1']
        by_cases h2' : a = -1
        · rw [if_pos h2']
          exact fin ['-'] (h2' ▸ .minus x) (by simp) (by simp)
        · rw [if_neg h2', if_neg (show ¬ (a > 1 ∧ false = true) by simp)]
          refine fin ([] ++ printInt a) (.factor x (printInt_numeral a)) ?_ ?_
          · simpa using printInt_length (hs a (by simp))
          · intro c hc
            have := numeral_factor (printInt_numeral a) c (by simpa using hc)
            unfold isFactorChar at this
            simp only [Bool.or_eq_true, decide_eq_true_eq, digit_iff] at this
            tauto

theorem termsOf_mem {names : Names} {row : Row} {q : List Char × Int} (h : q ∈ termsOf names row) : q.1 ∈ names ∧ q.2 ∈ row :=
  List.of_mem_zip (List.mem_of_mem_filter h)

theorem termsOf_not_repeated : ∀ {names : Names} {row : Row}, names.Nodup → ¬ Spec.Repeated (termsOf names row)
  | [], _, _ => by simp [termsOf, Spec.Repeated]
  | _ :: _, [], _ => by simp [termsOf, Spec.Repeated]
  | x :: names, a :: row, h => by
    rw [List.nodup_cons] at h
    have ih := termsOf_not_repeated (row := row) h.2
    unfold termsOf at *
    rw [List.zip_cons_cons]
    by_cases ha : a = 0
    · rw [List.filter_cons_of_neg (by simp [ha])]; exact ih
    · rw [List.filter_cons_of_pos (by simp [ha])]
      rintro (⟨-, q, hq, rfl⟩ | h')
      · exact h.1 (termsOf_mem hq).1
      · exact ih h'

theorem coefficient_not_mem {l : List (List Char × Int)} {x : List Char} (h : ∀ q ∈ l, q.1 ≠ x) : Spec.coefficient l x = 0 := by
  unfold Spec.coefficient
  rw [List.filter_eq_nil_iff.mpr (by intro q hq; simpa using h q hq)]
  rfl

theorem coefficient_termsOf : ∀ {names : Names} {row : Row}, names.Nodup → names.length ≤ row.length →
    ∀ j (h : j < names.length), Spec.coefficient (termsOf names row) names[j] = row.getD j 0
  | [], _, _, _, _, h => absurd h (by simp)
  | _ :: _, [], _, hl, _, _ => by simp at hl
  | x :: names, a :: row, hn, hl, j, h => by
    rw [List.nodup_cons] at hn
    have ih := coefficient_termsOf (row := row) hn.2 (by simpa using hl)
    have hx : Spec.coefficient (termsOf names row) x = 0 :=
      coefficient_not_mem fun q hq he => hn.1 (he ▸ (termsOf_mem hq).1)
    have e : ∀ y, Spec.coefficient (termsOf (x :: names) (a :: row)) y = (if x = y then a else 0) + Spec.coefficient (termsOf names row) y := by
      intro y
      unfold termsOf at *
      rw [List.zip_cons_cons]
      by_cases ha : a = 0
      · rw [List.filter_cons_of_neg (by simp [ha]), ha]; simp
      · rw [List.filter_cons_of_pos (by simp [ha]), coefficient_cons]
    rw [e]
    cases j with
    | zero => simp [hx]
    | succ j =>
      have hj : j < names.length := by simpa using h
      have hne : x ≠ names[j] := fun he => hn.1 (he ▸ List.getElem_mem hj)
      simp only [List.getElem_cons_succ]
      rw [if_neg hne, ih j hj]; simp

theorem prettyTerms_chars : ∀ (p : Bool) (row : Row) (names : Names), (∀ x ∈ names, Spec.Name x) →
    ∀ c ∈ prettyTerms p row names, c ≠ '\n' ∧ c ≠ '\r'
  | p, [], names, _ => by rw [prettyTerms_nil]; simp
  | p, a :: row, [], _ => by rw [prettyTerms_no_names]; simp
  | p, a :: row, x :: names, hn => by
    have ih := fun p => prettyTerms_chars p row names fun y hy => hn y (by simp [hy])
    have hx : ∀ c ∈ x, c ≠ '\n' ∧ c ≠ '\r' := by
      intro c hc
      have := name_no_space (hn x (by simp)) c hc
      constructor <;> rintro rfl <;> exact absurd this (by decide)
    have hi : ∀ c ∈ printInt a, c ≠ '\n' ∧ c ≠ '\r' := by
      intro c hc
      have := (factor_not_space (numeral_factor (printInt_numeral a) c hc)).1
      constructor <;> rintro rfl <;> exact absurd this (by decide)
    rw [prettyTerms]
    split
    · exact ih p
    · intro c hc
      simp only [List.mem_append] at hc
      rcases hc with ((hc | hc) | hc) | hc
      · split at hc <;> simp at hc; rw [hc]; decide
      · split at hc
        · split at hc <;> simp at hc; rw [hc]; decide
        · split at hc
          · simp at hc; rw [hc]; decide
          · rcases List.mem_append.mp hc with hc | hc
            · split at hc <;> simp at hc; rw [hc]; decide
            · exact hi c hc
      · exact hx c hc
      · exact ih true c hc

/-- the relation printed for an inequality or an equation -/
def relationText (equation : Bool) : List Char := if equation then "=".toList else "<=".toList

/-- a row that can be printed with names so that it can be read again: one entry for each name and the right-hand side,
all entries in the range of `int` without the smallest one, and a non-zero coefficient -/
def PrintableRow (names : Names) (row : Row) : Prop :=
  row.length = names.length + 1 ∧ (∀ a ∈ row, Spec.Symmetric a) ∧ ∃ j < names.length, row.getD j 0 ≠ 0

theorem termsOf_ne_nil : ∀ {names : Names} {row : Row}, (∃ j < names.length, row.getD j 0 ≠ 0) → termsOf names row ≠ []
  | [], _, h => by obtain ⟨j, h, -⟩ := h; simp at h
  | _ :: _, [], h => by obtain ⟨j, -, h⟩ := h; simp at h
  | x :: names, a :: row, ⟨j, h1, h2⟩ => by
    unfold termsOf
    rw [List.zip_cons_cons]
    by_cases ha : a = 0
    · rw [List.filter_cons_of_neg (by simp [ha])]
      cases j with
      | zero => simp [ha] at h2
      | succ j => exact termsOf_ne_nil ⟨j, by simpa using h1, by simpa using h2⟩
    · rw [List.filter_cons_of_pos (by simp [ha])]; simp

theorem row_ext {a b : Row} {n : Nat} (ha : a.length = n + 1) (hb : b.length = n + 1)
    (h : ∀ j < n, a.getD j 0 = b.getD j 0) (hl : a.getD n 0 = b.getD n 0) : a = b := by
  apply List.ext_getElem (by omega)
  intro i h1 h2
  have : a.getD i 0 = b.getD i 0 := by
    by_cases hi : i < n
    · exact h i hi
    · rw [show i = n by omega]; exact hl
  simpa [List.getD_eq_getElem?_getD, List.getElem?_eq_getElem h1, List.getElem?_eq_getElem h2] using this

/-- what is printed for a row is a well-formed line that means this row -/
theorem prettyPrint_line {equation : Bool} {names : Names} {row : Row} (hn : Spec.AdmissibleNames names)
    (hr : PrintableRow names row) :
    ∃ t c, prettyPrint row names (relationText equation) = .ok t ∧ NamedLine equation names t c ∧
      (∀ a ∈ t, a ≠ '\n' ∧ a ≠ '\r') ∧ ∀ row', Spec.ConstraintRow names c.1 c.2.1 c.2.2 row' → row' = row := by
  obtain ⟨hlen, hs, hnz⟩ := hr
  have hne := termsOf_ne_nil hnz
  obtain ⟨h1, tok, x, r, h2, h3, h4, h5⟩ := prettyTerms_sum row names hn.2 hs hne
  have hlast : row.getLastD 0 = row.getD names.length 0 := by
    rw [List.getLastD_eq_getLast?, List.getLast?_eq_getElem?, hlen, List.getD_eq_getElem?_getD]; rfl
  have hmem : row.getLastD 0 ∈ row := by
    rw [List.getLastD_eq_getLast?, List.getLast?_eq_getElem?, List.getElem?_eq_getElem (by omega)]
    exact List.getElem_mem _
  have hsb := hs _ hmem
  have hb : negInt (row.getLastD 0) = .ok (-row.getLastD 0) := by
    unfold negInt
    rw [if_neg]
    unfold Spec.Symmetric intMin at *; omega
  have hrhs : Spec.Symmetric (-row.getLastD 0) := by unfold Spec.Symmetric at *; omega
  have hnames : names ≠ [] := by intro h0; rw [h0] at h3; simp at h3
  have hbl : Spec.Blanks [' '] := by intro c hc; simp at hc; simp [hc]
  refine ⟨prettyTerms false row names ++ ' ' :: (relationText equation ++ ' ' :: printInt (-row.getLastD 0)),
    (termsOf names row, if equation then .eq else .le, -row.getLastD 0), ?_, ⟨?_, ?_, ?_, hrhs, ?_, ?_⟩, ?_, ?_⟩
  · unfold prettyPrint
    rw [if_neg hnames, if_neg (by omega), hb]
    rfl
  · refine ⟨[], prettyTerms false row names ++ [' '], relationText equation ++ [' '], printInt (-row.getLastD 0), [],
      .none blanks_nil, h1, ?_, printInt_numeral _, blanks_nil, by simp⟩
    unfold relationText
    cases equation with
    | true => exact Spec.RelText.eq hbl (by simp)
    | false => exact Spec.RelText.le hbl
  · refine ⟨[], tok, x, r ++ ' ' :: (relationText equation ++ ' ' :: printInt (-row.getLastD 0)), by rw [h2]; simp, h3, Or.inl rfl, ?_, ?_⟩
    · intro c hc; exact Or.inr (h5 c hc)
    · simp; omega
  · intro q hq
    exact ⟨(termsOf_mem hq).1, hs _ (termsOf_mem hq).2⟩
  · exact termsOf_not_repeated hn.1
  · cases equation <;> simp
  · intro c hc
    simp only [List.mem_append, List.mem_cons] at hc
    rcases hc with hc | rfl | hc | rfl | hc
    · exact prettyTerms_chars _ _ _ hn.2 c hc
    · decide
    · unfold relationText at hc
      split at hc
      · simp at hc; rw [hc]; decide
      · simp at hc; rcases hc with rfl | rfl <;> decide
    · decide
    · have := (factor_not_space (numeral_factor (printInt_numeral _) c hc)).1
      constructor <;> rintro rfl <;> exact absurd this (by decide)
  · rintro row' ⟨g1, g2, g3⟩
    have hsign : (if equation then Spec.Rel.eq else Spec.Rel.le).sign = 1 := by cases equation <;> rfl
    simp only at g1 g2 g3
    rw [hsign] at g2 g3
    refine row_ext g1 hlen ?_ ?_
    · intro j hj
      rw [g2 j hj, one_mul, coefficient_termsOf hn.1 (by omega) j hj]
    · rw [g3, hlast]; ring

/-- what is printed for a row is one line that is read as this row -/
def ReadBack (equation : Bool) (names : Names) (t : List Char) (row : Row) : Prop :=
  prettyPrint row names (relationText equation) = .ok t ∧ (∀ a ∈ t, a ≠ '\n' ∧ a ≠ '\r') ∧
    isKeyword (trimWhitespace t) = false ∧ trimWhitespace t ≠ [] ∧ row ≠ [] ∧
    ∀ w, potentiallyNamedConstraint equation names ⟨t ++ '\n' :: w, false, false⟩ = .ok (⟨'\n' :: w, false, false⟩, row)

theorem readBack_named {equation : Bool} {names : Names} {row : Row} (hn : Spec.AdmissibleNames names)
    (hp : Spec.NoPrefix names) (hr : PrintableRow names row) : ∃ t, ReadBack equation names t row := by
  obtain ⟨t, c, h1, h2, h0, h3⟩ := prettyPrint_line (equation := equation) hn hr
  obtain ⟨h4, h5, h6⟩ := namedLine_read hn hp h2
  refine ⟨t, h1, h0, h4, h5, ?_, fun w => ?_⟩
  · intro h; have := hr.1; rw [h] at this; simp at this
  · obtain ⟨row', h7, -, h8⟩ := h6 w
    rw [h7, h3 row' h8]

theorem printRow_numbers : ∀ r : Row, r ≠ [] → ∃ b s n xs z, Spec.Blanks b ∧ b ≠ [] ∧ Spec.Numbers s xs ∧ Spec.Numeral n z ∧
    printRow r = b ++ (s ++ n) ∧ r = xs ++ [z]
  | [], h => absurd rfl h
  | x :: xs, _ => by
    have hb : Spec.Blanks ((if x ≥ 0 then [' '] else []) ++ [' ']) := by
      intro c hc; split at hc <;> simp at hc <;> simp [hc]
    have e : printRow (x :: xs) = ((if x ≥ 0 then [' '] else []) ++ [' ']) ++ (printInt x ++ printRow xs) := by
      unfold printRow; rw [List.flatMap_cons]; simp
    by_cases hxs : xs = []
    · refine ⟨_, [], printInt x, [], x, hb, by simp, .nil, printInt_numeral x, ?_, by simp [hxs]⟩
      rw [e, hxs]; simp [printRow]
    · obtain ⟨b, s, n, ys, z, h1, h2, h3, h4, h5, h6⟩ := printRow_numbers xs hxs
      refine ⟨_, printInt x ++ b ++ s, n, x :: ys, z, hb, by simp, .cons (printInt_numeral x) h1 h2 h3, h4, ?_, by rw [h6]; simp⟩
      rw [e, h5]; simp

theorem printRow_chars (r : Row) : ∀ c ∈ printRow r, c ≠ '\n' ∧ c ≠ '\r' := by
  intro c hc
  unfold printRow at hc
  obtain ⟨x, -, hc⟩ := List.mem_flatMap.mp hc
  rcases List.mem_append.mp hc with hc | hc
  · split at hc <;> simp at hc; rw [hc]; decide
  · rcases List.mem_cons.mp hc with rfl | hc
    · decide
    · have := (factor_not_space (numeral_factor (printInt_numeral _) c hc)).1
      constructor <;> rintro rfl <;> exact absurd this (by decide)

theorem readBack_raw {equation : Bool} {row : Row} (hr : row ≠ []) (hi : ∀ x ∈ row, Spec.IsInt x) :
    ReadBack equation [] (printRow row) row := by
  obtain ⟨b, s, n, xs, z, h1, h2, h3, h4, h5, h6⟩ := printRow_numbers row hr
  have hraw : Spec.RawLine (printRow row) row := ⟨b, s, n, [], xs, z, .none h1, h3, h4, blanks_nil, by rw [h5]; simp, h6⟩
  obtain ⟨h7, h8, h9⟩ := rawLine_read (equation := equation) hraw hi
  refine ⟨by unfold prettyPrint; rw [if_pos rfl], printRow_chars row, h7, h8, hr, fun w => ?_⟩
  obtain ⟨row', h10, -, h11⟩ := h9 w
  rw [h10, h11]

/-- **C43** (partial: no name is a prefix of an earlier one, rows with a non-zero coefficient; see the `_false` theorems
below): the line printed for an inequality or equation over named variables is read as exactly the same row. -/
theorem C43_line_partial {equation : Bool} {names : Names} {row : Row} (hn : Spec.AdmissibleNames names)
    (hp : Spec.NoPrefix names) (hr : PrintableRow names row) (w : List Char) :
    ∃ t, prettyPrint row names (relationText equation) = .ok t ∧
      potentiallyNamedConstraint equation names ⟨t ++ '\n' :: w, false, false⟩ = .ok (⟨'\n' :: w, false, false⟩, row) := by
  obtain ⟨t, h1, -, -, -, -, h2⟩ := readBack_named (equation := equation) hn hp hr
  exact ⟨t, h1, h2 w⟩

/-- **C43** without names every non-empty row is read back. -/
theorem C43_raw {equation : Bool} {row : Row} (hr : row ≠ []) (hi : ∀ x ∈ row, Spec.IsInt x) (w : List Char) :
    ∃ t, prettyPrint row [] (relationText equation) = .ok t ∧
      potentiallyNamedConstraint equation [] ⟨t ++ '\n' :: w, false, false⟩ = .ok (⟨'\n' :: w, false, false⟩, row) := by
  have h := readBack_raw (equation := equation) hr hi
  exact ⟨_, h.1, h.2.2.2.2.2 w⟩

theorem forall₂_eq {α : Type} {l l' : List α} (h : List.Forall₂ (fun a b => b = a) l l') : l' = l := by
  induction h with
  | nil => rfl
  | cons h _ ih => rw [h, ih]

theorem prettyPrintMatrix_lines {equation : Bool} {names : Names} : ∀ m : Matrix, (∀ r ∈ m, ∃ t, ReadBack equation names t r) →
    ∃ t, prettyPrintMatrix m names (relationText equation) = .ok t ∧ Spec.Lines (ReadBack equation names) t m
  | [], _ => ⟨[], rfl, .nil⟩
  | r :: m, h => by
    obtain ⟨t, ht⟩ := h r (by simp)
    obtain ⟨ts, h1, h2⟩ := prettyPrintMatrix_lines m fun x hx => h x (by simp [hx])
    refine ⟨t ++ '\n' :: ts, ?_, .line ht ?_ ?_ h2⟩
    · rw [prettyPrintMatrix, ht.1, h1]; rfl
    · intro hc; exact (ht.2.1 _ hc).1 rfl
    · intro hc
      exact (ht.2.1 _ (List.mem_of_mem_head? hc)).2 rfl

theorem lines_append {α : Type} {P : List Char → α → Prop} {t t' : List Char} {l l' : List α} (h : Spec.Lines P t l)
    (h' : Spec.Lines P t' l') : Spec.Lines P (t ++ t') (l ++ l') := by
  induction h with
  | nil => exact h'
  | blank hb _ ih => rw [List.append_assoc, List.cons_append]; exact .blank hb ih
  | line hp h1 h2 _ ih => rw [List.append_assoc, List.cons_append, List.cons_append]; exact .line hp h1 h2 ih

/-- reading a printed section -/
theorem constraints_readBack {equation : Bool} {names : Names} {k t w : List Char} {m : Matrix}
    (h : Spec.Lines (ReadBack equation names) t m) (hk : '\n' ∉ k) (hkw : sectionKeyword equation k = true) (hw : ConstraintsEnd w) :
    ∃ N, ∀ fuel ≥ N, ∃ s, constraints equation names fuel ⟨k ++ '\n' :: (t ++ w), false, false⟩ = some (.ok (s, m)) ∧
      Spec.AfterSection w s.rest s.eof s.fail (fun k => isKeywordEnd (firstWord k)) := by
  obtain ⟨N, hN⟩ := constraints_lines (R := fun a row => row = a) (equation := equation) (names := names)
    (fun t a hc => ⟨hc.2.2.1, hc.2.2.2.1, fun w => ⟨a, hc.2.2.2.2.2 w, hc.2.2.2.2.1, rfl⟩⟩) h hk hkw hw
  refine ⟨N, fun fuel hf => ?_⟩
  obtain ⟨s, rows, h1, h2, h3⟩ := hN fuel hf
  exact ⟨s, by rw [h1, forall₂_eq h2], h3⟩

theorem facetOutput_readBack {o : FacetOutput} {names : Names}
    (he : ∀ r ∈ o.equations, ∃ t, ReadBack true names t r) (hi : ∀ r ∈ o.inequalities, ∃ t, ReadBack false names t r) :
    ∃ t N, printFacetOutput o names = .ok t ∧ ∀ fuel ≥ N,
      (o.equations ≠ [] → ∃ s s', constraints true names fuel ⟨t, false, false⟩ = some (.ok (s, o.equations)) ∧
        constraints false names fuel s = some (.ok (s', o.inequalities))) ∧
      (o.equations = [] → ∃ s', constraints false names fuel ⟨t, false, false⟩ = some (.ok (s', o.inequalities))) := by
  obtain ⟨te, h1, h2⟩ := prettyPrintMatrix_lines _ he
  obtain ⟨ti, h3, h4⟩ := prettyPrintMatrix_lines _ hi
  have hk : ∃ k, (if o.reduced then "Reduced ".toList else []) ++ "Inequalities:\n".toList = k ++ ['\n'] ∧ '\n' ∉ k ∧
      k.head? ≠ some '\r' ∧ sectionKeyword false k = true ∧ isKeyword (trimWhitespace k) = true ∧ isKeywordEnd (firstWord k) = false := by
    cases o.reduced with
    | true => exact ⟨"Reduced Inequalities:".toList, by decide +kernel, by decide +kernel, by decide +kernel, by decide +kernel,
        by decide +kernel, by decide +kernel⟩
    | false => exact ⟨"Inequalities:".toList, by decide +kernel, by decide +kernel, by decide +kernel, by decide +kernel,
        by decide +kernel, by decide +kernel⟩
  obtain ⟨k, hk1, hk2, hk3, hk4, hk5, hk6⟩ := hk
  obtain ⟨N1, hN1⟩ := constraints_readBack (k := k) (w := []) h4 hk2 hk4 (Or.inl rfl)
  rw [List.append_nil] at hN1
  have h5 : Spec.Lines (ReadBack true names) (te ++ ['\n']) o.equations := by
    have := lines_append h2 (.blank (P := ReadBack true names) (b := []) blanks_nil .nil)
    rwa [List.append_nil] at this
  obtain ⟨N2, hN2⟩ := constraints_readBack (k := "Equations:".toList) (w := k ++ '\n' :: ti) h5 (by decide +kernel) (by decide +kernel)
    (Or.inr ⟨k, ti, ⟨hk2, Or.inl rfl⟩, hk3, hk5⟩)
  refine ⟨(if o.equations ≠ [] then "Equations:\n".toList ++ te ++ ['\n'] else []) ++ (k ++ '\n' :: ti), max N1 N2, ?_,
    fun fuel hf => ⟨fun hne => ?_, fun he => ?_⟩⟩
  · unfold printFacetOutput
    rw [show "=".toList = relationText true from rfl, show "<=".toList = relationText false from rfl, h1, h3]
    have e : ∀ A : List Char, A ++ (if o.reduced then "Reduced ".toList else []) ++ "Inequalities:\n".toList ++ ti =
        A ++ (k ++ '\n' :: ti) := by
      intro A
      rw [List.append_assoc A, hk1, List.append_assoc, List.append_assoc, List.singleton_append]
    exact congrArg Outcome.ok (e _)
  · rw [if_pos hne]
    obtain ⟨s, g1, g2⟩ := hN2 fuel (by omega)
    have e : "Equations:\n".toList ++ te ++ ['\n'] ++ (k ++ '\n' :: ti) =
      "Equations:".toList ++ '\n' :: (te ++ ['\n'] ++ (k ++ '\n' :: ti)) := by
      rw [show "Equations:\n".toList = "Equations:".toList ++ ['\n'] by decide +kernel]
      generalize "Equations:".toList = E
      simp
    rw [e, g1]
    have hs : s = ⟨k ++ '\n' :: ti, false, false⟩ := afterSection_line hk2 g2 hk6
    obtain ⟨s', g3, -⟩ := hN1 fuel (by omega)
    exact ⟨s, s', rfl, by rw [hs]; exact g3⟩
  · rw [if_neg (by simpa using he), List.nil_append]
    obtain ⟨s', g3, -⟩ := hN1 fuel (by omega)
    exact ⟨s', g3⟩

/-- **C43** (partial, as before) The whole output of facet enumeration over named variables is read back, section by
section, as exactly the same equations and inequalities. -/
theorem C43_output_partial {o : FacetOutput} {names : Names} (hn : Spec.AdmissibleNames names) (hp : Spec.NoPrefix names)
    (he : ∀ r ∈ o.equations, PrintableRow names r) (hi : ∀ r ∈ o.inequalities, PrintableRow names r) :
    ∃ t N, printFacetOutput o names = .ok t ∧ ∀ fuel ≥ N,
      (o.equations ≠ [] → ∃ s s', constraints true names fuel ⟨t, false, false⟩ = some (.ok (s, o.equations)) ∧
        constraints false names fuel s = some (.ok (s', o.inequalities))) ∧
      (o.equations = [] → ∃ s', constraints false names fuel ⟨t, false, false⟩ = some (.ok (s', o.inequalities))) :=
  facetOutput_readBack (fun r hr => readBack_named hn hp (he r hr)) (fun r hr => readBack_named hn hp (hi r hr))

/-- **C43** The whole output of facet enumeration without names is read back as the same rows. -/
theorem C43_output_raw {o : FacetOutput} (he : ∀ r ∈ o.equations, r ≠ [] ∧ ∀ x ∈ r, Spec.IsInt x)
    (hi : ∀ r ∈ o.inequalities, r ≠ [] ∧ ∀ x ∈ r, Spec.IsInt x) :
    ∃ t N, printFacetOutput o [] = .ok t ∧ ∀ fuel ≥ N,
      (o.equations ≠ [] → ∃ s s', constraints true [] fuel ⟨t, false, false⟩ = some (.ok (s, o.equations)) ∧
        constraints false [] fuel s = some (.ok (s', o.inequalities))) ∧
      (o.equations = [] → ∃ s', constraints false [] fuel ⟨t, false, false⟩ = some (.ok (s', o.inequalities))) :=
  facetOutput_readBack (fun r hr => ⟨_, readBack_raw (he r hr).1 (he r hr).2⟩) (fun r hr => ⟨_, readBack_raw (hi r hr).1 (hi r hr).2⟩)

/-! ## what goes wrong otherwise -/

/-- **C43** is false of the code when a name is a prefix of an earlier one: the line printed for `x ≤ 3` over the variables
`xy`, `x` is rejected. -/
theorem C43_prefix_false : Spec.AdmissibleNames ["xy".toList, "x".toList] ∧
    prettyPrint [0, 1, -3] ["xy".toList, "x".toList] (relationText false) = .ok "x <= 3".toList ∧
    potentiallyNamedConstraint false ["xy".toList, "x".toList] ⟨"x <= 3\n".toList, false, false⟩ = .thrown := by
  refine ⟨⟨by decide +kernel, ?_⟩, by decide +kernel, by decide +kernel⟩
  intro x hx
  simp only [List.mem_cons, List.not_mem_nil, or_false] at hx
  rcases hx with rfl | rfl
  · refine ⟨'x', ['y'], by decide +kernel, ?_, by unfold Spec.Digit; decide, by decide⟩
    unfold Spec.Space; decide +kernel
  · refine ⟨'x', [], by decide +kernel, ?_, by unfold Spec.Digit; decide, by decide⟩
    unfold Spec.Space; decide +kernel

/-- **C43** is false of the code for a row without a non-zero coefficient: `0 ≤ 3` over the variable `x` is printed as
` <= 3` and read back as a row with a single entry. -/
theorem C43_zero_row_false : prettyPrint [0, -3] ["x".toList] (relationText false) = .ok " <= 3".toList ∧
    potentiallyNamedConstraint false ["x".toList] ⟨" <= 3\n".toList, false, false⟩ = .ok (⟨"\n".toList, false, false⟩, [-3]) := by
  decide +kernel

/-- A finding beside **C42**: a variable on the right-hand side is silently moved to the left without changing its sign:
`x <= y +3` is read as `x + y <= 3`. -/
theorem C42_rhs_variable_false : constraintNamed false ["x".toList, "y".toList] ⟨"x <= y +3\n".toList, false, false⟩ =
    .ok (⟨"\n".toList, false, false⟩, [1, 1, -3]) := by decide +kernel

/-- A finding beside **C42**: a negative right-hand side with a separate sign is rejected, and `x <= 5-3` is read as `x <= 5`. -/
theorem C42_rhs_sign_false :
    constraintNamed false ["x".toList] ⟨"x <= - 5\n".toList, false, false⟩ = .thrown ∧
    constraintNamed false ["x".toList] ⟨"x <= 5-3\n".toList, false, false⟩ = .ok (⟨"\n".toList, false, false⟩, [1, -5]) := by
  decide +kernel

/-- A finding beside **C42**: rows without names are rejected when a variable's name occurs further down in the file,
here the variable `V` and the keyword `Vertices:`. -/
theorem C42_lookahead_false :
    potentiallyNamedConstraint false ["V".toList] ⟨"1 -2\n".toList, false, false⟩ = .ok (⟨"\n".toList, false, false⟩, [1, -2]) ∧
    potentiallyNamedConstraint false ["V".toList] ⟨"1 -2\nVertices:\n".toList, false, false⟩ = .thrown := by
  decide +kernel

/-! ## concrete cases -/

example : PrintableRow ["x".toList, "y".toList] [2, -1, -3] := by
  refine ⟨rfl, ?_, 0, by decide, by decide⟩
  unfold Spec.Symmetric; decide

example : Spec.NoPrefix ["x".toList, "xy".toList] := by
  unfold Spec.NoPrefix
  rw [List.pairwise_pair]
  rintro ⟨t, ht⟩
  have := congrArg List.length ht
  simp at this

example : printFacetOutput ⟨[[1, 1, 0]], true, [[2, -1, -3], [0, -12, 4]]⟩ ["x".toList, "y".toList] =
    .ok "Equations:\nx +y = 0\n\nReduced Inequalities:\n2x -y <= 3\n-12y <= -4\n".toList := by decide +kernel

example : constraints true ["x".toList, "y".toList] 20
    ⟨"Equations:\nx +y = 0\n\nReduced Inequalities:\n2x -y <= 3\n-12y <= -4\n".toList, false, false⟩ =
    some (.ok (⟨"Reduced Inequalities:\n2x -y <= 3\n-12y <= -4\n".toList, false, false⟩, [[1, 1, 0]])) := by decide +kernel

/-- a line with a label, blanks, a separate sign and a negative right-hand side -/
example : NamedLine false ["x".toList, "y".toList, "z".toList] "(c) 2x - 3y +z <= -4".toList
    ([("x".toList, 2), ("y".toList, -3), ("z".toList, 1)], .le, -4) := by
  have nm : ∀ c : Char, ¬ Spec.Space c → ¬ Spec.Digit c → c ∉ ['+', '-', '(', '<', '=', '>'] → Spec.Name [c] :=
    fun c h1 h2 h3 => ⟨c, [], rfl, by simpa using h1, h2, h3⟩
  have hx : Spec.Name "x".toList := nm 'x' (by unfold Spec.Space; decide) (by unfold Spec.Digit; decide) (by decide)
  have hy : Spec.Name "y".toList := nm 'y' (by unfold Spec.Space; decide) (by unfold Spec.Digit; decide) (by decide)
  have hz : Spec.Name "z".toList := nm 'z' (by unfold Spec.Space; decide) (by unfold Spec.Digit; decide) (by decide)
  have b1 : Spec.Blanks " ".toList := by intro c hc; simp at hc; simp [hc]
  have n4 : Spec.Numeral "-4".toList (-4) := by
    have := printInt_numeral (-4)
    rwa [show printInt (-4) = "-4".toList by decide +kernel] at this
  have n2 : Spec.Numeral "2".toList 2 := by
    have := printInt_numeral 2
    rwa [show printInt 2 = "2".toList by decide +kernel] at this
  have n3 : Spec.Numeral "3".toList 3 := by
    have := printInt_numeral 3
    rwa [show printInt 3 = "3".toList by decide +kernel] at this
  refine ⟨⟨"(c) ".toList, "2x - 3y +z ".toList, "<= ".toList, "-4".toList, [], ?_, ?_, .le b1, n4, blanks_nil,
    by decide +kernel⟩, ?_, ?_, by unfold Spec.Symmetric; decide, ?_, by decide⟩
  · exact Spec.Label.some (b := []) (b' := " ".toList) (l := "c".toList) blanks_nil b1 (by decide +kernel)
  · refine Spec.Sum.cons (t := "2x".toList) (b := " ".toList) (ts := "- 3y +z ".toList)
      (.token (.factor (t := "2".toList) "x".toList n2)) hx b1 (by decide +kernel) ?_
    refine Spec.Sum.cons (t := "- 3y".toList) (b := " ".toList) (ts := "+z ".toList)
      (.minus (b := " ".toList) (t := "3y".toList) b1 (by decide +kernel) (.factor (t := "3".toList) "y".toList n3)
        (by decide)) hy b1 (by decide +kernel) ?_
    exact Spec.Sum.cons (t := "+z".toList) (b := " ".toList) (ts := []) (.token (.plus "z".toList)) hz b1 (by decide +kernel) .nil
  · refine ⟨"(c) ".toList, "2".toList, "x".toList, " - 3y +z <= -4".toList, by decide +kernel, by decide +kernel,
      Or.inr ⟨"(c)".toList, ' ', by decide +kernel, Or.inl rfl⟩, ?_, by decide +kernel⟩
    intro c hc
    simp at hc
    subst hc
    right; right; right
    unfold Spec.Digit; decide
  · unfold Spec.Symmetric; decide +kernel
  · simp only [Spec.Repeated]
    decide +kernel

end Panda
