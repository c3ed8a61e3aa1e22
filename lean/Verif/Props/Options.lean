import Verif.Model.Options
import Verif.Spec.Options
import Verif.Proofs.InputConstraint

/-! # Properties C49, C54, C55, C56: command line options -/

namespace Panda

/-! ## options with a parameter -/

theorem isPrefix_iff {a b : List Char} : a.isPrefixOf b = true ↔ a <+: b := List.isPrefixOf_iff_prefix

/-- the three cases of looking for an option -/
theorem findOption_spec (c : Char) (hc : c ≠ '-') (name : List Char) (args : List (List Char)) :
    (∃ p, findOption ['-', c] ('-' :: '-' :: c :: name) ['-', '-', c] args = .ok (some p) ∧
      Spec.Given c ('-' :: '-' :: c :: name) args p) ∨
    (findOption ['-', c] ('-' :: '-' :: c :: name) ['-', '-', c] args = .ok none ∧ Spec.Absent c args) ∨
    (findOption ['-', c] ('-' :: '-' :: c :: name) ['-', '-', c] args = .thrown ∧ ¬ Spec.Absent c args ∧
      ∀ p, ¬ Spec.Given c ('-' :: '-' :: c :: name) args p) := by
  induction args with
  | nil =>
    right; left
    exact ⟨rfl, fun a ha => by simp at ha⟩
  | cons a rest ih =>
    rw [findOption]
    by_cases h1 : a = ['-', c]
    · rw [if_pos h1]
      cases rest with
      | nil =>
        right; right
        refine ⟨rfl, fun h => h a (by simp) (Or.inl (by rw [h1])), ?_⟩
        rintro p ⟨pre, rest, hpre, h⟩
        have hlen : pre = [] := by
          by_contra hne
          obtain ⟨x, xs, rfl⟩ := List.exists_cons_of_ne_nil hne
          rcases h with h | h | h <;> · have := congrArg List.length h; simp at this
        subst hlen
        rcases h with h | h | h
        · simp at h
        · simp [h1] at h
        · simp [h1, hc] at h
      | cons p rest =>
        left
        exact ⟨p, rfl, [], rest, by simp, Or.inl (by rw [h1]; rfl)⟩
    · rw [if_neg h1]
      by_cases h2 : (['-', c] ++ ['=']).isPrefixOf a = true
      · rw [if_pos h2]
        left
        rw [isPrefix_iff] at h2
        obtain ⟨p, rfl⟩ := h2
        exact ⟨p, rfl, [], rest, by simp, Or.inr (Or.inl rfl)⟩
      · rw [if_neg h2]
        by_cases h3 : ('-' :: '-' :: c :: name).isPrefixOf a = true
        · rw [if_pos h3]
          left
          rw [isPrefix_iff] at h3
          obtain ⟨p, rfl⟩ := h3
          exact ⟨p, by rw [List.drop_left], [], rest, by simp, Or.inr (Or.inr rfl)⟩
        · rw [if_neg h3]
          by_cases h4 : (['-', c].isPrefixOf a || ['-', '-', c].isPrefixOf a) = true
          · rw [if_pos h4]
            right; right
            have hl : Spec.LooksLike c a := by
              rw [Bool.or_eq_true, isPrefix_iff, isPrefix_iff] at h4; exact h4
            refine ⟨rfl, fun h => h a (by simp) hl, ?_⟩
            rintro p ⟨pre, rest', hpre, h⟩
            cases pre with
            | cons x xs =>
              have : x = a := by rcases h with h | h | h <;> · simp at h; exact h.1.symm
              exact hpre x (by simp) (this ▸ hl)
            | nil =>
              rcases h with h | h | h
              · simp at h; exact h1 h.1
              · simp at h; exact h2 (by rw [h.1]; simp)
              · simp at h; exact h3 (by rw [h.1, isPrefix_iff]; exact ⟨p, by simp⟩)
          · rw [if_neg h4]
            have hl : ¬ Spec.LooksLike c a := by
              rw [Bool.or_eq_true, isPrefix_iff, isPrefix_iff] at h4; exact h4
            rcases ih with ⟨p, g1, pre, rest', g2, g3⟩ | ⟨g1, g2⟩ | ⟨g1, g2, g3⟩
            · left
              refine ⟨p, g1, a :: pre, rest', ?_, ?_⟩
              · intro x hx
                rcases List.mem_cons.mp hx with rfl | hx
                · exact hl
                · exact g2 x hx
              · rcases g3 with g | g | g
                · left; rw [g]; simp
                · right; left; rw [g]; simp
                · right; right; rw [g]; simp
            · right; left
              refine ⟨g1, fun x hx => ?_⟩
              rcases List.mem_cons.mp hx with rfl | hx
              · exact hl
              · exact g2 x hx
            · right; right
              refine ⟨g1, fun h => g2 fun x hx => h x (by simp [hx]), ?_⟩
              rintro p ⟨pre, rest', hpre, h⟩
              cases pre with
              | nil =>
                exfalso
                apply hl
                rcases h with h | h | h
                · simp at h; left; rw [h.1]
                · simp at h; left; rw [h.1]; exact ⟨'=' :: p, rfl⟩
                · simp at h; right; rw [h.1]; exact ⟨name ++ p, rfl⟩
              | cons x xs =>
                refine g3 p ⟨xs, rest', fun y hy => hpre y (by simp [hy]), ?_⟩
                rcases h with h | h | h
                · left; simp at h; exact h.2
                · right; left; simp at h; exact h.2
                · right; right; simp at h; rw [h.2]; simp

/-- the parameter is unique -/
theorem given_findOption (c : Char) (hc : c ≠ '-') {name : List Char} {args : List (List Char)} {p : List Char}
    (h : Spec.Given c ('-' :: '-' :: c :: name) args p) :
    findOption ['-', c] ('-' :: '-' :: c :: name) ['-', '-', c] args = .ok (some p) := by
  obtain ⟨pre, rest, hpre, h⟩ := h
  have key : ∀ pre : List (List Char), (∀ a ∈ pre, ¬ Spec.LooksLike c a) → ∀ rest,
      findOption ['-', c] ('-' :: '-' :: c :: name) ['-', '-', c] (pre ++ rest) =
        findOption ['-', c] ('-' :: '-' :: c :: name) ['-', '-', c] rest := by
    intro pre
    induction pre with
    | nil => intro _ rest; rfl
    | cons a pre ih =>
      intro hp rest
      have ha := hp a (by simp)
      have h2 : ¬ (['-', c] ++ ['=']).isPrefixOf a = true := by
        rw [isPrefix_iff]; rintro ⟨r, rfl⟩; exact ha (Or.inl ⟨'=' :: r, rfl⟩)
      have h3 : ¬ ('-' :: '-' :: c :: name).isPrefixOf a = true := by
        rw [isPrefix_iff]; rintro ⟨r, rfl⟩; exact ha (Or.inr ⟨name ++ r, rfl⟩)
      have h4 : ¬ (['-', c].isPrefixOf a || ['-', '-', c].isPrefixOf a) = true := by
        rw [Bool.or_eq_true, isPrefix_iff, isPrefix_iff]; exact ha
      rw [List.cons_append, findOption, if_neg (by rintro rfl; exact ha (Or.inl (List.prefix_refl _))), if_neg h2, if_neg h3, if_neg h4]
      exact ih (fun x hx => hp x (by simp [hx])) rest
  have e : '-' ≠ c := fun h => hc h.symm
  rcases h with rfl | rfl | rfl
  · rw [key pre hpre, findOption, if_pos rfl, if_neg (by simp)]; rfl
  · rw [key pre hpre, findOption, if_neg (by simp), if_pos (by simp)]; rfl
  · rw [key pre hpre, findOption, if_neg (by simp [e]), if_neg (by simp [Ne.symm e]),
      if_pos (by rw [isPrefix_iff]; exact ⟨p, rfl⟩), List.drop_left]

theorem absent_findOption (c : Char) {name : List Char} {args : List (List Char)} (hc : c ≠ '-')
    (h : Spec.Absent c args) : findOption ['-', c] ('-' :: '-' :: c :: name) ['-', '-', c] args = .ok none := by
  rcases findOption_spec c hc name args with ⟨p, -, pre, rest, -, g⟩ | ⟨g, -⟩ | ⟨-, g, -⟩
  · exfalso
    rcases g with g | g | g
    · exact h ['-', c] (by rw [g]; simp) (Or.inl (List.prefix_refl _))
    · exact h ('-' :: c :: '=' :: p) (by rw [g]; simp) (Or.inl ⟨'=' :: p, rfl⟩)
    · exact h (('-' :: '-' :: c :: name) ++ p) (by rw [g]; simp) (Or.inr ⟨name ++ p, rfl⟩)
  · exact g
  · exact absurd h g

/-! ## the number of threads (C49) -/

theorem dropWhile_nil {p : Char → Bool} : ∀ {l : List Char}, l.dropWhile p = [] ↔ ∀ c ∈ l, p c = true
  | [] => by simp
  | a :: l => by
    by_cases ha : p a = true
    · rw [List.dropWhile_cons_of_pos ha, dropWhile_nil]; simp [ha]
    · rw [List.dropWhile_cons_of_neg ha]; simp [ha]

theorem readWord_spaces {r : List Char} {e : Bool} (h : ∀ c ∈ r, isSpace c = true) :
    (readWord ⟨r, e, false⟩).2.getD [] = [] := by
  unfold readWord
  split
  · have : r.dropWhile isSpace = [] := dropWhile_nil.mpr h
    rw [this]
    rfl
  · rfl

theorem readWord_word_ne {r : List Char} (h : ¬ ∀ c ∈ r, isSpace c = true) : (readWord ⟨r, r.isEmpty, false⟩).2.getD [] ≠ [] := by
  have hne : r ≠ [] := by rintro rfl; simp at h
  have hg : (⟨r, r.isEmpty, false⟩ : Stream).good = true := by
    unfold Stream.good
    cases r with
    | nil => exact absurd rfl hne
    | cons => rfl
  unfold readWord
  rw [if_pos hg]
  have hd : r.dropWhile isSpace ≠ [] := fun h0 => h (dropWhile_nil.mp h0)
  simp only
  generalize hdd : r.dropWhile isSpace = d at hd
  cases d with
  | nil => exact absurd rfl hd
  | cons c r' =>
    have hcs : isSpace c = false := by
      have := List.head_dropWhile_not (p := isSpace) (l := r) (by rw [hdd]; simp)
      simpa [hdd] using this
    simp only
    split
    · simp
    · simp [hcs]

theorem convertInt_good {neg : Bool} {n : Nat} (h : (convertInt neg n).2 = false) :
    convertInt neg n = ((if neg then -(n : Int) else n), false) ∧ (convertInt neg n).1 ≤ 2147483647 := by
  unfold convertInt at *
  obtain ⟨z, hz⟩ : ∃ z : Int, z = if neg then -(n : Int) else n := ⟨_, rfl⟩
  simp only [← hz] at *
  by_cases h1 : z > intMax
  · rw [if_pos h1] at h; simp at h
  · rw [if_neg h1] at h ⊢
    by_cases h2 : z < intMin
    · rw [if_pos h2] at h; simp at h
    · rw [if_neg h2]
      exact ⟨rfl, by unfold intMax at h1; simpa using h1⟩

theorem takeWhile_all {p : Char → Bool} {l : List Char} : ∀ x ∈ l.takeWhile p, p x = true := by
  intro x hx
  exact List.all_eq_true.mp List.all_takeWhile x hx

/-- the parameter is accepted exactly if it is a positive integer in the range of `int` -/
theorem interpretParameter_ok {p : List Char} {z : Int} :
    interpretParameter p = .ok z ↔ Spec.IntegerText p z ∧ 0 < z ∧ z ≤ 2147483647 := by
  constructor
  · intro h
    unfold interpretParameter at h
    simp only at h
    split at h
    · exact absurd h (by simp)
    next hf =>
    split at h
    · exact absurd h (by simp)
    next hw =>
    split at h
    · exact absurd h (by simp)
    next hz =>
    injection h with h
    subst h
    unfold readInt at hf hw hz ⊢
    have hg : (⟨p, false, false⟩ : Stream).good = true := rfl
    rw [if_pos hg] at hf hw hz ⊢
    simp only at hf hw hz ⊢
    have hsplit : p = p.takeWhile isSpace ++ p.dropWhile isSpace := (List.takeWhile_append_dropWhile).symm
    generalize hd : p.dropWhile isSpace = d at *
    cases d with
    | nil => simp at hf
    | cons c r =>
      simp only at hf hw hz ⊢
      split at hf
      · simp at hf
      next hds =>
      rw [if_neg hds] at hw hz ⊢
      simp only at hf hw hz ⊢
      obtain ⟨neg, rest, hsg⟩ : ∃ neg rest, splitSign (c :: r) = (neg, rest) := ⟨_, _, rfl⟩
      rw [hsg] at hds hf hw hz ⊢
      simp only at hds hf hw hz ⊢
      have hrest : rest = rest.takeWhile isDigitChar ++ rest.dropWhile isDigitChar := (List.takeWhile_append_dropWhile).symm
      have hdig : ∀ x ∈ rest.takeWhile isDigitChar, Spec.Digit x := fun x hx => (digit_iff x).mp (takeWhile_all x hx)
      have hsp : ∀ x ∈ rest.dropWhile isDigitChar, Spec.Space x := by
        intro x hx
        rw [← space_iff]
        by_contra hcon
        rw [Bool.not_eq_true] at hf
        rw [hf] at hw
        exact hw (readWord_word_ne fun hh => hcon (hh x hx))
      have hconv' := convertInt_good (neg := neg) (n := digitsValue (rest.takeWhile isDigitChar)) (by simpa using hf)
      obtain ⟨hconv, hbound⟩ := hconv'
      refine ⟨⟨p.takeWhile isSpace, (if neg then ['-'] else (if c = '+' then ['+'] else [])) ++ rest.takeWhile isDigitChar,
        rest.dropWhile isDigitChar, ?_, ?_, hsp, ?_⟩, by omega, hbound⟩
      · intro x hx; exact (space_iff x).mp (takeWhile_all x hx)
      · rw [hconv, digitsValue_eq]
        cases neg with
        | true => exact Spec.Numeral.minus _ hds hdig
        | false =>
          by_cases hc : c = '+'
          · simp only [hc, if_true, Bool.false_eq_true, if_false]
            exact Spec.Numeral.plus _ hds hdig
          · simp only [hc, Bool.false_eq_true, if_false, List.nil_append]
            exact Spec.Numeral.plain _ hds hdig
      · have hcr : c :: r = (if neg then ['-'] else (if c = '+' then ['+'] else [])) ++ rest := by
          unfold splitSign at hsg
          split at hsg
          · next r' heq =>
            injection hsg with e1 e2
            injection heq with e3 e4
            subst e1 e2 e3 e4; rfl
          · next r' heq =>
            injection hsg with e1 e2
            injection heq with e3 e4
            subst e1 e2 e3 e4; rfl
          · next h1 h2 =>
            injection hsg with e1 e2
            subst e1 e2
            rw [if_neg (by decide), if_neg (by rintro rfl; exact h2 r rfl)]
            simp
        rw [List.append_assoc, ← hrest, ← hcr]
        exact hsplit
  · rintro ⟨⟨s, n, s', hs, hn, hs', rfl⟩, h0, h1⟩
    obtain ⟨c, r, hr, hcs, -⟩ := Numeral.head hn
    have hnum := readInt_numeral (b := []) (rest := s') (v := 0) (by intro c hc; simp at hc) hn
      (by unfold Spec.IsInt; omega) (by
        cases s' with
        | nil => simp
        | cons a s' =>
          intro x hx
          simp at hx
          subst hx
          have := hs' a (by simp)
          rw [← space_iff] at this
          by_contra hd
          rw [Bool.not_eq_false, digit_iff] at hd
          rw [(digit_not_space hd).1] at this
          exact absurd this (by decide))
    have hskip : ∀ v : Int, readInt v ⟨s ++ (n ++ s'), false, false⟩ = readInt v ⟨n ++ s', false, false⟩ := by
      intro v
      unfold readInt
      have : (s ++ (n ++ s')).dropWhile isSpace = (n ++ s').dropWhile isSpace :=
        dropWhile_append_of_all fun c hc => (space_iff c).mpr (hs c hc)
      simp only [Stream.good, this]
      rfl
    unfold interpretParameter
    rw [hskip]
    rw [List.nil_append] at hnum
    rw [hnum]
    simp only [Bool.false_eq_true, if_false]
    rw [if_neg, if_neg (by omega)]
    rw [not_not]
    exact readWord_spaces fun c hc => (space_iff c).mpr (hs' c hc)

theorem interpretParameter_not_ub (p : List Char) : interpretParameter p ≠ .ub := by
  unfold interpretParameter
  simp only
  split
  · simp
  · split
    · simp
    · split <;> simp

theorem tShort : "-t".toList = ['-', 't'] ∧ "--threads=".toList = '-' :: '-' :: 't' :: "hreads=".toList ∧ "--t".toList = ['-', '-', 't'] := by
  decide +kernel

/-- **C49** The number of threads: the value of the option if it is a positive number (that fits into `int`), an error
for any other value, the hardware default (but at least one) without the option, and an error if the option is
misspelt or has no value. -/
theorem C49_threads (hardware : Nat) (args : List (List Char)) :
    (∀ p z, Spec.Given 't' "--threads=".toList args p → Spec.IntegerText p z → 0 < z → z ≤ 2147483647 →
      numberOfThreads hardware args = .ok z) ∧
    (∀ p, Spec.Given 't' "--threads=".toList args p → (¬ ∃ z, Spec.IntegerText p z ∧ 0 < z ∧ z ≤ 2147483647) →
      numberOfThreads hardware args = .thrown) ∧
    (Spec.Absent 't' args → numberOfThreads hardware args = .ok (max hardware 1)) ∧
    (¬ Spec.Absent 't' args → (∀ p, ¬ Spec.Given 't' "--threads=".toList args p) → numberOfThreads hardware args = .thrown) := by
  obtain ⟨e1, e2, e3⟩ := tShort
  unfold numberOfThreads
  rw [e1, e2, e3]
  refine ⟨fun p z h1 h2 h3 h4 => ?_, fun p h1 h2 => ?_, fun h => ?_, fun h1 h2 => ?_⟩
  · rw [given_findOption 't' (by decide) h1]
    exact interpretParameter_ok.mpr ⟨h2, h3, h4⟩
  · rw [given_findOption 't' (by decide) h1]
    cases h : interpretParameter p with
    | ok z => exact absurd ⟨z, interpretParameter_ok.mp h⟩ h2
    | thrown => exact h
    | ub => exact absurd h (interpretParameter_not_ub p)
  · rw [absent_findOption 't' (by decide) h]
    show Outcome.ok _ = _
    congr 1
    split <;> omega
  · rcases findOption_spec 't' (by decide) "hreads=".toList args with ⟨p, -, g⟩ | ⟨-, g⟩ | ⟨g, -⟩
    · exact absurd g (h2 p)
    · exact absurd g h1
    · rw [g]; rfl

/-- **C49** In particular at least one thread is used whenever the program continues. -/
theorem C49_positive {hardware : Nat} {args : List (List Char)} {n : Int} (h : numberOfThreads hardware args = .ok n) : 1 ≤ n := by
  unfold numberOfThreads at h
  cases ho : findOption "-t".toList "--threads=".toList "--t".toList args with
  | thrown => rw [ho] at h; simp [Outcome.bind] at h
  | ub => rw [ho] at h; simp [Outcome.bind] at h
  | ok o =>
    rw [ho] at h
    cases o with
    | none =>
      simp only [Outcome.bind] at h
      injection h with h
      split at h <;> omega
    | some p =>
      have := (interpretParameter_ok.mp h).2.1
      omega

example : numberOfThreads 8 ["file".toList, "-c".toList, "-t".toList, " 4 ".toList] = .ok 4 ∧
    numberOfThreads 8 ["--threads=12".toList, "file".toList] = .ok 12 ∧
    numberOfThreads 8 ["-t=0".toList] = .thrown ∧ numberOfThreads 8 ["-t".toList, "4x".toList] = .thrown ∧
    numberOfThreads 8 ["-t4".toList] = .thrown ∧ numberOfThreads 0 ["file".toList] = .ok 1 := by decide +kernel

/-! ## the order of the input (C54) -/

/-- **C54** The documented values of `-s` / `--sorting` select the documented order; without the option the input is not
sorted. -/
theorem C54_sorting (args : List (List Char)) :
    (Spec.Absent 's' args → getInputOrder args = .ok .noSorting) ∧
    (∀ p, Spec.Given 's' "--sorting=".toList args p →
      (p ∈ ["lex".toList, "lexicographic".toList, "lex_asc".toList, "lexicographic_ascending".toList] → getInputOrder args = .ok .lexAsc) ∧
      (p ∈ ["lex_desc".toList, "lex_dec".toList, "lex_down".toList, "lexicographic_descending".toList] → getInputOrder args = .ok .lexDesc) ∧
      (p ∈ ["nz".toList, "nonzero".toList, "nz_asc".toList, "nonzero_ascending".toList] → getInputOrder args = .ok .nonZeroAsc) ∧
      (p ∈ ["nz_desc".toList, "nz_dec".toList, "nz_down".toList, "nonzero_descending".toList] → getInputOrder args = .ok .nonZeroDesc) ∧
      (p ∈ ["rev".toList, "reverse".toList] → getInputOrder args = .ok .reverse)) := by
  have e : "-s".toList = ['-', 's'] ∧ "--sorting=".toList = '-' :: '-' :: 's' :: "orting=".toList ∧ "--s".toList = ['-', '-', 's'] := by
    decide +kernel
  obtain ⟨e1, e2, e3⟩ := e
  unfold getInputOrder
  rw [e1, e2, e3]
  refine ⟨fun h => ?_, fun p h => ?_⟩
  · rw [absent_findOption 's' (by decide) h]; rfl
  · rw [given_findOption 's' (by decide) h]
    simp only [Outcome.bind, List.mem_cons, List.not_mem_nil, or_false]
    refine ⟨?_, ?_, ?_, ?_, ?_⟩
    · rintro (rfl | rfl | rfl | rfl) <;> decide +kernel
    · rintro (rfl | rfl | rfl | rfl) <;> decide +kernel
    · rintro (rfl | rfl | rfl | rfl) <;> decide +kernel
    · rintro (rfl | rfl | rfl | rfl) <;> decide +kernel
    · rintro (rfl | rfl) <;> decide +kernel

/-- **C54** is not safe for other values: `-s none` and `-s lexx` read behind the end of the argument. -/
theorem C54_undefined_false : getInputOrder ["-s".toList, "none".toList] = .ub ∧ getInputOrder ["--sorting=lexx".toList] = .ub := by
  decide +kernel

/-! ## method and integer type (C54) -/

/-- **C54** The documented values of `-m` / `--method` select the method; the default is adjacency decomposition; every
other value is rejected. -/
theorem C54_method (args : List (List Char)) :
    (Spec.Absent 'm' args → methodOption args = .ok .adjacencyDecomposition) ∧
    (∀ p, Spec.Given 'm' "--method=".toList args p →
      (p ∈ ["dd".toList, "double-description".toList] → methodOption args = .ok .doubleDescription) ∧
      (p ∈ ["ad".toList, "adjacency-decomposition".toList] → methodOption args = .ok .adjacencyDecomposition) ∧
      (p ∉ ["dd".toList, "double-description".toList, "double_description".toList, "ad".toList, "adjacency-decomposition".toList,
        "adjacency_decomposition".toList] → methodOption args = .thrown)) := by
  have e : "-m".toList = ['-', 'm'] ∧ "--method=".toList = '-' :: '-' :: 'm' :: "ethod=".toList ∧ "--m".toList = ['-', '-', 'm'] := by
    decide +kernel
  obtain ⟨e1, e2, e3⟩ := e
  unfold methodOption
  rw [e1, e2, e3]
  refine ⟨fun h => ?_, fun p h => ?_⟩
  · rw [absent_findOption 'm' (by decide) h]; rfl
  · rw [given_findOption 'm' (by decide) h]
    simp only [Outcome.bind]
    refine ⟨?_, ?_, ?_⟩
    · intro hp; rw [List.mem_cons, List.mem_singleton] at hp; rcases hp with rfl | rfl <;> decide +kernel
    · intro hp; rw [List.mem_cons, List.mem_singleton] at hp; rcases hp with rfl | rfl <;> decide +kernel
    · intro hp
      simp only [List.mem_cons, List.not_mem_nil, or_false, not_or] at hp
      unfold detectMethod
      rw [if_neg (by rintro (h | h | h); exacts [hp.1 h, hp.2.1 h, hp.2.2.1 h]),
        if_neg (by rintro (h | h | h); exacts [hp.2.2.2.1 h, hp.2.2.2.2.1 h, hp.2.2.2.2.2 h])]

/-- **C54** The values `16`, `32`, `64`, `safe`, `inf` of `-i` / `--integer-type` select the integer type; every other value
is rejected; the default is `int`. -/
theorem C54_integer_type (args : List (List Char)) :
    (Spec.Absent 'i' args → integerType args = .ok .default) ∧
    (∀ p, Spec.Given 'i' "--integer-type=".toList args p →
      (p = "16".toList → integerType args = .ok .fixed16) ∧ (p = "32".toList → integerType args = .ok .fixed32) ∧
      (p = "64".toList → integerType args = .ok .fixed64) ∧ (p = "safe".toList → integerType args = .ok .safe) ∧
      (p = "inf".toList → integerType args = .ok .variable) ∧
      (p ∉ ["16".toList, "32".toList, "64".toList, "safe".toList, "inf".toList] → integerType args = .thrown)) := by
  have e : "-i".toList = ['-', 'i'] ∧ "--integer-type=".toList = '-' :: '-' :: 'i' :: "nteger-type=".toList ∧
      "--i".toList = ['-', '-', 'i'] := by
    decide +kernel
  obtain ⟨e1, e2, e3⟩ := e
  unfold integerType
  rw [e1, e2, e3]
  refine ⟨fun h => ?_, fun p h => ?_⟩
  · rw [absent_findOption 'i' (by decide) h]; rfl
  · rw [given_findOption 'i' (by decide) h]
    simp only [Outcome.bind]
    refine ⟨?_, ?_, ?_, ?_, ?_, ?_⟩
    · rintro rfl; decide +kernel
    · rintro rfl; decide +kernel
    · rintro rfl; decide +kernel
    · rintro rfl; decide +kernel
    · rintro rfl; decide +kernel
    · intro hp
      simp only [List.mem_cons, List.not_mem_nil, or_false, not_or] at hp
      unfold integerTypeFromString
      rw [if_neg hp.1, if_neg hp.2.1, if_neg hp.2.2.1, if_neg hp.2.2.2.1, if_neg hp.2.2.2.2]

/-! ## the name of the input file (C55) -/

/-- what the loop returns from the candidates it meets, when no name has been met before -/
def expectedName : List (List Char) → Outcome (List Char)
  | [] => .ok []
  | [f] => .ok f
  | _ :: _ :: _ => .thrown

theorem filenameLoop_spec {args files : List (List Char)} (h : Spec.CommandLine args files) : ∀ name : List Char,
    filenameLoop args name = if name = [] then expectedName files
      else (if files = [] then .ok name else .thrown) := by
  have e2 : "--".toList = ['-', '-'] := by decide +kernel
  have e1 : "-".toList = ['-'] := by decide +kernel
  have ec : "-c".toList = ['-', 'c'] := by decide +kernel
  have ef : "-f".toList = ['-', 'f'] := by decide +kernel
  induction h with
  | nil => intro name; rw [filenameLoop]; split <;> simp_all [expectedName]
  | long ha _ ih =>
    intro name
    rw [filenameLoop, if_pos (by rw [e2, isPrefix_iff]; exact ha), ih]
  | flag ha _ ih =>
    intro name
    rw [filenameLoop, if_neg (by rw [e2]; rcases ha with rfl | rfl <;> decide),
      if_pos (by rw [e1]; rcases ha with rfl | rfl <;> decide),
      if_neg (by unfold requiresParameter; rw [ec, ef]; rcases ha with rfl | rfl <;> decide), ih]
  | short h1 h2 h3 h4 _ ih =>
    intro name
    rw [filenameLoop, if_neg (by rw [e2, isPrefix_iff]; exact h2), if_pos (by rw [e1, isPrefix_iff]; exact h1), if_pos]
    · rw [List.drop_one, List.tail_cons, ih]
    · unfold requiresParameter
      rw [ec, ef]
      simp [h3, h4]
  | @file a args files h0 h1 _ ih =>
    intro name
    obtain ⟨c, r, rfl⟩ := List.exists_cons_of_ne_nil h0
    have hc : c ≠ '-' := by simpa using h1
    rw [filenameLoop, if_neg (by rw [e2, isPrefix_iff]; rintro ⟨t, ht⟩; simp at ht; exact hc ht.1.symm),
      if_neg (by rw [e1, isPrefix_iff]; rintro ⟨t, ht⟩; simp at ht; exact hc ht.1.symm)]
    by_cases hn : name = []
    · subst hn
      rw [if_neg (by simp), if_pos rfl, ih, if_neg (by simp)]
      cases files with
      | nil => simp [expectedName]
      | cons => simp [expectedName]
    · rw [if_pos hn, if_neg hn, if_neg (by simp)]

/-- **C55** For command lines of the documented form the input file is the one argument that is neither an option nor the
parameter of an option; several such arguments are an error. -/
theorem C55_filename {args files : List (List Char)} (h : Spec.CommandLine args files) :
    (∀ f, files = [f] → getFilename args = .ok f) ∧ (2 ≤ files.length → getFilename args = .thrown) ∧
      (files = [] → getFilename args = .ok []) := by
  have := filenameLoop_spec h []
  rw [if_pos rfl] at this
  unfold getFilename
  refine ⟨fun f hf => ?_, fun hl => ?_, fun hf => ?_⟩
  · rw [this, hf, expectedName]
  · rw [this]
    rcases files with _ | ⟨f, _ | ⟨g, r⟩⟩
    · simp at hl
    · simp at hl
    · rfl
  · rw [this, hf, expectedName]

example : Spec.CommandLine ["-t".toList, "4".toList, "-c".toList, "data".toList, "--method=dd".toList] ["data".toList] := by
  refine .short (by decide +kernel) (by decide +kernel) (by decide +kernel) (by decide +kernel) (.flag (Or.inl (by decide +kernel))
    (.file (by decide +kernel) (by decide +kernel) (.long ⟨"method=dd".toList, by decide +kernel⟩ .nil)))

/-- **C55** does not extend to the form `-t=4`, which the option itself accepts: the file name after it is taken for a
parameter and no file is read. -/
theorem C55_short_equals_false : numberOfThreads 1 ["-t=4".toList, "data".toList] = .ok 4 ∧
    getFilename ["-t=4".toList, "data".toList] = .ok [] ∧ getFilename ["-t".toList, "4".toList, "data".toList] = .ok "data".toList := by
  refine ⟨by decide +kernel, ?_, ?_⟩
  · unfold getFilename
    rw [filenameLoop, if_neg (by decide +kernel), if_pos (by decide +kernel), if_pos (by decide +kernel)]
    rw [show ["data".toList].drop 1 = [] from rfl, filenameLoop]
  · exact (C55_filename (files := ["data".toList]) (.short (by decide +kernel) (by decide +kernel) (by decide +kernel)
      (by decide +kernel) (.file (by decide +kernel) (by decide +kernel) .nil))).1 _ rfl

/-! ## the operation mode (C56) -/

theorem linesFrom_append (cur h t : List Char) (hh : '\n' ∉ h) :
    linesFrom cur (h ++ '\n' :: t) = (cur.reverse ++ h) :: linesFrom [] t := by
  induction h generalizing cur with
  | nil => simp [linesFrom]
  | cons c h ih =>
    rw [List.mem_cons, not_or] at hh
    rw [List.cons_append, linesFrom, if_neg (fun e => hh.1 e.symm), ih _ hh.2]
    simp

theorem linesFrom_last (cur h : List Char) (hh : '\n' ∉ h) :
    linesFrom cur h = if cur.reverse ++ h = [] then [] else [cur.reverse ++ h] := by
  induction h generalizing cur with
  | nil => simp [linesFrom]
  | cons c h ih =>
    rw [List.mem_cons, not_or] at hh
    rw [linesFrom, if_neg (fun e => hh.1 e.symm), ih _ hh.2]
    simp

theorem text_cases (t : List Char) : '\n' ∉ t ∨ ∃ h r, '\n' ∉ h ∧ t = h ++ '\n' :: r := by
  induction t with
  | nil => left; simp
  | cons c t ih =>
    by_cases hc : c = '\n'
    · right; exact ⟨[], t, by simp, by simp [hc]⟩
    · rcases ih with h | ⟨h, r, h1, rfl⟩
      · left; simp [h]; exact fun e => hc e.symm
      · right; exact ⟨c :: h, r, by simp [h1]; exact fun e => hc e.symm, rfl⟩

theorem lineOf_of_mem : ∀ (n : Nat) (t l : List Char), t.length ≤ n → l ∈ textLines t → Spec.LineOf t l := by
  intro n
  induction n with
  | zero =>
    intro t l ht hl
    rw [List.length_eq_zero_iff.1 (by omega : t.length = 0)] at hl
    simp [textLines, linesFrom] at hl
  | succ n ih =>
    intro t l ht hl
    rcases text_cases t with h | ⟨h, r, h1, rfl⟩
    · rw [textLines, linesFrom_last _ _ h] at hl
      split at hl
      · simp at hl
      · simp at hl; rw [hl]; exact .last h
    · rw [textLines, linesFrom_append _ _ _ h1] at hl
      simp only [List.reverse_nil, List.nil_append, List.mem_cons] at hl
      rcases hl with rfl | hl
      · exact .first h1
      · refine .later h1 (ih _ _ ?_ hl)
        simp at ht; omega

theorem mem_of_lineOf {t l : List Char} (h : Spec.LineOf t l) (hl : l ≠ []) : l ∈ textLines t := by
  induction h with
  | last h => rw [textLines, linesFrom_last _ _ h]; simp [hl]
  | first h => rw [textLines, linesFrom_append _ _ _ h]; simp
  | later h _ ih => rw [textLines, linesFrom_append _ _ _ h]; exact List.mem_cons_of_mem _ (ih hl)

theorem blanks_iff {b : List Char} : Spec.Blanks b ↔ ∀ c ∈ b, isBlank c = true := by
  constructor
  · intro h c hc
    rcases h c hc with rfl | rfl | rfl <;> rfl
  · intro h c hc
    have := h c hc
    simp [isBlank] at this
    tauto

theorem mem_takeWhile_blank {l : List Char} {c : Char} (h : c ∈ l.takeWhile isBlank) : isBlank c = true := by
  induction l with
  | nil => simp at h
  | cons d l ih =>
    rw [List.takeWhile_cons] at h
    split at h
    · rcases List.mem_cons.1 h with rfl | h
      · assumption
      · exact ih h
    · simp at h

/-- trimming a line leaves a word that starts and ends with no blank exactly if the line is the word between blanks -/
theorem trim_eq_iff {l k : List Char} (h1 : ∀ c ∈ k.head?, isBlank c = false) (h2 : ∀ c ∈ k.getLast?, isBlank c = false)
    (h0 : k ≠ []) : trimWhitespace l = k ↔ ∃ b b', Spec.Blanks b ∧ Spec.Blanks b' ∧ l = b ++ (k ++ b') := by
  constructor
  · intro h
    refine ⟨l.takeWhile isBlank, (((l.dropWhile isBlank).reverse).takeWhile isBlank).reverse, ?_, ?_, ?_⟩
    · rw [blanks_iff]; intro c hc; exact mem_takeWhile_blank hc
    · rw [blanks_iff]; intro c hc; exact mem_takeWhile_blank (List.mem_reverse.1 hc)
    · rw [← h, trimWhitespace, ← List.reverse_append, List.takeWhile_append_dropWhile, List.reverse_reverse,
        List.takeWhile_append_dropWhile]
  · rintro ⟨b, b', hb, hb', rfl⟩
    rw [trimWhitespace, dropWhile_blanks hb]
    have e1 : (k ++ b').dropWhile isBlank = k ++ b' := by
      obtain ⟨c, r, rfl⟩ := List.exists_cons_of_ne_nil h0
      rw [List.cons_append, List.dropWhile_cons, if_neg (by rw [h1 c (by simp)]; decide)]
    rw [e1, List.reverse_append, dropWhile_blanks (by intro c hc; exact hb' c (List.mem_reverse.1 hc))]
    obtain ⟨r, c, rfl⟩ : ∃ (r : List Char) (c : Char), k = r ++ [c] :=
      ⟨k.dropLast, k.getLast h0, (List.dropLast_append_getLast h0).symm⟩
    rw [List.reverse_append]
    simp only [List.reverse_cons, List.reverse_nil, List.nil_append, List.cons_append]
    rw [List.dropWhile_cons, if_neg (by rw [h2 c (by simp)]; decide)]
    simp

/-- what is required of the words in the specification -/
def wordOk (k : List Char) : Bool :=
  k.head?.elim false (fun c => !isBlank c) && k.getLast?.elim false (fun c => !isBlank c)

theorem wordOk_spec {k : List Char} (h : wordOk k = true) :
    (∀ c ∈ k.head?, isBlank c = false) ∧ (∀ c ∈ k.getLast?, isBlank c = false) ∧ k ≠ [] := by
  obtain ⟨c, r, rfl⟩ : ∃ c r, k = c :: r := by
    cases k with
    | nil => simp [wordOk] at h
    | cons c r => exact ⟨c, r, rfl⟩
  rw [wordOk, Bool.and_eq_true] at h
  refine ⟨?_, ?_, by simp⟩
  · intro d hd
    have := h.1
    rw [Option.mem_def] at hd
    rw [hd] at this
    simpa using this
  · intro d hd
    have := h.2
    rw [Option.mem_def] at hd
    rw [hd] at this
    simpa using this

theorem any_lines_iff (words : List String) (hw : ∀ k ∈ words, wordOk k.toList = true) (f : List Char → Bool)
    (hf : ∀ s, f s = true ↔ ∃ k ∈ words, k.toList = s) (text : List Char) :
    ((textLines text).any fun l => f (trimWhitespace l)) = true ↔ Spec.HasWordLine words text := by
  rw [List.any_eq_true]
  constructor
  · rintro ⟨l, hl, h⟩
    obtain ⟨k, hk, e⟩ := (hf _).1 h
    obtain ⟨h1, h2, h3⟩ := wordOk_spec (hw k hk)
    obtain ⟨b, b', hb, hb', rfl⟩ := (trim_eq_iff h1 h2 h3).1 e.symm
    exact ⟨_, b, b', k, hk, lineOf_of_mem _ _ _ le_rfl hl, hb, hb', rfl⟩
  · rintro ⟨l, b, b', k, hk, hl, hb, hb', rfl⟩
    obtain ⟨h1, h2, h3⟩ := wordOk_spec (hw k hk)
    refine ⟨_, mem_of_lineOf hl (by simp [h3]), (hf _).2 ⟨k, hk, ?_⟩⟩
    exact ((trim_eq_iff h1 h2 h3).2 ⟨b, b', hb, hb', rfl⟩).symm

theorem words_iff {ws vs : List String} (h1 : ∀ k ∈ ws, k ∈ vs) (h2 : ∀ k ∈ vs, k ∈ ws) (s : List Char) :
    (ws.any fun k => k.toList = s) = true ↔ ∃ k ∈ vs, k.toList = s := by
  rw [List.any_eq_true]
  constructor
  · rintro ⟨k, hk, h⟩; exact ⟨k, h1 k hk, by simpa using h⟩
  · rintro ⟨k, hk, h⟩; exact ⟨k, h2 k hk, by simpa using h⟩

theorem hasHullKeyword_iff (text : List Char) : hasHullKeyword text = true ↔ Spec.HasWordLine Spec.hullWords text := by
  refine any_lines_iff Spec.hullWords (by decide +kernel)
    (fun s => isKeywordConicalHull s || isKeywordReducedConicalHull s || isKeywordConvexHull s || isKeywordReducedConvexHull s)
    (fun s => ?_) text
  simp only [isKeywordConicalHull, isKeywordReducedConicalHull, isKeywordConvexHull, isKeywordReducedConvexHull, ← List.any_append]
  exact words_iff (by decide +kernel) (by decide +kernel) s

theorem hasInequalitiesKeyword_iff (text : List Char) :
    hasInequalitiesKeyword text = true ↔ Spec.HasWordLine Spec.inequalityWords text := by
  refine any_lines_iff Spec.inequalityWords (by decide +kernel)
    (fun s => isKeywordInequalities s || isKeywordReducedInequalities s) (fun s => ?_) text
  simp only [isKeywordInequalities, isKeywordReducedInequalities, ← List.any_append]
  exact words_iff (by decide +kernel) (by decide +kernel) s

/-- **C56** Unless help or the version is asked for, the operation is decided by the section headings in the input file, for
every text of that file: headings of both kinds are rejected as invalid, inequalities alone select the vertex enumeration,
anything else (also a file without headings) the facet enumeration. -/
theorem C56_operation_mode (read : Arg → Option (List Char)) (args files : List Arg) (f : Arg) (text : List Char)
    (hm : commandLineModeOption args = .undecided) (hc : Spec.CommandLine args files) (hf : files = [f])
    (hr : read f = some text) :
    ∃ m, detectOperationMode read args = .ok m ∧
      (m = .invalid ↔ Spec.HasWordLine Spec.hullWords text ∧ Spec.HasWordLine Spec.inequalityWords text) ∧
      (m = .vertexEnumeration ↔ Spec.HasWordLine Spec.inequalityWords text ∧ ¬ Spec.HasWordLine Spec.hullWords text) ∧
      (m = .facetEnumeration ↔ ¬ Spec.HasWordLine Spec.inequalityWords text) := by
  unfold detectOperationMode
  rw [if_neg (not_not.2 hm), (C55_filename hc).1 f hf]
  simp only [Outcome.bind, hr, Option.getD_some]
  rw [← hasHullKeyword_iff, ← hasInequalitiesKeyword_iff]
  by_cases h1 : hasHullKeyword text = true <;> by_cases h2 : hasInequalitiesKeyword text = true <;>
    simp [h1, h2]

/-- **C56** Help and version options win over everything else: they decide the operation without reading any file. -/
theorem C56_help_first (read read' : Arg → Option (List Char)) (args : List Arg)
    (h : args = [] ∨ ∃ a ∈ args, a ∈ ["-h".toList, "--help".toList, "-help".toList, "--h".toList, "?".toList, "-v".toList,
      "--v".toList, "-version".toList, "--version".toList]) :
    ∃ m, detectOperationMode read args = .ok m ∧ detectOperationMode read' args = .ok m ∧
      (m = .help ∨ m = .helpCommand ∨ m = .version) := by
  have key : ∀ l : List Arg, (∃ a ∈ l, a ∈ ["-h".toList, "--help".toList, "-help".toList, "--h".toList, "?".toList, "-v".toList,
      "--v".toList, "-version".toList, "--version".toList]) → modeLoop l = .help ∨ modeLoop l = .helpCommand ∨ modeLoop l = .version := by
    intro l
    induction l with
    | nil => rintro ⟨a, ha, -⟩; simp at ha
    | cons b r ih =>
      rintro ⟨a, ha, hk⟩
      rw [modeLoop]
      split
      · right; left; rfl
      · split
        · left; rfl
        · split
          · right; right; rfl
          · rename_i n1 n2 n3
            rcases List.mem_cons.1 ha with rfl | ha
            · exfalso
              revert n2 n3 hk
              clear ih n1
              generalize "-h".toList = x1
              generalize "--help".toList = x2
              generalize "-help".toList = x3
              generalize "--h".toList = x4
              generalize "?".toList = x5
              generalize "-v".toList = x6
              generalize "--v".toList = x7
              generalize "-version".toList = x8
              generalize "--version".toList = x9
              intro hk n2 n3
              simp only [List.mem_cons, List.not_mem_nil, or_false] at hk
              tauto
            · exact ih ⟨a, ha, hk⟩
  have h2 : commandLineModeOption args = .help ∨ commandLineModeOption args = .helpCommand ∨ commandLineModeOption args = .version := by
    rw [commandLineModeOption]
    split
    · left; rfl
    · rcases h with h | h
      · contradiction
      · exact key _ h
  refine ⟨commandLineModeOption args, ?_, ?_, h2⟩ <;>
  · rw [detectOperationMode, if_pos]
    rcases h2 with h2 | h2 | h2 <;> rw [h2] <;> decide

/-- **C56** The first help or version option decides: `-h` followed by something and `--help=…` ask for help about a command
or option, `-h` as the last argument and the other spellings for general help. -/
theorem C56_first (read : Arg → Option (List Char)) (pre rest : List Arg) (a : Arg) (hpre : ∀ b ∈ pre, ¬ Spec.ModeArgument b) :
    (Spec.HelpAbout a ∨ (a = "-h".toList ∧ rest ≠ []) → detectOperationMode read (pre ++ a :: rest) = .ok .helpCommand) ∧
    (Spec.HelpWord a ∨ (a = "-h".toList ∧ rest = []) → detectOperationMode read (pre ++ a :: rest) = .ok .help) ∧
    (Spec.VersionWord a → detectOperationMode read (pre ++ a :: rest) = .ok .version) := by
  have hskip : ∀ pre : List Arg, (∀ b ∈ pre, ¬ Spec.ModeArgument b) → modeLoop (pre ++ a :: rest) = modeLoop (a :: rest) := by
    intro pre
    induction pre with
    | nil => intro _; rfl
    | cons b pre ih =>
      intro h
      have hb := h b (by simp)
      rw [List.cons_append, modeLoop]
      unfold Spec.ModeArgument Spec.HelpAbout Spec.HelpWord Spec.VersionWord at hb
      rw [if_neg, if_neg, if_neg, ih fun c hc => h c (by simp [hc])]
      · rintro (e | e | e | e) <;> exact hb (Or.inr (Or.inr (Or.inr (by rw [e]; simp))))
      · rintro (e | e | e | e | e)
        · exact hb (Or.inr (Or.inr (Or.inl (by rw [e]; simp))))
        · exact hb (Or.inl e)
        · exact hb (Or.inr (Or.inr (Or.inl (by rw [e]; simp))))
        · exact hb (Or.inr (Or.inr (Or.inl (by rw [e]; simp))))
        · exact hb (Or.inr (Or.inr (Or.inl (by rw [e]; simp))))
      · rintro (⟨e, -⟩ | e | e | e)
        · exact hb (Or.inl e)
        · exact hb (Or.inr (Or.inl (Or.inl (List.isPrefixOf_iff_prefix.1 e))))
        · exact hb (Or.inr (Or.inl (Or.inr (Or.inl (List.isPrefixOf_iff_prefix.1 e)))))
        · exact hb (Or.inr (Or.inl (Or.inr (Or.inr (List.isPrefixOf_iff_prefix.1 e)))))
  have hd : ∀ m, m ≠ .undecided → modeLoop (a :: rest) = m → detectOperationMode read (pre ++ a :: rest) = .ok m := by
    intro m hm e
    have : commandLineModeOption (pre ++ a :: rest) = m := by
      rw [commandLineModeOption, if_neg (by simp), hskip pre hpre, e]
    rw [detectOperationMode, this, if_pos hm]
  have nopre : ∀ w, (w ∈ ["?", "--h", "-help", "--help", "-v", "--v", "-version", "--version"] → a = w.toList →
      ¬ ((a = "-h".toList ∧ rest ≠ []) ∨ "-h=".toList.isPrefixOf a = true ∨ "--help=".toList.isPrefixOf a = true ∨
        "--help-command=".toList.isPrefixOf a = true)) := by
    rintro w hw rfl
    simp only [List.mem_cons, List.not_mem_nil, or_false] at hw
    rintro (⟨e, -⟩ | e | e | e)
    · rcases hw with rfl | rfl | rfl | rfl | rfl | rfl | rfl | rfl <;> revert e <;> decide +kernel
    · rcases hw with rfl | rfl | rfl | rfl | rfl | rfl | rfl | rfl <;> revert e <;> decide +kernel
    · rcases hw with rfl | rfl | rfl | rfl | rfl | rfl | rfl | rfl <;> revert e <;> decide +kernel
    · rcases hw with rfl | rfl | rfl | rfl | rfl | rfl | rfl | rfl <;> revert e <;> decide +kernel
  refine ⟨fun h => hd _ (by decide) ?_, fun h => hd _ (by decide) ?_, fun h => hd _ (by decide) ?_⟩
  · rw [modeLoop, if_pos]
    rcases h with (h | h | h) | h
    · exact Or.inr (Or.inl (List.isPrefixOf_iff_prefix.2 h))
    · exact Or.inr (Or.inr (Or.inl (List.isPrefixOf_iff_prefix.2 h)))
    · exact Or.inr (Or.inr (Or.inr (List.isPrefixOf_iff_prefix.2 h)))
    · exact Or.inl h
  · rw [modeLoop]
    rcases h with h | ⟨e, hr⟩
    · unfold Spec.HelpWord at h
      simp only [List.mem_cons, List.not_mem_nil, or_false] at h
      rcases h with h | h | h | h
      · rw [if_neg (nopre _ (by simp) h), if_pos (by rw [h]; tauto)]
      · rw [if_neg (nopre _ (by simp) h), if_pos (by rw [h]; tauto)]
      · rw [if_neg (nopre _ (by simp) h), if_pos (by rw [h]; tauto)]
      · rw [if_neg (nopre _ (by simp) h), if_pos (by rw [h]; tauto)]
    · rw [if_neg, if_pos (Or.inr (Or.inl e))]
      rintro (⟨-, h⟩ | h | h | h)
      · exact h hr
      · rw [e] at h; revert h; decide +kernel
      · rw [e] at h; revert h; decide +kernel
      · rw [e] at h; revert h; decide +kernel
  · rw [modeLoop]
    unfold Spec.VersionWord at h
    simp only [List.mem_cons, List.not_mem_nil, or_false] at h
    have hn : ¬ (a = "?".toList ∨ a = "-h".toList ∨ a = "--h".toList ∨ a = "-help".toList ∨ a = "--help".toList) := by
      rcases h with h | h | h | h <;> rw [h] <;> decide +kernel
    rcases h with h | h | h | h
    · rw [if_neg (nopre _ (by simp) h), if_neg hn, if_pos (by rw [h]; tauto)]
    · rw [if_neg (nopre _ (by simp) h), if_neg hn, if_pos (by rw [h]; tauto)]
    · rw [if_neg (nopre _ (by simp) h), if_neg hn, if_pos (by rw [h]; tauto)]
    · rw [if_neg (nopre _ (by simp) h), if_neg hn, if_pos (by rw [h]; tauto)]

example : ∃ m, detectOperationMode (fun _ => some "Names:\nx y\n  Inequalities:\nx + y <= 1\n".toList) ["data".toList] = .ok m ∧
    m = .vertexEnumeration := by
  refine ⟨.vertexEnumeration, ?_, rfl⟩
  unfold detectOperationMode
  rw [if_neg (by decide +kernel), (C55_filename (files := ["data".toList]) (.file (by decide +kernel) (by decide +kernel) .nil)).1 _ rfl]
  decide +kernel

example : Spec.HasWordLine Spec.inequalityWords "Names:\nx y\n  Inequalities:\nx + y <= 1\n".toList :=
  (hasInequalitiesKeyword_iff _).1 (by decide +kernel)

end Panda
