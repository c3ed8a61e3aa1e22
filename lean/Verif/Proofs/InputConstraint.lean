import Verif.Model.InputConstraint
import Verif.Spec.Constraint
import Verif.Proofs.InputVertex

/-! # Reading constraints -/

namespace Panda

theorem space_iff (c : Char) : isSpace c = true ↔ Spec.Space c := by
  unfold isSpace Spec.Space; simp [or_assoc]

theorem blank_of_blanks {b : List Char} (hb : Spec.Blanks b) {c : Char} (h : c ∈ b.head?) : isBlank c = true ∧ isSpace c = true := by
  have : isBlank c = true := (blank_iff c).mpr (hb c (List.mem_of_mem_head? h))
  exact ⟨this, blank_space this⟩

/-- a token followed by white space or the end of the file is read completely -/
theorem readWord_word {b t w : List Char} (hb : Spec.Blanks b) (ht : t ≠ []) (hs : ∀ c ∈ t, isSpace c = false)
    (hw : ∀ c ∈ w.head?, isSpace c = true) :
    readWord ⟨b ++ (t ++ w), false, false⟩ = (⟨w, w.isEmpty, false⟩, some t) := by
  obtain ⟨c, r, rfl⟩ := List.exists_cons_of_ne_nil ht
  have hd : (b ++ (c :: r ++ w)).dropWhile isSpace = c :: (r ++ w) := by
    rw [dropWhile_space_blanks hb]
    apply dropWhile_head
    intro x hx
    simp only [List.cons_append, List.head?_cons, Option.mem_some_iff] at hx
    exact hx ▸ hs c (by simp)
  have h1 : (c :: (r ++ w)).dropWhile (fun c => !isSpace c) = w := by
    rw [← List.cons_append, dropWhile_append_of_all (by intro c hc; simp [hs c hc])]
    exact dropWhile_head (by intro x hx; simp [hw x hx])
  have h2 : (c :: (r ++ w)).takeWhile (fun c => !isSpace c) = c :: r := by
    rw [← List.cons_append, takeWhile_append_of_all (by intro c hc; simp [hs c hc]),
      takeWhile_head (l := w) (by intro x hx; simp [hw x hx]), List.append_nil]
  unfold readWord
  simp only [Stream.good, Bool.not_false, Bool.and_true, if_true, hd, h1, h2]
  cases w with
  | nil => simp only [List.append_nil]; rfl
  | cons x xs => rfl

/-! ## tokens -/

theorem name_head {x : List Char} (h : Spec.Name x) : ∃ c r, x = c :: r ∧ isFactorChar c = false ∧ isSpace c = false ∧
    isBlank c = false ∧ c ≠ '(' ∧ c ≠ '<' ∧ c ≠ '=' ∧ c ≠ '>' ∧ c ≠ '\n' ∧ c ≠ '\r' := by
  obtain ⟨c, r, rfl, h1, h2, h3⟩ := h
  have hs : isSpace c = false := by
    rw [← Bool.not_eq_true, space_iff]; exact h1 c (by simp)
  simp only [List.mem_cons, List.not_mem_nil, or_false, not_or] at h3
  refine ⟨c, r, rfl, ?_, hs, ?_, h3.2.2.1, h3.2.2.2.1, h3.2.2.2.2.1, h3.2.2.2.2.2, ?_, ?_⟩
  · unfold isFactorChar
    have : isDigitChar c = false := by rw [← Bool.not_eq_true, digit_iff]; exact h2
    simp [this, h3.1, h3.2.1]
  · by_contra hc
    rw [Bool.not_eq_false] at hc
    rw [blank_space hc] at hs
    exact absurd hs (by decide)
  · rintro rfl; exact absurd hs (by decide)
  · rintro rfl; exact absurd hs (by decide)

theorem name_no_space {x : List Char} (h : Spec.Name x) : ∀ c ∈ x, isSpace c = false := by
  obtain ⟨c, r, rfl, h1, -⟩ := h
  intro a ha
  rw [← Bool.not_eq_true, space_iff]; exact h1 a ha

theorem numeral_factor {t : List Char} {z : Int} (h : Spec.Numeral t z) : ∀ c ∈ t, isFactorChar c = true := by
  intro c hc
  unfold isFactorChar
  cases h with
  | plain ds _ h1 => simp [(digit_iff c).mpr (h1 c hc)]
  | plus ds _ h1 =>
    rcases List.mem_cons.mp hc with rfl | hc
    · simp
    · simp [(digit_iff c).mpr (h1 c hc)]
  | minus ds _ h1 =>
    rcases List.mem_cons.mp hc with rfl | hc
    · simp
    · simp [(digit_iff c).mpr (h1 c hc)]

theorem factor_not_space {c : Char} (h : isFactorChar c = true) : isSpace c = false ∧ isBlank c = false ∧ c ≠ '(' ∧ c ≠ '<' ∧
    c ≠ '=' ∧ c ≠ '>' ∧ c ≠ '\n' ∧ c ≠ '\r' := by
  unfold isFactorChar at h
  simp only [Bool.or_eq_true, decide_eq_true_eq] at h
  rcases h with (rfl | rfl) | h
  · decide
  · decide
  · rw [digit_iff] at h
    unfold Spec.Digit at h
    simp only [List.mem_cons, List.not_mem_nil, or_false] at h
    rcases h with rfl | rfl | rfl | rfl | rfl | rfl | rfl | rfl | rfl | rfl <;> decide

theorem toInt_numeral {t : List Char} {z : Int} (h : Spec.Numeral t z) (hz : Spec.IsInt z) : toInt t = .ok z := by
  have h1 := readInt_numeral (b := []) (rest := []) (v := 0) blanks_nil h hz (by simp)
  simp only [List.nil_append, List.append_nil] at h1
  have hne : t ≠ [] ∧ t ≠ ['+'] ∧ t ≠ ['-'] := by
    cases h with
    | plain ds h0 hd =>
      refine ⟨h0, ?_, ?_⟩
      · rintro rfl; have := hd '+' (by simp); revert this; unfold Spec.Digit; decide
      · rintro rfl; have := hd '-' (by simp); revert this; unfold Spec.Digit; decide
    | plus ds h0 h1 => refine ⟨by simp, ?_, by simp⟩; intro hc; injection hc with _ hc; exact h0 hc
    | minus ds h0 h1 => refine ⟨by simp, by simp, ?_⟩; intro hc; injection hc with _ hc; exact h0 hc
  unfold toInt
  rw [if_neg (by tauto), if_neg hne.2.2, h1]
  simp

/-- a term token splits into its factor and its name -/
theorem term_split {t x : List Char} {c : Int} (h : Spec.Term t x c) (hx : Spec.Name x) (hc : Spec.IsInt c) :
    t.takeWhile isFactorChar ++ x = t ∧ t.dropWhile isFactorChar = x ∧ toInt (t.takeWhile isFactorChar) = .ok c ∧
      (∀ a ∈ t, isSpace a = false) ∧ t ≠ ['+'] ∧ t ≠ ['-'] := by
  obtain ⟨a, r, ha, hfa, hsa, -⟩ := name_head hx
  have hd : x.dropWhile isFactorChar = x := dropWhile_head (by rw [ha]; intro y hy; simp at hy; exact hy ▸ hfa)
  have ht : x.takeWhile isFactorChar = [] := takeWhile_head (by rw [ha]; intro y hy; simp at hy; exact hy ▸ hfa)
  have hsp := name_no_space hx
  have key : ∀ f : List Char, (∀ y ∈ f, isFactorChar y = true) → toInt f = .ok c →
      (f ++ x).takeWhile isFactorChar ++ x = f ++ x ∧ (f ++ x).dropWhile isFactorChar = x ∧
      toInt ((f ++ x).takeWhile isFactorChar) = .ok c ∧ (∀ a ∈ f ++ x, isSpace a = false) ∧ f ++ x ≠ ['+'] ∧ f ++ x ≠ ['-'] := by
    intro f hf hi
    rw [takeWhile_append_of_all hf, dropWhile_append_of_all hf, hd, ht, List.append_nil]
    refine ⟨rfl, rfl, hi, ?_, ?_, ?_⟩
    · intro y hy
      rcases List.mem_append.mp hy with hy | hy
      · exact (factor_not_space (hf y hy)).1
      · exact hsp y hy
    · intro he
      have : a ∈ ['+'] := by rw [← he, ha]; simp
      rw [List.mem_singleton.mp this] at hfa
      exact absurd hfa (by decide)
    · intro he
      have : a ∈ ['-'] := by rw [← he, ha]; simp
      rw [List.mem_singleton.mp this] at hfa
      exact absurd hfa (by decide)
  cases h with
  | bare => exact key [] (by simp) rfl
  | plus => exact key ['+'] (by decide) rfl
  | minus => exact key ['-'] (by decide) rfl
  | factor _ hn => exact key _ (numeral_factor hn) (toInt_numeral hn hc)

theorem term_spec {t x : List Char} {c : Int} {names : Names} (h : Spec.Term t x c) (hx : Spec.Name x) (hc : Spec.IsInt c) :
    term t names = if x ∈ names then .ok (names.idxOf x, c) else .thrown := by
  obtain ⟨h1, h2, h3, -, -, -⟩ := term_split h hx hc
  obtain ⟨a, r, ha, -⟩ := name_head hx
  unfold term
  rw [if_neg (by rw [← h1, ha]; simp), h3]
  simp only [Outcome.bind, h2]
  rw [if_neg (by rw [ha]; simp)]

theorem term_numeral {t : List Char} {z : Int} {names : Names} (h : Spec.Numeral t z) (hz : Spec.IsInt z) :
    term t names = (negInt z).bind fun f => .ok (names.length, f) := by
  have hf := numeral_factor h
  have h1 : t.takeWhile isFactorChar = t := by
    have := takeWhile_append_of_all (b := []) hf; simpa using this
  have h2 : t.dropWhile isFactorChar = [] := by
    have := dropWhile_append_of_all (b := []) hf; simpa using this
  obtain ⟨a, r, ha, -⟩ := Numeral.head h
  unfold term
  rw [if_neg (by rw [ha]; simp), h1, h2, toInt_numeral h hz]
  simp [Outcome.bind]

/-- a term with its sign, followed by white space -/
theorem signedTerm_spec {t x w : List Char} {c : Int} {names : Names} (h : Spec.SignedTerm t x c) (hx : Spec.Name x)
    (hcs : Spec.Symmetric c) (hw : ∀ a ∈ w.head?, isSpace a = true) :
    signedTerm ⟨t ++ w, false, false⟩ names =
      if x ∈ names then .ok (⟨w, w.isEmpty, false⟩, names.idxOf x, c) else .thrown := by
  obtain ⟨a, r, ha, -⟩ := name_head hx
  have hc : Spec.IsInt c := by unfold Spec.IsInt Spec.Symmetric at *; omega
  have key : ∀ (s : Char) (b t : List Char) (c : Int), s = '+' ∨ s = '-' → Spec.Blanks b → b ≠ [] → Spec.Term t x c →
      Spec.IsInt c → 0 ≤ c → signedTerm ⟨s :: (b ++ t) ++ w, false, false⟩ names =
      if x ∈ names then .ok (⟨w, w.isEmpty, false⟩, names.idxOf x, if s = '+' then c else -c) else .thrown := by
    intro s b t c hs hb hne ht hc h0
    obtain ⟨h1, h2, h3, h4, h5, h6⟩ := term_split ht hx hc
    have hss : isSpace s = false := by rcases hs with rfl | rfl <;> decide
    have htne : t ≠ [] := by rw [← h1, ha]; simp
    have r1 := readWord_word (b := []) (t := [s]) (w := b ++ (t ++ w)) blanks_nil (by simp) (by simpa using hss)
      (by
        obtain ⟨y, ys, rfl⟩ := List.exists_cons_of_ne_nil hne
        intro z hz
        simp at hz; subst hz
        exact (blank_of_blanks hb (by simp)).2)
    have r2 := readWord_word hb htne h4 hw
    have he : (b ++ (t ++ w)).isEmpty = false := by
      obtain ⟨y, ys, rfl⟩ := List.exists_cons_of_ne_nil hne; rfl
    rw [he] at r1
    unfold signedTerm
    rw [show s :: (b ++ t) ++ w = [] ++ ([s] ++ (b ++ (t ++ w))) by simp, r1]
    simp only [Option.getD_some]
    rw [if_pos (by rcases hs with rfl | rfl <;> simp), r2]
    simp only [Option.getD_some, term_spec ht hx hc]
    by_cases hm : x ∈ names
    · rw [if_pos hm, if_pos hm]
      simp only [Outcome.bind]
      rw [if_neg (by omega)]
      simp
    · rw [if_neg hm, if_neg hm]; rfl
  cases h with
  | token ht =>
    obtain ⟨h1, h2, h3, h4, h5, h6⟩ := term_split ht hx hc
    have htne : t ≠ [] := by rw [← h1, ha]; simp
    have r1 := readWord_word (b := []) blanks_nil htne h4 hw
    rw [List.nil_append] at r1
    unfold signedTerm
    rw [r1]
    simp only [Option.getD_some]
    rw [if_neg (by simp [h5, h6]), term_spec ht hx hc]
    by_cases hm : x ∈ names
    · rw [if_pos hm, if_pos hm]; rfl
    · rw [if_neg hm, if_neg hm]; rfl
  | plus hb hne ht h0 => rw [key '+' _ _ _ (by simp) hb hne ht hc h0]; simp
  | minus hb hne ht h0 =>
    rename_i b t c
    have hmin : Spec.IsInt c := by unfold Spec.IsInt Spec.Symmetric at *; omega
    rw [key '-' _ _ _ (by simp) hb hne ht hmin h0]; simp

/-! ## lines with names -/

/-- a character that can start a term or a number -/
def StartChar (c : Char) : Prop :=
  isSpace c = false ∧ isBlank c = false ∧ c ≠ '(' ∧ c ≠ '<' ∧ c ≠ '=' ∧ c ≠ '>' ∧ c ≠ '\n' ∧ c ≠ '\r'

theorem term_head {t x : List Char} {c : Int} (h : Spec.Term t x c) (hx : Spec.Name x) : ∃ a r, t = a :: r ∧ StartChar a := by
  obtain ⟨a, r, ha, -, h1, h2, h3, h4, h5, h6, h7, h8⟩ := name_head hx
  cases h with
  | bare => exact ⟨a, r, ha, h1, h2, h3, h4, h5, h6, h7, h8⟩
  | plus => exact ⟨_, _, rfl, by unfold StartChar; decide⟩
  | minus => exact ⟨_, _, rfl, by unfold StartChar; decide⟩
  | @factor t _ _ hn =>
    obtain ⟨b, r', hb, -⟩ := Numeral.head hn
    exact ⟨b, r' ++ x, by rw [hb]; rfl, factor_not_space (numeral_factor hn b (by rw [hb]; simp))⟩

theorem signedTerm_head {t x : List Char} {c : Int} (h : Spec.SignedTerm t x c) (hx : Spec.Name x) :
    ∃ a r, t = a :: r ∧ StartChar a := by
  cases h with
  | token ht => exact term_head ht hx
  | plus => exact ⟨_, _, rfl, by unfold StartChar; decide⟩
  | minus => exact ⟨_, _, rfl, by unfold StartChar; decide⟩

theorem lineContinues_start {c : Char} {r : List Char} (h : c ≠ '\n' ∧ c ≠ '\r') : lineContinues ⟨c :: r, false, false⟩ = true := by
  unfold lineContinues isEndOfLine isEndOfFile
  simp [peek_cleared, Stream.clear, h.1, h.2]

theorem lineContinues_end {w : List Char} (h : w = [] ∨ w.head? = some '\n') : lineContinues ⟨w, false, false⟩ = false := by
  rcases h with rfl | h
  · rfl
  · obtain ⟨r, rfl⟩ : ∃ r, w = '\n' :: r := by
      cases w with
      | nil => simp at h
      | cons c r => simp at h; exact ⟨r, by rw [h]⟩
    unfold lineContinues isEndOfLine
    simp [peek_cleared]

theorem isRelation_start {c : Char} {r : List Char} (h : c ≠ '<' ∧ c ≠ '=' ∧ c ≠ '>') : isRelation ⟨c :: r, false, false⟩ = false := by
  unfold isRelation
  cases r with
  | nil => rfl
  | cons d r => simp [h.1, h.2.1, h.2.2]

/-- effect of the terms of a line on the row -/
def addTerms (names : Names) : Row → List (List Char × Int) → Outcome Row
  | ieq, [] => .ok ieq
  | ieq, (x, c) :: l =>
    if x ∈ names then (if ieq.getD (names.idxOf x) 0 ≠ 0 then .thrown else addTerms names (ieq.set (names.idxOf x) c) l)
    else .thrown

theorem addTerms_length {names : Names} : ∀ {l : List (List Char × Int)} {ieq ieq' : Row},
    addTerms names ieq l = .ok ieq' → ieq.length = names.length + 1 → ieq'.length = names.length + 1
  | [], ieq, ieq', h, hl => by rw [addTerms] at h; injection h with h; exact h ▸ hl
  | (x, c) :: l, ieq, ieq', h, hl => by
    rw [addTerms] at h
    split at h
    · split at h
      · exact absurd h (by simp)
      · exact addTerms_length h (by simpa using hl)
    · exact absurd h (by simp)

theorem addTerms_not_ub {names : Names} : ∀ {l : List (List Char × Int)} {ieq : Row}, addTerms names ieq l ≠ .ub
  | [], ieq => by rw [addTerms]; simp
  | (x, c) :: l, ieq => by
    rw [addTerms]
    split
    · split
      · simp
      · exact addTerms_not_ub
    · simp

theorem sum_head {t w : List Char} {l : List (List Char × Int)} (h : Spec.Sum t l) (hw : ∀ c ∈ w.head?, isBlank c = false) :
    ∀ c ∈ (t ++ w).head?, isBlank c = false := by
  cases h with
  | nil => simpa using hw
  | cons ht hx hb hne hs =>
    obtain ⟨a, r, ha, h1⟩ := signedTerm_head ht hx
    rw [ha]
    intro c hc
    simp at hc
    exact hc ▸ h1.2.1

theorem namedLoop_sum {names : Names} {equation : Bool} {t : List Char} {l : List (List Char × Int)} (h : Spec.Sum t l)
    (hc : ∀ q ∈ l, Spec.Symmetric q.2) {w : List Char} (hw : ∀ c ∈ w.head?, isBlank c = false) :
    ∀ (ieq : Row) (fuel : Nat), ieq.length = names.length + 1 →
      namedLoop names equation (fuel + l.length) ⟨t ++ w, false, false⟩ ieq .undecided false =
        (addTerms names ieq l).bind fun ieq' => namedLoop names equation fuel ⟨w, false, false⟩ ieq' .undecided false := by
  induction h with
  | nil => intro ieq fuel _; rfl
  | @cons t b ts x c l ht hx hb hne hs ih =>
    intro ieq fuel hlen
    obtain ⟨a, r, ha, h1⟩ := signedTerm_head ht hx
    have hcx := hc (x, c) (by simp)
    have hsp : ∀ a ∈ (b ++ (ts ++ w)).head?, isSpace a = true := by
      obtain ⟨y, ys, rfl⟩ := List.exists_cons_of_ne_nil hne
      intro z hz
      simp at hz; subst hz
      exact (blank_of_blanks hb (by simp)).2
    have e : t ++ b ++ ts ++ w = t ++ (b ++ (ts ++ w)) := by simp
    rw [List.length_cons, ← Nat.add_assoc, namedLoop, e, show lineContinues ⟨t ++ (b ++ (ts ++ w)), false, false⟩ = true by
      rw [ha]; exact lineContinues_start ⟨h1.2.2.2.2.2.2.1, h1.2.2.2.2.2.2.2⟩]
    simp only [Bool.true_eq_false, if_false, Stream.clear]
    rw [show isRelation ⟨t ++ (b ++ (ts ++ w)), false, false⟩ = false by
      rw [ha]; exact isRelation_start ⟨h1.2.2.2.1, h1.2.2.2.2.1, h1.2.2.2.2.2.1⟩]
    simp only [Bool.false_eq_true, if_false]
    rw [signedTerm_spec ht hx hcx hsp, addTerms]
    by_cases hm : x ∈ names
    · rw [if_pos hm, if_pos hm]
      simp only [Outcome.bind]
      have hidx : names.idxOf x < names.length := List.idxOf_lt_length_iff.mpr hm
      by_cases h0 : ieq.getD (names.idxOf x) 0 ≠ 0
      · rw [if_pos ⟨h0, by omega⟩, if_pos h0]
      · rw [if_neg (by tauto), if_neg h0, if_neg (by omega)]
        have hne' : (b ++ (ts ++ w)).isEmpty = false := by
          obtain ⟨y, ys, rfl⟩ := List.exists_cons_of_ne_nil hne; rfl
        rw [hne', skipWhitespace_ok _ _ (by simp), dropWhile_blanks hb, dropWhile_head (sum_head hs hw)]
        rw [show (false || decide (names.idxOf x + 1 = ieq.length)) = false by
          rw [Bool.false_or, decide_eq_false]; omega]
        exact ih (fun q hq => hc q (by simp [hq])) _ _ (by simpa using hlen)
    · rw [if_neg hm, if_neg hm]; rfl

theorem sum_length {s : List Char} {terms : List (List Char × Int)} (hs : Spec.Sum s terms) : terms.length ≤ s.length := by
  induction hs with
  | nil => simp
  | @cons t b ts x c l ht hx hb hne hs ih =>
    have hp : 1 ≤ b.length := List.length_pos_iff.mpr hne
    simp only [List.length_cons, List.length_append]
    omega

/-- the relation of the specification -/
def toRelation : Spec.Rel → Relation
  | .le => .lessEqual
  | .eq => .equal
  | .ge => .greaterEqual

/-- the relation fits the kind of constraint -/
def relOk (equation : Bool) (rel : Spec.Rel) : Bool := decide (equation = true ↔ rel = .eq)

theorem relText_spec {r w : List Char} {rel : Spec.Rel} {equation : Bool} (h : Spec.RelText r rel)
    (hw : ∀ c ∈ w.head?, isBlank c = false ∧ c ≠ '=') :
    ∃ r', isRelation ⟨r ++ w, false, false⟩ = true ∧
      readRelation equation .undecided ⟨r ++ w, false, false⟩ =
        (if relOk equation rel then .ok (⟨r', false, false⟩, toRelation rel) else .thrown) ∧ r'.dropWhile isBlank = w ∧
      ∃ c q, r ++ w = c :: q ∧ c ≠ '\n' ∧ c ≠ '\r' ∧ isBlank c = false := by
  have hdw : w.dropWhile isBlank = w := dropWhile_head fun c hc => (hw c hc).1
  cases h with
  | @le b hb =>
    refine ⟨b ++ w, rfl, ?_, by rw [dropWhile_blanks hb, hdw], '<', _, rfl, by decide, by decide, by decide⟩
    cases equation <;> rfl
  | @ge b hb =>
    refine ⟨b ++ w, rfl, ?_, by rw [dropWhile_blanks hb, hdw], '>', _, rfl, by decide, by decide, by decide⟩
    cases equation <;> rfl
  | @eqeq b hb =>
    refine ⟨b ++ w, rfl, ?_, by rw [dropWhile_blanks hb, hdw], '=', _, rfl, by decide, by decide, by decide⟩
    cases equation <;> rfl
  | @eq b hb hne =>
    obtain ⟨y, ys, rfl⟩ := List.exists_cons_of_ne_nil hne
    have hy := blank_of_blanks hb (c := y) (by simp)
    have hy' : y ≠ '=' := by rintro rfl; exact absurd hy.1 (by decide)
    refine ⟨y :: ys ++ w, ?_, ?_, by rw [dropWhile_blanks hb, hdw], '=', _, rfl, by decide, by decide, by decide⟩
    · unfold isRelation
      simp [hy.1]
    · have : relationOperator ⟨'=' :: y :: (ys ++ w), false, false⟩ = .ok (⟨y :: (ys ++ w), false, false⟩, .equal) := by
        unfold relationOperator
        simp only
        rw [if_pos hy.1]
      unfold readRelation
      rw [if_neg (by simp)]
      show (relationOperator ⟨'=' :: y :: (ys ++ w), false, false⟩).bind _ = _
      rw [this]
      cases equation <;> rfl

/-- a line with names, in terms of the model -/
theorem constraintNamed_line {t w : List Char} {terms : List (List Char × Int)} {rel : Spec.Rel} {rhs : Int} {names : Names}
    {equation : Bool} (h : Spec.ConstraintLine t terms rel rhs) (hc : ∀ q ∈ terms, Spec.Symmetric q.2)
    (hr : Spec.Symmetric rhs) (hw : w = [] ∨ w.head? = some '\n') :
    constraintNamed equation names ⟨t ++ w, false, false⟩ =
      (addTerms names (List.replicate (names.length + 1) 0) terms).bind fun ieq =>
        if relOk equation rel then
          (normalizeRelation (ieq.set names.length (-rhs)) (toRelation rel)).bind fun row => .ok (⟨w, false, false⟩, row)
        else .thrown := by
  obtain ⟨l, s, r, n, b, hl, hs, hre, hn, hb, rfl⟩ := h
  obtain ⟨a, a', ha, hasp, hab, -⟩ := Numeral.head hn
  have hnf := numeral_factor hn
  have hstart := factor_not_space (hnf a (by rw [ha]; simp))
  have hri : Spec.IsInt rhs := by unfold Spec.IsInt Spec.Symmetric at *; omega
  have hnw : ∀ c ∈ (n ++ (b ++ w)).head?, isBlank c = false ∧ c ≠ '=' := by
    rw [ha]; intro c hc; simp at hc; subst hc; exact ⟨hab, hstart.2.2.2.2.1⟩
  obtain ⟨r', hr1, hr2, hr3, c, q, hr4, hr5, hr6, hr7⟩ := relText_spec (equation := equation) hre hnw
  have hrw : ∀ c ∈ (r ++ (n ++ (b ++ w))).head?, isBlank c = false := by
    rw [hr4]; intro x hx; simp at hx; exact hx ▸ hr7
  -- the whole line after the label
  obtain ⟨x, xs, hx, hxp⟩ : ∃ x xs, s ++ (r ++ (n ++ (b ++ w))) = x :: xs ∧ x ≠ '(' ∧ x ≠ '\n' := by
    cases hs with
    | nil =>
      rw [List.nil_append, hr4]
      refine ⟨c, q, rfl, ?_, hr5⟩
      cases hre <;> (injection hr4 with h1 _; rw [← h1]; decide)
    | cons ht hx hb hne hs =>
      obtain ⟨a, r, ha, h1⟩ := signedTerm_head ht hx
      rw [ha]
      exact ⟨a, _, rfl, h1.2.2.1, h1.2.2.2.2.2.2.1⟩
  have hxb : isBlank x = false := sum_head hs hrw x (by rw [hx]; simp)
  obtain ⟨s1, h1, h2⟩ := optionalIdentifier_label (t := s ++ (r ++ (n ++ (b ++ w)))) hl x xs hx hxb hxp.1
  unfold constraintNamed
  rw [show l ++ (s ++ (r ++ (n ++ b))) ++ w = l ++ (s ++ (r ++ (n ++ (b ++ w)))) by simp, h1]
  simp only [Outcome.bind, h2]
  have hpl : (peekLine ⟨s ++ (r ++ (n ++ (b ++ w))), false, false⟩).1 = ⟨s ++ (r ++ (n ++ (b ++ w))), false, false⟩ ∧
      (peekLine ⟨s ++ (r ++ (n ++ (b ++ w))), false, false⟩).2 ≠ [] := by
    rw [hx]
    unfold peekLine restore getLine
    simp only [Stream.good, Bool.not_false, Bool.and_true, if_true, Bool.false_eq_true, if_false, true_and]
    have hd : (x :: xs).takeWhile (· ≠ '\n') = x :: xs.takeWhile (· ≠ '\n') := by
      simp [hxp.2]
    split
    · rw [hd]; simp
    · simp
  rw [if_neg hpl.2, hpl.1]
  obtain ⟨fuel, hfuel⟩ : ∃ k, (s ++ (r ++ (n ++ (b ++ w)))).length + 1 = (k + 3) + terms.length := by
    have := sum_length hs
    have h3 : 1 ≤ n.length := by rw [ha]; simp
    have h4 : 1 ≤ r.length := by cases hre <;> simp
    refine ⟨(s ++ (r ++ (n ++ (b ++ w)))).length + 1 - terms.length - 3, ?_⟩
    simp only [List.length_append]
    omega
  rw [hfuel, namedLoop_sum hs hc hrw _ _ (by simp)]
  cases hadd : addTerms names (List.replicate (names.length + 1) 0) terms with
  | thrown => rfl
  | ub => rfl
  | ok ieq =>
    have hlen : ieq.length = names.length + 1 := addTerms_length hadd (by simp)
    simp only [Outcome.bind]
    rw [namedLoop, show lineContinues ⟨r ++ (n ++ (b ++ w)), false, false⟩ = true by
      rw [hr4]; exact lineContinues_start ⟨hr5, hr6⟩]
    simp only [Bool.true_eq_false, if_false, Stream.clear, hr1, if_true, hr2]
    by_cases hok : relOk equation rel = true
    · rw [if_pos hok, if_pos hok]
      simp only [Outcome.bind]
      have hcn : lineContinues ⟨n ++ (b ++ w), false, false⟩ = true := by
        rw [ha]; exact lineContinues_start ⟨hstart.2.2.2.2.2.2.1, hstart.2.2.2.2.2.2.2⟩
      have hin : isRelation ⟨n ++ (b ++ w), false, false⟩ = false := by
        rw [ha]; exact isRelation_start ⟨hstart.2.2.2.1, hstart.2.2.2.2.1, hstart.2.2.2.2.2.1⟩
      rw [skipWhitespace_ok _ _ (by simp), hr3, namedLoop]
      simp only [hcn, hin, Bool.true_eq_false, if_false, Stream.clear, Bool.false_eq_true]
      have hbw : ∀ c ∈ (b ++ w).head?, isSpace c = true := by
        cases b with
        | nil =>
          rw [List.nil_append]
          rcases hw with rfl | hw
          · simp
          · rw [hw]; intro c hc; simp at hc; rw [← hc]; decide
        | cons y ys => intro c hc; simp at hc; subst hc; exact (blank_of_blanks hb (by simp)).2
      have hst : signedTerm ⟨n ++ (b ++ w), false, false⟩ names = .ok (⟨b ++ w, (b ++ w).isEmpty, false⟩, names.length, -rhs) := by
        have r1 := readWord_word (b := []) (t := n) (w := b ++ w) blanks_nil (by rw [ha]; simp)
          (fun c hc => (factor_not_space (hnf c hc)).1) hbw
        rw [List.nil_append] at r1
        have hn1 : ¬ (n = ['+'] ∨ n = ['-']) := by
          intro hc
          rcases hn with ⟨ds, h0, hd⟩ | ⟨ds, h0, hd⟩ | ⟨ds, h0, hd⟩
          · rcases hc with rfl | rfl
            · have := hd '+' (by simp); revert this; unfold Spec.Digit; decide
            · have := hd '-' (by simp); revert this; unfold Spec.Digit; decide
          · rcases hc with hc | hc
            · injection hc with _ hc; exact h0 hc
            · injection hc with hc _; exact absurd hc (by decide)
          · rcases hc with hc | hc
            · injection hc with hc _; exact absurd hc (by decide)
            · injection hc with _ hc; exact h0 hc
        unfold signedTerm
        rw [r1]
        simp only [Option.getD_some]
        rw [if_neg hn1, term_numeral hn hri]
        unfold negInt
        rw [if_neg (by unfold intMin Spec.Symmetric at *; omega)]
        rfl
      rw [hst]
      simp only [Outcome.bind]
      rw [if_neg (by omega), if_neg (by cases rel <;> simp [toRelation]), skipWhitespace_isEmpty, dropWhile_blanks hb]
      have hdw : w.dropWhile isBlank = w := dropWhile_head (by
        rcases hw with rfl | hw
        · simp
        · rw [hw]; intro c hc; simp at hc; rw [← hc]; decide)
      rw [hdw, namedLoop, lineContinues_end hw]
      simp only [if_true, Bool.false_eq_true, if_false, Stream.clear, Bool.false_or, hlen, decide_true, Bool.true_eq_false]
    · rw [if_neg hok, if_neg hok]; rfl

/-- a line without a relation is rejected -/
theorem constraintNamed_no_relation {l s w : List Char} {terms : List (List Char × Int)} {names : Names} {equation : Bool}
    (hl : Spec.Label l) (hs : Spec.Sum s terms) (hne : terms ≠ []) (hc : ∀ q ∈ terms, Spec.Symmetric q.2)
    (hw : w = [] ∨ w.head? = some '\n') : constraintNamed equation names ⟨l ++ s ++ w, false, false⟩ = .thrown := by
  have hwb : ∀ c ∈ w.head?, isBlank c = false := by
    rcases hw with rfl | hw
    · simp
    · rw [hw]; intro c hc; simp at hc; rw [← hc]; decide
  obtain ⟨x, xs, hx, hxp⟩ : ∃ x xs, s ++ w = x :: xs ∧ x ≠ '(' ∧ x ≠ '\n' := by
    cases hs with
    | nil => exact absurd rfl hne
    | cons ht hx hb hne hs =>
      obtain ⟨a, r, ha, h1⟩ := signedTerm_head ht hx
      rw [ha]
      exact ⟨a, _, rfl, h1.2.2.1, h1.2.2.2.2.2.2.1⟩
  have hxb : isBlank x = false := sum_head hs hwb x (by rw [hx]; simp)
  obtain ⟨s1, h1, h2⟩ := optionalIdentifier_label (t := s ++ w) hl x xs hx hxb hxp.1
  unfold constraintNamed
  rw [List.append_assoc, h1]
  simp only [Outcome.bind, h2]
  have hpl : (peekLine ⟨s ++ w, false, false⟩).1 = ⟨s ++ w, false, false⟩ ∧ (peekLine ⟨s ++ w, false, false⟩).2 ≠ [] := by
    rw [hx]
    unfold peekLine restore getLine
    simp only [Stream.good, Bool.not_false, Bool.and_true, if_true, Bool.false_eq_true, if_false, true_and]
    have hd : (x :: xs).takeWhile (· ≠ '\n') = x :: xs.takeWhile (· ≠ '\n') := by
      simp [hxp.2]
    split
    · rw [hd]; simp
    · simp
  rw [if_neg hpl.2, hpl.1]
  obtain ⟨fuel, hfuel⟩ : ∃ k, (s ++ w).length + 1 = (k + 1) + terms.length := by
    have := sum_length hs
    refine ⟨(s ++ w).length - terms.length, ?_⟩
    simp only [List.length_append]
    omega
  rw [hfuel, namedLoop_sum hs hc hwb _ _ (by simp)]
  cases hadd : addTerms names (List.replicate (names.length + 1) 0) terms with
  | thrown => rfl
  | ub => exact absurd hadd addTerms_not_ub
  | ok ieq =>
    simp only [Outcome.bind]
    rw [namedLoop, lineContinues_end hw]
    simp

/-! ## what the terms do -/

theorem getD_set_eq (r : Row) (i j : Nat) (c : Int) (h : i < r.length) :
    (r.set i c).getD j 0 = if j = i then c else r.getD j 0 := by
  simp only [List.getD_eq_getElem?_getD, List.getElem?_set]
  by_cases hij : i = j
  · subst hij; simp [h]
  · rw [if_neg hij, if_neg (fun h => hij h.symm)]

theorem coefficient_cons (x y : List Char) (c : Int) (l : List (List Char × Int)) :
    Spec.coefficient ((x, c) :: l) y = (if x = y then c else 0) + Spec.coefficient l y := by
  unfold Spec.coefficient
  rw [List.filter_cons]
  by_cases h : x = y <;> simp [h]

open Classical in
theorem addTerms_spec {names : Names} (hn : names.Nodup) : ∀ (l : List (List Char × Int)) (ieq : Row),
    ieq.length = names.length + 1 →
    if (∀ q ∈ l, q.1 ∈ names) ∧ ¬ Spec.Repeated l ∧ (∀ q ∈ l, ieq.getD (names.idxOf q.1) 0 = 0) then
      ∃ row, addTerms names ieq l = .ok row ∧ row.length = names.length + 1 ∧
        (∀ j (h : j < names.length), row.getD j 0 = ieq.getD j 0 + Spec.coefficient l names[j]) ∧
        row.getD names.length 0 = ieq.getD names.length 0
    else addTerms names ieq l = .thrown
  | [], ieq, hl => by
    rw [if_pos ⟨by simp, by simp [Spec.Repeated], by simp⟩]
    exact ⟨ieq, rfl, hl, by intro j h; simp [Spec.coefficient], rfl⟩
  | (x, c) :: l, ieq, hl => by
    rw [addTerms]
    by_cases hx : x ∈ names
    · rw [if_pos hx]
      have hidx : names.idxOf x < names.length := List.idxOf_lt_length_iff.mpr hx
      by_cases h0 : ieq.getD (names.idxOf x) 0 ≠ 0
      · rw [if_pos h0, if_neg]
        rintro ⟨-, -, h⟩
        exact h0 (h (x, c) (by simp))
      · rw [if_neg h0]
        have ih := addTerms_spec hn l (ieq.set (names.idxOf x) c) (by simpa using hl)
        have hset := fun j => getD_set_eq ieq (names.idxOf x) j c (by omega)
        have hiff : ((∀ q ∈ (x, c) :: l, q.1 ∈ names) ∧ ¬ Spec.Repeated ((x, c) :: l) ∧
              (∀ q ∈ (x, c) :: l, ieq.getD (names.idxOf q.1) 0 = 0)) ↔
            ((∀ q ∈ l, q.1 ∈ names) ∧ ¬ Spec.Repeated l ∧ (∀ q ∈ l, (ieq.set (names.idxOf x) c).getD (names.idxOf q.1) 0 = 0)) := by
          constructor
          · rintro ⟨a1, a2, a3⟩
            refine ⟨fun q hq => a1 q (by simp [hq]), fun h => a2 (Or.inr h), fun q hq => ?_⟩
            rw [hset]
            split
            · next he =>
              have : q.1 = x := (List.idxOf_inj (a1 q (by simp [hq]))).mp he
              by_contra hc0
              exact a2 (Or.inl ⟨hc0, q, hq, this⟩)
            · exact a3 q (by simp [hq])
          · rintro ⟨a1, a2, a3⟩
            have hc0 : ∀ q ∈ l, q.1 = x → c = 0 := by
              intro q hq he
              have := a3 q hq
              rw [hset, if_pos (by rw [he])] at this
              exact this
            refine ⟨?_, ?_, ?_⟩
            · intro q hq
              rcases List.mem_cons.mp hq with rfl | hq
              · exact hx
              · exact a1 q hq
            · rintro (⟨h1, q, hq, he⟩ | h1)
              · exact h1 (hc0 q hq he)
              · exact a2 h1
            · intro q hq
              rcases List.mem_cons.mp hq with rfl | hq
              · simpa using h0
              · have := a3 q hq
                rw [hset] at this
                split at this
                · next he => rw [he]; simpa using h0
                · exact this
        by_cases hcond : (∀ q ∈ (x, c) :: l, q.1 ∈ names) ∧ ¬ Spec.Repeated ((x, c) :: l) ∧
              (∀ q ∈ (x, c) :: l, ieq.getD (names.idxOf q.1) 0 = 0)
        · rw [if_pos hcond]
          rw [if_pos (hiff.mp hcond)] at ih
          obtain ⟨row, h1, h2, h3, h4⟩ := ih
          refine ⟨row, h1, h2, fun j hj => ?_, ?_⟩
          · rw [h3 j hj, hset, coefficient_cons]
            by_cases hj' : j = names.idxOf x
            · subst hj'
              have : x = names[names.idxOf x] := (List.getElem_idxOf hidx).symm
              rw [if_pos rfl, if_pos this]
              have : ieq.getD (names.idxOf x) 0 = 0 := by simpa using h0
              omega
            · rw [if_neg hj', if_neg]
              · omega
              · intro he
                apply hj'
                rw [he, hn.idxOf_getElem j hj]
          · rw [h4, hset, if_neg (by omega)]
        · rw [if_neg hcond]
          rwa [if_neg (fun h => hcond (hiff.mpr h))] at ih
    · rw [if_neg hx, if_neg]
      rintro ⟨h, -⟩
      exact hx (h (x, c) (by simp))

/-! ## lines without names -/

theorem numeral_start {t : List Char} {z : Int} (h : Spec.Numeral t z) : ∃ a r, t = a :: r ∧ StartChar a := by
  obtain ⟨a, r, ha, -⟩ := Numeral.head h
  exact ⟨a, r, ha, factor_not_space (numeral_factor h a (by rw [ha]; simp))⟩

/-- reading one number -/
theorem unnamedLoop_step {t b w : List Char} {z : Int} {equation : Bool} (h : Spec.Numeral t z) (hz : Spec.IsInt z)
    (hb : Spec.Blanks b) (hw : ∀ c ∈ w.head?, isBlank c = false) (hbw : b = [] → ∀ c ∈ w.head?, isDigitChar c = false)
    (fuel : Nat) (ieq : Row) (rel : Relation) :
    unnamedLoop equation (fuel + 1) ⟨t ++ (b ++ w), false, false⟩ ieq rel false =
      unnamedLoop equation fuel ⟨w, false, false⟩ (ieq ++ [z]) rel (decide (rel ≠ .undecided)) := by
  obtain ⟨a, r, ha, h1⟩ := numeral_start h
  have hc : lineContinues ⟨t ++ (b ++ w), false, false⟩ = true := by
    rw [ha]; exact lineContinues_start ⟨h1.2.2.2.2.2.2.1, h1.2.2.2.2.2.2.2⟩
  have hi : isRelation ⟨t ++ (b ++ w), false, false⟩ = false := by
    rw [ha]; exact isRelation_start ⟨h1.2.2.2.1, h1.2.2.2.2.1, h1.2.2.2.2.2.1⟩
  have hr := readInt_numeral (b := []) (rest := b ++ w) (v := 0) blanks_nil h hz (by
    cases b with
    | nil => exact hbw rfl
    | cons y ys =>
      intro c hc; simp at hc; subst hc
      have := (blank_of_blanks hb (c := y) (by simp)).1
      rw [← Bool.not_eq_true]
      intro hd
      rw [digit_iff] at hd
      rw [(digit_not_space hd).2.1] at this
      exact absurd this (by decide))
  rw [List.nil_append] at hr
  rw [unnamedLoop]
  simp only [hc, hi, Bool.true_eq_false, if_false, Stream.clear, Bool.false_eq_true, hr, Bool.false_or]
  rw [skipWhitespace_isEmpty, dropWhile_blanks hb, dropWhile_head hw]

theorem numbers_head {s w : List Char} {xs : List Int} (h : Spec.Numbers s xs) (hw : ∀ c ∈ w.head?, isBlank c = false) :
    ∀ c ∈ (s ++ w).head?, isBlank c = false := by
  cases h with
  | nil => simpa using hw
  | cons hn hb hne hs =>
    obtain ⟨a, r, ha, h1⟩ := numeral_start hn
    rw [ha]
    intro c hc; simp at hc
    exact hc ▸ h1.2.1

theorem unnamedLoop_numbers {s : List Char} {xs : List Int} {equation : Bool} (h : Spec.Numbers s xs)
    (hx : ∀ x ∈ xs, Spec.IsInt x) {w : List Char} (hw : ∀ c ∈ w.head?, isBlank c = false) : ∀ (fuel : Nat) (ieq : Row),
    unnamedLoop equation (fuel + xs.length) ⟨s ++ w, false, false⟩ ieq .undecided false =
      unnamedLoop equation fuel ⟨w, false, false⟩ (ieq ++ xs) .undecided false := by
  induction h with
  | nil => intro fuel ieq; simp
  | @cons t b ts z l hn hb hne hs ih =>
    intro fuel ieq
    rw [List.length_cons, ← Nat.add_assoc, show t ++ b ++ ts ++ w = t ++ (b ++ (ts ++ w)) by simp,
      unnamedLoop_step hn (hx z (by simp)) hb (numbers_head hs hw) (fun h => absurd h hne)]
    rw [show decide (Relation.undecided ≠ Relation.undecided) = false from rfl, ih (fun x hx' => hx x (by simp [hx']))]
    simp

theorem numbers_length {s : List Char} {xs : List Int} (h : Spec.Numbers s xs) : xs.length ≤ s.length := by
  induction h with
  | nil => simp
  | @cons t b ts z l hn hb hne hs ih =>
    have hp : 1 ≤ b.length := List.length_pos_iff.mpr hne
    simp only [List.length_cons, List.length_append]
    omega

theorem numbers_start {s w : List Char} {xs : List Int} (h : Spec.Numbers s xs) {c : Char} {q : List Char} (hw : w = c :: q)
    (hc : c ≠ '(' ∧ isBlank c = false) : ∃ x r, s ++ w = x :: r ∧ x ≠ '(' ∧ isBlank x = false := by
  cases h with
  | nil => exact ⟨c, q, hw, hc⟩
  | cons hn hb hne hs =>
    obtain ⟨a, r, ha, h1⟩ := numeral_start hn
    rw [ha]
    exact ⟨a, _, rfl, h1.2.2.1, h1.2.1⟩

/-- what follows a line -/
theorem lineEnd_facts {w : List Char} (hw : w = [] ∨ w.head? = some '\n') :
    (∀ c ∈ w.head?, isBlank c = false) ∧ (∀ c ∈ w.head?, isDigitChar c = false) := by
  rcases hw with rfl | hw
  · simp
  · rw [hw]
    constructor <;> (intro c hc; simp at hc; rw [← hc]; decide)

/-- a raw line is read as its entries -/
theorem constraintUnnamed_raw {t w : List Char} {row : Row} {equation : Bool} (h : Spec.RawLine t row)
    (hr : ∀ x ∈ row, Spec.IsInt x) (hw : w = [] ∨ w.head? = some '\n') :
    constraintUnnamed equation ⟨t ++ w, false, false⟩ = .ok (⟨w, false, false⟩, row) := by
  obtain ⟨l, s, n, b, xs, z, hl, hs, hn, hb, rfl, rfl⟩ := h
  obtain ⟨a, r, ha, h1⟩ := numeral_start hn
  obtain ⟨x, q, hx, hx1, hx2⟩ := numbers_start (w := n ++ (b ++ w)) hs (c := a) (q := r ++ (b ++ w)) (by rw [ha]; rfl)
    ⟨h1.2.2.1, h1.2.1⟩
  obtain ⟨s1, e1, e2⟩ := optionalIdentifier_label (t := s ++ (n ++ (b ++ w))) hl x q hx hx2 hx1
  obtain ⟨hw1, hw2⟩ := lineEnd_facts hw
  unfold constraintUnnamed
  rw [show l ++ (s ++ (n ++ b)) ++ w = l ++ (s ++ (n ++ (b ++ w))) by simp, e1]
  simp only [Outcome.bind, e2]
  obtain ⟨fuel, hfuel⟩ : ∃ k, (s ++ (n ++ (b ++ w))).length + 1 = (k + 2) + xs.length := by
    have := numbers_length hs
    have h3 : 1 ≤ n.length := by rw [ha]; simp
    refine ⟨(s ++ (n ++ (b ++ w))).length + 1 - xs.length - 2, ?_⟩
    simp only [List.length_append]
    omega
  rw [hfuel, unnamedLoop_numbers hs (fun x hx => hr x (by simp [hx])) (by rw [ha]; intro c hc; simp at hc; exact hc ▸ h1.2.1),
    unnamedLoop_step hn (hr z (by simp)) hb hw1 (fun _ => hw2), unnamedLoop, lineContinues_end hw]
  simp [normalizeRelation, Stream.clear]

/-- a line with a relation but without names -/
theorem constraintUnnamed_line {t w : List Char} {xs : Row} {rel : Spec.Rel} {rhs : Int} {equation : Bool}
    (h : Spec.UnnamedLine t xs rel rhs) (hxs : ∀ x ∈ xs, Spec.IsInt x) (hr : Spec.Symmetric rhs)
    (hw : w = [] ∨ w.head? = some '\n') :
    constraintUnnamed equation ⟨t ++ w, false, false⟩ =
      if relOk equation rel then
        (normalizeRelation (xs ++ [-rhs]) (toRelation rel)).bind fun row => .ok (⟨w, false, false⟩, row)
      else .thrown := by
  obtain ⟨l, s, r, n, b, hl, hs, hre, hn, hb, rfl⟩ := h
  obtain ⟨a, a', ha, h1⟩ := numeral_start hn
  have hri : Spec.IsInt rhs := by unfold Spec.IsInt Spec.Symmetric at *; omega
  obtain ⟨hw1, hw2⟩ := lineEnd_facts hw
  have hnw : ∀ c ∈ (n ++ (b ++ w)).head?, isBlank c = false ∧ c ≠ '=' := by
    rw [ha]; intro c hc; simp at hc; subst hc; exact ⟨h1.2.1, h1.2.2.2.2.1⟩
  obtain ⟨r', hr1, hr2, hr3, c, q, hr4, hr5, hr6, hr7⟩ := relText_spec (equation := equation) hre hnw
  have hcp : c ≠ '(' := by
    cases hre <;> (injection hr4 with h1 _; rw [← h1]; decide)
  obtain ⟨x, q', hx, hx1, hx2⟩ := numbers_start (w := r ++ (n ++ (b ++ w))) hs hr4 ⟨hcp, hr7⟩
  obtain ⟨s1, e1, e2⟩ := optionalIdentifier_label (t := s ++ (r ++ (n ++ (b ++ w)))) hl x q' hx hx2 hx1
  unfold constraintUnnamed
  rw [show l ++ (s ++ (r ++ (n ++ b))) ++ w = l ++ (s ++ (r ++ (n ++ (b ++ w)))) by simp, e1]
  simp only [Outcome.bind, e2]
  obtain ⟨fuel, hfuel⟩ : ∃ k, (s ++ (r ++ (n ++ (b ++ w)))).length + 1 = (k + 3) + xs.length := by
    have := numbers_length hs
    have h3 : 1 ≤ n.length := by rw [ha]; simp
    have h4 : 1 ≤ r.length := by cases hre <;> simp
    refine ⟨(s ++ (r ++ (n ++ (b ++ w)))).length + 1 - xs.length - 3, ?_⟩
    simp only [List.length_append]
    omega
  have hrw : ∀ c ∈ (r ++ (n ++ (b ++ w))).head?, isBlank c = false := by
    rw [hr4]; intro x hx; simp at hx; exact hx ▸ hr7
  have hcr : lineContinues ⟨r ++ (n ++ (b ++ w)), false, false⟩ = true := by
    rw [hr4]; exact lineContinues_start ⟨hr5, hr6⟩
  rw [hfuel, unnamedLoop_numbers hs hxs hrw, unnamedLoop]
  simp only [hcr, hr1, Bool.true_eq_false, if_false, Stream.clear, if_true, hr2]
  by_cases hok : relOk equation rel = true
  · rw [if_pos hok, if_pos hok]
    simp only [Outcome.bind]
    have hund : toRelation rel ≠ .undecided := by cases rel <;> simp [toRelation]
    rw [skipWhitespace_ok _ _ (by simp), hr3, unnamedLoop_step hn hri hb hw1 (fun _ => hw2), unnamedLoop, lineContinues_end hw]
    simp only [if_true, hund, ne_eq, not_false_eq_true, decide_true, Bool.true_eq_false, and_false, if_false, List.nil_append,
      Bool.false_eq_true, Stream.clear]
    rw [if_neg (by simp), show (xs ++ [rhs]).getLastD 0 = rhs by simp, List.dropLast_concat]
    unfold negInt
    rw [if_neg (by unfold intMin Spec.Symmetric at *; omega)]
  · rw [if_neg hok, if_neg hok]; rfl

end Panda
