import Verif.Model.InputSections
import Verif.Spec.File
import Verif.Props.InputMap
import Verif.Props.PrintConstraint
import Verif.Props.Options
import Verif.Props.Assemble

/-! # Reading whole files: streams, headers, names -/

namespace Panda

/-! ## headers -/

theorem header_iff (words : List String) (hw : ∀ k ∈ words, wordOk k.toList = true) (f : List Char → Bool)
    (hf : ∀ s, f s = true ↔ ∃ k ∈ words, k.toList = s) (l : List Char) : f (trimWhitespace l) = true ↔ Spec.Header words l := by
  constructor
  · intro h
    obtain ⟨k, hk, e⟩ := (hf _).1 h
    obtain ⟨h1, h2, h3⟩ := wordOk_spec (hw k hk)
    obtain ⟨b, b', hb, hb', rfl⟩ := (trim_eq_iff h1 h2 h3).1 e.symm
    exact ⟨b, b', k, hk, hb, hb', rfl⟩
  · rintro ⟨b, b', k, hk, hb, hb', rfl⟩
    obtain ⟨h1, h2, h3⟩ := wordOk_spec (hw k hk)
    exact (hf _).2 ⟨k, hk, ((trim_eq_iff h1 h2 h3).2 ⟨b, b', hb, hb', rfl⟩).symm⟩

theorem isKeyword_iff (s : List Char) : isKeyword s = true ↔ ∃ k ∈ Spec.headerWords, k.toList = s := by
  unfold isKeyword
  simp only [isKeywordConicalHull, isKeywordReducedConicalHull, isKeywordConvexHull, isKeywordReducedConvexHull,
    isKeywordReducedSomething, isKeywordDimension, isKeywordEquations, isKeywordInequalities, isKeywordReducedInequalities,
    isKeywordMaps, isKeywordNames, isKeywordEnd, ← List.any_append]
  exact words_iff (by decide +kernel) (by decide +kernel) s

theorem header_keyword (l : List Char) : isKeyword (trimWhitespace l) = true ↔ Spec.Header Spec.headerWords l :=
  header_iff _ (by decide +kernel) _ isKeyword_iff l

theorem header_names (l : List Char) : isKeywordNames (trimWhitespace l) = true ↔ Spec.Header Spec.nameWords l :=
  header_iff _ (by decide +kernel) _ (fun s => words_iff (by decide +kernel) (by decide +kernel) s) l
theorem header_maps (l : List Char) : isKeywordMaps (trimWhitespace l) = true ↔ Spec.Header Spec.mapWords l :=
  header_iff _ (by decide +kernel) _ (fun s => words_iff (by decide +kernel) (by decide +kernel) s) l
theorem header_points (l : List Char) : isKeywordConvexHull (trimWhitespace l) = true ↔ Spec.Header Spec.pointWords l :=
  header_iff _ (by decide +kernel) _ (fun s => words_iff (by decide +kernel) (by decide +kernel) s) l
theorem header_reducedPoints (l : List Char) :
    isKeywordReducedConvexHull (trimWhitespace l) = true ↔ Spec.Header Spec.reducedPointWords l :=
  header_iff _ (by decide +kernel) _ (fun s => words_iff (by decide +kernel) (by decide +kernel) s) l
theorem header_rays (l : List Char) : isKeywordConicalHull (trimWhitespace l) = true ↔ Spec.Header Spec.rayWords l :=
  header_iff _ (by decide +kernel) _ (fun s => words_iff (by decide +kernel) (by decide +kernel) s) l
theorem header_reducedRays (l : List Char) :
    isKeywordReducedConicalHull (trimWhitespace l) = true ↔ Spec.Header Spec.reducedRayWords l :=
  header_iff _ (by decide +kernel) _ (fun s => words_iff (by decide +kernel) (by decide +kernel) s) l
theorem header_equations (l : List Char) : isKeywordEquations (trimWhitespace l) = true ↔ Spec.Header Spec.equationWords l :=
  header_iff _ (by decide +kernel) _ (fun s => words_iff (by decide +kernel) (by decide +kernel) s) l
theorem header_inequalities (l : List Char) : isKeywordInequalities (trimWhitespace l) = true ↔ Spec.Header Spec.allInequalityWords l :=
  header_iff _ (by decide +kernel) _ (fun s => words_iff (by decide +kernel) (by decide +kernel) s) l
theorem header_reducedInequalities (l : List Char) :
    isKeywordReducedInequalities (trimWhitespace l) = true ↔ Spec.Header Spec.reducedInequalityWords l :=
  header_iff _ (by decide +kernel) _ (fun s => words_iff (by decide +kernel) (by decide +kernel) s) l
theorem header_dimension (l : List Char) : isKeywordDimension (trimWhitespace l) = true ↔ Spec.Header Spec.dimensionWords l :=
  header_iff _ (by decide +kernel) _ (fun s => words_iff (by decide +kernel) (by decide +kernel) s) l

theorem Spec.Header.mono {ws vs : List String} (h : ∀ k ∈ ws, k ∈ vs) {l : List Char} (hl : Spec.Header ws l) : Spec.Header vs l := by
  obtain ⟨b, b', k, hk, h1, h2, e⟩ := hl
  exact ⟨b, b', k, h k hk, h1, h2, e⟩

theorem sectionRest_end {w : List Char} (h : Spec.SectionRest w) : ConstraintsEnd w := by
  rcases h with h | ⟨k, r, h1, h2, h3⟩
  · exact Or.inl h
  · exact Or.inr ⟨k, r, h1, h2, (header_keyword k).2 h3⟩

/-! ## advancing to the next header -/

theorem exists_firstLine {w : List Char} (h : w ≠ []) : ∃ l r, Spec.FirstLine w l r := by
  induction w with
  | nil => exact absurd rfl h
  | cons c w ih =>
    by_cases hc : c = '\n'
    · subst hc; exact ⟨[], w, by simp, Or.inl rfl⟩
    · cases w with
      | nil => exact ⟨[c], [], by simpa using Ne.symm hc, Or.inr ⟨rfl, by simp, rfl⟩⟩
      | cons a w =>
        obtain ⟨l, r, h1, h2⟩ := ih (by simp)
        refine ⟨c :: l, r, by simp [h1, Ne.symm hc], ?_⟩
        rcases h2 with h2 | ⟨h2, h3, h4⟩
        · exact Or.inl (by rw [h2]; rfl)
        · exact Or.inr ⟨by rw [← h2], by simp, h4⟩

theorem firstLine_length {w l r : List Char} (h : Spec.FirstLine w l r) : r.length < w.length := by
  obtain ⟨-, rfl | ⟨rfl, h, rfl⟩⟩ := h
  · simp; omega
  · simpa using List.length_pos_of_ne_nil h

theorem isKeyword_nil : isKeyword [] = false := by decide +kernel

theorem advanceLoop_failed (fuel : Nat) {s : Stream} (h : s.fail = true) : (advanceLoop fuel s).1.fail = true := by
  cases fuel with
  | zero => exact h
  | succ n => rw [advanceLoop, if_pos h]; exact h

theorem advanceLoop_fuel : ∀ (n : Nat) (s : Stream), s.rest.length ≤ n → ∀ f f', n + 2 ≤ f → n + 2 ≤ f' →
    advanceLoop f s = advanceLoop f' s := by
  intro n
  induction n with
  | zero =>
    intro s hs f f' hf hf'
    obtain ⟨f, rfl⟩ : ∃ k, f = k + 2 := ⟨f - 2, by omega⟩
    obtain ⟨f', rfl⟩ : ∃ k, f' = k + 2 := ⟨f' - 2, by omega⟩
    obtain ⟨r, e, g⟩ := s
    obtain rfl : r = [] := by simpa using hs
    cases e <;> cases g <;> rfl
  | succ n ih =>
    intro s hs f f' hf hf'
    obtain ⟨f, rfl⟩ : ∃ k, f = k + 2 := ⟨f - 2, by omega⟩
    obtain ⟨f', rfl⟩ : ∃ k, f' = k + 2 := ⟨f' - 2, by omega⟩
    obtain ⟨r, e, g⟩ := s
    by_cases hr : r = []
    · subst hr; cases e <;> cases g <;> rfl
    cases g with
    | true => rfl
    | false =>
      cases e with
      | true => rfl
      | false =>
        obtain ⟨l, r', hl⟩ := exists_firstLine hr
        obtain ⟨e, he, -⟩ := getLine_first hl
        rw [advanceLoop, advanceLoop]
        simp only [Bool.false_eq_true, if_false, peekLine_first hl]
        split
        · rfl
        · rw [he]
          exact ih _ (by have := firstLine_length hl; simp only at hs ⊢; omega) _ _ (by omega) (by omega)

theorem advance_skip {w l r : List Char} (h : Spec.FirstLine w l r) (hk : isKeyword (trimWhitespace l) = false) :
    ∃ e, advanceToNextKeyword ⟨w, false, false⟩ = advanceToNextKeyword ⟨r, e, false⟩ ∧ (e = true → r = []) := by
  obtain ⟨e, he, her⟩ := getLine_first h
  refine ⟨e, ?_, her⟩
  unfold advanceToNextKeyword
  rw [show (⟨w, false, false⟩ : Stream).rest.length + 2 = (w.length + 1) + 1 from rfl, advanceLoop]
  simp only [Bool.false_eq_true, if_false, peekLine_first h, hk, he]
  exact advanceLoop_fuel r.length _ (le_refl _) _ _ (by have := firstLine_length h; omega) (by simp)

theorem advance_header {w l r : List Char} (h : Spec.FirstLine w l r) (hk : isKeyword (trimWhitespace l) = true) :
    advanceToNextKeyword ⟨w, false, false⟩ = (⟨w, false, false⟩, trimWhitespace l) := by
  unfold advanceToNextKeyword
  rw [show (⟨w, false, false⟩ : Stream).rest.length + 2 = (w.length + 1) + 1 from rfl, advanceLoop]
  simp only [Bool.false_eq_true, if_false, peekLine_first h, hk, if_true]

theorem advance_nil (e : Bool) : (advanceToNextKeyword ⟨[], e, false⟩).1.fail = true := by cases e <;> rfl

/-! ## the loop over the sections -/

/-- the common form of the loops in `vertices` and `inequalities` -/
def fileLoop {D : Type} (sec : Nat → List Char → Stream → D → Run (Stream × D)) : Nat → Stream → D → Run D
  | 0, _, _ => none
  | fuel + 1, s, data =>
    if s.fail then some (.ok data)
    else if (advanceToNextKeyword s).1.fail then some (.ok data)
    else Run.bind (sec fuel (advanceToNextKeyword s).2 (advanceToNextKeyword s).1 data) fun r => fileLoop sec fuel r.1 r.2

theorem vertexFileLoop_eq (check : Bool) : ∀ fuel s data, vertexFileLoop check fuel s data = fileLoop (vertexSection check) fuel s data := by
  intro fuel
  induction fuel with
  | zero => intro s data; rfl
  | succ n ih => intro s data; rw [vertexFileLoop, fileLoop]; simp only [ih]

theorem inequalityFileLoop_eq (check : Bool) : ∀ fuel s data,
    inequalityFileLoop check fuel s data = fileLoop (inequalitySection check) fuel s data := by
  intro fuel
  induction fuel with
  | zero => intro s data; rfl
  | succ n ih => intro s data; rw [inequalityFileLoop, fileLoop]; simp only [ih]

section
variable {D : Type} {sec : Nat → List Char → Stream → D → Run (Stream × D)}

/-- the loop started at the stream `s` with the data `d` ends with the outcome `o` -/
def Ends (sec : Nat → List Char → Stream → D → Run (Stream × D)) (s : Stream) (d : D) (o : Outcome D) : Prop :=
  ∃ N, ∀ fuel ≥ N, fileLoop sec fuel s d = some o

/-- the loop started at the stream `s` with the data `d` ends with the data `d'` -/
abbrev Reads (sec : Nat → List Char → Stream → D → Run (Stream × D)) (s : Stream) (d d' : D) : Prop := Ends sec s d (.ok d')

theorem reads_fail {s : Stream} (h : s.fail = true) (d : D) : Reads sec s d d := by
  refine ⟨1, fun fuel hf => ?_⟩
  obtain ⟨fuel, rfl⟩ : ∃ k, fuel = k + 1 := ⟨fuel - 1, by omega⟩
  rw [fileLoop, if_pos h]

theorem reads_nil (e : Bool) (d : D) : Reads sec ⟨[], e, false⟩ d d := by
  refine ⟨1, fun fuel hf => ?_⟩
  obtain ⟨fuel, rfl⟩ : ∃ k, fuel = k + 1 := ⟨fuel - 1, by omega⟩
  rw [fileLoop, if_neg (by simp), if_pos (advance_nil e)]

theorem Ends.unique {s : Stream} {d : D} {d1 d2 : Outcome D} (h1 : Ends sec s d d1) (h2 : Ends sec s d d2) : d1 = d2 := by
  obtain ⟨N1, h1⟩ := h1
  obtain ⟨N2, h2⟩ := h2
  have := (h1 (max N1 N2) (by omega)).symm.trans (h2 (max N1 N2) (by omega))
  simpa using this

theorem Ends.eof {r : List Char} {e : Bool} {d : D} {d' : Outcome D} (he : e = true → r = []) (h : Ends sec ⟨r, false, false⟩ d d') :
    Ends sec ⟨r, e, false⟩ d d' := by
  cases e with
  | false => exact h
  | true =>
    obtain rfl := he rfl
    rw [h.unique (reads_nil false d)]
    exact reads_nil true d

theorem reads_skip {w l r : List Char} {d : D} {d' : Outcome D} (hl : Spec.FirstLine w l r) (hk : isKeyword (trimWhitespace l) = false)
    (h : Ends sec ⟨r, false, false⟩ d d') : Ends sec ⟨w, false, false⟩ d d' := by
  obtain ⟨e, h1, he⟩ := advance_skip hl hk
  obtain ⟨N, hN⟩ := h.eof he
  refine ⟨N + 1, fun fuel hf => ?_⟩
  obtain ⟨fuel, rfl⟩ : ∃ k, fuel = k + 1 := ⟨fuel - 1, by omega⟩
  have := hN (fuel + 1) (by omega)
  rw [fileLoop, if_neg (by simp)] at this ⊢
  rw [h1]; exact this

theorem reads_section {w l r : List Char} {s : Stream} {d d1 : D} {d' : Outcome D} (hl : Spec.FirstLine w l r)
    (hk : isKeyword (trimWhitespace l) = true)
    (hsec : ∃ N, ∀ fuel ≥ N, sec fuel (trimWhitespace l) ⟨w, false, false⟩ d = some (.ok (s, d1)))
    (h : Ends sec s d1 d') : Ends sec ⟨w, false, false⟩ d d' := by
  obtain ⟨N1, h1⟩ := hsec
  obtain ⟨N2, h2⟩ := h
  refine ⟨max N1 N2 + 1, fun fuel hf => ?_⟩
  obtain ⟨fuel, rfl⟩ : ∃ k, fuel = k + 1 := ⟨fuel - 1, by omega⟩
  rw [fileLoop, if_neg (by simp), advance_header hl hk, if_neg (by simp), h1 fuel (by omega)]
  exact h2 fuel (by omega)

/-- a header without effect: its line is skipped -/
theorem reads_other {w l r : List Char} {d : D} {d' : Outcome D} (hl : Spec.FirstLine w l r) (hk : isKeyword (trimWhitespace l) = true)
    (hsec : ∀ fuel s, sec fuel (trimWhitespace l) s d = some (.ok ((getLine s).1, d)))
    (h : Ends sec ⟨r, false, false⟩ d d') : Ends sec ⟨w, false, false⟩ d d' := by
  obtain ⟨e, h1, he⟩ := getLine_first hl
  exact reads_section hl hk ⟨0, fun fuel _ => by rw [hsec, h1]⟩ (h.eof he)

theorem keyword_end {k : List Char} (h : isKeyword k = true) (he : isKeywordEnd (k.takeWhile fun c => c ≠ ' ' && c ≠ '\t') = true) :
    isKeywordEnd k = true := by
  have := keyword_check (P := fun s => !isKeywordEnd (s.takeWhile fun c => c ≠ ' ' && c ≠ '\t') || isKeywordEnd s) h (by decide +kernel)
  rw [he] at this
  simpa using this

/-- after a section -/
theorem reads_after {v : List Char} {s : Stream} {d : D} {d' : Outcome D} (hv : SectionEnd v)
    (hsec : ∀ fuel k s, isKeywordEnd k = true → sec fuel k s d = some (.ok ((getLine s).1, d)))
    (ha : Spec.AfterSection v s.rest s.eof s.fail (fun k => isKeywordEnd (firstWord k)))
    (h : Ends sec ⟨v, false, false⟩ d d') : Ends sec s d d' := by
  rcases ha with ⟨rfl, hf⟩ | ⟨k, r, h1, h2, h3, h4⟩
  · rw [h.unique (reads_nil false d)]
    exact reads_fail hf d
  · rcases hv with rfl | ⟨k', r', h1', hk⟩
    · exact absurd (firstLine_isEmpty h1) (by simp)
    have e : k' = k := by
      have a := peekLine_first h1
      rw [peekLine_first h1'] at a
      simpa using a
    subst e
    obtain ⟨rest, eof, fail⟩ := s
    simp only at h2 h3 h4
    subst h4
    by_cases hend : isKeywordEnd (firstWord k') = true
    · rw [if_pos hend] at h2
      subst h2
      have hke : isKeywordEnd (trimWhitespace k') = true := keyword_end hk hend
      obtain ⟨N, hN⟩ := h
      obtain ⟨e, he, her⟩ := getLine_first h1
      have : Ends sec ⟨rest, e, false⟩ d d' := by
        refine ⟨N, fun fuel hf => ?_⟩
        have := hN (fuel + 1) (by omega)
        rw [fileLoop, if_neg (by simp), advance_header h1' hk, if_neg (by simp), hsec _ _ _ hke, he] at this
        exact this
      cases e with
      | false => exact this.eof h3
      | true =>
        obtain rfl := her rfl
        rw [this.unique (reads_nil true d)]
        exact reads_nil eof d
    · rw [if_neg hend] at h2
      subst h2
      exact h.eof h3

end

/-! ## names -/

theorem readWord_spaced {b t w : List Char} (hb : ∀ c ∈ b, isSpace c = true) (ht : t ≠ []) (hs : ∀ c ∈ t, isSpace c = false)
    (hw : ∀ c ∈ w.head?, isSpace c = true) :
    readWord ⟨b ++ (t ++ w), false, false⟩ = (⟨w, w.isEmpty, false⟩, some t) := by
  rw [← readWord_word (b := []) blanks_nil ht hs hw]
  unfold readWord
  simp only [List.nil_append]
  rw [dropWhile_append_of_all hb, if_pos (show (⟨b ++ (t ++ w), false, false⟩ : Stream).good = true from rfl),
    if_pos (show (⟨t ++ w, false, false⟩ : Stream).good = true from rfl)]

theorem readWord_none {b : List Char} (hb : ∀ c ∈ b, isSpace c = true) : readWord ⟨b, false, false⟩ = (⟨[], true, true⟩, none) := by
  have : b.dropWhile isSpace = [] := by
    have := dropWhile_append_of_all (p := isSpace) (a := b) (b := []) hb
    rwa [List.append_nil] at this
  unfold readWord
  simp only [Stream.good, Bool.not_false, Bool.and_true, if_true, this]

theorem keyword_spaces {l : List Char} (h : ∀ c ∈ l, isSpace c = true) : isKeyword (trimWhitespace l) = false := by
  by_contra hk
  obtain ⟨c, r, e, hc⟩ := keyword_head (by simpa using hk)
  have hmem : c ∈ trimWhitespace l := by rw [e]; simp
  have hl : c ∈ l := by
    unfold trimWhitespace at hmem
    rw [List.mem_reverse] at hmem
    have := (List.dropWhile_sublist _).mem hmem
    rw [List.mem_reverse] at this
    exact (List.dropWhile_sublist _).mem this
  have := h c hl
  revert this
  have : ∀ c ∈ "CRVDEIMN".toList, ¬ isSpace c = true := by decide +kernel
  exact this c hc

theorem reads_spaces {D : Type} {sec : Nat → List Char → Stream → D → Run (Stream × D)} {w : List Char} {d : D} {d' : Outcome D}
    (h : Ends sec ⟨w, false, false⟩ d d') : ∀ (n : Nat) (ws : List Char), ws.length ≤ n → (∀ c ∈ ws, isSpace c = true) →
    (ws = [] ∨ ws.getLast? = some '\n') → Ends sec ⟨ws ++ w, false, false⟩ d d' := by
  intro n
  induction n with
  | zero =>
    intro ws hn _ _
    obtain rfl : ws = [] := by simpa using hn
    exact h
  | succ n ih =>
    intro ws hn hs he
    rcases he with rfl | he
    · exact h
    have hne : ws ≠ [] := by rintro rfl; simp at he
    obtain ⟨l, r, hl, e | ⟨e, -, -⟩⟩ := exists_firstLine hne
    swap
    · subst e; exact absurd (List.mem_of_mem_getLast? he) hl
    subst e
    have h1 := ih r (by simp at hn; omega) (fun c hc => hs c (by simp [hc])) (by
      by_cases hr : r = []
      · exact Or.inl hr
      · right
        rw [List.getLast?_append, List.getLast?_cons] at he
        rw [List.getLast?_eq_getLast_of_ne_nil hr] at he ⊢
        simpa using he)
    exact reads_skip (l := l) (r := r ++ w) ⟨hl, Or.inl (by simp)⟩ (keyword_spaces fun c hc => hs c (by simp [hc])) h1

/-- the first word of a header line is a keyword -/
theorem header_word {w k r : List Char} (hl : Spec.FirstLine w k r) (hk : isKeyword (trimWhitespace k) = true) :
    ∃ b x t, (∀ c ∈ b, isSpace c = true) ∧ x ≠ [] ∧ (∀ c ∈ x, isSpace c = false) ∧ (∀ c ∈ t.head?, isSpace c = true) ∧
      isKeyword x = true ∧ w = b ++ (x ++ t) := by
  obtain ⟨b, b', k0, hk0, hb, hb', e⟩ := (header_keyword k).1 hk
  have hkk : isKeyword k0.toList = true := (isKeyword_iff _).2 ⟨k0, hk0, rfl⟩
  obtain ⟨hx, -⟩ := keyword_word hkk
  obtain ⟨t, ht⟩ : ∃ t, w = b ++ (k0.toList ++ t) ∧ ∀ c ∈ t.head?, isSpace c = true := by
    have hb'' : ∀ u : List Char, (∀ c ∈ u.head?, isSpace c = true) → ∀ c ∈ (b' ++ u).head?, isSpace c = true := by
      intro u hu c hc
      cases b' with
      | nil => exact hu c hc
      | cons a b' => simp at hc; subst hc; exact blank_space ((blank_iff a).mpr (hb' a (by simp)))
    obtain ⟨-, e' | ⟨e', -, -⟩⟩ := hl
    · exact ⟨b' ++ '\n' :: r, by rw [e', e]; simp, hb'' _ (by simp; decide)⟩
    · refine ⟨b', by rw [e', e], ?_⟩
      have := hb'' [] (by simp)
      rwa [List.append_nil] at this
  refine ⟨b, k0.toList.takeWhile (fun c => !isSpace c), k0.toList.dropWhile (fun c => !isSpace c) ++ t, ?_, ?_, ?_, ?_, hx, ?_⟩
  · intro c hc; exact blank_space ((blank_iff c).mpr (hb c hc))
  · intro h0; rw [h0] at hx; exact absurd hx (by decide +kernel)
  · intro c hc
    have := List.all_takeWhile (p := fun c => !isSpace c) (l := k0.toList)
    rw [List.all_eq_true] at this
    simpa using this c hc
  · intro c hc
    cases hd : k0.toList.dropWhile (fun c => !isSpace c) with
    | nil => rw [hd] at hc; exact ht.2 c hc
    | cons a u =>
      rw [hd] at hc
      simp at hc; subst hc
      have := List.head?_dropWhile_not (fun c => !isSpace c) k0.toList
      rw [hd] at this
      simpa using this
  · rw [← List.append_assoc (k0.toList.takeWhile _), List.takeWhile_append_dropWhile, ht.1]

/-- the names are read; what is left is white space before the rest, or nothing -/
theorem namesLoop_words {t : List Char} {names : List (List Char)} (h : Spec.Words t names) : ∀ {w : List Char},
    SectionEnd w → (t = [] ∨ t.getLast? = some '\n') → (∀ x ∈ names, isKeyword x = false) → ∀ (ns : Names) (fuel : Nat),
    t.length + 1 ≤ fuel → ∃ ws s, namesLoop fuel ⟨t ++ w, false, false⟩ ns = (s, ns ++ names) ∧ (∀ c ∈ ws, isSpace c = true) ∧
      (ws = [] ∨ ws.getLast? = some '\n') ∧ ((w = [] ∧ s.fail = true) ∨ s = ⟨ws ++ w, false, false⟩) := by
  induction h with
  | @nil b hb =>
    intro w hw he _ ns fuel hf
    obtain ⟨fuel, rfl⟩ : ∃ k, fuel = k + 1 := ⟨fuel - 1, by omega⟩
    have hb : ∀ c ∈ b, isSpace c = true := fun c hc => (space_iff c).2 (hb c hc)
    rw [namesLoop]
    unfold peekWord
    simp only [Stream.good, Bool.not_false, Bool.and_true, if_true]
    rcases hw with rfl | ⟨k, r, hl, hk⟩
    · rw [List.append_nil, readWord_none hb]
      exact ⟨[], ⟨[], true, true⟩, by simp, by simp, Or.inl rfl, Or.inl ⟨rfl, rfl⟩⟩
    · obtain ⟨b', x, t, h1, h2, h3, h4, h5, rfl⟩ := header_word hl hk
      rw [show b ++ (b' ++ (x ++ t)) = (b ++ b') ++ (x ++ t) by simp,
        readWord_spaced (by intro c hc; rcases List.mem_append.1 hc with hc | hc; exacts [hb c hc, h1 c hc]) h2 h3 h4]
      simp only [Bool.false_eq_true, if_false, Option.getD_some, h5, Bool.or_true, if_true]
      exact ⟨b, ⟨(b ++ b') ++ (x ++ t), false, false⟩, by simp, hb, he, Or.inr (by simp)⟩
  | @cons b x t xs hb hx hns ht hxs ih =>
    intro w hw he hn ns fuel hf
    obtain ⟨fuel, rfl⟩ : ∃ k, fuel = k + 1 := ⟨fuel - 1, by omega⟩
    have hb : ∀ c ∈ b, isSpace c = true := fun c hc => (space_iff c).2 (hb c hc)
    have hns : ∀ c ∈ x, isSpace c = false := by
      intro c hc
      have := hns c hc
      rw [← space_iff] at this
      simpa using this
    obtain ⟨a, ha, has⟩ := ht
    obtain ⟨t, rfl⟩ : ∃ u, t = a :: u := by
      cases t with
      | nil => simp at ha
      | cons c u => simp at ha; subst ha; exact ⟨u, rfl⟩
    have hr : readWord ⟨b ++ (x ++ (a :: t)) ++ w, false, false⟩ = (⟨a :: t ++ w, false, false⟩, some x) := by
      rw [show b ++ (x ++ (a :: t)) ++ w = b ++ (x ++ (a :: t ++ w)) by simp, readWord_spaced hb hx hns (by
        intro c hc; simp at hc; subst hc; exact (space_iff _).2 has)]
      rfl
    have he' : (a :: t) = [] ∨ (a :: t).getLast? = some '\n' := by
      right
      rcases he with he | he
      · simp at he
      · rw [List.getLast?_append, List.getLast?_append, List.getLast?_cons] at he
        rw [List.getLast?_cons]
        simpa using he
    obtain ⟨ws, s, h1, h2, h3, h4⟩ := ih hw he' (fun y hy => hn y (by simp [hy])) (ns ++ [x]) fuel
      (by have := List.length_pos_of_ne_nil hx; simp only [List.length_append, List.length_cons] at hf ⊢; omega)
    refine ⟨ws, s, ?_, h2, h3, h4⟩
    rw [namesLoop]
    unfold peekWord
    simp only [Stream.good, Bool.not_false, Bool.and_true, if_true, hr, Bool.false_eq_true, if_false, Option.getD_some,
      hn x (by simp), Bool.or_false]
    rw [h1]; simp

theorem readNames_body {k t w : List Char} {names : List (List Char)} (hk : '\n' ∉ k) (hkw : isKeywordNames (trimWhitespace k) = true)
    (hw : SectionEnd w) (h : Spec.NamesBody t names) :
    ∃ ws s, readNames ⟨k ++ '\n' :: (t ++ w), false, false⟩ = .ok (s, names) ∧ (∀ c ∈ ws, isSpace c = true) ∧
      (ws = [] ∨ ws.getLast? = some '\n') ∧ ((w = [] ∧ s.fail = true) ∨ s = ⟨ws ++ w, false, false⟩) := by
  obtain ⟨h1, h2, h3⟩ := h
  have hkn : ∀ x ∈ names, isKeyword x = false := by
    intro x hx
    by_contra hh
    obtain ⟨k, hk, e⟩ := (isKeyword_iff x).1 (by simpa using hh)
    exact h3 x hx k hk e.symm
  obtain ⟨ws, s, g1, g2, g3, g4⟩ := namesLoop_words h1 hw h2 hkn [] ((t ++ w).length + 1) (by simp)
  refine ⟨ws, s, ?_, g2, g3, g4⟩
  unfold readNames
  simp only [getLine_line hk, Option.getD_some, hkw, Bool.not_true, Bool.or_false, Bool.false_eq_true, if_false, g1, List.nil_append]

/-! ## dimension -/

theorem readDimension_line {k b n b' w : List Char} (hk : Spec.Header Spec.dimensionEqWords k) (hb : Spec.Blanks b)
    (hb' : Spec.Blanks b') (hn : n ≠ []) (hd : ∀ d ∈ n, Spec.Digit d) (hv : Spec.decimal n < 2 ^ 64) :
    readDimension ⟨k ++ '\n' :: (b ++ (n ++ (b' ++ '\n' :: w))), false, false⟩ = .ok (⟨b' ++ '\n' :: w, false, false⟩, Spec.decimal n) := by
  obtain ⟨b1, b2, k0, hk0, hb1, hb2, rfl⟩ := hk
  obtain ⟨p, hp, hpe⟩ : ∃ p : List Char, k0.toList = p ++ ['='] ∧ '=' ∉ p := by
    simp only [Spec.dimensionEqWords, List.mem_cons, List.not_mem_nil, or_false] at hk0
    rcases hk0 with rfl | rfl | rfl | rfl
    · exact ⟨"DIM".toList, by decide +kernel, by decide +kernel⟩
    · exact ⟨"DIMENSION".toList, by decide +kernel, by decide +kernel⟩
    · exact ⟨"Dim".toList, by decide +kernel, by decide +kernel⟩
    · exact ⟨"Dimension".toList, by decide +kernel, by decide +kernel⟩
  have hnb1 : '=' ∉ b1 := by intro h; rcases hb1 _ h with h | h | h <;> exact absurd h (by decide)
  have e1 : (b1 ++ (k0.toList ++ b2) ++ '\n' :: (b ++ (n ++ (b' ++ '\n' :: w)))).dropWhile (· ≠ '=') =
      '=' :: (b2 ++ '\n' :: (b ++ (n ++ (b' ++ '\n' :: w)))) := by
    rw [hp, show b1 ++ (p ++ ['='] ++ b2) ++ '\n' :: (b ++ (n ++ (b' ++ '\n' :: w))) =
      (b1 ++ p) ++ '=' :: (b2 ++ '\n' :: (b ++ (n ++ (b' ++ '\n' :: w)))) by simp]
    rw [dropWhile_append_of_all (by
      intro c hc
      simp only [decide_not, Bool.not_eq_eq_eq_not, Bool.not_true, decide_eq_false_iff_not]
      rintro rfl
      rcases List.mem_append.1 hc with h | h
      · exact hnb1 h
      · exact hpe h)]
    rfl
  obtain ⟨c, r, rfl⟩ := List.exists_cons_of_ne_nil hn
  have hc := hd c (by simp)
  have hcs := digit_not_space hc
  have e2 : (b2 ++ '\n' :: (b ++ (c :: r ++ (b' ++ '\n' :: w)))).dropWhile isSpace = c :: r ++ (b' ++ '\n' :: w) := by
    rw [show b2 ++ '\n' :: (b ++ (c :: r ++ (b' ++ '\n' :: w))) = (b2 ++ '\n' :: b) ++ (c :: r ++ (b' ++ '\n' :: w)) by simp,
      dropWhile_append_of_all (by
        intro x hx
        rcases List.mem_append.1 hx with h | h
        · exact blank_space ((blank_iff x).mpr (hb2 x h))
        · rcases List.mem_cons.1 h with rfl | h
          · decide
          · exact blank_space ((blank_iff x).mpr (hb x h)))]
    apply dropWhile_head
    intro x hx
    simp at hx; subst hx
    exact hcs.1
  have e3 : splitSign (c :: r ++ (b' ++ '\n' :: w)) = (false, c :: r ++ (b' ++ '\n' :: w)) := by
    rw [List.cons_append]
    unfold splitSign
    split
    · next h => simp at h; exact absurd h.1 hcs.2.2.1
    · next h => simp at h; exact absurd h.1 hcs.2.2.2.1
    · rfl
  have hds : ∀ x ∈ c :: r, isDigitChar x = true := fun x hx => (digit_iff x).mpr (hd x hx)
  have hend : ∀ x ∈ (b' ++ '\n' :: w).head?, isDigitChar x = false := by
    intro x hx
    cases b' with
    | nil => simp at hx; subst hx; decide
    | cons a u =>
      simp at hx; subst hx
      rcases hb' a (by simp) with rfl | rfl | rfl <;> decide
  have e4 : (c :: r ++ (b' ++ '\n' :: w)).takeWhile isDigitChar = c :: r := by
    rw [takeWhile_append_of_all hds, takeWhile_head hend, List.append_nil]
  have e5 : (c :: r ++ (b' ++ '\n' :: w)).dropWhile isDigitChar = b' ++ '\n' :: w := by
    rw [dropWhile_append_of_all hds, dropWhile_head hend]
  have e6 : readSize ⟨b2 ++ '\n' :: (b ++ (c :: r ++ (b' ++ '\n' :: w))), false, false⟩ =
      (⟨b' ++ '\n' :: w, false, false⟩, Spec.decimal (c :: r)) := by
    unfold readSize
    rw [if_pos (show (⟨b2 ++ '\n' :: (b ++ (c :: r ++ (b' ++ '\n' :: w))), false, false⟩ : Stream).good = true from rfl), e2]
    simp only [List.cons_append] at e3 e4 e5 ⊢
    rw [e3, e4, e5, if_neg (by simp), digitsValue_eq, if_neg (by omega)]
    have : (b' ++ '\n' :: w).isEmpty = false := by cases b' <;> rfl
    rw [this]
    rfl
  unfold readDimension
  simp only [e1, e6, Bool.false_eq_true, if_false]

end Panda
