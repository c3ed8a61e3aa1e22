import Verif.Model.InputSections
import Verif.Spec.MapText
import Verif.Props.PrintConstraint

/-! # Property C53: maps -/

namespace Panda

/-! ## images -/

theorem factorChar_sign {c : Char} (h : isFactorChar c = false) : c ≠ '+' ∧ c ≠ '-' ∧ isDigitChar c = false := by
  unfold isFactorChar at h
  simp only [Bool.or_eq_false_iff, decide_eq_false_iff_not] at h
  exact ⟨h.1.1, h.1.2, h.2⟩

theorem sign_not_digit : isDigitChar '+' = false ∧ isDigitChar '-' = false := by decide

/-- the text of a numeral, in front of something that does not start with a digit, is the factor -/
theorem splitFactor_numeral {t r : List Char} {z : Int} (h : Spec.Numeral t z) (hr : ∀ c ∈ r.head?, isDigitChar c = false) :
    splitFactor (t ++ r) = (t, r) := by
  have hd : ∀ ds : List Char, (∀ c ∈ ds, Spec.Digit c) → (ds ++ r).takeWhile isDigitChar = ds ∧ (ds ++ r).dropWhile isDigitChar = r := by
    intro ds h
    have h' : ∀ c ∈ ds, isDigitChar c = true := fun c hc => (digit_iff c).2 (h c hc)
    rw [takeWhile_append_of_all h', dropWhile_append_of_all h', takeWhile_head hr, dropWhile_head hr, List.append_nil]
    exact ⟨rfl, rfl⟩
  cases h with
  | plain ds h0 h1 =>
    obtain ⟨c, u, rfl⟩ := List.exists_cons_of_ne_nil h0
    have hc := h1 c (by simp)
    obtain ⟨-, -, hm, hp, -⟩ := digit_not_space hc
    rw [List.cons_append, splitFactor, if_neg (by tauto), if_pos ((digit_iff c).2 hc), ← List.cons_append]
    rw [(hd _ h1).1, (hd _ h1).2]
  | plus ds h0 h1 =>
    rw [List.cons_append, splitFactor, if_pos (Or.inl rfl), (hd _ h1).1, (hd _ h1).2]
  | minus ds h0 h1 =>
    rw [List.cons_append, splitFactor, if_pos (Or.inr rfl), (hd _ h1).1, (hd _ h1).2]

theorem mapName_head {x : List Char} (h : Spec.MapName x) : ∃ c r, x = c :: r ∧ isFactorChar c = false := by
  obtain ⟨c, r, h1, h2, -⟩ := name_head h.1
  exact ⟨c, r, h1, h2⟩

/-- the text of a term splits into factor, name and the remaining terms -/
theorem splitFactor_term {t x r : List Char} {c : Int} (h : Spec.Term t x c) (hx : Spec.MapName x) (hc : Spec.IsInt c) :
    ∃ f, splitFactor (t ++ r) = (f, x ++ r) ∧ toInt f = .ok c := by
  obtain ⟨a, u, rfl, ha⟩ := mapName_head hx
  obtain ⟨h1, h2, h3⟩ := factorChar_sign ha
  cases h with
  | bare => exact ⟨[], by rw [List.cons_append, splitFactor, if_neg (by tauto), if_neg (by simp [h3])], rfl⟩
  | plus => exact ⟨['+'], by
      rw [List.cons_append, splitFactor, if_pos (Or.inl rfl), List.cons_append, List.takeWhile_cons_of_neg (by simp [h3]),
        List.dropWhile_cons_of_neg (by simp [h3])], rfl⟩
  | minus => exact ⟨['-'], by
      rw [List.cons_append, splitFactor, if_pos (Or.inr rfl), List.cons_append, List.takeWhile_cons_of_neg (by simp [h3]),
        List.dropWhile_cons_of_neg (by simp [h3])], rfl⟩
  | @factor t _ _ hn =>
    refine ⟨t, ?_, toInt_numeral hn hc⟩
    rw [List.append_assoc]
    exact splitFactor_numeral hn (by intro d hd; simp at hd; rw [← hd]; exact h3)

/-- what follows a term: nothing, or a term with a sign -/
def SignedRest (r : List Char) : Prop := r = [] ∨ r.head? = some '+' ∨ r.head? = some '-'

theorem SignedRest.factor {r : List Char} (h : SignedRest r) : ∀ c ∈ r.head?, isFactorChar c = true ∧ isDigitChar c = false ∧
    (c ≠ '+' && c ≠ '-') = false := by
  intro c hc
  rcases h with rfl | h | h
  · simp at hc
  · rw [h] at hc; simp at hc; subst hc; decide
  · rw [h] at hc; simp at hc; subst hc; decide

theorem splitName_name {x r : List Char} (hx : Spec.MapName x) (hr : SignedRest r) : splitName (x ++ r) = (x, r) := by
  obtain ⟨a, u, hau, ha⟩ := mapName_head hx
  have h : ∀ c ∈ x, (c ≠ '+' && c ≠ '-') = true := by
    intro c hc
    simp only [ne_eq, Bool.and_eq_true, decide_eq_true_eq]
    exact ⟨by rintro rfl; exact hx.2.1 hc, by rintro rfl; exact hx.2.2 hc⟩
  have : splitName (x ++ r) = ((x ++ r).takeWhile (fun c => c ≠ '+' && c ≠ '-'), (x ++ r).dropWhile (fun c => c ≠ '+' && c ≠ '-')) := by
    rw [hau, List.cons_append, splitName, if_neg (by simp [ha])]
  rw [this, takeWhile_append_of_all h, dropWhile_append_of_all h, takeWhile_head fun c hc => (hr.factor c hc).2.2,
    dropWhile_head fun c hc => (hr.factor c hc).2.2, List.append_nil]

theorem splitName_rest {r : List Char} (hr : SignedRest r) : splitName r = ([], r) := by
  cases r with
  | nil => rfl
  | cons c r => rw [splitName, if_pos (hr.factor c (by simp)).1]

/-- the image that is read from terms -/
def imageOf (names : Names) (l : List (Option (List Char) × Int)) : Image :=
  l.map fun q => (q.1.elim names.length names.idxOf, q.2)

theorem imageTerm_ne_nil {t : List Char} {q : Option (List Char) × Int} (h : Spec.ImageTerm t q) : t ≠ [] := by
  cases h with
  | var h hx =>
    obtain ⟨a, r, e, -⟩ := term_head h hx.1
    rw [e]; simp
  | constant h =>
    obtain ⟨a, r, e, -⟩ := Numeral.head h
    rw [e]; simp

theorem imageLoop_term {names : Names} {t r : List Char} {q : Option (List Char) × Int} (h : Spec.ImageTerm t q)
    (hc : Spec.IsInt q.2) (hx : ∀ x ∈ q.1, x ∈ names) (hr : SignedRest r) (fuel : Nat) (result : Image) :
    imageLoop names (fuel + 1) (t ++ r) result = imageLoop names fuel r (result ++ [(q.1.elim names.length names.idxOf, q.2)]) := by
  have hne := imageTerm_ne_nil h
  rw [imageLoop, if_neg (by simp [hne])]
  cases h with
  | var h hn =>
    rename_i x c
    obtain ⟨f, h1, h2⟩ := splitFactor_term (r := r) h hn hc
    have hxn : x ≠ [] := by obtain ⟨a, u, e, -⟩ := mapName_head hn; rw [e]; simp
    rw [h1, h2]
    simp only [Outcome.bind, splitName_name hn hr]
    rw [if_neg hxn, if_pos (hx x rfl)]
    rfl
  | constant h =>
    rw [splitFactor_numeral h fun c hc => (hr.factor c hc).2.1, toInt_numeral h hc]
    simp only [Outcome.bind, splitName_rest hr, if_true]
    rfl

theorem imageLoop_text {names : Names} {t : List Char} {l : List (Option (List Char) × Int)} (h : Spec.ImageText t l)
    (hl : ∀ q ∈ l, Spec.IsInt q.2 ∧ ∀ x ∈ q.1, x ∈ names) : ∀ fuel ≥ t.length, ∀ result : Image,
    imageLoop names fuel t result = .ok (result ++ imageOf names l) := by
  induction h with
  | @last t q h =>
    intro fuel hf result
    have hne := imageTerm_ne_nil h
    obtain ⟨c, r, e⟩ := List.exists_cons_of_ne_nil hne
    obtain ⟨fuel, rfl⟩ : ∃ k, fuel = k + 1 := ⟨fuel - 1, by rw [e] at hf; simp at hf; omega⟩
    have := imageLoop_term (names := names) (r := []) h (hl q (by simp)).1 (hl q (by simp)).2 (Or.inl rfl) fuel result
    rw [List.append_nil] at this
    rw [this]
    cases fuel with
    | zero => rfl
    | succ n => rw [imageLoop, if_pos rfl]; rfl
  | @more t t' q l h hs _ ih =>
    intro fuel hf result
    have hne := imageTerm_ne_nil h
    obtain ⟨c, r, e⟩ := List.exists_cons_of_ne_nil hne
    rw [List.length_append] at hf
    obtain ⟨fuel, rfl⟩ : ∃ k, fuel = k + 1 := ⟨fuel - 1, by rw [e] at hf; simp at hf; omega⟩
    rw [imageLoop_term h (hl q (by simp)).1 (hl q (by simp)).2 (Or.inr hs) fuel result,
      ih (fun q hq => hl q (by simp [hq])) fuel (by rw [e] at hf; simp at hf; omega)]
    simp [imageOf]

theorem imageText_ne_nil {t : List Char} {l : List (Option (List Char) × Int)} (h : Spec.ImageText t l) : t ≠ [] := by
  cases h with
  | last h => exact imageTerm_ne_nil h
  | more h => simp [imageTerm_ne_nil h]

/-- **C53**, single images: the text of a sum of terms is read as these terms. -/
theorem C53_image {names : Names} {t : List Char} {l : List (Option (List Char) × Int)} (h : Spec.ImageText t l)
    (hl : ∀ q ∈ l, Spec.IsInt q.2 ∧ ∀ x ∈ q.1, x ∈ names) : image t names = .ok (imageOf names l) := by
  rw [image, if_neg (imageText_ne_nil h), imageLoop_text h hl _ (Nat.le_refl _)]
  rfl

theorem imageTerm_no_space {t : List Char} {q : Option (List Char) × Int} (h : Spec.ImageTerm t q) : ∀ c ∈ t, isSpace c = false := by
  cases h with
  | var h hx =>
    rename_i x c
    have hs := name_no_space hx.1
    intro a ha
    cases h with
    | bare => exact hs a ha
    | plus =>
      rcases List.mem_cons.1 ha with rfl | ha
      · decide
      · exact hs a ha
    | minus =>
      rcases List.mem_cons.1 ha with rfl | ha
      · decide
      · exact hs a ha
    | factor _ hn =>
      rcases List.mem_append.1 ha with ha | ha
      · exact (factor_not_space (numeral_factor hn a ha)).1
      · exact hs a ha
  | constant h => exact fun a ha => (factor_not_space (numeral_factor h a ha)).1

theorem imageText_no_space {t : List Char} {l : List (Option (List Char) × Int)} (h : Spec.ImageText t l) : ∀ c ∈ t, isSpace c = false := by
  induction h with
  | last h => exact imageTerm_no_space h
  | more h _ _ ih =>
    intro c hc
    rcases List.mem_append.1 hc with hc | hc
    · exact imageTerm_no_space h c hc
    · exact ih c hc


/-! ## lines -/

theorem imageText_head {t : List Char} {l : List (Option (List Char) × Int)} (h : Spec.ImageText t l) :
    ∃ c r, t = c :: r ∧ isSpace c = false := by
  obtain ⟨c, r, e⟩ := List.exists_cons_of_ne_nil (imageText_ne_nil h)
  exact ⟨c, r, e, imageText_no_space h c (by rw [e]; simp)⟩

theorem notSpace_line {c : Char} (h : isSpace c = false) : c ≠ '\n' ∧ c ≠ '\r' :=
  ⟨by rintro rfl; exact absurd h (by decide), by rintro rfl; exact absurd h (by decide)⟩

/-- a line of images is read: all of them, the stream is left after the last one -/
theorem mapLoop_images {names : Names} {t w : List Char} {ls : List (List (Option (List Char) × Int))} (h : Spec.Images t ls)
    (hf : Spec.ImagesFit names ls) : ∀ (b : List Char), Spec.Blanks b → (b = [] ∨ b.head? = some ' ' ∨ b.head? = some '\t') →
    ∀ m : SymMap, ∃ b', Spec.Blanks b' ∧ mapLoop names ls.length ⟨b ++ (t ++ '\n' :: w), false, false⟩ m =
      .ok (⟨b' ++ '\n' :: w, false, false⟩, m ++ ls.map (imageOf names)) := by
  have start : ∀ (b t u : List Char) (l : List (Option (List Char) × Int)), Spec.ImageText t l → Spec.Blanks b →
      (b = [] ∨ b.head? = some ' ' ∨ b.head? = some '\t') → lineContinues ⟨b ++ (t ++ u), false, false⟩ = true := by
    intro b t u l ht hb hh
    obtain ⟨c, r, rfl, hc⟩ := imageText_head ht
    rcases hh with rfl | hh
    · exact lineContinues_start (notSpace_line hc)
    · cases b with
      | nil => simp at hh
      | cons a b =>
        simp at hh
        exact lineContinues_start (by rcases hh with rfl | rfl <;> decide)
  induction h with
  | @last t b0 l ht hb0 =>
    intro b hb hh m
    have hw : ∀ c ∈ (b0 ++ '\n' :: w).head?, isSpace c = true := by
      cases b0 with
      | nil => intro c hc; simp at hc; subst hc; decide
      | cons a b0 => intro c hc; simp at hc; subst hc; exact blank_space ((blank_iff a).mpr (hb0 a (by simp)))
    refine ⟨b0, hb0, ?_⟩
    rw [List.append_assoc]
    simp only [List.length_cons, List.length_nil, Nat.zero_add]
    rw [mapLoop, if_neg (by rw [start b t _ l ht hb hh]; decide)]
    simp only [Stream.clear]
    rw [readWord_word hb (imageText_ne_nil ht) (imageText_no_space ht) hw, Option.getD_some, C53_image ht (hf l (by simp))]
    have : (b0 ++ '\n' :: w).isEmpty = false := by cases b0 <;> rfl
    simp only [Outcome.bind, mapLoop, this, Bool.false_eq_true, if_false, Stream.clear]
    rfl
  | @cons t b0 ts l ls ht hb0 hs hts ih =>
    intro b hb hh m
    have hw : ∀ c ∈ (b0 ++ (ts ++ '\n' :: w)).head?, isSpace c = true := by
      cases b0 with
      | nil => simp at hs
      | cons a b0 => intro c hc; simp at hc; subst hc; exact blank_space ((blank_iff a).mpr (hb0 a (by simp)))
    obtain ⟨b', hb', h'⟩ := ih (fun l hl => hf l (by simp [hl])) b0 hb0 (Or.inr hs) (m ++ [imageOf names l])
    refine ⟨b', hb', ?_⟩
    simp only [List.append_assoc]
    simp only [List.length_cons]
    rw [mapLoop, if_neg (by rw [start b t _ l ht hb hh]; decide)]
    simp only [Stream.clear]
    rw [readWord_word hb (imageText_ne_nil ht) (imageText_no_space ht) hw, Option.getD_some, C53_image ht (hf l (by simp))]
    have : (b0 ++ (ts ++ '\n' :: w)).isEmpty = false := by
      cases b0 with
      | nil => simp at hs
      | cons => rfl
    simp only [Outcome.bind, this]
    rw [h']
    simp

/-- **C53**, single lines: a line with one image for every variable is read as these images. -/
theorem C53_line {names : Names} {t : List Char} {ls : List (List (Option (List Char) × Int))} (h : Spec.MapLine names t ls)
    (w : List Char) : ∃ b, Spec.Blanks b ∧
      readMap names ⟨t ++ '\n' :: w, false, false⟩ = .ok (⟨b ++ '\n' :: w, false, false⟩, ls.map (imageOf names)) := by
  obtain ⟨⟨b, s, hb, hs, rfl⟩, hl, hf⟩ := h
  obtain ⟨b', hb', h'⟩ := mapLoop_images (w := w) hs hf [] (by intro c hc; simp at hc) (Or.inl rfl) []
  refine ⟨b', hb', ?_⟩
  unfold readMap
  rw [List.append_assoc, skipWhitespace_ok _ _ (by simp), dropWhile_blanks hb, dropWhile_head, ← hl]
  · exact h'
  · obtain ⟨c, r, e, hc⟩ : ∃ c r, s = c :: r ∧ isSpace c = false := by
      cases hs with
      | last h => obtain ⟨c, r, e, hc⟩ := imageText_head h; exact ⟨c, _, by rw [e]; rfl, hc⟩
      | cons h => obtain ⟨c, r, e, hc⟩ := imageText_head h; exact ⟨c, _, by rw [e]; rfl, hc⟩
    intro x hx
    rw [e] at hx; simp at hx; subst hx
    by_contra hb
    rw [blank_space (by simpa using hb)] at hc
    exact absurd hc (by decide)

/-! ## sections -/

theorem any_all {L : List String} {P : List Char → Bool} {s : List Char} (h : (L.any fun k => k.toList = s) = true)
    (hL : (L.all fun k => P k.toList) = true) : P s = true := by
  rw [List.any_eq_true] at h
  obtain ⟨k, hk, hks⟩ := h
  rw [List.all_eq_true] at hL
  rw [← of_decide_eq_true hks]
  exact hL k hk

/-- a check of all keywords -/
theorem keyword_check {P : List Char → Bool} {s : List Char} (h : isKeyword s = true)
    (h1 : (["CONE_SECTION", "CONE_SECTION:", "CONICAL_HULL", "CONICAL_HULL:", "CONICAL_HULL_SECTION", "CONICAL_HULL_SECTION:",
    "Rays", "Rays:", "Reduced", "REDUCED_CONE_SECTION", "REDUCED_CONE_SECTION:", "REDUCED_CONICAL_HULL", "REDUCED_CONICAL_HULL:",
    "REDUCED_CONICAL_HULL_SECTION", "REDUCED_CONICAL_HULL_SECTION:", "Reduced Rays", "Reduced Rays:",
    "CONVEX_HULL", "CONVEX_HULL:", "CONVEX_HULL_SECTION", "CONVEX_HULL_SECTION:", "CONV_SECTION", "CONV_SECTION:",
    "Vertices", "Vertices:",
    "REDUCED_CONVEX_HULL", "REDUCED_CONVEX_HULL:", "REDUCED_CONVEX_HULL_SECTION", "REDUCED_CONVEX_HULL_SECTION:",
    "REDUCED_CONV_SECTION", "REDUCED_CONV_SECTION:", "Reduced Vertices", "Reduced Vertices:",
    "DIM", "DIM=", "DIMENSION", "DIMENSION=", "Dim", "Dim=", "Dimension", "Dimension=",
    "EQUATIONS", "EQUATIONS:", "EQUATION_SECTION", "EQUATION_SECTION:", "EQUATIONS_SECTION", "EQUATIONS_SECTION:",
    "Equations", "Equations:", "INEQUALITIES", "INEQUALITIES:", "INEQUALITY_SECTION", "INEQUALITY_SECTION:", "INEQUALITIES_SECTION",
    "INEQUALITIES_SECTION:", "Inequalities", "Inequalities:",
    "REDUCED_INEQUALITIES", "REDUCED_INEQUALITIES:", "REDUCED_INEQUALITY_SECTION", "REDUCED_INEQUALITY_SECTION:",
    "REDUCED_INEQUALITIES_SECTION", "REDUCED_INEQUALITIES_SECTION:", "Reduced Inequalities",
    "Reduced Inequalities:", "MAPS", "MAPS:", "MAP_SECTION", "MAP_SECTION:", "MAPS_SECTION", "MAPS_SECTION:", "Maps", "Maps:",
    "INDEX", "INDEX:", "INDICES", "INDICES:", "INDEX_SECTION", "INDEX_SECTION:", "INDICES_SECTION", "INDICES_SECTION:",
    "NAMES", "NAMES:", "NAME_SECTION", "NAME_SECTION:", "NAMES_SECTION", "NAMES_SECTION:", "Indices", "Indices:",
    "Names", "Names:", "END", "End"].all fun k => P k.toList) = true) : P s = true := by
  have h2 := h
  unfold isKeyword isKeywordConicalHull isKeywordReducedSomething isKeywordReducedConicalHull isKeywordConvexHull
    isKeywordReducedConvexHull isKeywordDimension isKeywordEquations isKeywordInequalities isKeywordReducedInequalities
    isKeywordMaps isKeywordNames isKeywordEnd at h2
  simp only [← List.any_append, List.cons_append, List.nil_append] at h2
  exact any_all h2 h1

theorem keyword_word {s : List Char} (h : isKeyword s = true) :
    isKeyword (s.takeWhile fun c => !isSpace c) = true ∧ '+' ∉ s ∧ '-' ∉ s ∧ ∀ c ∈ s.head?, isFactorChar c = false := by
  have := keyword_check (P := fun s => isKeyword (s.takeWhile fun c => !isSpace c) && !s.contains '+' && !s.contains '-' &&
    !(s.head?.any isFactorChar)) h (by decide +kernel)
  simp only [Bool.and_eq_true, Bool.not_eq_true', List.contains_eq_mem, decide_eq_false_iff_not] at this
  refine ⟨this.1.1.1, this.1.1.2, this.1.2, ?_⟩
  intro c hc
  have h2 := this.2
  rw [Option.mem_def.1 hc] at h2
  exact h2

theorem trim_word {b t r : List Char} (hb : Spec.Blanks b) (ht : t ≠ []) (hs : ∀ c ∈ t, isSpace c = false)
    (hr : ∀ c ∈ r.head?, isSpace c = true) : trimWhitespace (b ++ (t ++ r)) ≠ [] ∧
      (trimWhitespace (b ++ (t ++ r))).takeWhile (fun c => !isSpace c) = t := by
  have hblank : ∀ c ∈ t, isBlank c = false := by
    intro c hc
    by_contra h
    have := hs c hc
    rw [blank_space (by simpa using h)] at this
    exact absurd this (by decide)
  have hd : (t ++ r).dropWhile isBlank = t ++ r := by
    apply dropWhile_head
    obtain ⟨c, u, rfl⟩ := List.exists_cons_of_ne_nil ht
    intro x hx; simp at hx; subst hx; exact hblank _ (by simp)
  have hd' : t.reverse.dropWhile isBlank = t.reverse := by
    apply dropWhile_head
    intro x hx
    exact hblank x (by simpa using List.mem_of_mem_head? hx)
  have hform : ∃ r', trimWhitespace (b ++ (t ++ r)) = t ++ r' ∧ r' <+: r := by
    unfold trimWhitespace
    rw [dropWhile_blanks hb, hd, List.reverse_append, List.dropWhile_append]
    by_cases h0 : (r.reverse.dropWhile isBlank).isEmpty
    · rw [if_pos h0, hd', List.reverse_reverse]
      exact ⟨[], by simp, List.nil_prefix⟩
    · rw [if_neg h0, List.reverse_append, List.reverse_reverse]
      refine ⟨_, rfl, ?_⟩
      rw [← List.reverse_suffix, List.reverse_reverse]
      exact List.dropWhile_suffix _
  obtain ⟨r', h1, h2⟩ := hform
  rw [h1]
  refine ⟨by simp [ht], ?_⟩
  rw [takeWhile_append_of_all (by intro c hc; simp [hs c hc]), takeWhile_head, List.append_nil]
  intro c hc
  obtain ⟨u, rfl⟩ := h2
  cases r' with
  | nil => simp at hc
  | cons a r' => simp at hc; subst hc; simp [hr a (by simp)]

/-- a name or a constant is no keyword, and neither is a sum -/
theorem imageText_keyword {names : Names} (hn : ∀ x ∈ names, isKeyword x = false) {t : List Char}
    {l : List (Option (List Char) × Int)} (h : Spec.ImageText t l) (hl : ∀ q ∈ l, ∀ x ∈ q.1, x ∈ names) : isKeyword t = false := by
  by_contra hk
  have hk : isKeyword t = true := by simpa using hk
  obtain ⟨-, hp, hm, hhead⟩ := keyword_word hk
  -- the text starts with a factor or is a name
  have hterm : ∀ {u q}, Spec.ImageTerm u q → (∃ c r, u = c :: r ∧ isFactorChar c = true) ∨ q.1 = some u := by
    intro u q h
    cases h with
    | constant h =>
      obtain ⟨c, r, e, -⟩ := Numeral.head h
      exact Or.inl ⟨c, r, e, numeral_factor h c (by rw [e]; simp)⟩
    | var h hx =>
      cases h with
      | bare => exact Or.inr rfl
      | plus => exact Or.inl ⟨_, _, rfl, by decide⟩
      | minus => exact Or.inl ⟨_, _, rfl, by decide⟩
      | factor _ h =>
        obtain ⟨c, r, e, -⟩ := Numeral.head h
        exact Or.inl ⟨c, _, by rw [e]; rfl, numeral_factor h c (by rw [e]; simp)⟩
  cases h with
  | last h =>
    rcases hterm h with ⟨c, r, e, hc⟩ | hq
    · rw [hhead c (by rw [e]; simp)] at hc; exact absurd hc (by decide)
    · have := hn t (hl _ (by simp) t hq)
      rw [this] at hk; exact absurd hk (by decide)
  | more h hs =>
    rename_i u u' q l _
    rcases hs with hs | hs
    · exact hp (List.mem_append_right _ (List.mem_of_mem_head? hs))
    · exact hm (List.mem_append_right _ (List.mem_of_mem_head? hs))

theorem mapLine_read {names : Names} (hn : ∀ x ∈ names, isKeyword x = false) {t : List Char}
    {ls : List (List (Option (List Char) × Int))} (h : Spec.MapLine names t ls) :
    isKeyword (trimWhitespace t) = false ∧ trimWhitespace t ≠ [] ∧ ls ≠ [] ∧ ∀ l ∈ ls, l ≠ [] := by
  obtain ⟨⟨b, s, hb, hs, rfl⟩, hl, hf⟩ := h
  have key : ∀ {u l r}, Spec.ImageText u l → l ∈ ls → (∀ c ∈ List.head? r, isSpace c = true) →
      isKeyword (trimWhitespace (b ++ (u ++ r))) = false ∧ trimWhitespace (b ++ (u ++ r)) ≠ [] := by
    intro u l r hu hl hr
    obtain ⟨h1, h2⟩ := trim_word hb (imageText_ne_nil hu) (imageText_no_space hu) hr
    refine ⟨?_, h1⟩
    by_contra hk
    have := (keyword_word (by simpa using hk)).1
    rw [h2, imageText_keyword hn hu fun q hq x hx => (hf l hl q hq).2 x hx] at this
    exact absurd this (by decide)
  have hne : ∀ {s ls}, Spec.Images s ls → ∀ l ∈ ls, l ≠ [] := by
    intro s ls h
    have : ∀ {u l}, Spec.ImageText u l → l ≠ [] := by intro u l h; cases h <;> simp
    induction h with
    | last h => intro l hl; simp at hl; subst hl; exact this h
    | cons h _ _ _ ih =>
      intro l hl
      rcases List.mem_cons.1 hl with rfl | hl
      · exact this h
      · exact ih l hl
  have hblank : ∀ {b r : List Char}, Spec.Blanks b → (b = [] → r = []) → ∀ c ∈ (b ++ r).head?, isSpace c = true := by
    intro b r hb hr c hc
    cases b with
    | nil => rw [hr rfl] at hc; simp at hc
    | cons a b => simp at hc; subst hc; exact blank_space ((blank_iff a).mpr (hb a (by simp)))
  refine ⟨?_, ?_, ?_, hne hs⟩
  · cases hs with
    | @last _ b' _ h hb' => have := (key h (by simp) (r := b') (by have := hblank (r := []) hb' (fun _ => rfl); rwa [List.append_nil] at this)).1; exact this
    | cons h hb' hh => exact (key h (by simp) (hblank hb' (by rintro rfl; simp at hh))).1
  · cases hs with
    | @last _ b' _ h hb' => have := (key h (by simp) (r := b') (by have := hblank (r := []) hb' (fun _ => rfl); rwa [List.append_nil] at this)).2; exact this
    | cons h hb' hh => exact (key h (by simp) (hblank hb' (by rintro rfl; simp at hh))).2
  · cases hs <;> simp

/-- the map that is read from a line -/
def mapOf (names : Names) (ls : List (List (Option (List Char) × Int))) : SymMap := ls.map (imageOf names) ++ [[(names.length, 1)]]

theorem mapsLoop_lines {names : Names} (hn : ∀ x ∈ names, isKeyword x = false) {w : List Char} (hw : ConstraintsEnd w) :
    ∀ (n : Nat) {t : List Char} {l : List (List (List (Option (List Char) × Int)))}, Spec.Lines (Spec.MapLine names) t l →
      t.length ≤ n → ∀ (maps : Maps) (fuel : Nat), n + 2 ≤ fuel →
      mapsLoop names fuel ⟨t ++ w, false, false⟩ maps =
        some (.ok (⟨w, w.isEmpty, w.isEmpty⟩, maps ++ l.map (mapOf names))) := by
  intro n
  induction n with
  | zero =>
    intro t l h hn rows fuel hf
    obtain rfl : t = [] := by simpa using hn
    have hl : l = [] := by
      generalize he : ([] : List Char) = t at h
      cases h with
      | nil => rfl
      | blank => simp at he
      | line => simp at he
    subst hl
    obtain ⟨fuel, rfl⟩ : ∃ k, fuel = k + 2 := ⟨fuel - 2, by omega⟩
    rcases hw with rfl | ⟨k, r, hk, -, hkw⟩
    · rw [List.map_nil, List.append_nil, List.append_nil, mapsLoop]
      rfl
    · rw [mapsLoop, List.nil_append]
      simp only [Bool.false_eq_true, if_false, peekLine_first hk, hkw, if_true, List.append_nil, List.map_nil, firstLine_isEmpty hk]
  | succ n ih =>
    intro t l h hlen maps fuel hf
    cases h with
    | nil => exact ih .nil (by simp) maps fuel (by omega)
    | @blank b t _ hb ht =>
      obtain ⟨fuel, rfl⟩ : ∃ k, fuel = k + 1 := ⟨fuel - 1, by omega⟩
      have hbn := blanks_no_newline hb
      have h1 := ih ht (by simp only [List.length_append, List.length_cons] at hlen; omega) maps fuel (by omega)
      rw [mapsLoop, List.append_assoc, List.cons_append]
      simp only [Bool.false_eq_true, if_false, peekLine_line hbn, trim_blanks hb, show isKeyword [] = false from by decide,
        if_true, getLine_line hbn]
      exact h1
    | @line t ts a l hp hnl hr hl =>
      obtain ⟨fuel, rfl⟩ : ∃ k, fuel = k + 1 := ⟨fuel - 1, by omega⟩
      obtain ⟨hk, hne, hane, hall⟩ := mapLine_read hn hp
      obtain ⟨b, hb, hread⟩ := C53_line hp (ts ++ w)
      obtain ⟨t', hd, ht', hlen'⟩ := lines_drop (w := w) hl (fun t a h h0 => (mapLine_read hn h).2.1 (by rw [h0]; rfl)) hw.head
      have h1 := ih ht' (by simp only [List.length_append, List.length_cons] at hlen; omega) (maps ++ [mapOf names a]) fuel (by omega)
      have hnot : (a.map (imageOf names)).all (fun im => im = []) = false := by
        obtain ⟨x, xs, rfl⟩ := List.exists_cons_of_ne_nil hane
        have := hall x (by simp)
        simp [imageOf, this]
      rw [mapsLoop, List.append_assoc, List.cons_append]
      simp only [Bool.false_eq_true, if_false, peekLine_line hnl, hk, hne, hread, hnot]
      rw [skipWhitespace_ok _ _ (by simp), dropWhile_blanks hb, dropWhile_head (l := '\n' :: _) (by intro c hc; simp at hc; rw [← hc]; decide),
        skipEndOfLine_ok, List.dropWhile_cons_of_pos (by simp), hd]
      unfold mapOf at h1
      rw [h1]
      simp [mapOf]

/-! ## meaning -/

theorem factor_image (names : Names) (l : List (Option (List Char) × Int)) (hl : ∀ q ∈ l, ∀ x ∈ q.1, x ∈ names)
    (v : List Char → ℚ) (x : Fin (names.length + 1) → ℚ) (hx : ∀ j (h : j < names.length), x ⟨j, by omega⟩ = v names[j])
    (h1 : x ⟨names.length, by omega⟩ = 1) :
    ∑ j : Fin (names.length + 1), (((((imageOf names l).filter fun t => decide (t.1 = j.val)).map fun t => t.2).sum : Int) : ℚ) * x j =
      Spec.imageValue l v := by
  induction l with
  | nil => simp [imageOf, Spec.imageValue]
  | cons q l ih =>
    have ih := ih fun q hq => hl q (by simp [hq])
    have hi : q.1.elim names.length names.idxOf < names.length + 1 := by
      cases hq : q.1 with
      | none => simp
      | some y => have := List.idxOf_lt_length_of_mem (hl q (by simp) y hq); simp; omega
    have hxi : x ⟨q.1.elim names.length names.idxOf, hi⟩ = q.1.elim 1 v := by
      obtain ⟨o, z⟩ := q
      cases o with
      | none => exact h1
      | some y =>
        simp only [Option.elim_some]
        have hm := List.idxOf_lt_length_of_mem (hl _ (List.mem_cons_self ..) y rfl)
        rw [hx _ hm, List.getElem_idxOf]
    have hstep : ∀ j : Fin (names.length + 1),
        (((((imageOf names (q :: l)).filter fun t => decide (t.1 = j.val)).map fun t => t.2).sum : Int) : ℚ) * x j =
        (if j = ⟨q.1.elim names.length names.idxOf, hi⟩ then (q.2 : ℚ) * x j else 0) +
        (((((imageOf names l).filter fun t => decide (t.1 = j.val)).map fun t => t.2).sum : Int) : ℚ) * x j := by
      intro j
      by_cases hj : j = ⟨q.1.elim names.length names.idxOf, hi⟩
      · rw [if_pos hj]
        have hj' : q.1.elim names.length names.idxOf = j.val := by rw [hj]
        simp only [imageOf, List.map_cons, List.filter_cons, hj', decide_true, if_true, List.sum_cons, Int.cast_add, add_mul]
      · rw [if_neg hj, zero_add]
        have hj' : ¬ q.1.elim names.length names.idxOf = j.val := by
          intro h; apply hj; ext; exact h.symm
        simp only [imageOf, List.map_cons, List.filter_cons, hj', decide_false, Bool.false_eq_true, if_false]
    rw [Finset.sum_congr rfl fun j _ => hstep j, Finset.sum_add_distrib, ih, Finset.sum_ite_eq' Finset.univ]
    simp only [Finset.mem_univ, if_true, hxi, Spec.imageValue, List.map_cons, List.sum_cons]

/-- the map that is read does what the line says -/
theorem mapOf_does {names : Names} {ls : List (List (Option (List Char) × Int))}
    (hl : ls.length = names.length) (hf : Spec.ImagesFit names ls) : Spec.DoesImages names ls (mapOf names ls) := by
  have hlen : (mapOf names ls).length = names.length + 1 := by simp [mapOf, hl]
  refine ⟨⟨hlen, ?_⟩, ?_, ?_, ?_⟩
  · intro im him t ht
    simp only [mapOf, List.mem_append, List.mem_map, List.mem_singleton] at him
    rcases him with ⟨l, hl, rfl⟩ | rfl
    · simp only [imageOf, List.mem_map] at ht
      obtain ⟨q, hq, rfl⟩ := ht
      cases hq1 : q.1 with
      | none => simp
      | some y => have := List.idxOf_lt_length_of_mem ((hf l hl q hq).2 y hq1); simp; omega
    · simp at ht; subst ht; simp
  · intro v x hx h1
    refine ⟨?_, ?_⟩
    · intro i hi hi'
      have : (mapOf names ls).getD i [] = imageOf names ls[i] := by
        rw [List.getD_eq_getElem?_getD, List.getElem?_eq_getElem (by omega), Option.getD_some]
        simp only [mapOf]
        rw [List.getElem_append_left (by simpa using hi'), List.getElem_map]
      unfold Spec.pushed Spec.factor
      simp only [this]
      exact factor_image names ls[i] (fun q hq => (hf _ (List.getElem_mem hi') q hq).2) v x hx h1
    · have : (mapOf names ls).getD names.length [] = imageOf names [(none, 1)] := by
        rw [List.getD_eq_getElem?_getD, List.getElem?_eq_getElem (by omega), Option.getD_some]
        simp only [mapOf]
        rw [List.getElem_append_right (by simp [hl])]
        simp [imageOf]
      unfold Spec.pushed Spec.factor
      simp only [this]
      rw [factor_image names [(none, 1)] (by intro q hq x hx; simp at hq; subst hq; simp at hx) v x hx h1]
      simp [Spec.imageValue]
  · intro im him t ht
    simp only [mapOf, List.mem_append, List.mem_map, List.mem_singleton] at him
    rcases him with ⟨l, hl, rfl⟩ | rfl
    · simp only [imageOf, List.mem_map] at ht
      obtain ⟨q, hq, rfl⟩ := ht
      exact (hf l hl q hq).1
    · simp at ht; subst ht; simp [Spec.IsInt]
  · intro hnd im him
    simp only [mapOf, List.mem_append, List.mem_map, List.mem_singleton] at him
    rcases him with ⟨l, hl, rfl⟩ | rfl
    · have : (imageOf names l).map Prod.fst = (l.map Prod.fst).map fun o => o.elim names.length names.idxOf := by
        simp [imageOf, List.map_map, Function.comp_def]
      rw [this]
      refine List.Nodup.map_on (fun a ha b hb e => ?_) (hnd l hl)
      obtain ⟨q, hq, rfl⟩ := List.mem_map.1 ha
      obtain ⟨q', hq', rfl⟩ := List.mem_map.1 hb
      have h1 := (hf l hl q hq).2
      have h2 := (hf l hl q' hq').2
      cases e1 : q.1 with
      | none =>
        cases e2 : q'.1 with
        | none => rfl
        | some y =>
          have := List.idxOf_lt_length_of_mem (h2 y e2)
          rw [e1, e2] at e
          simp only [Option.elim_none, Option.elim_some] at e
          omega
      | some x =>
        have hx := List.idxOf_lt_length_of_mem (h1 x e1)
        cases e2 : q'.1 with
        | none =>
          rw [e1, e2] at e
          simp only [Option.elim_none, Option.elim_some] at e
          omega
        | some y =>
          have hy := List.idxOf_lt_length_of_mem (h2 y e2)
          rw [e1, e2] at e
          simp only [Option.elim_some] at e
          rw [← List.getElem_idxOf hx, ← List.getElem_idxOf hy]
          simp only [e]
    · simp

/-- **C53**: a section of maps whose lines have one image for every variable, up to the next keyword or the end of the file,
is read completely and in order: every map does what its line says. -/
theorem C53_sections {names : Names} (hn : ∀ x ∈ names, isKeyword x = false) {k t w : List Char}
    {lss : List (List (List (Option (List Char) × Int)))} (h : Spec.Lines (Spec.MapLine names) t lss) (hk : '\n' ∉ k)
    (hkw : isKeywordMaps (trimWhitespace k) = true) (hw : ConstraintsEnd w) :
    ∃ N, ∀ fuel ≥ N, ∃ s maps, readMaps names fuel ⟨k ++ '\n' :: (t ++ w), false, false⟩ = some (.ok (s, maps)) ∧
      List.Forall₂ (Spec.DoesImages names) lss maps ∧
      Spec.AfterSection w s.rest s.eof s.fail (fun k => isKeywordEnd (firstWord k)) := by
  refine ⟨t.length + 2, fun fuel hf => ?_⟩
  have h1 := mapsLoop_lines hn hw t.length h (Nat.le_refl _) [] fuel hf
  unfold readMaps
  simp only [getLine_line hk, Option.getD_some, hkw, Bool.not_true, Bool.or_false, Bool.false_eq_true, if_false, h1]
  refine ⟨_, _, rfl, ?_, skipEnd_spec hw.section⟩
  rw [List.nil_append]
  clear h1 hf
  induction h with
  | nil => exact .nil
  | blank _ _ ih => exact ih
  | line hp _ _ _ ih => exact .cons (mapOf_does hp.2.1 hp.2.2) ih


/-- a section that meets the hypotheses of `C53_sections`: the maps `x ↦ y, y ↦ x` and `x ↦ 1-2x+y, y ↦ -3` -/
example : Spec.Lines (Spec.MapLine ["x".toList, "y".toList]) " y x\n\n1-2x+y -3\n".toList
    [[[(some "y".toList, 1)], [(some "x".toList, 1)]], [[(none, 1), (some "x".toList, -2), (some "y".toList, 1)], [(none, -3)]]] := by
  have hx : Spec.MapName ['x'] := ⟨⟨'x', [], rfl, by unfold Spec.Space; decide, by unfold Spec.Digit; decide, by decide⟩, by decide, by decide⟩
  have hy : Spec.MapName ['y'] := ⟨⟨'y', [], rfl, by unfold Spec.Space; decide, by unfold Spec.Digit; decide, by decide⟩, by decide, by decide⟩
  have tx : Spec.ImageTerm ['x'] (some ['x'], 1) := .var (.bare _) hx
  have ty : Spec.ImageTerm ['y'] (some ['y'], 1) := .var (.bare _) hy
  have t2x : Spec.ImageTerm ['-', '2', 'x'] (some ['x'], -2) :=
    .var (.factor (t := ['-', '2']) ['x'] (.minus ['2'] (by simp) (by unfold Spec.Digit; decide))) hx
  have tpy : Spec.ImageTerm ['+', 'y'] (some ['y'], 1) := .var (.plus _) hy
  have t1 : Spec.ImageTerm ['1'] (none, 1) := .constant (.plain ['1'] (by simp) (by unfold Spec.Digit; decide))
  have t3 : Spec.ImageTerm ['-', '3'] (none, -3) := .constant (.minus ['3'] (by simp) (by unfold Spec.Digit; decide))
  have nb : Spec.Blanks [] := by intro c hc; simp at hc
  have sb : Spec.Blanks [' '] := by intro c hc; simp at hc; exact Or.inl hc
  refine .line (t := [' ', 'y', ' ', 'x']) (ts := "\n1-2x+y -3\n".toList) ?_ (by decide) (by decide) ?_
  · refine ⟨⟨[' '], ['y', ' ', 'x'], sb, ?_, rfl⟩, rfl, ?_⟩
    · exact .cons (t := ['y']) (b := [' ']) (.last ty) sb (Or.inl rfl) (.last (t := ['x']) (b := []) (.last tx) nb)
    · unfold Spec.ImagesFit Spec.IsInt; decide
  · refine .blank (b := []) (t := "1-2x+y -3\n".toList) nb ?_
    refine .line (t := "1-2x+y -3".toList) (ts := []) ?_ (by decide) (by decide) .nil
    refine ⟨⟨[], "1-2x+y -3".toList, nb, ?_, rfl⟩, rfl, ?_⟩
    · exact .cons (t := ['1', '-', '2', 'x', '+', 'y']) (b := [' ']) (.more (t := ['1']) t1 (Or.inr rfl)
        (.more (t := ['-', '2', 'x']) t2x (Or.inl rfl) (.last tpy))) sb (Or.inl rfl) (.last (t := ['-', '3']) (b := []) (.last t3) nb)
    · unfold Spec.ImagesFit Spec.IsInt; decide

/-- **Finding**: a section of maps in a file without (or before the) names is never left. -/
theorem C53_no_names_false : ∀ fuel, readMaps [] fuel ⟨"Maps:\nx y\n".toList, false, false⟩ = none := by
  have h : ∀ fuel maps, mapsLoop [] fuel ⟨"x y\n".toList, false, false⟩ maps = none := by
    intro fuel
    induction fuel with
    | zero => intro maps; rfl
    | succ n ih => intro maps; exact ih maps
  intro fuel
  exact congrArg (fun r => Run.bind r fun r => some (.ok (skipEnd r.1, r.2))) (h fuel [])

/-- **Finding**: a line with too few images is not rejected; if a blank follows, images are taken from the next line. -/
theorem C53_short_line_false : readMaps ["x".toList, "y".toList] 10 ⟨"Maps:\nx \ny x\n".toList, false, false⟩ =
    some (.ok (⟨[], true, true⟩, [[[(0, 1)], [(1, 1)], [(2, 1)]], [[(0, 1)], [], [(2, 1)]]])) := rfl

/-- **Finding**: a sign at the end of an image is read as a constant. -/
theorem C53_trailing_sign_false : image "x-".toList ["x".toList] = .ok [(0, 1), (1, -1)] := by decide +kernel

end Panda
