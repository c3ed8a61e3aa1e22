import Verif.Proofs.InputVertex

/-! # Property C41: reading vertices and rays -/

namespace Panda

theorem map_snd_ne {cs : List (Int × Int)} (h : ¬ ∃ q ∈ cs, q.2 = 0) : ∀ x ∈ cs.map (·.2), x ≠ 0 := by
  intro x hx h0
  obtain ⟨q, hq, rfl⟩ := List.mem_map.mp hx
  exact h ⟨q, hq, h0⟩

theorem isLcm_unique {l : List Int} {a b : Int} (ha : Spec.IsLcm l a) (hb : Spec.IsLcm l b) : a = b := by
  exact Int.dvd_antisymm ha.1 hb.1 (ha.2.2 b hb.2.1) (hb.2.2 a ha.2.1)

/-- the row computed from the coordinates -/
theorem rowOf_spec {cs : List (Int × Int)} (hz : ¬ ∃ q ∈ cs, q.2 = 0) (hfit : Spec.Fits cs) :
    ∃ L, 0 < L ∧ lcmInts (cs.map (·.2)) = .ok L ∧
      scaleNumerators L (cs.map (·.1)) (cs.map (·.2)) = .ok (cs.map fun q => q.1 * (L / q.2)) ∧
      (∀ q ∈ cs, q.2 ∣ L ∧ q.2 ≠ 0) ∧ Spec.IsLcm (cs.map (·.2)) L := by
  obtain ⟨hint, L, hL, hLi, hprod⟩ := hfit
  obtain ⟨L', h1, h2, h3⟩ := C02_row_lcm (cs.map (·.2)) (map_snd_ne hz)
  obtain rfl : L = L' := isLcm_unique hL h3
  have hdv : ∀ q ∈ cs, q.2 ∣ L ∧ q.2 ≠ 0 := fun q hq =>
    ⟨hL.2.1 _ (List.mem_map_of_mem hq), fun h0 => hz ⟨q, hq, h0⟩⟩
  refine ⟨L, h2, ?_, scaleNumerators_spec hdv hprod, hdv, hL⟩
  unfold lcmInts
  rw [if_neg, h1]
  · simp only [Outcome.bind, fitInt]
    rw [if_pos]
    exact hLi
  · intro hc
    obtain ⟨q, hq, hq2⟩ := List.mem_map.mp hc
    exact (hint q hq).2.2 hq2

theorem getD_map_append {α : Type} (f : α → Int) (x : Int) (cs : List α) :
    (∀ i (h : i < cs.length), (cs.map f ++ [x]).getD i 0 = f cs[i]) ∧ (cs.map f ++ [x]).getD cs.length 0 = x := by
  constructor
  · intro i h
    rw [List.getD_eq_getElem?_getD, List.getElem?_append_left (by simpa using h), List.getElem?_map,
      List.getElem?_eq_getElem h]; rfl
  · rw [List.getD_eq_getElem?_getD, List.getElem?_append_right (by simp)]; simp

theorem scaled_value {n d L : Int} (h : d ∣ L) (hd : d ≠ 0) : ((n * (L / d) : Int) : ℚ) = L * ((n : ℚ) / d) := by
  obtain ⟨k, rfl⟩ := h
  rw [Int.mul_ediv_cancel_left _ hd]
  have : (d : ℚ) ≠ 0 := by exact_mod_cast hd
  push_cast
  field_simp

theorem pointRow_of {cs : List (Int × Int)} {L : Int} (hL : 0 < L) (h : ∀ q ∈ cs, q.2 ∣ L ∧ q.2 ≠ 0) :
    Spec.PointRow cs (cs.map (fun q => q.1 * (L / q.2)) ++ [L]) ∧
      Spec.RayRow cs ((cs.map (fun q => q.1 * (L / q.2)) ++ [L]).dropLast ++ [0]) := by
  have hL' : (L : ℚ) ≠ 0 := by exact_mod_cast hL.ne'
  obtain ⟨h1, h2⟩ := getD_map_append (fun q : Int × Int => q.1 * (L / q.2)) L cs
  obtain ⟨h3, h4⟩ := getD_map_append (fun q : Int × Int => q.1 * (L / q.2)) 0 cs
  constructor
  · refine ⟨by simp, by rw [h2]; exact hL, fun i hi => ?_⟩
    rw [h2, h1 i hi, scaled_value (h _ (List.getElem_mem hi)).1 (h _ (List.getElem_mem hi)).2, mul_div_cancel_left₀ _ hL']
  · rw [List.dropLast_concat]
    refine ⟨by simp, by rw [h4], (L : ℚ), by exact_mod_cast hL, fun i hi => ?_⟩
    rw [h3 i hi, scaled_value (h _ (List.getElem_mem hi)).1 (h _ (List.getElem_mem hi)).2]

theorem coordinates_length {t : List Char} {cs : List (Int × Int)} (h : Spec.Coordinates t cs) : cs.length ≤ t.length ∧ cs ≠ [] := by
  induction h with
  | @last t b n d hf hb =>
    obtain ⟨c, r, hc, -⟩ := Coordinates.head (Spec.Coordinates.last hf hb)
    rw [hc]; simp
  | @cons t b ts n d cs hf hb hne hcs ih =>
    have : 1 ≤ b.length := List.length_pos_iff.mpr hne
    simp only [List.length_cons, List.length_append]
    exact ⟨by omega, by simp⟩

/-- reading one line, in terms of the model -/
theorem vertex_line {t w : List Char} {cs : List (Int × Int)} (h : Spec.VertexLine t cs)
    (hint : ∀ q ∈ cs, Spec.IsInt q.1 ∧ Spec.IsInt q.2) (hw : w = [] ∨ w.head? = some '\n') :
    vertex ⟨t ++ w, false, false⟩ =
      if ∃ q ∈ cs, q.2 = 0 then .thrown
      else (lcmInts (cs.map (·.2))).bind fun l => (scaleNumerators l (cs.map (·.1)) (cs.map (·.2))).bind fun row =>
        .ok (⟨w, w.isEmpty, w.isEmpty⟩, row ++ [l]) := by
  obtain ⟨l, c, hl, hc, rfl⟩ := h
  obtain ⟨x, r, hx, -, hxb, -, hxp, -, -⟩ := Coordinates.head hc
  obtain ⟨s, h1, h2⟩ := optionalIdentifier_label (t := c ++ w) hl x (r ++ w) (by rw [hx]; rfl) hxb hxp
  unfold vertex
  rw [List.append_assoc, h1]
  simp only [Outcome.bind, h2]
  obtain ⟨hlen, hne⟩ := coordinates_length hc
  rw [vertexLoop_coordinates hc hw hint _ 0 [] [] (by simp only [List.length_append]; omega)]
  by_cases h0 : ∃ q ∈ cs, q.2 = 0
  · rw [if_pos h0, if_pos h0]
  · rw [if_neg h0, if_neg h0]
    simp only [List.nil_append]
    rw [if_neg (by simpa using hne)]

theorem vertex_least {t w : List Char} {cs : List (Int × Int)} (h : Spec.VertexLine t cs) (hfit : Spec.Fits cs)
    (hz : ¬ ∃ q ∈ cs, q.2 = 0) (hw : w = [] ∨ w.head? = some '\n') :
    ∃ row, vertex ⟨t ++ w, false, false⟩ = .ok (⟨w, w.isEmpty, w.isEmpty⟩, row) ∧ (Spec.PointRow cs row ∧ Spec.LeastPoint cs row) ∧
      Spec.RayRow cs (row.dropLast ++ [0]) ∧ Spec.LeastRay cs (row.dropLast ++ [0]) := by
  obtain ⟨L, hL, h1, h2, h3, h4⟩ := rowOf_spec hz hfit
  rw [vertex_line h (fun q hq => ⟨(hfit.1 q hq).1, (hfit.1 q hq).2.1⟩) hw, if_neg hz, h1]
  simp only [Outcome.bind, h2]
  exact ⟨_, rfl, ⟨(pointRow_of hL h3).1, L, h4, rfl⟩, (pointRow_of hL h3).2, L, h4, by rw [List.dropLast_concat]⟩

/-- **C41** Reading a line with the coordinates `n/d` (an optional label, blanks, at the end of the line or of the
file) yields the row of that point, its last entry being positive. -/
theorem C41_vertex {t w : List Char} {cs : List (Int × Int)} (h : Spec.VertexLine t cs) (hfit : Spec.Fits cs)
    (hz : ¬ ∃ q ∈ cs, q.2 = 0) (hw : w = [] ∨ w.head? = some '\n') :
    ∃ row, vertex ⟨t ++ w, false, false⟩ = .ok (⟨w, w.isEmpty, w.isEmpty⟩, row) ∧ Spec.PointRow cs row ∧
      Spec.RayRow cs (row.dropLast ++ [0]) := by
  obtain ⟨row, h1, h2, h3⟩ := vertex_least h hfit hz hw
  exact ⟨row, h1, h2.1, h3.1⟩

/-- **C41** A zero denominator is rejected. -/
theorem C41_zero_denominator {t w : List Char} {cs : List (Int × Int)} (h : Spec.VertexLine t cs)
    (hint : ∀ q ∈ cs, Spec.IsInt q.1 ∧ Spec.IsInt q.2) (hz : ∃ q ∈ cs, q.2 = 0) (hw : w = [] ∨ w.head? = some '\n') :
    vertex ⟨t ++ w, false, false⟩ = .thrown := by
  rw [vertex_line h hint hw, if_pos hz]

/-- **C41** Beyond that, the only other possibility for numbers in the range of `int` is that the least common
denominator or a numerator leaves that range (signed overflow, undefined behaviour). -/
theorem C41_overflow {t w : List Char} {cs : List (Int × Int)} (h : Spec.VertexLine t cs)
    (hint : ∀ q ∈ cs, Spec.IsInt q.1 ∧ Spec.IsInt q.2) (hz : ¬ ∃ q ∈ cs, q.2 = 0) (hw : w = [] ∨ w.head? = some '\n')
    (hfit : ¬ Spec.Fits cs) : vertex ⟨t ++ w, false, false⟩ = .ub := by
  rw [vertex_line h hint hw, if_neg hz]
  obtain ⟨L, h1, h2, h3⟩ := C02_row_lcm (cs.map (·.2)) (map_snd_ne hz)
  unfold lcmInts
  split
  · rfl
  · next hmin =>
    rw [h1]
    simp only [Outcome.bind, fitInt]
    by_cases hL : intMin ≤ L ∧ L ≤ intMax
    · rw [if_pos hL]
      simp only
      have hdv : ∀ q ∈ cs, q.2 ∣ L ∧ q.2 ≠ 0 := fun q hq =>
        ⟨h3.2.1 _ (List.mem_map_of_mem hq), fun h0 => hz ⟨q, hq, h0⟩⟩
      have hbad : ¬ ∀ q ∈ cs, Spec.IsInt (q.1 * (L / q.2)) := by
        intro hall
        apply hfit
        refine ⟨fun q hq => ⟨(hint q hq).1, (hint q hq).2, ?_⟩, L, h3, hL, hall⟩
        intro hq2
        exact hmin (List.mem_map.mpr ⟨q, hq, hq2⟩)
      have key : ∀ cs : List (Int × Int), (∀ q ∈ cs, q.2 ∣ L ∧ q.2 ≠ 0) → (¬ ∀ q ∈ cs, Spec.IsInt (q.1 * (L / q.2))) →
          scaleNumerators L (cs.map (·.1)) (cs.map (·.2)) = .ub := by
        intro cs
        induction cs with
        | nil => intro _ h; exact absurd (by simp) h
        | cons q cs ih =>
          intro h hb
          have h1 : L.tdiv q.2 = L / q.2 := by
            obtain ⟨k, rfl⟩ := (h q (by simp)).1
            rw [Int.mul_tdiv_cancel_left _ (h q (by simp)).2, Int.mul_ediv_cancel_left _ (h q (by simp)).2]
          simp only [List.map_cons, scaleNumerators, h1, fitInt]
          by_cases hq : intMin ≤ q.1 * (L / q.2) ∧ q.1 * (L / q.2) ≤ intMax
          · rw [if_pos hq]
            simp only [Outcome.bind]
            rw [ih (fun q hq => h q (by simp [hq])) (by
              intro hall; apply hb
              intro x hx
              rcases List.mem_cons.mp hx with rfl | hx
              · exact hq
              · exact hall x hx)]
          · rw [if_neg hq]; rfl
      rw [key cs hdv hbad]
    · rw [if_neg hL]

/-! ## whole sections -/

theorem peekLine_line {l t : List Char} (hl : '\n' ∉ l) :
    peekLine ⟨l ++ '\n' :: t, false, false⟩ = (⟨l ++ '\n' :: t, false, false⟩, l) := by
  have h1 : (l ++ '\n' :: t).dropWhile (· ≠ '\n') = '\n' :: t := by
    rw [dropWhile_append_of_all (by intro c hc; simp; rintro rfl; exact hl hc)]; rfl
  have h2 : (l ++ '\n' :: t).takeWhile (· ≠ '\n') = l := by
    rw [takeWhile_append_of_all (by intro c hc; simp; rintro rfl; exact hl hc)]; simp
  unfold peekLine getLine restore
  simp only [Stream.good, Bool.not_false, Bool.and_true, if_true, Bool.false_eq_true, if_false, h1, h2, Option.getD_some]

theorem getLine_line {l t : List Char} (hl : '\n' ∉ l) :
    getLine ⟨l ++ '\n' :: t, false, false⟩ = (⟨t, false, false⟩, some l) := by
  have h1 : (l ++ '\n' :: t).dropWhile (· ≠ '\n') = '\n' :: t := by
    rw [dropWhile_append_of_all (by intro c hc; simp; rintro rfl; exact hl hc)]; rfl
  have h2 : (l ++ '\n' :: t).takeWhile (· ≠ '\n') = l := by
    rw [takeWhile_append_of_all (by intro c hc; simp; rintro rfl; exact hl hc)]; simp
  unfold getLine
  simp only [Stream.good, Bool.not_false, Bool.and_true, if_true, h1, h2]

theorem peekLine_first {w l r : List Char} (h : Spec.FirstLine w l r) : peekLine ⟨w, false, false⟩ = (⟨w, false, false⟩, l) := by
  obtain ⟨hl, rfl | ⟨rfl, hne, rfl⟩⟩ := h
  · exact peekLine_line hl
  · have h1 : w.dropWhile (· ≠ '\n') = [] := by
      have := dropWhile_append_of_all (p := (· ≠ '\n')) (a := w) (b := []) (by intro c hc; simp; rintro rfl; exact hl hc)
      rwa [List.append_nil] at this
    unfold peekLine getLine restore
    simp only [Stream.good, Bool.not_false, Bool.and_true, if_true, Bool.false_eq_true, if_false, h1, Option.getD_some]

theorem getLine_first {w l r : List Char} (h : Spec.FirstLine w l r) :
    ∃ e, getLine ⟨w, false, false⟩ = (⟨r, e, false⟩, some l) ∧ (e = true → r = []) := by
  obtain ⟨hl, rfl | ⟨rfl, hne, rfl⟩⟩ := h
  · exact ⟨false, getLine_line hl, by simp⟩
  · have h1 : w.dropWhile (· ≠ '\n') = [] := by
      have := dropWhile_append_of_all (p := (· ≠ '\n')) (a := w) (b := []) (by intro c hc; simp; rintro rfl; exact hl hc)
      rwa [List.append_nil] at this
    refine ⟨true, ?_, fun _ => rfl⟩
    unfold getLine
    have : w.isEmpty = false := by simpa using hne
    simp only [Stream.good, Bool.not_false, Bool.and_true, if_true, h1, this]

theorem firstLine_isEmpty {w l r : List Char} (h : Spec.FirstLine w l r) : w.isEmpty = false := by
  obtain ⟨hl, rfl | ⟨rfl, hne, rfl⟩⟩ := h
  · cases l <;> rfl
  · simpa using hne

theorem peekLine_nil : peekLine ⟨[], false, false⟩ = (⟨[], false, false⟩, []) := rfl
theorem getLine_nil : getLine ⟨[], false, false⟩ = (⟨[], true, true⟩, some []) := rfl

theorem trim_blanks {b : List Char} (hb : Spec.Blanks b) : trimWhitespace b = [] := by
  unfold trimWhitespace
  have := dropWhile_blanks (t := []) hb
  rw [List.append_nil] at this
  rw [this]; rfl

/-- the first character of the trimmed line -/
theorem trim_head {b t : List Char} {c : Char} {r : List Char} (hb : Spec.Blanks b) (ht : t = c :: r) (hc : isBlank c = false) :
    ∃ r', trimWhitespace (b ++ t) = c :: r' := by
  unfold trimWhitespace
  rw [dropWhile_blanks hb, dropWhile_head (l := t) (by rw [ht]; intro x hx; simp at hx; exact hx ▸ hc), ht]
  rw [List.reverse_cons]
  have key : ∀ l : List Char, ∃ l', ((l ++ [c]).dropWhile isBlank) = l' ++ [c] := by
    intro l
    induction l with
    | nil => exact ⟨[], by simp [hc]⟩
    | cons x xs ih =>
      rw [List.cons_append, List.dropWhile_cons]
      split
      · exact ih
      · exact ⟨x :: xs, rfl⟩
  obtain ⟨l', hl'⟩ := key r.reverse
  rw [hl']
  exact ⟨l'.reverse, by simp⟩

/-- keywords start with a capital letter -/
theorem keyword_head {s : List Char} (h : isKeyword s = true) : ∃ c r, s = c :: r ∧ c ∈ "CRVDEIMN".toList := by
  unfold isKeyword isKeywordConicalHull isKeywordReducedSomething isKeywordReducedConicalHull isKeywordConvexHull
    isKeywordReducedConvexHull isKeywordDimension isKeywordEquations isKeywordInequalities isKeywordReducedInequalities
    isKeywordMaps isKeywordNames isKeywordEnd at h
  simp only [List.any_cons, List.any_nil, Bool.or_false, Bool.or_eq_true, decide_eq_true_eq] at h
  repeat' (first | (exact ⟨_, _, rfl, by decide⟩) | (rcases h with h | h))

theorem not_keyword {c : Char} {r : List Char} (hc : Spec.Digit c ∨ c = '+' ∨ c = '-' ∨ c = '(') : isKeyword (c :: r) = false := by
  by_contra h
  rw [Bool.not_eq_false] at h
  obtain ⟨c', r', h1, h2⟩ := keyword_head h
  injection h1 with h1 _
  subst h1
  unfold Spec.Digit at hc
  simp only [List.mem_cons, List.not_mem_nil, or_false] at hc
  rcases hc with (rfl | rfl | rfl | rfl | rfl | rfl | rfl | rfl | rfl | rfl) | rfl | rfl | rfl <;> revert h2 <;> decide

theorem numeral_no_newline {t : List Char} {z : Int} (h : Spec.Numeral t z) : '\n' ∉ t := by
  cases h with
  | plain ds _ h1 => intro hc; exact (digit_not_space (h1 _ hc)).2.2.2.2.2.2 rfl
  | plus ds _ h1 =>
    intro hc
    rcases List.mem_cons.mp hc with h | h
    · exact absurd h (by decide)
    · exact (digit_not_space (h1 _ h)).2.2.2.2.2.2 rfl
  | minus ds _ h1 =>
    intro hc
    rcases List.mem_cons.mp hc with h | h
    · exact absurd h (by decide)
    · exact (digit_not_space (h1 _ h)).2.2.2.2.2.2 rfl

theorem blanks_no_newline {b : List Char} (h : Spec.Blanks b) : '\n' ∉ b := by
  intro hc; rcases h _ hc with h | h | h <;> exact absurd h (by decide)

theorem fraction_no_newline {t : List Char} {n d : Int} (h : Spec.Fraction t n d) : '\n' ∉ t := by
  cases h with
  | whole h => exact numeral_no_newline h
  | quotient h1 h2 h3 h4 =>
    intro hc
    simp only [List.mem_append, List.mem_cons] at hc
    rcases hc with (hc | hc) | hc | hc | hc
    · exact numeral_no_newline h1 hc
    · exact blanks_no_newline h2 hc
    · exact absurd hc (by decide)
    · exact blanks_no_newline h3 hc
    · exact numeral_no_newline h4 hc

theorem coordinates_no_newline {t : List Char} {cs : List (Int × Int)} (h : Spec.Coordinates t cs) : '\n' ∉ t := by
  induction h with
  | last hf hb =>
    intro hc
    rcases List.mem_append.mp hc with hc | hc
    · exact fraction_no_newline hf hc
    · exact blanks_no_newline hb hc
  | cons hf hb _ _ ih =>
    intro hc
    simp only [List.mem_append] at hc
    rcases hc with (hc | hc) | hc
    · exact fraction_no_newline hf hc
    · exact blanks_no_newline hb hc
    · exact ih hc

theorem label_no_newline {l : List Char} (h : Spec.Label l) : '\n' ∉ l := by
  cases h with
  | none hb => exact blanks_no_newline hb
  | some hb hb' hl =>
    intro hc
    simp only [List.mem_append, List.mem_cons] at hc
    rcases hc with hc | hc | hc | hc | hc
    · exact blanks_no_newline hb hc
    · exact absurd hc (by decide)
    · exact (hl _ hc).2.2 rfl
    · exact absurd hc (by decide)
    · exact blanks_no_newline hb' hc

/-- a line of a vertex is neither blank nor a keyword -/
theorem vertexLine_trim {l : List Char} {cs : List (Int × Int)} (h : Spec.VertexLine l cs) :
    '\n' ∉ l ∧ isKeyword (trimWhitespace l) = false ∧ trimWhitespace l ≠ [] := by
  obtain ⟨a, c, ha, hc, rfl⟩ := h
  obtain ⟨x, r, hx, -, hxb, -, -, -, hxd⟩ := Coordinates.head hc
  refine ⟨?_, ?_⟩
  · intro hm
    rcases List.mem_append.mp hm with hm | hm
    · exact label_no_newline ha hm
    · exact coordinates_no_newline hc hm
  · cases ha with
    | none hb =>
      obtain ⟨r', hr'⟩ := trim_head hb hx hxb
      rw [hr']
      refine ⟨not_keyword ?_, by simp⟩
      rcases hxd with h | h | h
      · exact Or.inl h
      · exact Or.inr (Or.inl h)
      · exact Or.inr (Or.inr (Or.inl h))
    | @some b b' l hb hb' hl =>
      obtain ⟨r', hr'⟩ := trim_head (t := '(' :: (l ++ ')' :: (b' ++ c))) hb rfl (by decide)
      rw [show b ++ '(' :: (l ++ ')' :: b') ++ c = b ++ '(' :: (l ++ ')' :: (b' ++ c)) by simp, hr']
      exact ⟨not_keyword (by simp), by simp⟩

/-- what may follow the lines of a section: nothing, or a line with a keyword -/
def SectionEnd (w : List Char) : Prop :=
  w = [] ∨ ∃ k r, Spec.FirstLine w k r ∧ isKeyword (trimWhitespace k) = true

theorem convexLoop_lines {t : List Char} {vs : List (List (Int × Int))} (h : Spec.VertexLines t vs) :
    ∀ {w : List Char}, SectionEnd w → (∀ cs ∈ vs, Spec.Fits cs ∧ ¬ ∃ q ∈ cs, q.2 = 0) → ∀ (conv : Matrix) (fuel : Nat),
      2 * t.length + 3 ≤ fuel →
      ∃ rows, convexLoop fuel ⟨t ++ w, false, false⟩ conv = some (.ok (⟨w, w.isEmpty, w.isEmpty⟩, conv ++ rows)) ∧
        List.Forall₂ (fun cs row => Spec.PointRow cs row ∧ Spec.LeastPoint cs row) vs rows := by
  induction h with
  | nil =>
    intro w hw _ conv fuel hfuel
    obtain ⟨fuel, rfl⟩ : ∃ k, fuel = k + 2 := ⟨fuel - 2, by omega⟩
    refine ⟨[], ?_, List.Forall₂.nil⟩
    rcases hw with rfl | ⟨k, r, hk, hkw⟩
    · simp only [List.append_nil]
      rw [convexLoop]
      rfl
    · rw [convexLoop, List.nil_append]
      simp only [Bool.false_eq_true, if_false, peekLine_first hk, hkw, if_true, List.append_nil, firstLine_isEmpty hk]
  | @blank b t vs hb ht ih =>
    intro w hw hvs conv fuel hfuel
    obtain ⟨fuel, rfl⟩ : ∃ k, fuel = k + 1 := ⟨fuel - 1, by omega⟩
    have hbn := blanks_no_newline hb
    obtain ⟨rows, h1, h2⟩ := ih hw hvs conv fuel (by simp only [List.length_append, List.length_cons] at hfuel; omega)
    refine ⟨rows, ?_, h2⟩
    rw [convexLoop, List.append_assoc, List.cons_append]
    simp only [Bool.false_eq_true, if_false, peekLine_line hbn, trim_blanks hb, show isKeyword [] = false from by decide,
      if_true, getLine_line hbn]
    exact h1
  | @vertex l t cs vs hl ht ih =>
    intro w hw hvs conv fuel hfuel
    obtain ⟨fuel, rfl⟩ : ∃ k, fuel = k + 2 := ⟨fuel - 2, by simp only [List.length_append, List.length_cons] at hfuel; omega⟩
    obtain ⟨hn, hk, hne⟩ := vertexLine_trim hl
    obtain ⟨hfit, hz⟩ := hvs cs (by simp)
    obtain ⟨row, hr, hp, -⟩ := vertex_least (w := '\n' :: (t ++ w)) hl hfit hz (Or.inr rfl)
    obtain ⟨rows, h1, h2⟩ := ih hw (fun c hc => hvs c (by simp [hc])) (conv ++ [row]) fuel
      (by simp only [List.length_append, List.length_cons] at hfuel; omega)
    refine ⟨row :: rows, ?_, List.Forall₂.cons hp h2⟩
    have hrne : row ≠ [] := by
      intro h0; have := hp.1.1; rw [h0] at this; simp at this
    rw [convexLoop, List.append_assoc, List.cons_append]
    simp only [Bool.false_eq_true, if_false, peekLine_line hn, hk, hne, hr, hrne, List.isEmpty_cons]
    rw [convexLoop]
    have hp0 := peekLine_line (l := []) (t := t ++ w) (by simp)
    have hg0 := getLine_line (l := []) (t := t ++ w) (by simp)
    rw [List.nil_append] at hp0 hg0
    simp only [Bool.false_eq_true, if_false, hp0, trim_blanks blanks_nil, show isKeyword [] = false from by decide,
      if_true, hg0]
    rw [h1]
    simp

theorem conicalLoop_lines {t : List Char} {vs : List (List (Int × Int))} (h : Spec.VertexLines t vs) :
    ∀ {w : List Char}, SectionEnd w → (∀ cs ∈ vs, Spec.Fits cs ∧ ¬ ∃ q ∈ cs, q.2 = 0) → ∀ (conv : Matrix) (fuel : Nat),
      2 * t.length + 3 ≤ fuel →
      ∃ rows, conicalLoop fuel ⟨t ++ w, false, false⟩ conv = some (.ok (⟨w, w.isEmpty, w.isEmpty⟩, conv ++ rows)) ∧
        List.Forall₂ (fun cs row => Spec.RayRow cs row ∧ Spec.LeastRay cs row) vs rows := by
  induction h with
  | nil =>
    intro w hw _ conv fuel hfuel
    obtain ⟨fuel, rfl⟩ : ∃ k, fuel = k + 2 := ⟨fuel - 2, by omega⟩
    refine ⟨[], ?_, List.Forall₂.nil⟩
    rcases hw with rfl | ⟨k, r, hk, hkw⟩
    · simp only [List.append_nil]
      rw [conicalLoop]
      rfl
    · rw [conicalLoop, List.nil_append]
      simp only [Bool.false_eq_true, if_false, peekLine_first hk, hkw, if_true, List.append_nil, firstLine_isEmpty hk]
  | @blank b t vs hb ht ih =>
    intro w hw hvs conv fuel hfuel
    obtain ⟨fuel, rfl⟩ : ∃ k, fuel = k + 1 := ⟨fuel - 1, by omega⟩
    have hbn := blanks_no_newline hb
    obtain ⟨rows, h1, h2⟩ := ih hw hvs conv fuel (by simp only [List.length_append, List.length_cons] at hfuel; omega)
    refine ⟨rows, ?_, h2⟩
    rw [conicalLoop, List.append_assoc, List.cons_append]
    simp only [Bool.false_eq_true, if_false, peekLine_line hbn, trim_blanks hb, show isKeyword [] = false from by decide,
      if_true, getLine_line hbn]
    exact h1
  | @vertex l t cs vs hl ht ih =>
    intro w hw hvs conv fuel hfuel
    obtain ⟨fuel, rfl⟩ : ∃ k, fuel = k + 2 := ⟨fuel - 2, by simp only [List.length_append, List.length_cons] at hfuel; omega⟩
    obtain ⟨hn, hk, hne⟩ := vertexLine_trim hl
    obtain ⟨hfit, hz⟩ := hvs cs (by simp)
    obtain ⟨row, hr, hp, hq⟩ := vertex_least (w := '\n' :: (t ++ w)) hl hfit hz (Or.inr rfl)
    obtain ⟨rows, h1, h2⟩ := ih hw (fun c hc => hvs c (by simp [hc])) (conv ++ [row.dropLast ++ [0]]) fuel
      (by simp only [List.length_append, List.length_cons] at hfuel; omega)
    refine ⟨(row.dropLast ++ [0]) :: rows, ?_, List.Forall₂.cons hq h2⟩
    have hrne : row ≠ [] := by
      intro h0; have := hp.1.1; rw [h0] at this; simp at this
    rw [conicalLoop, List.append_assoc, List.cons_append]
    simp only [Bool.false_eq_true, if_false, peekLine_line hn, hk, hne, hr, hrne, List.isEmpty_cons]
    rw [conicalLoop]
    have hp0 := peekLine_line (l := []) (t := t ++ w) (by simp)
    have hg0 := getLine_line (l := []) (t := t ++ w) (by simp)
    rw [List.nil_append] at hp0 hg0
    simp only [Bool.false_eq_true, if_false, hp0, trim_blanks blanks_nil, show isKeyword [] = false from by decide,
      if_true, hg0]
    rw [h1]
    simp

/-- after a section: at the end of the file the stream has failed, before a keyword other than `END` nothing is
consumed, and a line starting with `END` is skipped -/
theorem skipEnd_spec {w : List Char} (hw : SectionEnd w) :
    Spec.AfterSection w (skipEnd ⟨w, w.isEmpty, w.isEmpty⟩).rest (skipEnd ⟨w, w.isEmpty, w.isEmpty⟩).eof
      (skipEnd ⟨w, w.isEmpty, w.isEmpty⟩).fail (fun k => isKeywordEnd (firstWord k)) := by
  rcases hw with rfl | ⟨k, r, hk, -⟩
  · exact Or.inl ⟨rfl, rfl⟩
  · right
    refine ⟨k, r, hk, ?_⟩
    obtain ⟨e, he, her⟩ := getLine_first hk
    rw [firstLine_isEmpty hk]
    unfold skipEnd
    simp only [Bool.false_eq_true, if_false, peekLine_first hk, he]
    split
    · exact ⟨rfl, her, rfl⟩
    · exact ⟨rfl, by simp, rfl⟩

theorem firstLine_unique {k r k' r' : List Char} (hk : '\n' ∉ k) (h : Spec.FirstLine (k ++ '\n' :: r) k' r') : k' = k ∧ r' = r := by
  obtain ⟨hl, h | ⟨h, -⟩⟩ := h
  · have e1 : (k ++ '\n' :: r).takeWhile (· ≠ '\n') = k := by
      rw [takeWhile_append_of_all (by intro c hc; simp; rintro rfl; exact hk hc)]; simp
    have e2 : (k' ++ '\n' :: r').takeWhile (· ≠ '\n') = k' := by
      rw [takeWhile_append_of_all (by intro c hc; simp; rintro rfl; exact hl hc)]; simp
    rw [← h, e1] at e2
    subst e2
    simpa using h.symm
  · exact absurd (by rw [← h]; simp) hl

theorem afterSection_line {k r : List Char} {s : Stream} {isEnd : List Char → Bool} (hk : '\n' ∉ k)
    (h : Spec.AfterSection (k ++ '\n' :: r) s.rest s.eof s.fail isEnd) (he : isEnd k = false) : s = ⟨k ++ '\n' :: r, false, false⟩ := by
  rcases h with ⟨h, -⟩ | ⟨k', r', h1, h2, h3, h4⟩
  · simp at h
  · obtain ⟨rfl, rfl⟩ := firstLine_unique hk h1
    rw [he] at h2
    simp only [Bool.false_eq_true, if_false] at h2
    obtain ⟨a, b, c⟩ := s
    simp only at h2 h3 h4
    subst h2 h4
    cases b with
    | false => rfl
    | true => simp at h3

/-- whole sections: a section of vertices (rays) whose lines are well-formed, up to the next keyword or the
end of the file, is read completely and in order. -/
theorem sections_least {k t w : List Char} {vs : List (List (Int × Int))} (h : Spec.VertexLines t vs)
    (hk : '\n' ∉ k) (hw : SectionEnd w)
    (hvs : ∀ cs ∈ vs, Spec.Fits cs ∧ ¬ ∃ q ∈ cs, q.2 = 0) :
    ∃ N, ∀ fuel ≥ N,
      ((isKeywordConvexHull (trimWhitespace k) || isKeywordReducedConvexHull (trimWhitespace k)) = true → ∃ s rows,
        verticesConvex fuel ⟨k ++ '\n' :: (t ++ w), false, false⟩ = some (.ok (s, rows)) ∧
          List.Forall₂ (fun cs row => Spec.PointRow cs row ∧ Spec.LeastPoint cs row) vs rows ∧
          Spec.AfterSection w s.rest s.eof s.fail (fun k => isKeywordEnd (firstWord k))) ∧
      ((isKeywordConicalHull (trimWhitespace k) || isKeywordReducedConicalHull (trimWhitespace k)) = true → ∃ s rows,
        verticesConical fuel ⟨k ++ '\n' :: (t ++ w), false, false⟩ = some (.ok (s, rows)) ∧
          List.Forall₂ (fun cs row => Spec.RayRow cs row ∧ Spec.LeastRay cs row) vs rows ∧
          Spec.AfterSection w s.rest s.eof s.fail (fun k => isKeywordEnd (firstWord k))) := by
  refine ⟨2 * t.length + 3, fun fuel hf => ⟨fun hkk => ?_, fun hkk => ?_⟩⟩
  · obtain ⟨rows, h1, h2⟩ := convexLoop_lines h hw hvs [] fuel hf
    unfold verticesConvex
    simp only [getLine_line hk, Bool.false_eq_true, if_false, Option.getD_some, hkk, if_true, h1, Run.bind]
    exact ⟨_, _, rfl, h2, skipEnd_spec hw⟩
  · obtain ⟨rows, h1, h2⟩ := conicalLoop_lines h hw hvs [] fuel hf
    unfold verticesConical
    simp only [getLine_line hk, Bool.false_eq_true, if_false, Option.getD_some, hkk, if_true, h1, Run.bind]
    exact ⟨_, _, rfl, h2, skipEnd_spec hw⟩

/-- **C41**, whole sections: a section of vertices (rays) whose lines are well-formed, up to the next keyword or the
end of the file, is read completely and in order. -/
theorem C41_sections {k t w : List Char} {vs : List (List (Int × Int))} (h : Spec.VertexLines t vs)
    (hk : '\n' ∉ k) (hw : SectionEnd w)
    (hvs : ∀ cs ∈ vs, Spec.Fits cs ∧ ¬ ∃ q ∈ cs, q.2 = 0) :
    ∃ N, ∀ fuel ≥ N,
      ((isKeywordConvexHull (trimWhitespace k) || isKeywordReducedConvexHull (trimWhitespace k)) = true → ∃ s rows,
        verticesConvex fuel ⟨k ++ '\n' :: (t ++ w), false, false⟩ = some (.ok (s, rows)) ∧
          List.Forall₂ Spec.PointRow vs rows ∧
          Spec.AfterSection w s.rest s.eof s.fail (fun k => isKeywordEnd (firstWord k))) ∧
      ((isKeywordConicalHull (trimWhitespace k) || isKeywordReducedConicalHull (trimWhitespace k)) = true → ∃ s rows,
        verticesConical fuel ⟨k ++ '\n' :: (t ++ w), false, false⟩ = some (.ok (s, rows)) ∧
          List.Forall₂ Spec.RayRow vs rows ∧
          Spec.AfterSection w s.rest s.eof s.fail (fun k => isKeywordEnd (firstWord k))) := by
  obtain ⟨N, hN⟩ := sections_least h hk hw hvs
  refine ⟨N, fun fuel hf => ⟨fun hkk => ?_, fun hkk => ?_⟩⟩
  · obtain ⟨s, rows, h1, h2, h3⟩ := (hN fuel hf).1 hkk
    exact ⟨s, rows, h1, h2.imp fun _ _ h => h.1, h3⟩
  · obtain ⟨s, rows, h1, h2, h3⟩ := (hN fuel hf).2 hkk
    exact ⟨s, rows, h1, h2.imp fun _ _ h => h.1, h3⟩

/-! ### the hypotheses are met by a concrete file -/

theorem numeral_example : Spec.Numeral "1".toList 1 ∧ Spec.Numeral "2".toList 2 ∧ Spec.Numeral "-3".toList (-3) ∧
    Spec.Numeral "+5".toList 5 :=
  ⟨Spec.Numeral.plain "1".toList (by decide) (by simp [Spec.Digit]), Spec.Numeral.plain "2".toList (by decide) (by simp [Spec.Digit]),
   Spec.Numeral.minus "3".toList (by decide) (by simp [Spec.Digit]), Spec.Numeral.plus "5".toList (by decide) (by simp [Spec.Digit])⟩

theorem vertexLines_example : Spec.VertexLines "(a) 1/2 -3\n\n +5\n".toList [[(1, 2), (-3, 1)], [(5, 1)]] := by
  obtain ⟨h1, h2, h3, h5⟩ := numeral_example
  have b0 : Spec.Blanks [] := by intro c hc; simp at hc
  have b1 : Spec.Blanks " ".toList := by intro c hc; simp at hc; simp [hc]
  refine Spec.VertexLines.vertex (l := "(a) 1/2 -3".toList) (t := "\n +5\n".toList) ?_
    (Spec.VertexLines.blank (b := []) (t := " +5\n".toList) b0
      (Spec.VertexLines.vertex (l := " +5".toList) (t := []) ?_ Spec.VertexLines.nil))
  · refine ⟨"(a) ".toList, "1/2 -3".toList, ?_, ?_, by decide⟩
    · exact Spec.Label.some (b := []) (b' := " ".toList) (l := "a".toList) b0 b1 (by decide)
    · exact Spec.Coordinates.cons (t := "1/2".toList) (b := " ".toList) (ts := "-3".toList)
        (Spec.Fraction.quotient (t := "1".toList) (t' := "2".toList) (b := []) (b' := []) h1 b0 b0 h2) b1 (by decide)
        (Spec.Coordinates.last (t := "-3".toList) (b := []) (Spec.Fraction.whole h3) b0)
  · exact ⟨" ".toList, "+5".toList, Spec.Label.none b1,
      Spec.Coordinates.last (t := "+5".toList) (b := []) (Spec.Fraction.whole h5) b0, by decide⟩

example : Spec.Fits [(1, 2), (-3, 1)] ∧ ¬ ∃ q ∈ [((1 : Int), (2 : Int)), (-3, 1)], q.2 = 0 := by
  refine ⟨⟨?_, 2, ⟨by decide, by decide, fun m hm => hm 2 (by decide)⟩, by unfold Spec.IsInt; decide, ?_⟩, by decide⟩ <;>
  · unfold Spec.IsInt; decide

/-- the model run on that file -/
example : verticesConvex 20 ⟨"Vertices:\n(a) 1/2 -3\n\n +5\nEND\n".toList, false, false⟩ =
    some (.ok (⟨[], false, false⟩, [[1, -6, 2], [5, 1]])) := by decide +kernel

example : verticesConical 20 ⟨"Rays:\n(a) 1/2 -3\n\n +5\nEND\n".toList, false, false⟩ =
    some (.ok (⟨[], false, false⟩, [[1, -6, 0], [5, 0]])) := by decide +kernel

/-! ### limits: what happens outside the hypotheses of C41 -/

/-- a coordinate outside the range of `int` is not reported: the section ends there and the rest of it is dropped -/
theorem C41_large_number_drops_section_false :
    verticesConvex 20 ⟨"Vertices:\n1 2\n3000000000 1\n5 6\n".toList, false, false⟩ =
      some (.ok (⟨" 1\n5 6\n".toList, false, true⟩, [[1, 2, 1]])) := by decide +kernel

/-- in a section of rays, such a line is read as a different ray -/
theorem C41_large_number_changes_ray_false :
    verticesConical 20 ⟨"Rays:\n1 2 3\n3000000000 1 2\n".toList, false, false⟩ =
      some (.ok (⟨[], true, true⟩, [[1, 2, 3, 0], [1, 2, 0]])) := by decide +kernel

/-- a line that does not start with a number makes the reading of rays loop forever -/
theorem C41_ray_garbage_false (fuel : Nat) :
    verticesConical fuel ⟨"Rays:\nx\n".toList, false, false⟩ = none := by
  have key : ∀ fuel (cone : Matrix), conicalLoop fuel ⟨"x\n".toList, false, false⟩ cone = none := by
    intro fuel
    induction fuel with
    | zero => intro cone; rfl
    | succ n ih =>
      intro cone
      have hp : peekLine ⟨"x\n".toList, false, false⟩ = (⟨"x\n".toList, false, false⟩, "x".toList) := by decide +kernel
      have hv : vertex ⟨"x\n".toList, false, false⟩ = .ok (⟨"x\n".toList, false, true⟩, []) := by decide +kernel
      have hk : isKeyword (trimWhitespace "x".toList) = false := by decide +kernel
      have ht : trimWhitespace "x".toList ≠ [] := by decide +kernel
      rw [conicalLoop]
      simp only [Bool.false_eq_true, if_false, hp, hk, ht, hv, if_true, Stream.clear]
      exact ih cone
  unfold verticesConical
  have hg : getLine ⟨"Rays:\nx\n".toList, false, false⟩ = (⟨"x\n".toList, false, false⟩, some "Rays:".toList) := by decide +kernel
  have hk : isKeywordConicalHull (trimWhitespace "Rays:".toList) = true := by decide +kernel
  rw [hg]
  simp only [Bool.false_eq_true, if_false, Option.getD_some, hk, Bool.true_or, if_true, key]
  rfl

/-- a slash without a denominator (at the end of the file), and a denominator outside the range of `int`, are accepted -/
theorem C41_bad_denominator_false :
    vertex ⟨"3/".toList, false, false⟩ = .ok (⟨[], true, true⟩, [3, 3]) ∧
      vertex ⟨"1/99999999999".toList, false, false⟩ = .ok (⟨[], true, true⟩, [1, 2147483647]) := by
  constructor <;> decide +kernel

end Panda
