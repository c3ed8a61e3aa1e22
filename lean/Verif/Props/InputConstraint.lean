import Verif.Proofs.InputConstraint
import Verif.Props.Print
import Mathlib.Algebra.BigOperators.Ring.Finset
import Mathlib.Tactic.Linarith

/-! # Properties C42, C43: reading inequalities and equations, and reading back printed ones -/

namespace Panda

/-! ## one line with names -/

theorem negRow_ok : ∀ {r : Row}, (∀ x ∈ r, x ≠ intMin) → negRow r = .ok (r.map (- ·))
  | [], _ => rfl
  | x :: xs, h => by
    rw [negRow, negRow_ok fun y hy => h y (by simp [hy])]
    unfold negInt
    rw [if_neg (h x (by simp))]
    rfl

theorem addTerms_symmetric {names : Names} : ∀ {l : List (List Char × Int)} {ieq row : Row},
    addTerms names ieq l = .ok row → (∀ q ∈ l, Spec.Symmetric q.2) → (∀ x ∈ ieq, Spec.Symmetric x) → ∀ x ∈ row, Spec.Symmetric x
  | [], ieq, row, h, _, hi => by rw [addTerms] at h; injection h with h; exact h ▸ hi
  | (y, c) :: l, ieq, row, h, hl, hi => by
    rw [addTerms] at h
    split at h
    · split at h
      · exact absurd h (by simp)
      · refine addTerms_symmetric h (fun q hq => hl q (by simp [hq])) ?_
        intro x hx
        rcases List.mem_or_eq_of_mem_set hx with hx | rfl
        · exact hi x hx
        · exact hl (y, x) (by simp)
    · exact absurd h (by simp)

theorem normalizeRelation_ok {r : Row} {rel : Spec.Rel} (h : ∀ x ∈ r, Spec.Symmetric x) :
    normalizeRelation r (toRelation rel) = .ok (r.map (rel.sign * ·)) := by
  unfold normalizeRelation
  cases rel with
  | ge =>
    rw [if_pos (by rfl), negRow_ok fun x hx => by have := h x hx; unfold Spec.Symmetric intMin at *; omega]
    simp [Spec.Rel.sign]
  | le => rw [if_neg (by decide)]; simp [Spec.Rel.sign]
  | eq => rw [if_neg (by decide)]; simp [Spec.Rel.sign]

theorem getD_map_mul (r : Row) (s : Int) (j : Nat) : (r.map (s * ·)).getD j 0 = s * r.getD j 0 := by
  simp only [List.getD_eq_getElem?_getD, List.getElem?_map]
  cases r[j]? <;> simp

/-- **C42** A line `terms rel rhs` over known variables, none of them repeated, is read as the row of that constraint
(for inequalities `rel` is `≤` or `≥`, for equations `=`). -/
theorem C42_named {t w : List Char} {terms : List (List Char × Int)} {rel : Spec.Rel} {rhs : Int} {names : Names}
    {equation : Bool} (h : Spec.ConstraintLine t terms rel rhs) (hn : names.Nodup)
    (hc : ∀ q ∈ terms, Spec.Symmetric q.2) (hr : Spec.Symmetric rhs) (hw : w = [] ∨ w.head? = some '\n')
    (hk : ∀ q ∈ terms, q.1 ∈ names) (hrep : ¬ Spec.Repeated terms) (hrel : equation = true ↔ rel = .eq) :
    ∃ row, constraintNamed equation names ⟨t ++ w, false, false⟩ = .ok (⟨w, false, false⟩, row) ∧
      Spec.ConstraintRow names terms rel rhs row := by
  have hspec := addTerms_spec hn terms (List.replicate (names.length + 1) 0) (by simp)
  have hz : ∀ j, (List.replicate (names.length + 1) (0 : Int)).getD j 0 = 0 := by
    intro j
    rw [List.getD_eq_getElem?_getD, List.getElem?_replicate]
    split <;> rfl
  rw [if_pos ⟨hk, hrep, fun q _ => hz _⟩] at hspec
  obtain ⟨ieq, h1, h2, h3, h4⟩ := hspec
  rw [constraintNamed_line h hc hr hw, h1]
  simp only [Outcome.bind, show relOk equation rel = true from decide_eq_true hrel, if_true]
  have hsym : ∀ x ∈ ieq.set names.length (-rhs), Spec.Symmetric x := by
    intro x hx
    rcases List.mem_or_eq_of_mem_set hx with hx | rfl
    · refine addTerms_symmetric h1 hc ?_ x hx
      intro y hy
      rw [List.eq_of_mem_replicate hy]
      unfold Spec.Symmetric; omega
    · unfold Spec.Symmetric at *; omega
  rw [normalizeRelation_ok hsym]
  refine ⟨_, rfl, by simp [h2], fun j hj => ?_, ?_⟩
  · rw [getD_map_mul, getD_set_eq _ _ _ _ (by omega), if_neg (by omega), h3 j hj, hz, zero_add]
  · rw [getD_map_mul, getD_set_eq _ _ _ _ (by omega), if_pos rfl]

/-- **C42** Everything else is rejected: an unknown name, a variable occurring again after a non-zero coefficient, or a
relation that does not belong into the section. -/
theorem C42_rejected {t w : List Char} {terms : List (List Char × Int)} {rel : Spec.Rel} {rhs : Int} {names : Names}
    {equation : Bool} (h : Spec.ConstraintLine t terms rel rhs) (hn : names.Nodup)
    (hc : ∀ q ∈ terms, Spec.Symmetric q.2) (hr : Spec.Symmetric rhs) (hw : w = [] ∨ w.head? = some '\n')
    (hbad : (∃ q ∈ terms, q.1 ∉ names) ∨ Spec.Repeated terms ∨ ¬ (equation = true ↔ rel = .eq)) :
    constraintNamed equation names ⟨t ++ w, false, false⟩ = .thrown := by
  have hspec := addTerms_spec hn terms (List.replicate (names.length + 1) 0) (by simp)
  rw [constraintNamed_line h hc hr hw]
  split at hspec
  · next hcond =>
    obtain ⟨ieq, h1, -⟩ := hspec
    rw [h1]
    have hrel : ¬ (equation = true ↔ rel = .eq) := by
      rcases hbad with ⟨q, hq, hq'⟩ | hb | hb
      · exact absurd (hcond.1 q hq) hq'
      · exact absurd hb hcond.2.1
      · exact hb
    simp only [Outcome.bind, show relOk equation rel = false from decide_eq_false hrel, Bool.false_eq_true, if_false]
  · rw [hspec]; rfl

/-- **C42** A line without a relation and a right-hand side is rejected. -/
theorem C42_no_relation {l s w : List Char} {terms : List (List Char × Int)} {names : Names} {equation : Bool}
    (hl : Spec.Label l) (hs : Spec.Sum s terms) (hne : terms ≠ []) (hc : ∀ q ∈ terms, Spec.Symmetric q.2)
    (hw : w = [] ∨ w.head? = some '\n') : constraintNamed equation names ⟨l ++ s ++ w, false, false⟩ = .thrown :=
  constraintNamed_no_relation hl hs hne hc hw

/-- the value of the row of a constraint -/
theorem constraintRow_value {names : Names} {terms : List (List Char × Int)} {rel : Spec.Rel} {rhs : Int} {row : Row}
    (h : Spec.ConstraintRow names terms rel rhs row) (hn : names.Nodup) (hk : ∀ q ∈ terms, q.1 ∈ names) (v : List Char → ℚ) :
    ∑ j : Fin names.length, (row.getD j 0 : ℚ) * v names[j] + (row.getD names.length 0 : ℚ) = rel.sign * (Spec.sumValue terms v - rhs) := by
  obtain ⟨-, h2, h3⟩ := h
  have key : ∀ l : List (List Char × Int), (∀ q ∈ l, q.1 ∈ names) →
      ∑ j : Fin names.length, (Spec.coefficient l names[j] : ℚ) * v names[j] = Spec.sumValue l v := by
    intro l
    induction l with
    | nil => intro _; simp [Spec.coefficient, Spec.sumValue]
    | cons q l ih =>
      intro hq
      obtain ⟨x, c⟩ := q
      have e : Spec.sumValue ((x, c) :: l) v = (c : ℚ) * v x + Spec.sumValue l v := by simp [Spec.sumValue]
      rw [e, ← ih fun q hq' => hq q (by simp [hq'])]
      simp only [coefficient_cons, Int.cast_add, add_mul, Finset.sum_add_distrib]
      congr 1
      have hx : x ∈ names := hq (x, c) (by simp)
      have hidx := List.idxOf_lt_length_iff.mpr hx
      rw [Finset.sum_eq_single (⟨names.idxOf x, hidx⟩ : Fin names.length)]
      · have : names[(⟨names.idxOf x, hidx⟩ : Fin names.length)] = x := List.getElem_idxOf hidx
        rw [this, if_pos rfl]
      · intro j _ hj
        rw [if_neg]
        · simp
        · intro he
          apply hj
          apply Fin.ext
          have : names.idxOf names[(j : Nat)] = j := hn.idxOf_getElem j j.2
          simp only
          rw [← this, he]
          rfl
      · intro h; exact absurd (Finset.mem_univ _) h
  have hs : ∑ j : Fin names.length, (row.getD j 0 : ℚ) * v names[j] = rel.sign * Spec.sumValue terms v := by
    rw [← key terms hk, Finset.mul_sum]
    apply Finset.sum_congr rfl
    intro j _
    rw [h2 j j.2]
    push_cast
    simp only [Fin.getElem_fin]
    ring
  rw [hs, h3]
  push_cast
  ring

/-- **C42** The row means the constraint: it holds at exactly the same points. -/
theorem C42_meaning {names : Names} {terms : List (List Char × Int)} {rel : Spec.Rel} {rhs : Int} {row : Row} {equation : Bool}
    (h : Spec.ConstraintRow names terms rel rhs row) (hn : names.Nodup) (hk : ∀ q ∈ terms, q.1 ∈ names)
    (hrel : equation = true ↔ rel = .eq) (v : List Char → ℚ) :
    Spec.rowHolds equation names row v ↔ rel.holds (Spec.sumValue terms v) rhs := by
  unfold Spec.rowHolds
  rw [constraintRow_value h hn hk v]
  cases rel with
  | le =>
    have he : equation = false := by simpa using hrel
    simp only [he, Bool.false_eq_true, if_false, Spec.Rel.sign, Spec.Rel.holds]
    push_cast
    constructor <;> intro h <;> linarith
  | ge =>
    have he : equation = false := by simpa using hrel
    simp only [he, Bool.false_eq_true, if_false, Spec.Rel.sign, Spec.Rel.holds]
    push_cast
    constructor <;> intro h <;> linarith
  | eq =>
    have he : equation = true := by simpa using hrel
    simp only [he, if_true, Spec.Rel.sign, Spec.Rel.holds]
    push_cast
    constructor <;> intro h <;> linarith

/-! ## one line without names -/

/-- **C42** A raw line is read as the row of its entries. -/
theorem C42_raw {t w : List Char} {row : Row} {equation : Bool} (h : Spec.RawLine t row)
    (hr : ∀ x ∈ row, Spec.IsInt x) (hw : w = [] ∨ w.head? = some '\n') :
    constraintUnnamed equation ⟨t ++ w, false, false⟩ = .ok (⟨w, false, false⟩, row) :=
  constraintUnnamed_raw h hr hw

/-- **C42** A line `coefficients rel rhs` is read as the row `(coefficients, -rhs)`, negated for `≥`; the wrong relation
is rejected. -/
theorem C42_unnamed {t w : List Char} {xs : Row} {rel : Spec.Rel} {rhs : Int} {equation : Bool}
    (h : Spec.UnnamedLine t xs rel rhs) (hxs : ∀ x ∈ xs, Spec.Symmetric x) (hr : Spec.Symmetric rhs)
    (hw : w = [] ∨ w.head? = some '\n') :
    constraintUnnamed equation ⟨t ++ w, false, false⟩ =
      if equation = true ↔ rel = .eq then .ok (⟨w, false, false⟩, xs.map (rel.sign * ·) ++ [rel.sign * (-rhs)]) else .thrown := by
  rw [constraintUnnamed_line h (fun x hx => by have := hxs x hx; unfold Spec.Symmetric Spec.IsInt at *; omega) hr hw]
  rw [normalizeRelation_ok]
  · unfold relOk
    by_cases hh : (equation = true ↔ rel = .eq)
    · rw [if_pos (decide_eq_true hh), if_pos hh]
      simp [Outcome.bind]
    · rw [if_neg (by rw [decide_eq_false hh]; decide), if_neg hh]
  · intro x hx
    rcases List.mem_append.mp hx with hx | hx
    · exact hxs x hx
    · rw [List.mem_singleton.mp hx]
      unfold Spec.Symmetric at *; omega

/-! ## does the section use names? -/

theorem find?_none_of {names : Names} {p : List Char → Bool} (h : ∀ n ∈ names, p n = false) : names.find? p = none := by
  rw [List.find?_eq_none]
  intro n hn
  rw [h n hn]; decide

theorem containsLoop_blank {names : Names} (hn : ∀ x ∈ names, Spec.Name x) {u : List Char} {c : Char} (hc : isBlank c = true) :
    ∀ (p word : List Char) (k : Nat), k + p.length < 2000 →
      containsLoop names (p ++ c :: u) word k = true ∨
        containsLoop names (p ++ c :: u) word k = containsLoop names u [] (k + p.length + 1) := by
  have hb : ∀ word : List Char, ∀ n ∈ names, (word ++ [c]).isPrefixOf n = false := by
    intro word n hm
    by_contra h
    rw [Bool.not_eq_false, List.isPrefixOf_iff_prefix] at h
    have := name_no_space (hn n hm) c (h.subset (by simp))
    rw [blank_space hc] at this
    exact absurd this (by decide)
  intro p
  induction p with
  | nil =>
    intro word k hk
    right
    rw [List.nil_append, containsLoop, if_neg (by simp at hk; omega), find?_none_of (hb word)]
    rfl
  | cons a p ih =>
    intro word k hk
    rw [List.length_cons] at hk
    rw [List.cons_append, containsLoop, if_neg (by omega)]
    have e : k + (a :: p).length + 1 = (k + 1) + p.length + 1 := by rw [List.length_cons]; omega
    rw [e]
    split
    · split
      · left; rfl
      · exact ih _ _ (by omega)
    · exact ih _ _ (by omega)

theorem containsLoop_skip {names : Names} (hn : ∀ x ∈ names, Spec.Name x) {u : List Char} :
    ∀ (q : List Char) (k : Nat), (∀ c ∈ q, (c = ' ' ∨ c = '\t' ∨ c = '\r') ∨ c = '+' ∨ c = '-' ∨ Spec.Digit c) →
      k + q.length < 2000 → containsLoop names (q ++ u) [] k = containsLoop names u [] (k + q.length) := by
  intro q
  induction q with
  | nil => intro k _ _; rfl
  | cons a q ih =>
    intro k hq hk
    rw [List.length_cons] at hk
    rw [List.cons_append, containsLoop, if_neg (by omega), find?_none_of]
    · simp only
      rw [ih _ (fun c hc => hq c (by simp [hc])) (by omega), List.length_cons]
      congr 1; omega
    · intro n hm
      by_contra h
      rw [Bool.not_eq_false, List.isPrefixOf_iff_prefix] at h
      obtain ⟨y, r, rfl, hsp, hd, hr⟩ := hn n hm
      have hay : a = y := by
        obtain ⟨z, hz⟩ := h
        simp at hz; exact hz.1
      subst hay
      rcases hq a (by simp) with h1 | h1 | h1 | h1
      · apply hsp a (by simp)
        unfold Spec.Space
        rcases h1 with h1 | h1 | h1 <;> simp [h1]
      · exact hr (by simp [h1])
      · exact hr (by simp [h1])
      · exact hd h1

theorem find?_earlier {names : Names} {R : List Char → List Char → Prop} {p : List Char → Bool} (hR : names.Pairwise R) {n x : List Char}
    (hf : names.find? p = some n) (hx : x ∈ names) (hp : p x = true) (hne : n ≠ x) : R n x := by
  induction names with
  | nil => simp at hx
  | cons a l ih =>
    rw [List.pairwise_cons] at hR
    rw [List.find?_cons] at hf
    split at hf
    · injection hf with hf
      subst hf
      rcases List.mem_cons.mp hx with rfl | hx
      · exact absurd rfl hne
      · exact hR.1 x hx
    · next hpa =>
      rcases List.mem_cons.mp hx with rfl | hx
      · rw [hp] at hpa; exact absurd hpa (by decide)
      · exact ih hR.2 hf hx

theorem containsLoop_name {names : Names} (hp : Spec.NoPrefix names) {x r : List Char} (hx : x ∈ names) :
    ∀ (x2 x1 : List Char) (k : Nat), x = x1 ++ x2 → x2 ≠ [] → (x1 ≠ [] ∨ k < 2000) →
      containsLoop names (x2 ++ r) x1 k = true := by
  intro x2
  induction x2 with
  | nil => intro x1 k _ h; exact absurd rfl h
  | cons c x2 ih =>
    intro x1 k hxe _ hk
    rw [List.cons_append, containsLoop, if_neg (by rintro ⟨h1, h2⟩; rcases hk with h | h; exacts [h h1, by omega])]
    have hpx : (x1 ++ [c]).isPrefixOf x = true := by
      rw [List.isPrefixOf_iff_prefix, hxe]
      exact ⟨x2, by simp⟩
    cases hf : names.find? (fun n => (x1 ++ [c]).isPrefixOf n) with
    | none =>
      rw [List.find?_eq_none] at hf
      exact absurd hpx (hf x hx)
    | some n =>
      simp only
      split
      · rfl
      · next hne =>
        by_cases h2 : x2 = []
        · exfalso
          subst h2
          have he := find?_earlier hp hf hx hpx (by rw [hxe]; exact hne)
          apply he
          have := List.find?_some hf
          simp only [List.isPrefixOf_iff_prefix] at this
          rw [hxe]; exact this
        · exact ih (x1 ++ [c]) (k + 1) (by rw [hxe]; simp) h2 (Or.inl (by simp))

/-- a line in which a name is found is recognised as a line with names, whatever follows it -/
theorem containsNames_line {names : Names} (hn : ∀ x ∈ names, Spec.Name x) (hp : Spec.NoPrefix names) {t : List Char}
    (h : Spec.NameAt names t) (w : List Char) : containsNames names ⟨t ++ w, false, false⟩ = true := by
  obtain ⟨p, q, x, r, rfl, hx, hpp, hq, hl⟩ := h
  unfold containsNames
  have hxne : x ≠ [] := by obtain ⟨c, r, rfl, -⟩ := hn x hx; simp
  have h1 : ∀ k, k + q.length < 2000 → containsLoop names (q ++ (x ++ (r ++ w))) [] k = true := by
    intro k hk
    rw [containsLoop_skip hn q k hq hk]
    exact containsLoop_name hp hx x [] _ rfl hxne (Or.inr hk)
  simp only [List.append_assoc]
  rcases hpp with rfl | ⟨p', c, rfl, hc⟩
  · exact h1 0 (by simpa using hl)
  · simp only [List.append_assoc, List.singleton_append]
    rw [List.length_append, List.length_singleton] at hl
    rcases containsLoop_blank hn ((blank_iff c).mpr hc) p' [] 0 (by omega) (u := q ++ (x ++ (r ++ w))) with h | h
    · exact h
    · rw [h]; exact h1 _ (by omega)

/-! ## whole sections -/

theorem skipEndOfLine_ok (l : List Char) : skipEndOfLine ⟨l, false, false⟩ = ⟨l.dropWhile (fun c => c = '\r' || c = '\n'), false, false⟩ := rfl

theorem lines_drop {α : Type} {P : List Char → α → Prop} {t : List Char} {l : List α} (h : Spec.Lines P t l) {w : List Char}
    (hP : ∀ t a, P t a → t ≠ []) (hw : ∀ c ∈ w.head?, c ≠ '\r' ∧ c ≠ '\n') :
    ∃ t', (t ++ w).dropWhile (fun c => c = '\r' || c = '\n') = t' ++ w ∧ Spec.Lines P t' l ∧ t'.length ≤ t.length := by
  induction h with
  | nil =>
    exact ⟨[], dropWhile_head (by intro c hc; have := hw c hc; simp [this.1, this.2]), .nil, Nat.le_refl _⟩
  | @blank b t l hb hl ih =>
    induction b with
    | nil =>
      obtain ⟨t', h1, h2, h3⟩ := ih
      refine ⟨t', ?_, h2, by simp; omega⟩
      rw [List.nil_append, List.cons_append, List.dropWhile_cons_of_pos (by simp)]
      exact h1
    | cons a b ihb =>
      by_cases ha : a = '\r'
      · obtain ⟨t', h1, h2, h3⟩ := ihb (fun c hc => hb c (by simp [hc]))
        refine ⟨t', ?_, h2, by simp at *; omega⟩
        rw [List.cons_append, List.cons_append, List.dropWhile_cons_of_pos (by simp [ha])]
        exact h1
      · refine ⟨(a :: b) ++ '\n' :: t, ?_, .blank hb hl, Nat.le_refl _⟩
        apply dropWhile_head
        intro c hc
        simp at hc; subst hc
        rcases hb a (by simp) with rfl | rfl | rfl
        · decide
        · decide
        · exact absurd rfl ha
  | @line t ts a l hp hnl hr hl ih =>
    refine ⟨t ++ '\n' :: ts, ?_, .line hp hnl hr hl, Nat.le_refl _⟩
    apply dropWhile_head
    obtain ⟨c, t', rfl⟩ := List.exists_cons_of_ne_nil (hP t a hp)
    intro x hx
    simp at hx; subst hx
    simp at hr hnl
    simp [hr, Ne.symm hnl.1]

/-- what may follow a section of constraints -/
def ConstraintsEnd (w : List Char) : Prop :=
  w = [] ∨ ∃ k r, Spec.FirstLine w k r ∧ k.head? ≠ some '\r' ∧ isKeyword (trimWhitespace k) = true

theorem ConstraintsEnd.head {w : List Char} (h : ConstraintsEnd w) : ∀ c ∈ w.head?, c ≠ '\r' ∧ c ≠ '\n' := by
  rcases h with rfl | ⟨k, r, ⟨h1, h⟩, h2, h3⟩
  · simp
  · cases k with
    | nil => exact absurd h3 (by decide)
    | cons a k =>
      intro c hc
      have : c = a := by rcases h with rfl | ⟨rfl, -⟩ <;> simpa using hc.symm
      subst this
      simp at h1 h2
      exact ⟨h2, fun h => h1.1 h.symm⟩

/-- reading the lines of a section, given how each line is read -/
theorem constraintsLoop_lines {α : Type} {P : List Char → α → Prop} {R : α → Row → Prop} {equation : Bool} {names : Names}
    (hP : ∀ t a, P t a → isKeyword (trimWhitespace t) = false ∧ trimWhitespace t ≠ [] ∧ ∀ w, ∃ row,
      potentiallyNamedConstraint equation names ⟨t ++ '\n' :: w, false, false⟩ = .ok (⟨'\n' :: w, false, false⟩, row) ∧
        row ≠ [] ∧ R a row)
    {w : List Char} (hw : ConstraintsEnd w) :
    ∀ (n : Nat) {t : List Char} {l : List α}, Spec.Lines P t l → t.length ≤ n → ∀ (rows : Matrix) (fuel : Nat), n + 2 ≤ fuel →
      ∃ rows', constraintsLoop equation names fuel ⟨t ++ w, false, false⟩ rows =
        some (.ok (⟨w, w.isEmpty, w.isEmpty⟩, rows ++ rows')) ∧ List.Forall₂ R l rows' := by
  intro n
  induction n with
  | zero =>
    intro t l h hn rows fuel hf
    obtain rfl : t = [] := by simpa using hn
    have hl : l = [] := by
      generalize he : ([] : List Char) = t at h
      cases h with
      | nil => rfl
      | blank => simp at he
      | line => simp at he
    subst hl
    obtain ⟨fuel, rfl⟩ : ∃ k, fuel = k + 2 := ⟨fuel - 2, by omega⟩
    refine ⟨[], ?_, .nil⟩
    rcases hw with rfl | ⟨k, r, hk, -, hkw⟩
    · simp only [List.append_nil]
      rw [constraintsLoop]
      rfl
    · rw [constraintsLoop, List.nil_append]
      simp only [Bool.false_eq_true, if_false, peekLine_first hk, hkw, if_true, List.append_nil, firstLine_isEmpty hk]
  | succ n ih =>
    intro t l h hn rows fuel hf
    cases h with
    | nil => exact ih .nil (by simp) rows fuel (by omega)
    | @blank b t _ hb ht =>
      obtain ⟨fuel, rfl⟩ : ∃ k, fuel = k + 1 := ⟨fuel - 1, by omega⟩
      have hbn := blanks_no_newline hb
      obtain ⟨rows', h1, h2⟩ := ih ht (by simp only [List.length_append, List.length_cons] at hn; omega) rows fuel (by omega)
      refine ⟨rows', ?_, h2⟩
      rw [constraintsLoop, List.append_assoc, List.cons_append]
      simp only [Bool.false_eq_true, if_false, peekLine_line hbn, trim_blanks hb, show isKeyword [] = false from by decide,
        if_true, getLine_line hbn]
      exact h1
    | @line t ts a l hp hnl hr hl =>
      obtain ⟨fuel, rfl⟩ : ∃ k, fuel = k + 1 := ⟨fuel - 1, by omega⟩
      obtain ⟨hk, hne, hread⟩ := hP t a hp
      obtain ⟨row, hrow, hrne, hR⟩ := hread (ts ++ w)
      obtain ⟨t', hd, ht', hlen⟩ := lines_drop (w := w) hl (fun t a h h0 => (hP t a h).2.1 (by rw [h0]; rfl)) hw.head
      obtain ⟨rows', h1, h2⟩ := ih ht' (by simp only [List.length_append, List.length_cons] at hn; omega) (rows ++ [row]) fuel (by omega)
      refine ⟨row :: rows', ?_, .cons hR h2⟩
      rw [constraintsLoop, List.append_assoc, List.cons_append]
      simp only [Bool.false_eq_true, if_false, peekLine_line hnl, hk, hne, hrow, hrne]
      rw [skipWhitespace_ok _ _ (by simp), dropWhile_head (l := '\n' :: _) (by intro c hc; simp at hc; rw [← hc]; decide),
        skipEndOfLine_ok, List.dropWhile_cons_of_pos (by simp), hd, h1]
      simp

/-- the keyword of a section of constraints -/
def sectionKeyword (equation : Bool) (k : List Char) : Bool :=
  if equation then isKeywordEquations (trimWhitespace k)
  else isKeywordInequalities (trimWhitespace k) || isKeywordReducedInequalities (trimWhitespace k)

theorem ConstraintsEnd.section {w : List Char} (h : ConstraintsEnd w) : SectionEnd w := by
  rcases h with h | ⟨k, r, h1, -, h3⟩
  · exact Or.inl h
  · exact Or.inr ⟨k, r, h1, h3⟩

theorem constraints_lines {α : Type} {P : List Char → α → Prop} {R : α → Row → Prop} {equation : Bool} {names : Names}
    (hP : ∀ t a, P t a → isKeyword (trimWhitespace t) = false ∧ trimWhitespace t ≠ [] ∧ ∀ w, ∃ row,
      potentiallyNamedConstraint equation names ⟨t ++ '\n' :: w, false, false⟩ = .ok (⟨'\n' :: w, false, false⟩, row) ∧
        row ≠ [] ∧ R a row)
    {k t w : List Char} {l : List α} (h : Spec.Lines P t l) (hk : '\n' ∉ k) (hkw : sectionKeyword equation k = true)
    (hw : ConstraintsEnd w) :
    ∃ N, ∀ fuel ≥ N, ∃ s rows, constraints equation names fuel ⟨k ++ '\n' :: (t ++ w), false, false⟩ = some (.ok (s, rows)) ∧
      List.Forall₂ R l rows ∧ Spec.AfterSection w s.rest s.eof s.fail (fun k => isKeywordEnd (firstWord k)) := by
  refine ⟨t.length + 2, fun fuel hf => ?_⟩
  obtain ⟨rows, h1, h2⟩ := constraintsLoop_lines hP hw t.length h (Nat.le_refl _) [] fuel hf
  unfold constraints
  simp only [getLine_line hk, Bool.false_eq_true, if_false, Option.getD_some]
  unfold sectionKeyword at hkw
  rw [if_pos hkw, h1]
  exact ⟨_, _, rfl, h2, skipEnd_spec hw.section⟩

end Panda
