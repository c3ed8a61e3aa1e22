import Verif.Props.Main

/-! # C76, C77: the output of one enumeration as the input of the other -/

namespace Panda

/-! ## lines of the output -/

theorem textLines_line {l t : List Char} (h : '\n' ∉ l) : textLines (l ++ '\n' :: t) = l :: textLines t := by
  rw [textLines, linesFrom_append _ _ _ h]; rfl

theorem keyword_nil : isKeyword [] = false := by decide +kernel

/-- the lines of a section are no headers -/
theorem lines_keywords {α : Type} {P : List Char → α → Prop} (hP : ∀ t a, P t a → isKeyword (trimWhitespace t) = false)
    {t : List Char} {l : List α} (h : Spec.Lines P t l) (w : List Char) :
    ∀ x ∈ textLines (t ++ w), isKeyword (trimWhitespace x) = true → x ∈ textLines w := by
  induction h with
  | nil => intro x hx _; exact hx
  | @blank b t l hb _ ih =>
    intro x hx hk
    rw [List.append_assoc, List.cons_append, textLines_line (blanks_no_newline hb)] at hx
    rcases List.mem_cons.1 hx with rfl | hx
    · rw [trim_blanks hb, keyword_nil] at hk; exact absurd hk (by simp)
    · exact ih x hx hk
  | @line t ts a l hp hn _ _ ih =>
    intro x hx hk
    rw [List.append_assoc, List.cons_append, textLines_line hn] at hx
    rcases List.mem_cons.1 hx with rfl | hx
    · rw [hP _ _ hp] at hk; exact absurd hk (by simp)
    · exact ih x hx hk

theorem vertexLines_keywords {t : List Char} {l : List (List (Int × Int))} (h : Spec.VertexLines t l) (w : List Char) :
    ∀ x ∈ textLines (t ++ w), isKeyword (trimWhitespace x) = true → x ∈ textLines w := by
  induction h with
  | nil => intro x hx _; exact hx
  | @blank b t l hb _ ih =>
    intro x hx hk
    rw [List.append_assoc, List.cons_append, textLines_line (blanks_no_newline hb)] at hx
    rcases List.mem_cons.1 hx with rfl | hx
    · rw [trim_blanks hb, keyword_nil] at hk; exact absurd hk (by simp)
    · exact ih x hx hk
  | @vertex l t cs vs hp _ ih =>
    intro x hx hk
    rw [List.append_assoc, List.cons_append, textLines_line (vertexLine_trim hp).1] at hx
    rcases List.mem_cons.1 hx with rfl | hx
    · rw [(vertexLine_trim hp).2.1] at hk; exact absurd hk (by simp)
    · exact ih x hx hk

theorem lines_imp {α : Type} {P Q : List Char → α → Prop} {t : List Char} {l : List α} (h : Spec.Lines P t l)
    (hi : ∀ t, ∀ a ∈ l, P t a → Q t a) : Spec.Lines Q t l := by
  induction h with
  | nil => exact .nil
  | blank hb _ ih => exact .blank hb (ih hi)
  | line hp hn hr _ ih => exact .line (hi _ _ (by simp) hp) hn hr (ih fun t a ha => hi t a (by simp [ha]))

theorem rawLine_keyword {t : List Char} {row : List Int} (h : Spec.RawLine t row) : isKeyword (trimWhitespace t) = false := by
  obtain ⟨l, s, n, b, xs, z, -, -, h3, h4, rfl, -⟩ := h
  rw [show l ++ (s ++ (n ++ b)) = (l ++ s) ++ (n ++ b) by simp]
  exact (number_line_trim h3 h4).1

/-- a header line is found in the text by its word -/
theorem header_of_word {ws : List String} (hs : ∀ k ∈ ws, isKeyword k.toList = true ∧ (∀ c ∈ k.toList.head?, isBlank c = false) ∧
    (∀ c ∈ k.toList.getLast?, isBlank c = false) ∧ k.toList ≠ []) {text : List Char} (h : Spec.HasWordLine ws text) :
    ∃ l ∈ textLines text, ∃ k ∈ ws, trimWhitespace l = k.toList ∧ isKeyword (trimWhitespace l) = true := by
  obtain ⟨l, b, b', k, hk, hl, hb, hb', rfl⟩ := h
  obtain ⟨h1, h2, h3, h4⟩ := hs k hk
  have e : trimWhitespace (b ++ (k.toList ++ b')) = k.toList := (trim_eq_iff h2 h3 h4).2 ⟨b, b', hb, hb', rfl⟩
  refine ⟨_, mem_of_lineOf hl ?_, k, hk, e, by rw [e]; exact h1⟩
  intro h0
  rw [h0] at e
  exact h4 e.symm

/-- the rows of integers printed without names are a file with inequalities and equations -/
theorem printedSystem_file {E F : Matrix} {out : List Char} (hE : ∀ r ∈ E, r ≠ [] ∧ ∀ x ∈ r, Spec.IsInt x)
    (hF : ∀ r ∈ F, r ≠ [] ∧ ∀ x ∈ r, Spec.IsInt x)
    (h : Spec.PrintedSystem [] out (E.map .raw) (F.map .raw)) :
    Spec.InequalityFile {} out { inequalities := F.map .raw, equations := E.map .raw } ∧ Spec.EarlyHeader 20 out ∧
      Spec.HasWordLine Spec.inequalityWords out ∧ ¬ Spec.HasWordLine Spec.hullWords out := by
  obtain ⟨te, ti, h1, h2, h3⟩ := h
  have n1 : '\n' ∉ "Equations:".toList := by decide +kernel
  have n2 : '\n' ∉ "Inequalities:".toList := by decide +kernel
  have hd1 : Spec.Header Spec.equationWords "Equations:".toList :=
    ⟨[], [], "Equations:", by decide +kernel, blanks_nil, blanks_nil, by simp⟩
  have hd2 : Spec.Header Spec.allInequalityWords "Inequalities:".toList :=
    ⟨[], [], "Inequalities:", by decide +kernel, blanks_nil, blanks_nil, by simp⟩
  have w1 : Spec.Header Spec.headerWords "Equations:".toList :=
    ⟨[], [], "Equations:", by decide +kernel, blanks_nil, blanks_nil, by simp⟩
  have w2 : Spec.Header Spec.headerWords "Inequalities:".toList :=
    ⟨[], [], "Inequalities:", by decide +kernel, blanks_nil, blanks_nil, by simp⟩
  have l1 : Spec.Lines (Spec.ConstraintText true []) te (E.map .raw) := by
    refine lines_imp h1 fun t a ha hp => ?_
    obtain ⟨r, hr, rfl⟩ := List.mem_map.1 ha
    exact ⟨rfl, hp.2, (hE r hr).2⟩
  have l2 : Spec.Lines (Spec.ConstraintText false []) ti (F.map .raw) := by
    refine lines_imp h2 fun t a ha hp => ?_
    obtain ⟨r, hr, rfl⟩ := List.mem_map.1 ha
    exact ⟨rfl, hp.2, (hF r hr).2⟩
  have hkw : ∀ eq, ∀ t a, Spec.PrintedConstraint eq [] t a → isKeyword (trimWhitespace t) = false := by
    intro eq t a ha
    cases a with
    | named terms rel rhs => exact absurd rfl ha.1
    | unnamed xs rel rhs => exact ha.elim
    | raw row => exact rawLine_keyword ha.2
  have e0 : "Inequalities:\n".toList = "Inequalities:".toList ++ ['\n'] := by decide +kernel
  have e1 : "Equations:\n".toList = "Equations:".toList ++ ['\n'] := by decide +kernel
  have e2 : "\n".toList = ['\n'] := by decide +kernel
  have part : Spec.InequalityFile { equations := E.map .raw } ("Inequalities:".toList ++ '\n' :: (ti ++ []))
      { inequalities := F.map .raw, equations := E.map .raw } := .inequalities n2 hd2 l2 (Or.inl rfl) .nil
  have kw : ∀ x ∈ textLines ("Inequalities:".toList ++ '\n' :: ti), isKeyword (trimWhitespace x) = true → x = "Inequalities:".toList := by
    intro x hx hk
    rw [textLines_line n2] at hx
    rcases List.mem_cons.1 hx with rfl | hx
    · rfl
    · have := lines_keywords (hkw false) h2 [] x (by rw [List.append_nil]; exact hx) hk
      exact absurd this (by rw [show textLines [] = [] from rfl]; simp)
  have hblank : Spec.Lines (Spec.ConstraintText true []) ("\n".toList) [] := by
    have := Spec.Lines.blank (P := Spec.ConstraintText true []) blanks_nil .nil
    exact this
  have hblank' : Spec.Lines (Spec.PrintedConstraint true []) ("\n".toList) [] := by
    have := Spec.Lines.blank (P := Spec.PrintedConstraint true []) blanks_nil .nil
    exact this
  have all : (out = "Inequalities:".toList ++ '\n' :: ti ∧ E = []) ∨
      (out = "Equations:".toList ++ '\n' :: ((te ++ "\n".toList) ++ ("Inequalities:".toList ++ '\n' :: ti))) := by
    by_cases h0 : E = []
    · left
      rw [h3, if_pos (by simp [h0]), e0]
      exact ⟨by simp, h0⟩
    · right
      rw [h3, if_neg (by simpa using h0), e0, e1]
      simp only [List.append_assoc, List.singleton_append, List.cons_append, List.nil_append]
  have kw2 : ∀ x ∈ textLines out, isKeyword (trimWhitespace x) = true → x = "Inequalities:".toList ∨ x = "Equations:".toList := by
    intro x hx hk
    rcases all with ⟨rfl, -⟩ | rfl
    · exact Or.inl (kw x hx hk)
    · rw [textLines_line n1] at hx
      rcases List.mem_cons.1 hx with rfl | hx
      · exact Or.inr rfl
      · have := lines_keywords (hkw true) (lines_append h1 hblank') _ x hx hk
        exact Or.inl (kw x this hk)
  have mem : "Inequalities:".toList ∈ textLines out := by
    have hline : Spec.LineOf ("Inequalities:".toList ++ '\n' :: ti) "Inequalities:".toList := .first n2
    rcases all with ⟨rfl, -⟩ | rfl
    · exact mem_of_lineOf hline (by decide +kernel)
    · rw [textLines_line n1]
      refine List.mem_cons_of_mem _ ?_
      have : ∀ {t : List Char} {l : List Spec.Constraint}, Spec.Lines (Spec.PrintedConstraint true []) t l →
          "Inequalities:".toList ∈ textLines (t ++ ("Inequalities:".toList ++ '\n' :: ti)) := by
        intro t l h
        induction h with
        | nil => rw [List.nil_append, textLines_line n2]; simp
        | blank hb _ ih =>
          rw [List.append_assoc, List.cons_append, textLines_line (blanks_no_newline hb)]; exact List.mem_cons_of_mem _ ih
        | line _ hn _ _ ih =>
          rw [List.append_assoc, List.cons_append, textLines_line hn]; exact List.mem_cons_of_mem _ ih
      exact this (lines_append h1 hblank')
  refine ⟨?_, ?_, ?_, ?_⟩
  · rcases all with ⟨rfl, rfl⟩ | rfl
    · simpa using part
    · refine .equations n1 hd1 (cs := E.map .raw) ?_ (Or.inr ⟨_, ti, ⟨n2, Or.inl rfl⟩, by decide +kernel, w2⟩) (by simpa using part)
      simpa using lines_append l1 hblank
  · rcases all with ⟨rfl, -⟩ | rfl
    · exact .here ⟨n2, Or.inl rfl⟩ w2
    · exact .here ⟨n1, Or.inl rfl⟩ w1
  · refine ⟨"Inequalities:".toList, [], [], "Inequalities:", by decide +kernel, lineOf_of_mem _ _ _ le_rfl mem, blanks_nil, blanks_nil, by simp⟩
  · intro hw
    obtain ⟨l, hl, k, hk, e, hkk⟩ := header_of_word (by decide +kernel) hw
    have hnot : "Inequalities:".toList ∉ Spec.hullWords.map String.toList ∧ "Equations:".toList ∉ Spec.hullWords.map String.toList := by
      decide +kernel
    have hkm : trimWhitespace l ∈ Spec.hullWords.map String.toList := by rw [e]; exact List.mem_map_of_mem hk
    rcases kw2 l hl hkk with rfl | rfl
    · exact hnot.1 (by rw [show trimWhitespace "Inequalities:".toList = "Inequalities:".toList by decide +kernel] at hkm; exact hkm)
    · exact hnot.2 (by rw [show trimWhitespace "Equations:".toList = "Equations:".toList by decide +kernel] at hkm; exact hkm)

/-- printed points and rays are a file with points and rays -/
theorem printedPoints_file {tp tr out : List Char} {points rays : List (List (Int × Int))} (hp : Spec.PointLines tp points)
    (hr : Spec.PointLines tr rays) (hne : points ≠ [])
    (h : out = (if points = [] then [] else "Vertices:\n".toList ++ tp) ++ (if rays = [] then [] else "Rays:\n".toList ++ tr)) :
    Spec.VertexFile {} out { points := points, rays := rays } ∧ Spec.EarlyHeader 20 out ∧ ¬ Spec.HasWordLine Spec.inequalityWords out := by
  have n1 : '\n' ∉ "Vertices:".toList := by decide +kernel
  have n2 : '\n' ∉ "Rays:".toList := by decide +kernel
  have hd1 : Spec.Header Spec.pointWords "Vertices:".toList :=
    ⟨[], [], "Vertices:", by decide +kernel, blanks_nil, blanks_nil, by simp⟩
  have hd2 : Spec.Header Spec.rayWords "Rays:".toList :=
    ⟨[], [], "Rays:", by decide +kernel, blanks_nil, blanks_nil, by simp⟩
  have w1 : Spec.Header Spec.headerWords "Vertices:".toList :=
    ⟨[], [], "Vertices:", by decide +kernel, blanks_nil, blanks_nil, by simp⟩
  have w2 : Spec.Header Spec.headerWords "Rays:".toList :=
    ⟨[], [], "Rays:", by decide +kernel, blanks_nil, blanks_nil, by simp⟩
  have e0 : "Vertices:\n".toList = "Vertices:".toList ++ ['\n'] := by decide +kernel
  have e1 : "Rays:\n".toList = "Rays:".toList ++ ['\n'] := by decide +kernel
  have all : (out = "Vertices:".toList ++ '\n' :: (tp ++ []) ∧ rays = []) ∨
      (out = "Vertices:".toList ++ '\n' :: (tp ++ ("Rays:".toList ++ '\n' :: (tr ++ [])))) := by
    rw [h, if_neg hne, e0, e1]
    by_cases h0 : rays = []
    · left; rw [if_pos h0]; exact ⟨by simp, h0⟩
    · right; rw [if_neg h0]
      simp only [List.append_assoc, List.cons_append, List.nil_append, List.append_nil]
  have kw : ∀ x ∈ textLines out, isKeyword (trimWhitespace x) = true → x = "Vertices:".toList ∨ x = "Rays:".toList := by
    intro x hx hk
    rcases all with ⟨rfl, -⟩ | rfl
    · rw [textLines_line n1] at hx
      rcases List.mem_cons.1 hx with rfl | hx
      · exact Or.inl rfl
      · have := vertexLines_keywords hp.1 [] x hx hk
        exact absurd this (by rw [show textLines [] = [] from rfl]; simp)
    · rw [textLines_line n1] at hx
      rcases List.mem_cons.1 hx with rfl | hx
      · exact Or.inl rfl
      · have := vertexLines_keywords hp.1 _ x hx hk
        rw [textLines_line n2] at this
        rcases List.mem_cons.1 this with rfl | hx
        · exact Or.inr rfl
        · have := vertexLines_keywords hr.1 [] x hx hk
          exact absurd this (by rw [show textLines [] = [] from rfl]; simp)
  refine ⟨?_, ?_, ?_⟩
  · rcases all with ⟨rfl, rfl⟩ | rfl
    · exact .points n1 hd1 hp (Or.inl rfl) .nil
    · exact .points n1 hd1 hp (Or.inr ⟨_, tr ++ [], ⟨n2, Or.inl rfl⟩, by decide +kernel, w2⟩) (.rays n2 hd2 hr (Or.inl rfl) .nil)
  · rcases all with ⟨rfl, -⟩ | rfl <;> exact .here ⟨n1, Or.inl rfl⟩ w1
  · intro hw
    obtain ⟨l, hl, k, hk, e, hkk⟩ := header_of_word (by decide +kernel) hw
    have hnot : "Vertices:".toList ∉ Spec.inequalityWords.map String.toList ∧ "Rays:".toList ∉ Spec.inequalityWords.map String.toList := by
      decide +kernel
    have hkm : trimWhitespace l ∈ Spec.inequalityWords.map String.toList := by rw [e]; exact List.mem_map_of_mem hk
    rcases kw l hl hkk with rfl | rfl
    · exact hnot.1 (by rw [show trimWhitespace "Vertices:".toList = "Vertices:".toList by decide +kernel] at hkm; exact hkm)
    · exact hnot.2 (by rw [show trimWhitespace "Rays:".toList = "Rays:".toList by decide +kernel] at hkm; exact hkm)

/-! ## the two runs, with the ranges of the printed numbers -/

/-- the system printed by facet enumeration for a file without names, as in C58, and its entries are in the range of `int` -/
theorem facets_run {ad : Bool → Option ProgramResult} {help : Option ProgramResult} {args : List Arg} {f text : List Char}
    {files : Files} {order : InputOrder} {c : Spec.VertexContent} {n : Nat}
    (ha : Spec.PlainCommand args f) (hf : files f = some text) (ho : getInputOrder args = .ok order)
    (hd : Spec.UsesDD args) (hi : Spec.UsesChecked args ∨ Spec.UsesInt args) (hh : Spec.NoHelp args)
    (hw : ¬ Spec.HasWordLine Spec.inequalityWords text)
    (h20 : Spec.EarlyHeader 20 text) (h : Spec.VertexFile {} text c) (hc : c.Consistent n) (hp : c.points ≠ []) (hm : c.maps = [])
    (hn : c.names = []) :
    ∃ E F N, (∀ r ∈ E ++ F, r.length = n + 1) ∧
      (∀ p : Fin n → ℚ, Spec.InHull n c.points c.rays p ↔ Spec.Satisfies n E F p) ∧
      ∀ fuel ≥ N, ∀ out, program ad help fuel files args = some (.finished 0 out) →
        Spec.PrintedSystem [] out (E.map .raw) (F.map .raw) ∧ ∀ r ∈ E ++ F, ∀ x ∈ r, Spec.IsInt x := by
  obtain ⟨V, maps, h1, h2, h3, h4, -, h5, h6, N1, h7⟩ := C57_hull ha hf ho h20 h hc
  have hmaps : maps = [] := by rw [hm] at h1; exact List.forall₂_nil_left_iff.1 h1
  subst hmaps
  obtain ⟨E, F, N2, g1, g2, g3, g4, g5, g6⟩ := facetDD_exact (h6 hp)
  obtain ⟨ty, t1, t2, t3, t4⟩ := uses_type hi
  refine ⟨E, F, max N1 N2, ?_, fun p => by rw [← h5 p, g5 p], fun fuel hfuel out hout => ?_⟩
  · intro r hr
    rcases List.mem_append.1 hr with hr | hr
    · exact g2 r hr
    · exact g3 r hr
  have e1 : program ad help fuel files args = ProgramResult.ofRun (facetsDD fuel files args) := by
    unfold program
    rw [detect_facets ha.1 hf hh hw]
    simp only [enumeration, usesDD_method hd, if_true]
  have e2 : facetsDD fuel files args = Run.bind (Typed.facetEnumerationDD (selectArith ty) fuel V []) fun o =>
      .lift (printFacetOutput o c.names) := by
    unfold facetsDD
    rw [t1]
    simp only [Run.lift, Run.bind]
    rw [h7 fuel (le_trans (le_max_left _ _) hfuel)]
  rw [e1, e2] at hout
  have hsim := facetDD_selected (V := V) h3 t2 fuel
  rw [g1 fuel (le_trans (le_max_right _ _) hfuel)] at hsim
  rcases hsim with ⟨h8, h9⟩ | ⟨hs, h8⟩ | ⟨hs, h8⟩
  · rw [h8] at hout
    simp only [Run.bind, Run.lift] at hout
    obtain ⟨i1, i2⟩ := h9 _ rfl
    rcases printFacetOutput_cases ⟨E, false, F⟩ c.names with ⟨t, h9⟩ | ⟨h0, h9⟩
    · rw [h9] at hout
      simp only [ProgramResult.ofRun, Option.some.injEq, ProgramResult.finished.injEq, true_and] at hout
      subst hout
      refine ⟨?_, ?_⟩
      · have := facetOutput_printed (o := ⟨E, false, F⟩) (Or.inl hn) (fun r hr h0 => by have := g2 r hr; rw [h0] at this; simp at this)
          (fun r hr h0 => by have := g3 r hr; rw [h0] at this; simp at this) rfl h9
        have e : ∀ eq, constraintOf eq [] = Spec.Constraint.raw := fun eq => funext fun r => by simp [constraintOf]
        rw [hn, e, e] at this
        exact this
      · intro r hr
        rcases List.mem_append.1 hr with hr | hr
        · exact i1 r hr
        · exact i2 r hr
    · rw [h9] at hout
      simp [ProgramResult.ofRun] at hout
  · rw [h8] at hout
    simp [Run.bind, ProgramResult.ofRun] at hout
  · rw [h8] at hout
    simp [Run.bind, ProgramResult.ofRun] at hout

/-- the points printed for rows are those of the rows, and the text can be read -/
theorem printVertexLines_read {n : Nat} (hn : 0 < n) : ∀ {m : Matrix} {t : List Char}, (∀ v ∈ m, v.length = n + 1 ∧ 0 < v.getD n 0) →
    (∀ v ∈ m, ∀ x ∈ v, Spec.IsInt x) → printVertexLines m = .ok t →
    ∃ points, Spec.PointLines t points ∧ (∀ q ∈ points, q.length = n) ∧ List.Forall₂ Spec.PointRow points m
  | [], t, _, _, h => by
    simp only [printVertexLines, Outcome.ok.injEq] at h
    subst h
    exact ⟨[], ⟨.nil, by simp⟩, by simp, .nil⟩
  | v :: m, t, hl, hi, h => by
    rw [printVertexLines] at h
    rcases printFractional_printed hn (hl v (by simp)).1 (hl v (by simp)).2 (hi v (by simp)) with ⟨t1, cs0, k0, -, -, -⟩ | ⟨-, k0⟩
    swap
    · rw [k0] at h; simp [Outcome.bind] at h
    rw [k0] at h
    simp only [Outcome.bind] at h
    match e' : printVertexLines m, h with
    | .thrown, h => simp at h
    | .ub, h => simp at h
    | .ok ts, h =>
      simp only [Outcome.ok.injEq] at h
      subst h
      obtain ⟨points, k1, k2, k3⟩ := printVertexLines_read hn (fun w hw => hl w (by simp [hw])) (fun w hw => hi w (by simp [hw])) e'
      obtain ⟨hlen, hpos⟩ := hl v (by simp)
      have hint := hi v (by simp)
      obtain ⟨xs, b, rfl⟩ : ∃ xs b, v = xs ++ [b] := by
        have hne : v ≠ [] := by intro h0; rw [h0] at hlen; simp at hlen
        exact ⟨v.dropLast, v.getLast hne, (List.dropLast_append_getLast hne).symm⟩
      have hxs : xs.length = n := by simpa using hlen
      have hb : (xs ++ [b]).getD n 0 = b := by rw [List.getD_eq_getElem?_getD, ← hxs]; simp
      rw [hb] at hpos
      have hbl : (xs ++ [b]).getLastD 0 = b := by simp
      have hbm : b ≠ intMin := by unfold intMin; omega
      have e : printFractional (xs ++ [b]) = printQuotients false b xs := by
        unfold printFractional
        simp only [hbl, List.dropLast_concat]
        rw [if_neg hbm, if_neg (show ¬ b < 0 by omega), one_mul, decide_eq_false (show ¬ b < 0 by omega)]
      rw [e] at k0
      have hmin : ∀ x ∈ xs, x ≠ intMin := by
        rcases printQuotients_cases false b xs with ⟨-, h⟩ | h
        · exact h
        · rw [h] at k0; simp at k0
      obtain ⟨t', cs, h1, h2, h3⟩ := printQuotients_spec (den := b) (s := 1) (neg := false) hpos hbm rfl xs
        (by intro h0; rw [h0] at hxs; simp at hxs; omega) hmin
      rw [h1] at k0
      simp only [Outcome.ok.injEq] at k0
      subst k0
      have hlen : xs.length = cs.length := h3.length_eq
      have hfit := fits_of_quotients hpos (hint b (by simp)) (Or.inl rfl) (fun x hx => ⟨hint x (by simp [hx]), hmin x hx⟩) h3
      refine ⟨cs :: points, ⟨.vertex ⟨[], t', .none blanks_nil, h2, rfl⟩ k1.1, ?_⟩, ?_, .cons ⟨by simp [hlen], ?_, ?_⟩ k3⟩
      · intro q hq
        rcases List.mem_cons.1 hq with rfl | hq
        · exact hfit
        · exact k1.2 q hq
      · intro q hq
        rcases List.mem_cons.1 hq with rfl | hq
        · omega
        · exact k2 q hq
      · rw [show cs.length = n by omega, hb]; exact hpos
      · intro i hi
        rw [show cs.length = n by omega, hb]
        rw [List.forall₂_iff_get] at h3
        obtain ⟨q1, -, q3⟩ := h3.2 i (by omega) hi
        simp only [List.get_eq_getElem] at q1 q3
        rw [List.getD_eq_getElem?_getD, List.getElem?_append_left (by omega), List.getElem?_eq_getElem (by omega), Option.getD_some]
        rw [div_eq_div_iff (by exact_mod_cast hpos.ne') (by exact_mod_cast q1.ne')]
        rw [one_mul] at q3
        exact_mod_cast q3.symm

theorem printRayLines_read {n : Nat} (hn : 0 < n) : ∀ {m : Matrix}, (∀ r ∈ m, r.length = n + 1 ∧ r.getD n 0 = 0) →
    (∀ r ∈ m, ∀ x ∈ r.dropLast, Spec.IsInt x) →
    ∃ rays, Spec.PointLines (printRayLines (m.map List.dropLast)) rays ∧ (∀ q ∈ rays, q.length = n) ∧ List.Forall₂ Spec.RayRow rays m
  | [], _, _ => ⟨[], ⟨.nil, by simp⟩, by simp, .nil⟩
  | r :: m, h, hi => by
    obtain ⟨rays, h1, h2, h3⟩ := printRayLines_read hn (m := m) (fun w hw => h w (by simp [hw])) (fun w hw => hi w (by simp [hw]))
    obtain ⟨hl, h0⟩ := h r (by simp)
    have hint := hi r (by simp)
    obtain ⟨xs, b, rfl⟩ : ∃ xs b, r = xs ++ [b] := by
      have hne : r ≠ [] := by intro h0; rw [h0] at hl; simp at hl
      exact ⟨r.dropLast, r.getLast hne, (List.dropLast_append_getLast hne).symm⟩
    have hxs : xs.length = n := by simpa using hl
    rw [List.dropLast_concat] at hint
    refine ⟨xs.map (fun x => (x, 1)) :: rays, ⟨?_, ?_⟩, ?_, .cons ⟨by simp, ?_, 1, by norm_num, ?_⟩ h3⟩
    · have := Spec.VertexLines.vertex (printRow_line (r := xs) (by rintro rfl; simp at hxs; omega)) h1.1
      simpa [printRayLines] using this
    · intro q hq
      rcases List.mem_cons.1 hq with rfl | hq
      · exact fits_ones hint
      · exact h1.2 q hq
    · intro q hq
      rcases List.mem_cons.1 hq with rfl | hq
      · simpa using hxs
      · exact h2 q hq
    · rw [List.length_map, hxs]; exact h0
    · intro i hi
      have hi' : i < xs.length := by simpa using hi
      rw [List.getD_eq_getElem?_getD, List.getElem?_append_left hi', List.getElem?_eq_getElem hi']
      simp

/-- the points and rays printed by vertex enumeration, as in C61, and the text can be read -/
theorem vertices_run {ad : Bool → Option ProgramResult} {help : Option ProgramResult} {args : List Arg} {f text : List Char}
    {files : Files} {order : InputOrder} {c : Spec.InequalityContent} {n : Nat}
    (ha : Spec.PlainCommand args f) (hf : files f = some text) (ho : getInputOrder args = .ok order)
    (hd : Spec.UsesDD args) (hi : Spec.UsesChecked args ∨ Spec.UsesInt args) (hh : Spec.NoHelp args)
    (hw : Spec.HasWordLine Spec.inequalityWords text) (hw' : ¬ Spec.HasWordLine Spec.hullWords text)
    (h20 : Spec.EarlyHeader 20 text) (h : Spec.InequalityFile {} text c) (hc : c.Consistent n) (hn : 0 < n) (hm : c.maps = [])
    (hsat : ∃ p : Fin n → ℚ, c.Solution p)
    (hline : ¬ ∃ p q : Fin n → ℚ, q ≠ 0 ∧ ∀ t : ℚ, c.Solution (p + t • q)) :
    ∃ N, ∀ fuel ≥ N, ∀ out, program ad help fuel files args = some (.finished 0 out) →
      ∃ tp tr points rays, Spec.PointLines tp points ∧ Spec.PointLines tr rays ∧
        out = (if points = [] then [] else "Vertices:\n".toList ++ tp) ++ (if rays = [] then [] else "Rays:\n".toList ++ tr) ∧
        (∀ q ∈ points ++ rays, q.length = n) ∧ ∀ p : Fin n → ℚ, c.Solution p ↔ Spec.InHull n points rays p := by
  obtain ⟨A, maps, h1, h2, h3, h4, h5, N1, h6⟩ := C57_inequalities ha hf ho h20 h hc
  have hmaps : maps = [] := by rw [hm] at h5; exact List.forall₂_nil_left_iff.1 h5
  subst hmaps
  have h4 : ∀ p : Fin n → ℚ, Spec.Solves n A p ↔ c.Solution p := h4
  obtain ⟨P, R, N2, g1, g2, g3, g4, g5, g6, g7, g8⟩ := vertexDD_exact h1 h3 (by simpa only [h4] using hsat)
    (by unfold Spec.HasLine; simpa only [h4] using hline)
  obtain ⟨ty, t1, t2, t3, t4⟩ := uses_type hi
  refine ⟨max N1 N2, fun fuel hfuel out hout => ?_⟩
  have e1 : program ad help fuel files args = ProgramResult.ofRun (verticesDD fuel files args) := by
    unfold program
    rw [detect_vertices ha.1 hf hh hw hw']
    simp [enumeration, usesDD_method hd]
  have e2 : verticesDD fuel files args = Run.bind (Typed.vertexEnumerationDD (selectArith ty) fuel A []) fun o =>
      .lift (printVertexOutput o) := by
    unfold verticesDD
    rw [t1]
    simp only [Run.lift, Run.bind]
    rw [h6 fuel (le_trans (le_max_left _ _) hfuel)]
  rw [e1, e2] at hout
  have hsim := vertexDD_selected (I := A) h2 t2 fuel
  rw [g1 fuel (le_trans (le_max_right _ _) hfuel)] at hsim
  rcases hsim with ⟨h8, h9⟩ | ⟨hs, h8⟩ | ⟨hs, h8⟩
  · rw [h8] at hout
    simp only [Run.bind, Run.lift] at hout
    unfold printVertexOutput at hout
    obtain ⟨i1, i2⟩ := h9 _ rfl
    match e : printVertexLines P, hout with
    | .thrown, hout => simp [Outcome.bind, ProgramResult.ofRun] at hout
    | .ub, hout => simp [Outcome.bind, ProgramResult.ofRun] at hout
    | .ok t, hout =>
      obtain ⟨points, k2, k3, k4⟩ := printVertexLines_read hn g2 i1 e
      obtain ⟨rays, l1, l2, l3⟩ := printRayLines_read hn g3 (fun r hr => i2 _ (List.mem_map_of_mem hr))
      simp only [Outcome.bind, ProgramResult.ofRun, Option.some.injEq, ProgramResult.finished.injEq, true_and] at hout
      subst hout
      refine ⟨t, _, points, rays, k2, l1, ?_, ?_, fun p => ?_⟩
      · have q1 : P = [] ↔ points = [] := by
          rw [← List.length_eq_zero_iff, ← List.length_eq_zero_iff, k4.length_eq]
        have q2 : R = [] ↔ rays = [] := by
          rw [← List.length_eq_zero_iff, ← List.length_eq_zero_iff, l3.length_eq]
        by_cases b1 : points = [] <;> by_cases b2 : rays = [] <;> simp [q1, q2, b1, b2]
      · intro q hq
        rcases List.mem_append.1 hq with hq | hq
        · exact k3 q hq
        · exact l2 q hq
      · rw [← h4 p, g6 p, inPolyhedron_hull k4 l3 k3 l2]
  · rw [h8] at hout
    simp [Run.bind, ProgramResult.ofRun] at hout
  · rw [h8] at hout
    simp [Run.bind, ProgramResult.ofRun] at hout

/-! ## the round trips -/

/-- **C76** From points to inequalities and back: the system printed by facet enumeration for a file of points (and rays) without
names is a valid input, and vertex enumeration applied to it prints points and rays whose hull is the hull of the original
file, none of them redundant.  The hull must contain two points and no line; an equation with the entry -2^31 cannot be
read back without overflow. -/
theorem C76_points {ad ad' : Bool → Option ProgramResult} {help help' : Option ProgramResult} {args args' : List Arg}
    {f f' text : List Char} {files files' : Files} {order order' : InputOrder} {c : Spec.VertexContent} {n : Nat}
    (ha : Spec.PlainCommand args f) (hf : files f = some text) (ho : getInputOrder args = .ok order)
    (hd : Spec.UsesDD args) (hi : Spec.UsesChecked args ∨ Spec.UsesInt args) (hh : Spec.NoHelp args)
    (hw : ¬ Spec.HasWordLine Spec.inequalityWords text)
    (h20 : Spec.EarlyHeader 20 text) (h : Spec.VertexFile {} text c) (hc : c.Consistent n) (hp : c.points ≠ []) (hm : c.maps = [])
    (hn : c.names = []) (h0 : 0 < n)
    (htwo : ∃ p q : Fin n → ℚ, p ≠ q ∧ Spec.InHull n c.points c.rays p ∧ Spec.InHull n c.points c.rays q)
    (hline : ¬ ∃ p q : Fin n → ℚ, q ≠ 0 ∧ ∀ t : ℚ, Spec.InHull n c.points c.rays (p + t • q))
    (ha' : Spec.PlainCommand args' f') (ho' : getInputOrder args' = .ok order') (hd' : Spec.UsesDD args')
    (hi' : Spec.UsesChecked args' ∨ Spec.UsesInt args') (hh' : Spec.NoHelp args') :
    ∃ N, ∀ fuel ≥ N, ∀ out, program ad help fuel files args = some (.finished 0 out) → files' f' = some out →
      (∀ eqs ineqs, Spec.PrintedSystem [] out eqs ineqs → ∀ row, .raw row ∈ eqs → (-2147483648 : Int) ∉ row) →
      ∃ N', ∀ fuel' ≥ N', ∃ r, program ad' help' fuel' files' args' = some r ∧
        ((r = .failed ∧ Spec.UsesChecked args') ∨
          (r = .undefined ∧ (¬ Spec.UsesChecked args' ∨ ∃ v : List Int, v.length = n + 1 ∧ Spec.PrimitiveRow v ∧ 0 < v.getD n 0 ∧
            (-2147483648 : Int) ∈ v ∧ Spec.InHull n c.points c.rays (Spec.coord n v))) ∨
          ∃ (out' : List Char) (points rays : List (List (Int × Int))), r = .finished 0 out' ∧ Spec.PrintedPoints out' points rays ∧
            (∀ q ∈ points ++ rays, q.length = n) ∧
            (∀ p : Fin n → ℚ, Spec.InHull n c.points c.rays p ↔ Spec.InHull n points rays p) ∧
            (∀ i (hi : i < points.length), ¬ Spec.InHull n (points.eraseIdx i) rays (Spec.point n points[i])) ∧
            ∀ i (hi : i < rays.length), ¬ Spec.InRays n (rays.eraseIdx i) (Spec.point n rays[i])) := by
  obtain ⟨E, F, N, g1, g2, g3⟩ := facets_run (ad := ad) (help := help) ha hf ho hd hi hh hw h20 h hc hp hm hn
  refine ⟨N, fun fuel hfuel out hout hf' hmin => ?_⟩
  obtain ⟨k1, k2⟩ := g3 fuel hfuel out hout
  have hne : ∀ r ∈ E ++ F, r ≠ [] := fun r hr e => by have := g1 r hr; rw [e] at this; simp at this
  obtain ⟨m1, m2, m3, m4⟩ := printedSystem_file (fun r hr => ⟨hne r (by simp [hr]), k2 r (by simp [hr])⟩)
    (fun r hr => ⟨hne r (by simp [hr]), k2 r (by simp [hr])⟩) k1
  have hsol : ∀ p : Fin n → ℚ, Spec.InequalityContent.Solution { inequalities := F.map .raw, equations := E.map .raw } p ↔
      Spec.InHull n c.points c.rays p := by
    intro p
    rw [g2 p]
    unfold Spec.InequalityContent.Solution Spec.Satisfies
    simp only [List.mem_map, forall_exists_index, and_imp, forall_apply_eq_imp_iff₂, Spec.Constraint.HoldsAt]
    simp only [Bool.false_eq_true, if_false, if_true]
    exact and_comm
  obtain ⟨p, q, hpq, hp1, hq1⟩ := htwo
  have hF : F ≠ [] := by
    rintro rfl
    refine hline ⟨p, q - p, sub_ne_zero.2 (Ne.symm hpq), fun t => ?_⟩
    rw [g2] at hp1 hq1 ⊢
    refine ⟨fun e he => ?_, by simp⟩
    have e1 := hp1.1 e he
    have e2 := hq1.1 e he
    have : Spec.value n e (p + t • (q - p)) = Spec.value n e p + t * (Spec.value n e q - Spec.value n e p) := by
      unfold Spec.value
      rw [show ∀ a b x : ℚ, a + x + t * (b + x - (a + x)) = a + t * (b - a) + x from fun a b x => by ring]
      rw [← Finset.sum_sub_distrib, Finset.mul_sum, ← Finset.sum_add_distrib]
      congr 1
      refine Finset.sum_congr rfl fun i _ => ?_
      simp only [Pi.add_apply, Pi.smul_apply, Pi.sub_apply, smul_eq_mul]
      ring
    rw [this, e1, e2]; ring
  have hcons : Spec.InequalityContent.Consistent { inequalities := F.map .raw, equations := E.map .raw } n := by
    refine ⟨by simpa using hF, ?_, ?_, by simp, by simp, ?_⟩
    · intro a ha
      obtain ⟨r, hr, rfl⟩ := List.mem_map.1 ha
      exact g1 r (by simp [hr])
    · intro a ha
      obtain ⟨r, hr, rfl⟩ := List.mem_map.1 ha
      exact g1 r (by simp [hr])
    · intro row hrow
      exact hmin _ _ k1 row hrow
  obtain ⟨N', hN'⟩ := C61_vertices (ad := ad') (help := help') ha' hf' ho' hd' hi' hh' m3 m4 m2 m1 hcons h0 rfl
    ⟨p, (hsol p).2 hp1⟩ (by simpa only [hsol] using hline)
  simp only [hsol] at hN'
  exact ⟨N', hN'⟩

/-- **C77** From inequalities to points and back: the points and rays printed by vertex enumeration are a valid input, and facet
enumeration applied to it prints a system with the same solutions as the original file, none of its inequalities redundant. The
solution set must be non-empty and contain no line. -/
theorem C77_inequalities {ad ad' : Bool → Option ProgramResult} {help help' : Option ProgramResult} {args args' : List Arg}
    {f f' text : List Char} {files files' : Files} {order order' : InputOrder} {c : Spec.InequalityContent} {n : Nat}
    (ha : Spec.PlainCommand args f) (hf : files f = some text) (ho : getInputOrder args = .ok order)
    (hd : Spec.UsesDD args) (hi : Spec.UsesChecked args ∨ Spec.UsesInt args) (hh : Spec.NoHelp args)
    (hw : Spec.HasWordLine Spec.inequalityWords text) (hw' : ¬ Spec.HasWordLine Spec.hullWords text)
    (h20 : Spec.EarlyHeader 20 text) (h : Spec.InequalityFile {} text c) (hc : c.Consistent n) (hn : 0 < n) (hm : c.maps = [])
    (hsat : ∃ p : Fin n → ℚ, c.Solution p)
    (hline : ¬ ∃ p q : Fin n → ℚ, q ≠ 0 ∧ ∀ t : ℚ, c.Solution (p + t • q))
    (ha' : Spec.PlainCommand args' f') (ho' : getInputOrder args' = .ok order') (hd' : Spec.UsesDD args')
    (hi' : Spec.UsesChecked args' ∨ Spec.UsesInt args') (hh' : Spec.NoHelp args') :
    ∃ N, ∀ fuel ≥ N, ∀ out, program ad help fuel files args = some (.finished 0 out) → files' f' = some out →
      ∃ N', ∀ fuel' ≥ N', ∃ r, program ad' help' fuel' files' args' = some r ∧
        ((r = .failed ∧ Spec.UsesChecked args') ∨ (r = .undefined ∧ ¬ Spec.UsesChecked args') ∨
          ∃ (out' : List Char) (eqs ineqs : List Spec.Constraint), r = .finished 0 out' ∧ Spec.PrintedSystem [] out' eqs ineqs ∧
            ineqs.Nodup ∧
            (∀ p : Fin n → ℚ, c.Solution p ↔ (∀ a ∈ eqs, a.HoldsAt true [] p) ∧ ∀ a ∈ ineqs, a.HoldsAt false [] p) ∧
            ∀ a ∈ ineqs, ∃ p : Fin n → ℚ, (∀ b ∈ eqs, b.HoldsAt true [] p) ∧
              (∀ b ∈ ineqs, b ≠ a → b.HoldsAt false [] p) ∧ ¬ a.HoldsAt false [] p) := by
  obtain ⟨N, hN⟩ := vertices_run (ad := ad) (help := help) ha hf ho hd hi hh hw hw' h20 h hc hn hm hsat hline
  refine ⟨N, fun fuel hfuel out hout hf' => ?_⟩
  obtain ⟨tp, tr, points, rays, k1, k2, k3, k4, k5⟩ := hN fuel hfuel out hout
  have hne : points ≠ [] := by
    rintro rfl
    obtain ⟨p, hp⟩ := hsat
    obtain ⟨a, b, -, -, h1, -⟩ := (k5 p).1 hp
    simp at h1
  obtain ⟨m1, m2, m3⟩ := printedPoints_file k1 k2 hne k3
  have hcons : Spec.VertexContent.Consistent { points := points, rays := rays } n :=
    ⟨Or.inl hne, fun p hp => k4 p (by simp [hp]), fun p hp => k4 p (by simp [hp]), by simp, by simp⟩
  obtain ⟨N', hN'⟩ := C58_facets (ad := ad') (help := help') ha' hf' ho' hd' hi' hh' m3 m2 m1 hcons hne rfl (Or.inl rfl)
  refine ⟨N', fun fuel' hfuel' => ?_⟩
  obtain ⟨r, hr, hcase⟩ := hN' fuel' hfuel'
  refine ⟨r, hr, ?_⟩
  rcases hcase with h | ⟨h, h'⟩ | ⟨out', eqs, ineqs, q1, q2, q3, q4, q5⟩
  · exact Or.inl h
  · exact Or.inr (Or.inl ⟨h, h'.resolve_right (by simp)⟩)
  · exact Or.inr (Or.inr ⟨out', eqs, ineqs, q1, q2, q3, fun p => by rw [k5 p, q4 p], q5⟩)

/-! ## examples -/

def tripContent : Spec.VertexContent := { points := [[(1, 2), (-3, 1)]], rays := [[(2, 1), (5, 1)], [(1, 1), (5, 1)]] }

theorem tripFile : Spec.VertexFile {} "Vertices:\n1/2 -3\nRays:\n2 5\n1 5\n".toList tripContent := by
  obtain ⟨b0, b1⟩ := blanks_example
  obtain ⟨h1, h2, h3, h5⟩ := numeral_example
  have h5' : Spec.Numeral "5".toList 5 := Spec.Numeral.plain "5".toList (by decide) (by simp [Spec.Digit])
  refine Spec.VertexFile.points (k := "Vertices:".toList) (t := "1/2 -3\n".toList) (w := "Rays:\n2 5\n1 5\n".toList)
    (vs := [[(1, 2), (-3, 1)]]) (by decide +kernel) (header_example _ "Vertices:" (by decide +kernel)) ⟨?_, ?_⟩
    (Or.inr ⟨"Rays:".toList, "2 5\n1 5\n".toList, ⟨by decide +kernel, Or.inl (by decide +kernel)⟩, by decide +kernel,
      header_example _ "Rays:" (by decide +kernel)⟩) ?_
  · refine Spec.VertexLines.vertex (l := "1/2 -3".toList) (t := []) ⟨[], "1/2 -3".toList, .none b0, ?_, rfl⟩ .nil
    exact Spec.Coordinates.cons (t := "1/2".toList) (b := " ".toList) (ts := "-3".toList)
        (Spec.Fraction.quotient (t := "1".toList) (t' := "2".toList) (b := []) (b' := []) h1 b0 b0 h2) b1 (by decide)
        (Spec.Coordinates.last (t := "-3".toList) (b := []) (Spec.Fraction.whole h3) b0)
  · intro cs hcs
    rw [List.mem_singleton.1 hcs]
    refine ⟨⟨?_, 2, ⟨by decide, by decide, fun m hm => hm 2 (by decide)⟩, by unfold Spec.IsInt; decide, ?_⟩, by decide⟩ <;>
    · unfold Spec.IsInt; decide
  refine Spec.VertexFile.rays (k := "Rays:".toList) (t := "2 5\n1 5\n".toList) (w := [])
    (vs := [[(2, 1), (5, 1)], [(1, 1), (5, 1)]]) (by decide +kernel) (header_example _ "Rays:" (by decide +kernel)) ⟨?_, ?_⟩ (Or.inl rfl) .nil
  · refine Spec.VertexLines.vertex (l := "2 5".toList) (t := "1 5\n".toList) ⟨[], "2 5".toList, .none b0, ?_, rfl⟩
      (Spec.VertexLines.vertex (l := "1 5".toList) (t := []) ⟨[], "1 5".toList, .none b0, ?_, rfl⟩ .nil)
    · exact Spec.Coordinates.cons (t := "2".toList) (b := " ".toList) (ts := "5".toList) (Spec.Fraction.whole h2) b1 (by decide)
        (Spec.Coordinates.last (t := "5".toList) (b := []) (Spec.Fraction.whole h5') b0)
    · exact Spec.Coordinates.cons (t := "1".toList) (b := " ".toList) (ts := "5".toList) (Spec.Fraction.whole h1) b1 (by decide)
        (Spec.Coordinates.last (t := "5".toList) (b := []) (Spec.Fraction.whole h5') b0)
  · intro cs hcs
    simp only [List.mem_cons, List.not_mem_nil, or_false] at hcs
    rcases hcs with rfl | rfl <;>
    · refine ⟨⟨?_, 1, ⟨by decide, by decide, fun m hm => by omega⟩, by unfold Spec.IsInt; decide, ?_⟩, by decide⟩ <;>
      · unfold Spec.IsInt; decide

theorem tripContent_hull (p : Fin 2 → ℚ) : Spec.InHull 2 tripContent.points tripContent.rays p ↔
    ∃ a b : ℚ, 0 ≤ a ∧ 0 ≤ b ∧ p 0 = 1 / 2 + 2 * a + b ∧ p 1 = -3 + 5 * a + 5 * b := by
  unfold Spec.InHull tripContent
  constructor
  · rintro ⟨a, b, ha, hb, h1, rfl⟩
    have h1' : a 0 = 1 := by simpa using h1
    refine ⟨b 0, b 1, hb 0, hb 1, ?_, ?_⟩
    · simp [Spec.point, Fin.sum_univ_two, h1']; ring
    · simp [Spec.point, Fin.sum_univ_two, h1']; ring
  · rintro ⟨a, b, ha, hb, h0, h1⟩
    refine ⟨fun _ => 1, ![a, b], fun _ => by norm_num, fun i => by fin_cases i <;> simp [ha, hb], by simp, ?_⟩
    funext i
    fin_cases i
    · simp [Spec.point, Fin.sum_univ_two, h0]; ring
    · simp [Spec.point, Fin.sum_univ_two, h1]; ring

/-- the hypotheses of C76 can be met -/
example : Spec.PlainCommand exampleArgs "file".toList ∧ getInputOrder exampleArgs = .ok .noSorting ∧ Spec.UsesDD exampleArgs ∧
    Spec.UsesChecked exampleArgs ∧ Spec.NoHelp exampleArgs ∧
    ¬ Spec.HasWordLine Spec.inequalityWords "Vertices:\n1/2 -3\nRays:\n2 5\n1 5\n".toList ∧
    Spec.EarlyHeader 20 "Vertices:\n1/2 -3\nRays:\n2 5\n1 5\n".toList ∧
    Spec.VertexFile {} "Vertices:\n1/2 -3\nRays:\n2 5\n1 5\n".toList tripContent ∧ tripContent.Consistent 2 ∧
    tripContent.points ≠ [] ∧ tripContent.maps = [] ∧ tripContent.names = [] ∧
    (∃ p q : Fin 2 → ℚ, p ≠ q ∧ Spec.InHull 2 tripContent.points tripContent.rays p ∧ Spec.InHull 2 tripContent.points tripContent.rays q) ∧
    ¬ ∃ p q : Fin 2 → ℚ, q ≠ 0 ∧ ∀ t : ℚ, Spec.InHull 2 tripContent.points tripContent.rays (p + t • q) := by
  refine ⟨exampleArgs_plain, exampleArgs_options.1, exampleArgs_options.2.1, exampleArgs_options.2.2.1, exampleArgs_options.2.2.2, ?_,
    containsKeywords_early.2 (by decide +kernel), tripFile, ?_, by decide, rfl, rfl, ?_, ?_⟩
  · rw [← hasInequalitiesKeyword_iff]; decide +kernel
  · refine ⟨Or.inl (by decide), ?_, ?_, ?_, ?_⟩ <;> simp [tripContent]
  · refine ⟨![1 / 2, -3], ![5 / 2, 2], fun e => by have := congrFun e 0; norm_num at this, ?_, ?_⟩
    · rw [tripContent_hull]; exact ⟨0, 0, by norm_num, by norm_num, by norm_num, by norm_num⟩
    · rw [tripContent_hull]; exact ⟨1, 0, by norm_num, by norm_num, by norm_num, by norm_num⟩
  · rintro ⟨p, q, hq, h⟩
    simp only [tripContent_hull, Pi.add_apply, Pi.smul_apply, smul_eq_mul] at h
    have h1 := slope_zero (u := -5 * p 0 + p 1) (w := -5 * q 0 + q 1) (b := -5 / 2 - 3) fun t => by
      obtain ⟨a, b, ha, hb, e0, e1⟩ := h t; linarith
    have h2 := slope_zero (u := 5 * p 0 - 2 * p 1) (w := 5 * q 0 - 2 * q 1) (b := 5 / 2 + 6) fun t => by
      obtain ⟨a, b, ha, hb, e0, e1⟩ := h t; linarith
    apply hq
    funext i
    fin_cases i
    · show q 0 = 0; linarith
    · show q 1 = 0; linarith

/-- the two runs of C76 on that file -/
example : program (fun _ => none) none 40 (fun _ => some "Vertices:\n1/2 -3\nRays:\n2 5\n1 5\n".toList) exampleArgs =
      some (.finished 0 "Inequalities:\n -10  2  11\n  10 -4 -17\n".toList) ∧
    program (fun _ => none) none 40 (fun _ => some "Inequalities:\n -10  2  11\n  10 -4 -17\n".toList) exampleArgs =
      some (.finished 0 "Vertices:\n1/2 -3 \nRays:\n  1  5\n  2  5\n".toList) := by decide +kernel

/-- a point of the file that is no vertex does not come back -/
example : program (fun _ => none) none 40 (fun _ => some "Vertices:\n1 2\n3 4\n0 1/2\n2 3\n".toList) exampleArgs =
      some (.finished 0 "Inequalities:\n -3  2 -1\n -1  1 -1\n  7 -6  3\n".toList) ∧
    program (fun _ => none) none 40 (fun _ => some "Inequalities:\n -3  2 -1\n -1  1 -1\n  7 -6  3\n".toList) exampleArgs =
      some (.finished 0 "Vertices:\n0 1/2 \n1 2 \n3 4 \n".toList) := by decide +kernel

/-- the two runs of C77 on a file with a redundant inequality (the hypotheses of C77 are those of `C61_vertices`, met by the example
of `Props/Main.lean`) -/
example : program (fun _ => none) none 40 (fun _ => some "Inequalities:\n1 1 -3\n-1 0 0\n0 -1 0\n1 0 -5\n".toList) exampleArgs =
      some (.finished 0 "Vertices:\n0 0 \n0 3 \n3 0 \n".toList) ∧
    program (fun _ => none) none 40 (fun _ => some "Vertices:\n0 0 \n0 3 \n3 0 \n".toList) exampleArgs =
      some (.finished 0 "Inequalities:\n -1  0  0\n  0 -1  0\n  1  1 -3\n".toList) := by decide +kernel

/-! ## limits -/

/-- **C76** is false of a file with a single point: the equations printed for it are refused by vertex enumeration. -/
theorem C76_point_false : program (fun _ => none) none 40 (fun _ => some "Vertices:\n1 2\n".toList) exampleArgs =
      some (.finished 0 "Equations:\n  0  1 -2\n  1  0 -1\n\nInequalities:\n".toList) ∧
    program (fun _ => none) none 40 (fun _ => some "Equations:\n  0  1 -2\n  1  0 -1\n\nInequalities:\n".toList) exampleArgs =
      some .failed := by decide +kernel

/-- **C76** is false of a file with names: the printed inequalities use the names but do not declare them, and are refused. -/
theorem C76_names_false : program (fun _ => none) none 40 (fun _ => some "Names:\nx y\n\nVertices:\n1 2\n3 4\n0 1/2\n".toList) exampleArgs =
      some (.finished 0 "Inequalities:\n-3x +2y <= 1\n-x +y <= 1\n7x -6y <= -3\n".toList) ∧
    program (fun _ => none) none 40 (fun _ => some "Inequalities:\n-3x +2y <= 1\n-x +y <= 1\n7x -6y <= -3\n".toList) exampleArgs =
      some .failed := by decide +kernel

/-- **C77** is false of a solution set with a line: the half-plane x + y ≤ 3 comes back as the half-line x = 0, y ≤ 3. -/
theorem C77_line_false : program (fun _ => none) none 40 (fun _ => some "Inequalities:\n1 1 -3\n".toList) exampleArgs =
      some (.finished 0 "Vertices:\n0 3 \nRays:\n  0 -1\n".toList) ∧
    program (fun _ => none) none 40 (fun _ => some "Vertices:\n0 3 \nRays:\n  0 -1\n".toList) exampleArgs =
      some (.finished 0 "Equations:\n  1  0  0\n\nInequalities:\n  0  1 -3\n".toList) := by decide +kernel

end Panda
