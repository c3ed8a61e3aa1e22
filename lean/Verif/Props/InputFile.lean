import Verif.Proofs.InputFile

/-! # C57: whole files are read as written -/

namespace Panda

/-! ## the result does not depend on the number of iterations allowed -/

theorem run_fixed {α : Type} {f : Nat → Run α} (hm : ∀ n r, f n = some r → f (n + 1) = some r) {P : α → Prop}
    (h : ∃ N, ∀ fuel ≥ N, ∃ a, f fuel = some (.ok a) ∧ P a) : ∃ a, P a ∧ ∃ N, ∀ fuel ≥ N, f fuel = some (.ok a) := by
  obtain ⟨N, hN⟩ := h
  obtain ⟨a, ha, hP⟩ := hN N (le_refl _)
  refine ⟨a, hP, N, fun fuel hf => ?_⟩
  induction fuel, hf using Nat.le_induction with
  | base => exact ha
  | succ n _ ih => exact hm n _ ih

theorem bind_mono {α β : Type} {f : Nat → Run α} {g : α → Run β} (hm : ∀ n r, f n = some r → f (n + 1) = some r) (n : Nat)
    (r : Outcome β) (h : Run.bind (f n) g = some r) : Run.bind (f (n + 1)) g = some r := by
  cases hf : f n with
  | none => rw [hf] at h; cases h
  | some x => rw [hm n x hf]; rw [hf] at h; exact h

theorem convexLoop_mono : ∀ n s m r, convexLoop n s m = some r → convexLoop (n + 1) s m = some r := by
  intro n
  induction n with
  | zero => intro s m r h; cases h
  | succ n ih =>
    intro s m r h
    rw [convexLoop] at h ⊢
    by_cases h1 : s.fail = true
    · rw [if_pos h1] at h ⊢; exact h
    rw [if_neg h1] at h ⊢
    by_cases h2 : isKeyword (trimWhitespace (peekLine s).2) = true
    · simp only [h2, if_true] at h ⊢; exact h
    by_cases h3 : trimWhitespace (peekLine (peekLine s).1).2 = []
    · simp only [h2, h3, if_true] at h ⊢; exact ih _ _ _ h
    simp only [h2, h3, if_false] at h ⊢
    cases hv : vertex (peekLine (peekLine s).1).1 with
    | ok p => obtain ⟨s', v⟩ := p; rw [hv] at h; exact ih _ _ _ h
    | thrown => rw [hv] at h; exact h
    | ub => rw [hv] at h; exact h

theorem conicalLoop_mono : ∀ n s m r, conicalLoop n s m = some r → conicalLoop (n + 1) s m = some r := by
  intro n
  induction n with
  | zero => intro s m r h; cases h
  | succ n ih =>
    intro s m r h
    rw [conicalLoop] at h ⊢
    by_cases h1 : s.fail = true
    · rw [if_pos h1] at h ⊢; exact h
    rw [if_neg h1] at h ⊢
    by_cases h2 : isKeyword (trimWhitespace (peekLine s).2) = true
    · simp only [h2, if_true] at h ⊢; exact h
    by_cases h3 : trimWhitespace (peekLine (peekLine s).1).2 = []
    · simp only [h2, h3, if_true] at h ⊢; exact ih _ _ _ h
    simp only [h2, h3, if_false] at h ⊢
    cases hv : vertex (peekLine (peekLine s).1).1 with
    | ok p =>
      obtain ⟨s', v⟩ := p
      rw [hv] at h
      by_cases h4 : v = []
      · simp only [h4, if_true] at h ⊢; exact ih _ _ _ h
      · simp only [h4, if_false] at h ⊢; exact ih _ _ _ h
    | thrown => rw [hv] at h; exact h
    | ub => rw [hv] at h; exact h

theorem mapsLoop_mono (names : Names) : ∀ n s m r, mapsLoop names n s m = some r → mapsLoop names (n + 1) s m = some r := by
  intro n
  induction n with
  | zero => intro s m r h; cases h
  | succ n ih =>
    intro s m r h
    rw [mapsLoop] at h ⊢
    by_cases h1 : s.fail = true
    · rw [if_pos h1] at h ⊢; exact h
    rw [if_neg h1] at h ⊢
    by_cases h2 : isKeyword (trimWhitespace (peekLine s).2) = true
    · simp only [h2, if_true] at h ⊢; exact h
    by_cases h3 : trimWhitespace (peekLine (peekLine s).1).2 = []
    · simp only [h2, h3, if_true] at h ⊢; exact ih _ _ _ h
    simp only [h2, h3, if_false] at h ⊢
    cases hv : readMap names (peekLine (peekLine s).1).1 with
    | ok p => obtain ⟨s', v⟩ := p; rw [hv] at h; exact ih _ _ _ h
    | thrown => rw [hv] at h; exact h
    | ub => rw [hv] at h; exact h

theorem constraintsLoop_mono (equation : Bool) (names : Names) : ∀ n s m r, constraintsLoop equation names n s m = some r →
    constraintsLoop equation names (n + 1) s m = some r := by
  intro n
  induction n with
  | zero => intro s m r h; cases h
  | succ n ih =>
    intro s m r h
    rw [constraintsLoop] at h ⊢
    by_cases h1 : s.fail = true
    · rw [if_pos h1] at h ⊢; exact h
    rw [if_neg h1] at h ⊢
    by_cases h2 : isKeyword (trimWhitespace (peekLine s).2) = true
    · simp only [h2, if_true] at h ⊢; exact h
    by_cases h3 : trimWhitespace (peekLine (peekLine s).1).2 = []
    · simp only [h2, h3, if_true] at h ⊢; exact ih _ _ _ h
    simp only [h2, h3, if_false] at h ⊢
    cases hv : potentiallyNamedConstraint equation names (peekLine (peekLine s).1).1 with
    | ok p => obtain ⟨s', v⟩ := p; rw [hv] at h; exact ih _ _ _ h
    | thrown => rw [hv] at h; exact h
    | ub => rw [hv] at h; exact h

theorem verticesConvex_mono (s : Stream) (n : Nat) (r : Outcome (Stream × Matrix)) (h : verticesConvex n s = some r) :
    verticesConvex (n + 1) s = some r := by
  unfold verticesConvex at h ⊢
  dsimp only at h ⊢
  split
  · next hf => rw [if_pos hf] at h; exact h
  · next hf =>
    rw [if_neg hf] at h
    split
    · next hk => rw [if_pos hk] at h; exact bind_mono (fun n r => convexLoop_mono n _ _ r) n r h
    · next hk => rw [if_neg hk] at h; exact h

theorem verticesConical_mono (s : Stream) (n : Nat) (r : Outcome (Stream × Matrix)) (h : verticesConical n s = some r) :
    verticesConical (n + 1) s = some r := by
  unfold verticesConical at h ⊢
  dsimp only at h ⊢
  split
  · next hf => rw [if_pos hf] at h; exact h
  · next hf =>
    rw [if_neg hf] at h
    split
    · next hk => rw [if_pos hk] at h; exact bind_mono (fun n r => conicalLoop_mono n _ _ r) n r h
    · next hk => rw [if_neg hk] at h; exact h

theorem readMaps_mono (names : Names) (s : Stream) (n : Nat) (r : Outcome (Stream × Maps)) (h : readMaps names n s = some r) :
    readMaps names (n + 1) s = some r := by
  unfold readMaps at h ⊢
  dsimp only at h ⊢
  split
  · next hf => rw [if_pos hf] at h; exact h
  · next hf =>
    rw [if_neg hf] at h
    exact bind_mono (fun n r => mapsLoop_mono names n _ _ r) n r h

theorem constraints_mono (equation : Bool) (names : Names) (s : Stream) (n : Nat) (r : Outcome (Stream × Matrix))
    (h : constraints equation names n s = some r) : constraints equation names (n + 1) s = some r := by
  unfold constraints at h ⊢
  dsimp only at h ⊢
  split
  · next hf => rw [if_pos hf] at h; exact h
  · next hf =>
    rw [if_neg hf] at h
    generalize (if equation = true then isKeywordEquations (trimWhitespace ((getLine s).2.getD []))
      else isKeywordInequalities (trimWhitespace ((getLine s).2.getD [])) ||
        isKeywordReducedInequalities (trimWhitespace ((getLine s).2.getD []))) = b at h ⊢
    cases b with
    | true => exact bind_mono (fun n r => constraintsLoop_mono equation names n _ _ r) n r h
    | false => exact h

/-! ## which branch a header selects -/

/-- the kinds of sections exclude each other -/
theorem header_kind {s : List Char} (h : isKeyword s = true) :
    (isKeywordNames s = true → isKeywordDimension s = false) ∧
    (isKeywordMaps s = true → isKeywordDimension s = false ∧ isKeywordNames s = false) ∧
    (isKeywordConvexHull s = true → isKeywordDimension s = false ∧ isKeywordNames s = false ∧ isKeywordMaps s = false) ∧
    (isKeywordReducedConvexHull s = true → isKeywordDimension s = false ∧ isKeywordNames s = false ∧ isKeywordMaps s = false ∧
      isKeywordConvexHull s = false) ∧
    (isKeywordConicalHull s = true → isKeywordDimension s = false ∧ isKeywordNames s = false ∧ isKeywordMaps s = false ∧
      isKeywordConvexHull s = false ∧ isKeywordReducedConvexHull s = false) ∧
    (isKeywordReducedConicalHull s = true → isKeywordDimension s = false ∧ isKeywordNames s = false ∧ isKeywordMaps s = false ∧
      isKeywordConvexHull s = false ∧ isKeywordReducedConvexHull s = false ∧ isKeywordConicalHull s = false) ∧
    (isKeywordEquations s = true → isKeywordDimension s = false ∧ isKeywordNames s = false ∧ isKeywordMaps s = false) ∧
    (isKeywordInequalities s = true → isKeywordDimension s = false ∧ isKeywordNames s = false ∧ isKeywordMaps s = false ∧
      isKeywordEquations s = false) ∧
    (isKeywordReducedInequalities s = true → isKeywordDimension s = false ∧ isKeywordNames s = false ∧ isKeywordMaps s = false ∧
      isKeywordEquations s = false ∧ isKeywordInequalities s = false) ∧
    (isKeywordEnd s = true → isKeywordDimension s = false ∧ isKeywordNames s = false ∧ isKeywordMaps s = false ∧
      isKeywordConvexHull s = false ∧ isKeywordReducedConvexHull s = false ∧ isKeywordConicalHull s = false ∧
      isKeywordReducedConicalHull s = false ∧ isKeywordEquations s = false ∧ isKeywordInequalities s = false ∧
      isKeywordReducedInequalities s = false) := by
  refine ⟨fun hA => ?_, fun hA => ?_, fun hA => ?_, fun hA => ?_, fun hA => ?_, fun hA => ?_, fun hA => ?_, fun hA => ?_, fun hA => ?_, fun hA => ?_⟩
  · have := keyword_check (P := fun s => !isKeywordNames s || !(isKeywordDimension s)) h (by decide +kernel)
    simpa only [hA, Bool.not_true, Bool.false_or, Bool.not_eq_eq_eq_not, Bool.or_eq_false_iff, and_assoc] using this
  · have := keyword_check (P := fun s => !isKeywordMaps s || !(isKeywordDimension s || isKeywordNames s)) h (by decide +kernel)
    simpa only [hA, Bool.not_true, Bool.false_or, Bool.not_eq_eq_eq_not, Bool.or_eq_false_iff, and_assoc] using this
  · have := keyword_check (P := fun s => !isKeywordConvexHull s || !(isKeywordDimension s || isKeywordNames s || isKeywordMaps s)) h (by decide +kernel)
    simpa only [hA, Bool.not_true, Bool.false_or, Bool.not_eq_eq_eq_not, Bool.or_eq_false_iff, and_assoc] using this
  · have := keyword_check (P := fun s => !isKeywordReducedConvexHull s || !(isKeywordDimension s || isKeywordNames s || isKeywordMaps s || isKeywordConvexHull s)) h (by decide +kernel)
    simpa only [hA, Bool.not_true, Bool.false_or, Bool.not_eq_eq_eq_not, Bool.or_eq_false_iff, and_assoc] using this
  · have := keyword_check (P := fun s => !isKeywordConicalHull s || !(isKeywordDimension s || isKeywordNames s || isKeywordMaps s || isKeywordConvexHull s || isKeywordReducedConvexHull s)) h (by decide +kernel)
    simpa only [hA, Bool.not_true, Bool.false_or, Bool.not_eq_eq_eq_not, Bool.or_eq_false_iff, and_assoc] using this
  · have := keyword_check (P := fun s => !isKeywordReducedConicalHull s || !(isKeywordDimension s || isKeywordNames s || isKeywordMaps s || isKeywordConvexHull s || isKeywordReducedConvexHull s || isKeywordConicalHull s)) h (by decide +kernel)
    simpa only [hA, Bool.not_true, Bool.false_or, Bool.not_eq_eq_eq_not, Bool.or_eq_false_iff, and_assoc] using this
  · have := keyword_check (P := fun s => !isKeywordEquations s || !(isKeywordDimension s || isKeywordNames s || isKeywordMaps s)) h (by decide +kernel)
    simpa only [hA, Bool.not_true, Bool.false_or, Bool.not_eq_eq_eq_not, Bool.or_eq_false_iff, and_assoc] using this
  · have := keyword_check (P := fun s => !isKeywordInequalities s || !(isKeywordDimension s || isKeywordNames s || isKeywordMaps s || isKeywordEquations s)) h (by decide +kernel)
    simpa only [hA, Bool.not_true, Bool.false_or, Bool.not_eq_eq_eq_not, Bool.or_eq_false_iff, and_assoc] using this
  · have := keyword_check (P := fun s => !isKeywordReducedInequalities s || !(isKeywordDimension s || isKeywordNames s || isKeywordMaps s || isKeywordEquations s || isKeywordInequalities s)) h (by decide +kernel)
    simpa only [hA, Bool.not_true, Bool.false_or, Bool.not_eq_eq_eq_not, Bool.or_eq_false_iff, and_assoc] using this
  · have := keyword_check (P := fun s => !isKeywordEnd s || !(isKeywordDimension s || isKeywordNames s || isKeywordMaps s || isKeywordConvexHull s || isKeywordReducedConvexHull s || isKeywordConicalHull s || isKeywordReducedConicalHull s || isKeywordEquations s || isKeywordInequalities s || isKeywordReducedInequalities s)) h (by decide +kernel)
    simpa only [hA, Bool.not_true, Bool.false_or, Bool.not_eq_eq_eq_not, Bool.or_eq_false_iff, and_assoc] using this

theorem end_keyword {s : List Char} (h : isKeywordEnd s = true) : isKeyword s = true := by
  unfold isKeyword; rw [h]; simp

/-! ## files with points and rays -/

/-- all entries are in the range of `int` -/
def IntEntries (m : Matrix) : Prop := ∀ r ∈ m, ∀ x ∈ r, Spec.IsInt x

theorem fitInt_isInt {x y : Int} (h : fitInt x = .ok y) : Spec.IsInt y := by
  unfold fitInt at h
  split at h
  · next hx => cases h; exact hx
  · cases h

theorem scaleNumerators_int {l : Int} : ∀ {xs ds ys : Row}, scaleNumerators l xs ds = .ok ys → ∀ y ∈ ys, Spec.IsInt y
  | [], ds, ys, h => by simp [scaleNumerators] at h; subst h; simp
  | x :: xs, [], ys, h => by simp [scaleNumerators] at h; subst h; simp
  | x :: xs, d :: ds, ys, h => by
    rw [scaleNumerators] at h
    match e : fitInt (x * l.tdiv d), h with
    | .ok y, h =>
      simp only [Outcome.bind] at h
      match e' : scaleNumerators l xs ds, h with
      | .ok zs, h =>
        simp only [Outcome.ok.injEq] at h
        subst h
        intro z hz
        rcases List.mem_cons.1 hz with rfl | hz
        · exact fitInt_isInt e
        · exact scaleNumerators_int e' z hz
      | .thrown, h => simp at h
      | .ub, h => simp at h
    | .thrown, h => simp [Outcome.bind] at h
    | .ub, h => simp [Outcome.bind] at h

/-- the entries of a vertex that was read are values of type `int` -/
theorem vertex_int {s s' : Stream} {v : Row} (h : vertex s = .ok (s', v)) : ∀ x ∈ v, Spec.IsInt x := by
  unfold vertex at h
  match e : optionalIdentifier (skipWhitespace s), h with
  | .thrown, h => simp [Outcome.bind] at h
  | .ub, h => simp [Outcome.bind] at h
  | .ok s1, h =>
    simp only [Outcome.bind] at h
    match e1 : vertexLoop ((skipWhitespace s1).rest.length + 1) 0 (skipWhitespace s1) [] [], h with
    | .thrown, h => simp at h
    | .ub, h => simp at h
    | .ok (s2, num, den), h =>
      simp only at h
      split at h
      · simp only [Outcome.ok.injEq, Prod.mk.injEq] at h; rw [← h.2]; simp
      · match e2 : lcmInts den, h with
        | .thrown, h => simp at h
        | .ub, h => simp at h
        | .ok l, h =>
          simp only at h
          match e3 : scaleNumerators l num den, h with
          | .thrown, h => simp at h
          | .ub, h => simp at h
          | .ok row, h =>
            simp only [Outcome.ok.injEq, Prod.mk.injEq] at h
            rw [← h.2]
            intro x hx
            rcases List.mem_append.1 hx with hx | hx
            · exact scaleNumerators_int e3 x hx
            · rw [List.mem_singleton.1 hx]
              unfold lcmInts at e2
              split at e2
              · simp at e2
              · match e4 : rowLcm den, e2 with
                | .ok q, e2 => exact fitInt_isInt e2
                | .thrown, e2 => simp [Outcome.bind] at e2
                | .ub, e2 => simp [Outcome.bind] at e2

theorem convexLoop_int : ∀ {fuel : Nat} {s s' : Stream} {m m' : Matrix}, convexLoop fuel s m = some (.ok (s', m')) → IntEntries m → IntEntries m'
  | 0, _, _, _, _, h, _ => by simp [convexLoop] at h
  | fuel + 1, s, s', m, m', h, hm => by
    rw [convexLoop] at h
    split at h
    · simp only [Option.some.injEq, Outcome.ok.injEq, Prod.mk.injEq] at h; rw [← h.2]; exact hm
    · dsimp only at h
      split at h
      · simp only [Option.some.injEq, Outcome.ok.injEq, Prod.mk.injEq] at h; rw [← h.2]; exact hm
      · split at h
        · exact convexLoop_int h hm
        · match e : vertex (peekLine (peekLine s).1).1, h with
          | .ok (s2, v), h =>
            refine convexLoop_int h ?_
            split
            · exact hm
            · intro r hr
              rcases List.mem_append.1 hr with hr | hr
              · exact hm r hr
              · rw [List.mem_singleton.1 hr]; exact vertex_int e
          | .thrown, h => simp at h
          | .ub, h => simp at h

theorem conicalLoop_int : ∀ {fuel : Nat} {s s' : Stream} {m m' : Matrix}, conicalLoop fuel s m = some (.ok (s', m')) → IntEntries m → IntEntries m'
  | 0, _, _, _, _, h, _ => by simp [conicalLoop] at h
  | fuel + 1, s, s', m, m', h, hm => by
    rw [conicalLoop] at h
    split at h
    · simp only [Option.some.injEq, Outcome.ok.injEq, Prod.mk.injEq] at h; rw [← h.2]; exact hm
    · dsimp only at h
      split at h
      · simp only [Option.some.injEq, Outcome.ok.injEq, Prod.mk.injEq] at h; rw [← h.2]; exact hm
      · split at h
        · exact conicalLoop_int h hm
        · match e : vertex (peekLine (peekLine s).1).1, h with
          | .ok (s2, v), h =>
            dsimp only at h
            split at h
            · exact conicalLoop_int h hm
            · refine conicalLoop_int h ?_
              intro r hr
              rcases List.mem_append.1 hr with hr | hr
              · exact hm r hr
              · rw [List.mem_singleton.1 hr]
                intro x hx
                rcases List.mem_append.1 hx with hx | hx
                · exact vertex_int e x (List.mem_of_mem_dropLast hx)
                · rw [List.mem_singleton.1 hx]; unfold Spec.IsInt; decide
          | .thrown, h => simp at h
          | .ub, h => simp at h

theorem verticesConvex_int {fuel : Nat} {s s' : Stream} {m : Matrix} (h : verticesConvex fuel s = some (.ok (s', m))) : IntEntries m := by
  unfold verticesConvex at h
  dsimp only at h
  split at h
  · simp at h
  · split at h
    · match e : convexLoop fuel (getLine s).1 [], h with
      | some (.ok (s2, m2)), h =>
        simp only [Run.bind, Option.some.injEq, Outcome.ok.injEq, Prod.mk.injEq] at h
        rw [← h.2]; exact convexLoop_int e (by intro r hr; simp at hr)
      | some .thrown, h => simp [Run.bind] at h
      | some .ub, h => simp [Run.bind] at h
      | none, h => simp [Run.bind] at h
    · simp at h

theorem verticesConical_int {fuel : Nat} {s s' : Stream} {m : Matrix} (h : verticesConical fuel s = some (.ok (s', m))) : IntEntries m := by
  unfold verticesConical at h
  dsimp only at h
  split at h
  · simp at h
  · split at h
    · match e : conicalLoop fuel (getLine s).1 [], h with
      | some (.ok (s2, m2)), h =>
        simp only [Run.bind, Option.some.injEq, Outcome.ok.injEq, Prod.mk.injEq] at h
        rw [← h.2]; exact conicalLoop_int e (by intro r hr; simp at hr)
      | some .thrown, h => simp [Run.bind] at h
      | some .ub, h => simp [Run.bind] at h
      | none, h => simp [Run.bind] at h
    · simp at h

/-- what has been read agrees with the content -/
def VHolds (c : Spec.VertexContent) (d : VertexData) : Prop :=
  d.names = c.names ∧ (∀ x ∈ c.names, isKeyword x = false) ∧ List.Forall₂ (Spec.DoesImages c.names) c.maps d.maps ∧
    List.Forall₂ Spec.PointRow c.points d.conv ∧ List.Forall₂ Spec.RayRow c.rays d.cone ∧ d.dimension = c.dimension ∧
    IntEntries d.conv ∧ IntEntries d.cone

theorem vertexSection_end (fuel : Nat) (k : List Char) (s : Stream) (d : VertexData) (h : isKeywordEnd k = true) :
    vertexSection false fuel k s d = some (.ok ((getLine s).1, d)) := by
  obtain ⟨h1, h2, h3, h4, h5, h6, h7, -⟩ := (header_kind (end_keyword h)).2.2.2.2.2.2.2.2.2 h
  unfold vertexSection
  simp only [h1, h2, h3, h4, h5, h6, h7, Bool.false_eq_true, if_false]

theorem namesBody_keyword {t : List Char} {names : List (List Char)} (h : Spec.NamesBody t names) : ∀ x ∈ names, isKeyword x = false := by
  intro x hx
  by_contra hh
  obtain ⟨k, hk, e⟩ := (isKeyword_iff x).1 (by simpa using hh)
  exact h.2.2 x hx k hk e.symm

theorem firstLine_line {k r : List Char} (hk : '\n' ∉ k) : Spec.FirstLine (k ++ '\n' :: r) k r := ⟨hk, Or.inl rfl⟩

theorem reads_after_names {D : Type} {sec : Nat → List Char → Stream → D → Run (Stream × D)} {w ws : List Char} {s : Stream} {d : D} {d' : Outcome D}
    (h2 : ∀ c ∈ ws, isSpace c = true) (h3 : ws = [] ∨ ws.getLast? = some '\n')
    (h4 : (w = [] ∧ s.fail = true) ∨ s = ⟨ws ++ w, false, false⟩) (h : Ends sec ⟨w, false, false⟩ d d') : Ends sec s d d' := by
  rcases h4 with ⟨rfl, hf⟩ | rfl
  · rw [h.unique (reads_nil false d)]; exact reads_fail hf d
  · exact reads_spaces h ws.length ws (le_refl _) h2 h3

theorem vertexFile_reads {c c' : Spec.VertexContent} {text : List Char} (h : Spec.VertexFile c text c') : ∀ {d : VertexData},
    VHolds c d → ∃ d', VHolds c' d' ∧ Reads (vertexSection false) ⟨text, false, false⟩ d d' := by
  induction h with
  | nil => intro d hd; exact ⟨d, hd, reads_nil false d⟩
  | @other c c' w l r hl hh _ ih =>
    intro d hd
    obtain ⟨d', h1, h2⟩ := ih hd
    refine ⟨d', h1, ?_⟩
    by_cases hk : isKeyword (trimWhitespace l) = true
    · refine reads_other hl hk (fun fuel s => ?_) h2
      have hn : ∀ {ws : List String}, (∀ k ∈ ws, k ∈ Spec.vertexFileWords) → ¬ Spec.Header ws l := fun h h' => hh (h'.mono h)
      unfold vertexSection
      rw [if_neg (by rw [header_dimension]; exact hn (by decide +kernel)), if_neg (by rw [header_names]; exact hn (by decide +kernel)),
        if_neg (by rw [header_maps]; exact hn (by decide +kernel)), if_neg (by rw [header_points]; exact hn (by decide +kernel)),
        if_neg (by rw [header_reducedPoints]; exact hn (by decide +kernel)), if_neg (by rw [header_rays]; exact hn (by decide +kernel)),
        if_neg (by rw [header_reducedRays]; exact hn (by decide +kernel))]
    · exact reads_skip hl (by simpa using hk) h2
  | @names c c' k t w names hk hkw ht hw hm _ ih =>
    intro d hd
    obtain ⟨e1, e2, e3, e4, e5, e6, i1, i2⟩ := hd
    rw [hm] at e3
    obtain ⟨d', h1, h2⟩ := ih (d := { d with names := names }) ⟨rfl, namesBody_keyword ht, by
      have hd : d.maps = [] := by
        generalize d.maps = m at e3
        cases e3
        rfl
      show List.Forall₂ _ c.maps d.maps
      rw [hm, hd]; exact .nil, e4, e5, e6, i1, i2⟩
    refine ⟨d', h1, ?_⟩
    have hkn := (header_names k).2 hkw
    have hkk := (header_keyword k).2 (hkw.mono (by decide +kernel))
    obtain ⟨ws, s, g1, g2, g3, g4⟩ := readNames_body hk hkn (sectionRest_end hw).section ht
    refine reads_section (firstLine_line hk) hkk ⟨0, fun fuel _ => ?_⟩ (reads_after_names g2 g3 g4 h2)
    unfold vertexSection
    simp only [(header_kind hkk).1 hkn, hkn, Bool.false_eq_true, if_false, if_true, g1, Run.bind]
  | @maps c c' k t w maps hk hkw ht hw _ ih =>
    intro d hd
    obtain ⟨e1, e2, e3, e4, e5, e6, i1, i2⟩ := hd
    have hkn := (header_maps k).2 hkw
    have hkk := (header_keyword k).2 (hkw.mono (by decide +kernel))
    obtain ⟨N, hN⟩ := C53_sections e2 ht hk hkn (sectionRest_end hw)
    obtain ⟨⟨s, ms⟩, ⟨hP1, hP2⟩, M, hM⟩ := run_fixed (f := fun fuel => readMaps c.names fuel ⟨k ++ '\n' :: (t ++ w), false, false⟩)
      (fun n r => readMaps_mono _ _ n r)
      (P := fun a => List.Forall₂ (Spec.DoesImages c.names) maps a.2 ∧
        Spec.AfterSection w a.1.rest a.1.eof a.1.fail (fun k => isKeywordEnd (firstWord k)))
      ⟨N, fun fuel hf => by obtain ⟨s, ms, h1, h2, h3⟩ := hN fuel hf; exact ⟨(s, ms), h1, h2, h3⟩⟩
    obtain ⟨d', h1, h2⟩ := ih (d := { d with maps := ms }) ⟨e1, e2, hP1, e4, e5, e6, i1, i2⟩
    refine ⟨d', h1, reads_section (firstLine_line hk) hkk ⟨M, fun fuel hf => ?_⟩
      (reads_after (sectionRest_end hw).section (fun fuel k s hk => vertexSection_end fuel k s _ hk) hP2 h2)⟩
    unfold vertexSection
    obtain ⟨n1, n2⟩ := (header_kind hkk).2.1 hkn
    simp only [n1, n2, hkn, Bool.false_eq_true, if_false, if_true, e1, hM fuel hf, Run.bind]
  | @points c c' k t w vs hk hkw ht hw _ ih =>
    intro d hd
    obtain ⟨e1, e2, e3, e4, e5, e6, i1, i2⟩ := hd
    have hkn := (header_points k).2 hkw
    have hkk := (header_keyword k).2 (hkw.mono (by decide +kernel))
    obtain ⟨N, hN⟩ := C41_sections ht.1 hk (sectionRest_end hw).section ht.2
    obtain ⟨⟨s, rows⟩, ⟨hP1, hP2⟩, M, hM⟩ := run_fixed (f := fun fuel => verticesConvex fuel ⟨k ++ '\n' :: (t ++ w), false, false⟩)
      (fun n r => verticesConvex_mono _ n r)
      (P := fun a => List.Forall₂ Spec.PointRow vs a.2 ∧
        Spec.AfterSection w a.1.rest a.1.eof a.1.fail (fun k => isKeywordEnd (firstWord k)))
      ⟨N, fun fuel hf => by
        obtain ⟨s, ms, h1, h2, h3⟩ := (hN fuel hf).1 (by rw [hkn]; rfl); exact ⟨(s, ms), h1, h2, h3⟩⟩
    obtain ⟨d', h1, h2⟩ := ih (d := { d with conv := rows }) ⟨e1, e2, e3, hP1, e5, e6, verticesConvex_int (hM M (le_refl _)), i2⟩
    refine ⟨d', h1, reads_section (firstLine_line hk) hkk ⟨M, fun fuel hf => ?_⟩
      (reads_after (sectionRest_end hw).section (fun fuel k s hk => vertexSection_end fuel k s _ hk) hP2 h2)⟩
    unfold vertexSection readAllRows
    obtain ⟨n1, n2, n3⟩ := (header_kind hkk).2.2.1 hkn
    simp only [n1, n2, n3, hkn, Bool.false_eq_true, if_false, if_true, hM fuel hf, Run.bind]
  | @rays c c' k t w vs hk hkw ht hw _ ih =>
    intro d hd
    obtain ⟨e1, e2, e3, e4, e5, e6, i1, i2⟩ := hd
    have hkn := (header_rays k).2 hkw
    have hkk := (header_keyword k).2 (hkw.mono (by decide +kernel))
    obtain ⟨N, hN⟩ := C41_sections ht.1 hk (sectionRest_end hw).section ht.2
    obtain ⟨⟨s, rows⟩, ⟨hP1, hP2⟩, M, hM⟩ := run_fixed (f := fun fuel => verticesConical fuel ⟨k ++ '\n' :: (t ++ w), false, false⟩)
      (fun n r => verticesConical_mono _ n r)
      (P := fun a => List.Forall₂ Spec.RayRow vs a.2 ∧
        Spec.AfterSection w a.1.rest a.1.eof a.1.fail (fun k => isKeywordEnd (firstWord k)))
      ⟨N, fun fuel hf => by
        obtain ⟨s, ms, h1, h2, h3⟩ := (hN fuel hf).2 (by rw [hkn]; rfl); exact ⟨(s, ms), h1, h2, h3⟩⟩
    obtain ⟨d', h1, h2⟩ := ih (d := { d with cone := rows }) ⟨e1, e2, e3, e4, hP1, e6, i1, verticesConical_int (hM M (le_refl _))⟩
    refine ⟨d', h1, reads_section (firstLine_line hk) hkk ⟨M, fun fuel hf => ?_⟩
      (reads_after (sectionRest_end hw).section (fun fuel k s hk => vertexSection_end fuel k s _ hk) hP2 h2)⟩
    unfold vertexSection readAllRows
    obtain ⟨n1, n2, n3, n4, n5⟩ := (header_kind hkk).2.2.2.2.1 hkn
    simp only [n1, n2, n3, n4, n5, hkn, Bool.false_eq_true, if_false, if_true, hM fuel hf, Run.bind]
  | @dimension c c' k b n b' w hk hkw hb hb' hn hd0 hv _ ih =>
    intro d hd
    obtain ⟨e1, e2, e3, e4, e5, e6, i1, i2⟩ := hd
    obtain ⟨d', h1, h2⟩ := ih (d := { d with dimension := some (Spec.decimal n) }) ⟨e1, e2, e3, e4, e5, rfl, i1, i2⟩
    have hkn := (header_dimension k).2 (hkw.mono (by decide +kernel))
    have hkk := (header_keyword k).2 (hkw.mono (by decide +kernel))
    have hbn := blanks_no_newline hb'
    refine ⟨d', h1, reads_section (firstLine_line hk) hkk ⟨0, fun fuel hf => ?_⟩
      (reads_skip (firstLine_line hbn) (by rw [trim_blanks hb']; exact isKeyword_nil) h2)⟩
    unfold vertexSection
    simp only [hkn, if_true, readDimension_line hkw hb hb' hn hd0 hv, Run.bind]

/-! ## options -/

theorem checkOption_absent {args : List (List Char)} (h1 : "-c".toList ∉ args) (h2 : "--check".toList ∉ args) : checkOption args = false := by
  unfold checkOption
  rw [List.any_eq_false]
  intro a ha hh
  rw [Bool.or_eq_true, decide_eq_true_eq, decide_eq_true_eq] at hh
  rcases hh with rfl | rfl
  · exact h1 ha
  · exact h2 ha

theorem checkOption_plain {args : List (List Char)} {f : List Char} (h : Spec.PlainCommand args f) : checkOption args = false :=
  checkOption_absent h.2.1 h.2.2.1

theorem known_absent (facets : Bool) : ∀ args : List Arg, Spec.Absent 'k' args → knownFilename facets args = .ok []
  | [], _ => rfl
  | a :: rest, h => by
    have ha := h a (by simp)
    have hr := known_absent facets rest fun b hb => h b (by simp [hb])
    have n1 : ∀ {p : List Char}, ['-', 'k'] <+: p → ¬ p.isPrefixOf a = true := by
      intro p hp hh
      exact ha (Or.inl (hp.trans (List.isPrefixOf_iff_prefix.1 hh)))
    have n2 : ∀ {p : List Char}, ['-', '-', 'k'] <+: p → ¬ p.isPrefixOf a = true := by
      intro p hp hh
      exact ha (Or.inr (hp.trans (List.isPrefixOf_iff_prefix.1 hh)))
    rw [knownFilename, if_neg (by rintro rfl; exact ha (Or.inl ⟨[], rfl⟩)),
      if_neg (show ¬ "-k=".toList.isPrefixOf a = true from n1 ⟨['='], by decide +kernel⟩),
      if_neg (show ¬ "--known-data=".toList.isPrefixOf a = true from n2 ⟨"nown-data=".toList, by decide +kernel⟩),
      if_neg (show ¬ "--known-facets=".toList.isPrefixOf a = true from n2 ⟨"nown-facets=".toList, by decide +kernel⟩),
      if_neg (show ¬ "--known-vertices=".toList.isPrefixOf a = true from n2 ⟨"nown-vertices=".toList, by decide +kernel⟩),
      if_neg (show ¬ ("-k".toList.isPrefixOf a || "--k".toList.isPrefixOf a) = true by
        rw [Bool.or_eq_true]
        rintro (hh | hh)
        · exact n1 ⟨[], by decide +kernel⟩ hh
        · exact n2 ⟨[], by decide +kernel⟩ hh)]
    exact hr

theorem containsKeywords_early {text : List Char} {n : Nat} : Spec.EarlyHeader n text ↔
    ((textLines text).take n).any (fun l => isKeyword (trimWhitespace l)) = true := by
  have hlines : ∀ {w l r}, Spec.FirstLine w l r → textLines w = l :: textLines r := by
    rintro w l r ⟨hl, rfl | ⟨rfl, hne, rfl⟩⟩
    · rw [textLines, linesFrom_append _ _ _ hl]; rfl
    · rw [textLines, linesFrom_last _ _ hl]; simp [hne, textLines, linesFrom]
  constructor
  · intro h
    induction h with
    | here hl hk => rw [hlines hl, List.take_succ_cons, List.any_cons, (header_keyword _).2 hk]; rfl
    | later hl _ ih => rw [hlines hl, List.take_succ_cons, List.any_cons, ih, Bool.or_true]
  · induction n generalizing text with
    | zero => intro h; simp at h
    | succ n ih =>
      intro h
      by_cases ht : text = []
      · subst ht; simp [textLines, linesFrom] at h
      obtain ⟨l, r, hl⟩ := exists_firstLine ht
      rw [hlines hl, List.take_succ_cons, List.any_cons, Bool.or_eq_true] at h
      rcases h with h | h
      · exact .here hl ((header_keyword _).1 h)
      · exact .later hl (ih h)

theorem forall₂_length {α β : Type} {R : α → β → Prop} {n m : Nat} (f : α → Nat) (g : β → Nat)
    {l : List α} {l' : List β} (h : List.Forall₂ R l l') (hn : ∀ a ∈ l, f a = n) (hR : ∀ a ∈ l, ∀ b, R a b → f a = n → g b = m) :
    ∀ b ∈ l', g b = m := by
  induction h with
  | nil => simp
  | @cons a b l l' h _ ih =>
    intro y hy
    rcases List.mem_cons.1 hy with rfl | hy
    · exact hR a (by simp) _ h (hn a (by simp))
    · exact ih (fun a ha => hn a (by simp [ha])) (fun a ha => hR a (by simp [ha])) y hy

/-- reading a file with points and rays: the rows depend only on its text (and, as to their order, on the requested sorting) -/
theorem vertices_read_all {text : List Char} {c : Spec.VertexContent} {n : Nat}
    (h20 : Spec.EarlyHeader 20 text) (h : Spec.VertexFile {} text c) (hc : c.Consistent n) :
    ∃ (points rays : Matrix) (maps : Maps), List.Forall₂ Spec.PointRow c.points points ∧ List.Forall₂ Spec.RayRow c.rays rays ∧
      List.Forall₂ (Spec.DoesImages c.names) c.maps maps ∧ (∀ r ∈ points ++ rays, ∀ x ∈ r, Spec.IsInt x) ∧
      ∀ (args : List Arg) (files : Files) (f : List Char) (order : InputOrder) (known : Matrix), Spec.CommandLine args [f] →
        "-c".toList ∉ args → "--check".toList ∉ args → files f = some text → getInputOrder args = .ok order →
        (∃ M, ∀ fuel ≥ M, knownFacets fuel files args c.names = some (.ok known)) →
        ∃ N, ∀ fuel ≥ N, inputVertices fuel files args =
          some (.ok (sortRows order rays ++ sortRows order points, c.names, maps, known)) := by
  obtain ⟨d, ⟨e1, -, e3, e4, e5, e6, i1, i2⟩, N, hN⟩ := vertexFile_reads h (d := {})
    ⟨rfl, by intro x hx; simp at hx, .nil, .nil, .nil, rfl, by intro r hr; simp at hr, by intro r hr; simp at hr⟩
  obtain ⟨c1, c2, c3, c4, c5⟩ := hc
  refine ⟨d.conv, d.cone, d.maps, e4, e5, e3, fun r hr => (List.mem_append.1 hr).elim (i1 r) (i2 r), fun args files f order known ha hc1 hc2 hf ho hk => ?_⟩
  obtain ⟨M, hk⟩ := hk
  refine ⟨max M N, fun fuel hfu => ?_⟩
  have hcons : Spec.ConsistentVertices d.conv d.cone d.names (d.maps.map List.length) d.dimension := by
    refine ⟨?_, n + 1, ?_, ?_, ?_, ?_, ?_⟩
    · rcases c1 with h | h
      · left; intro h0; rw [h0] at e4; exact h (List.forall₂_nil_right_iff.1 e4)
      · right; intro h0; rw [h0] at e5; exact h (List.forall₂_nil_right_iff.1 e5)
    · exact forall₂_length (n := n) List.length List.length e4 c2 (fun a _ b hb hn => by rw [hb.1, hn])
    · exact forall₂_length (n := n) List.length List.length e5 c3 (fun a _ b hb hn => by rw [hb.1, hn])
    · intro k hk
      obtain ⟨m, hm, rfl⟩ := List.mem_map.1 hk
      exact forall₂_length (n := c.names.length) (fun _ => c.names.length) List.length e3 (fun _ _ => rfl)
        (fun a ha b hb _ => by rw [hb.1.1, c4 (Or.inr (List.ne_nil_of_mem ha))]) m hm
    · intro hne; rw [e1] at hne ⊢; rw [c4 (Or.inl hne)]
    · intro k hk; rw [e6] at hk; rw [c5 k hk]
  unfold inputVertices
  rw [(C55_filename ha).1 f rfl]
  simp only [Run.bind, hf]
  rw [if_neg (by rw [show containsKeywords text = true from containsKeywords_early.1 h20]; simp), checkOption_absent hc1 hc2,
    vertexFileLoop_eq, hN fuel (le_trans (le_max_right _ _) hfu)]
  simp only
  unfold assembleVertices
  rw [(C48_vertices _ _ _ _ _).1 hcons]
  simp only [sort, ho, Outcome.bind]
  rw [e1, hk fuel (le_trans (le_max_left _ _) hfu)]
  simp [Run.bind]

/-- the same for one run -/
theorem vertices_read {args : List Arg} {f text : List Char} {files : Files} {order : InputOrder} {c : Spec.VertexContent} {n : Nat} {known : Matrix}
    (ha : Spec.CommandLine args [f]) (hc1 : "-c".toList ∉ args) (hc2 : "--check".toList ∉ args) (hf : files f = some text)
    (ho : getInputOrder args = .ok order) (h20 : Spec.EarlyHeader 20 text) (h : Spec.VertexFile {} text c) (hc : c.Consistent n)
    (hk : ∃ M, ∀ fuel ≥ M, knownFacets fuel files args c.names = some (.ok known)) :
    ∃ (points rays : Matrix) (maps : Maps), List.Forall₂ Spec.PointRow c.points points ∧ List.Forall₂ Spec.RayRow c.rays rays ∧
      List.Forall₂ (Spec.DoesImages c.names) c.maps maps ∧ (∀ r ∈ points ++ rays, ∀ x ∈ r, Spec.IsInt x) ∧
      ∃ N, ∀ fuel ≥ N, inputVertices fuel files args =
        some (.ok (sortRows order rays ++ sortRows order points, c.names, maps, known)) := by
  obtain ⟨P, R, maps, h1, h2, h3, h4, h5⟩ := vertices_read_all h20 h hc
  exact ⟨P, R, maps, h1, h2, h3, h4, h5 args files f order known ha hc1 hc2 hf ho hk⟩

/-- **C57** A file with points and rays in the documented format (sections in any order, names before maps) with a header
among its first twenty lines: the rows handed to the algorithms are the rays, then the points, each sorted as requested;
all entries are in the range of `int`; the names are those of the file, and the maps do what their lines say. -/
theorem C57_vertices {args : List Arg} {f text : List Char} {files : Files} {order : InputOrder} {c : Spec.VertexContent} {n : Nat}
    (ha : Spec.PlainCommand args f) (hf : files f = some text) (ho : getInputOrder args = .ok order)
    (h20 : Spec.EarlyHeader 20 text) (h : Spec.VertexFile {} text c) (hc : c.Consistent n) :
    ∃ (points rays : Matrix) (maps : Maps), List.Forall₂ Spec.PointRow c.points points ∧ List.Forall₂ Spec.RayRow c.rays rays ∧
      List.Forall₂ (Spec.DoesImages c.names) c.maps maps ∧ (∀ r ∈ points ++ rays, ∀ x ∈ r, Spec.IsInt x) ∧
      ∃ N, ∀ fuel ≥ N, inputVertices fuel files args =
        some (.ok (sortRows order rays ++ sortRows order points, c.names, maps, [])) := by
  refine vertices_read ha.1 ha.2.1 ha.2.2.1 hf ho h20 h hc ⟨0, fun fuel _ => ?_⟩
  unfold knownFacets
  rw [known_absent true args ha.2.2.2]
  simp [Run.bind]

/-! ## files with inequalities and equations -/

/-- what has been read agrees with the content, and every constraint could be read -/
def IHolds (c : Spec.InequalityContent) (d : InequalityData) : Prop :=
  d.names = c.names ∧ (∀ x ∈ c.names, isKeyword x = false) ∧ List.Forall₂ (Spec.DoesImages c.names) c.maps d.maps ∧
    List.Forall₂ (Spec.Constraint.HasRow c.names) c.inequalities d.inequalities ∧
    List.Forall₂ (Spec.Constraint.HasRow c.names) c.equations d.equations ∧ d.dimension = c.dimension ∧
    (∀ a ∈ c.inequalities, ∃ t, Spec.ConstraintText false c.names t a) ∧ ∀ a ∈ c.equations, ∃ t, Spec.ConstraintText true c.names t a

theorem inequalitySection_end (fuel : Nat) (k : List Char) (s : Stream) (d : InequalityData) (h : isKeywordEnd k = true) :
    inequalitySection false fuel k s d = some (.ok ((getLine s).1, d)) := by
  obtain ⟨h1, h2, h3, -, -, -, -, h4, h5, h6⟩ := (header_kind (end_keyword h)).2.2.2.2.2.2.2.2.2 h
  unfold inequalitySection
  simp only [h1, h2, h3, h4, h5, h6, Bool.false_eq_true, if_false]

theorem constraintText_read {equation : Bool} {names : Names} {t : List Char} {a : Spec.Constraint}
    (h : Spec.ConstraintText equation names t a) :
    isKeyword (trimWhitespace t) = false ∧ trimWhitespace t ≠ [] ∧ ∀ w, ∃ row,
      potentiallyNamedConstraint equation names ⟨t ++ '\n' :: w, false, false⟩ = .ok (⟨'\n' :: w, false, false⟩, row) ∧
        row ≠ [] ∧ a.HasRow names row := by
  cases a with
  | named terms rel rhs =>
    obtain ⟨⟨h1, h2⟩, h3⟩ := h
    exact namedLine_read (c := (terms, rel, rhs)) h1 h2 h3
  | unnamed xs rel rhs =>
    obtain ⟨rfl, h1, h2, h3, h4⟩ := h
    have hl := h1
    obtain ⟨l, s, r, n, b, hl, hs, hre, hnu, hb, rfl⟩ := hl
    have ht := number_line_trim (u := l ++ (s ++ r)) hnu hb
    simp only [List.append_assoc] at ht
    refine ⟨ht.1, ht.2, fun w => ⟨xs.map (rel.sign * ·) ++ [rel.sign * (-rhs)], ?_, by simp, rfl⟩⟩
    unfold potentiallyNamedConstraint
    rw [if_pos (Or.inl rfl), C42_unnamed h1 h2 h3 (Or.inr rfl), if_pos h4]
  | raw row =>
    obtain ⟨rfl, h1, h2⟩ := h
    exact rawLine_read h1 h2

theorem lines_all {α : Type} {P : List Char → α → Prop} {t : List Char} {l : List α} (h : Spec.Lines P t l) :
    ∀ a ∈ l, ∃ t, P t a := by
  induction h with
  | nil => intro a ha; simp at ha
  | blank _ _ ih => exact ih
  | line hp _ _ _ ih =>
    intro a ha
    rcases List.mem_cons.1 ha with rfl | ha
    · exact ⟨_, hp⟩
    · exact ih a ha

theorem forall₂_nil {α β : Type} {R : α → β → Prop} {l : List α} {m : List β} (h : List.Forall₂ R l m) (hl : l = []) : m = [] := by
  subst hl; cases h; rfl

theorem inequalityFile_reads {c c' : Spec.InequalityContent} {text : List Char} (h : Spec.InequalityFile c text c') :
    ∀ {d : InequalityData}, IHolds c d → ∃ d', IHolds c' d' ∧ Reads (inequalitySection false) ⟨text, false, false⟩ d d' := by
  induction h with
  | nil => intro d hd; exact ⟨d, hd, reads_nil false d⟩
  | @other c c' w l r hl hh _ ih =>
    intro d hd
    obtain ⟨d', h1, h2⟩ := ih hd
    refine ⟨d', h1, ?_⟩
    by_cases hk : isKeyword (trimWhitespace l) = true
    · refine reads_other hl hk (fun fuel s => ?_) h2
      have hn : ∀ {ws : List String}, (∀ k ∈ ws, k ∈ Spec.inequalityFileWords) → ¬ Spec.Header ws l := fun h h' => hh (h'.mono h)
      unfold inequalitySection
      rw [if_neg (by rw [header_dimension]; exact hn (by decide +kernel)), if_neg (by rw [header_names]; exact hn (by decide +kernel)),
        if_neg (by rw [header_maps]; exact hn (by decide +kernel)), if_neg (by rw [header_equations]; exact hn (by decide +kernel)),
        if_neg (by rw [header_inequalities]; exact hn (by decide +kernel)),
        if_neg (by rw [header_reducedInequalities]; exact hn (by decide +kernel))]
    · exact reads_skip hl (by simpa using hk) h2
  | @names c c' k t w names hk hkw ht hw hm hi he _ ih =>
    intro d hd
    obtain ⟨e1, e2, e3, e4, e5, e6, e7, e8⟩ := hd
    obtain ⟨d', h1, h2⟩ := ih (d := { d with names := names }) ⟨rfl, namesBody_keyword ht, by
        show List.Forall₂ _ c.maps d.maps
        rw [hm, forall₂_nil e3 hm]; exact .nil, by
        show List.Forall₂ _ c.inequalities d.inequalities
        rw [hi, forall₂_nil e4 hi]; exact .nil, by
        show List.Forall₂ _ c.equations d.equations
        rw [he, forall₂_nil e5 he]; exact .nil, e6, by
        show ∀ a ∈ c.inequalities, _
        rw [hi]; simp, by
        show ∀ a ∈ c.equations, _
        rw [he]; simp⟩
    refine ⟨d', h1, ?_⟩
    have hkn := (header_names k).2 hkw
    have hkk := (header_keyword k).2 (hkw.mono (by decide +kernel))
    obtain ⟨ws, s, g1, g2, g3, g4⟩ := readNames_body hk hkn (sectionRest_end hw).section ht
    refine reads_section (firstLine_line hk) hkk ⟨0, fun fuel _ => ?_⟩ (reads_after_names g2 g3 g4 h2)
    unfold inequalitySection
    simp only [(header_kind hkk).1 hkn, hkn, Bool.false_eq_true, if_false, if_true, g1, Run.bind]
  | @maps c c' k t w maps hk hkw ht hw _ ih =>
    intro d hd
    obtain ⟨e1, e2, e3, e4, e5, e6, e7, e8⟩ := hd
    have hkn := (header_maps k).2 hkw
    have hkk := (header_keyword k).2 (hkw.mono (by decide +kernel))
    obtain ⟨N, hN⟩ := C53_sections e2 ht hk hkn (sectionRest_end hw)
    obtain ⟨⟨s, ms⟩, ⟨hP1, hP2⟩, M, hM⟩ := run_fixed (f := fun fuel => readMaps c.names fuel ⟨k ++ '\n' :: (t ++ w), false, false⟩)
      (fun n r => readMaps_mono _ _ n r)
      (P := fun a => List.Forall₂ (Spec.DoesImages c.names) maps a.2 ∧
        Spec.AfterSection w a.1.rest a.1.eof a.1.fail (fun k => isKeywordEnd (firstWord k)))
      ⟨N, fun fuel hf => by obtain ⟨s, ms, h1, h2, h3⟩ := hN fuel hf; exact ⟨(s, ms), h1, h2, h3⟩⟩
    obtain ⟨d', h1, h2⟩ := ih (d := { d with maps := ms }) ⟨e1, e2, hP1, e4, e5, e6, e7, e8⟩
    refine ⟨d', h1, reads_section (firstLine_line hk) hkk ⟨M, fun fuel hf => ?_⟩
      (reads_after (sectionRest_end hw).section (fun fuel k s hk => inequalitySection_end fuel k s _ hk) hP2 h2)⟩
    unfold inequalitySection
    obtain ⟨n1, n2⟩ := (header_kind hkk).2.1 hkn
    simp only [n1, n2, hkn, Bool.false_eq_true, if_false, if_true, e1, hM fuel hf, Run.bind]
  | @equations c c' k t w cs hk hkw ht hw _ ih =>
    intro d hd
    obtain ⟨e1, e2, e3, e4, e5, e6, e7, e8⟩ := hd
    have hkn := (header_equations k).2 hkw
    have hkk := (header_keyword k).2 (hkw.mono (by decide +kernel))
    obtain ⟨N, hN⟩ := constraints_lines (P := Spec.ConstraintText true c.names) (R := Spec.Constraint.HasRow c.names)
      (fun t a h => constraintText_read (equation := true) h) ht hk
      (by unfold sectionKeyword; simpa using hkn) (sectionRest_end hw)
    obtain ⟨⟨s, rows⟩, ⟨hP1, hP2⟩, M, hM⟩ := run_fixed (f := fun fuel => constraints true c.names fuel ⟨k ++ '\n' :: (t ++ w), false, false⟩)
      (fun n r => constraints_mono _ _ _ n r)
      (P := fun a => List.Forall₂ (Spec.Constraint.HasRow c.names) cs a.2 ∧
        Spec.AfterSection w a.1.rest a.1.eof a.1.fail (fun k => isKeywordEnd (firstWord k)))
      ⟨N, fun fuel hf => by obtain ⟨s, ms, h1, h2, h3⟩ := hN fuel hf; exact ⟨(s, ms), h1, h2, h3⟩⟩
    obtain ⟨d', h1, h2⟩ := ih (d := { d with equations := rows }) ⟨e1, e2, e3, e4, hP1, e6, e7, lines_all ht⟩
    refine ⟨d', h1, reads_section (firstLine_line hk) hkk ⟨M, fun fuel hf => ?_⟩
      (reads_after (sectionRest_end hw).section (fun fuel k s hk => inequalitySection_end fuel k s _ hk) hP2 h2)⟩
    unfold inequalitySection
    obtain ⟨n1, n2, n3⟩ := (header_kind hkk).2.2.2.2.2.2.1 hkn
    simp only [n1, n2, n3, hkn, Bool.false_eq_true, if_false, if_true, e1, hM fuel hf, Run.bind]
  | @inequalities c c' k t w cs hk hkw ht hw _ ih =>
    intro d hd
    obtain ⟨e1, e2, e3, e4, e5, e6, e7, e8⟩ := hd
    have hkn := (header_inequalities k).2 hkw
    have hkk := (header_keyword k).2 (hkw.mono (by decide +kernel))
    obtain ⟨N, hN⟩ := constraints_lines (P := Spec.ConstraintText false c.names) (R := Spec.Constraint.HasRow c.names)
      (fun t a h => constraintText_read (equation := false) h) ht hk
      (by unfold sectionKeyword; simp [hkn]) (sectionRest_end hw)
    obtain ⟨⟨s, rows⟩, ⟨hP1, hP2⟩, M, hM⟩ := run_fixed (f := fun fuel => constraints false c.names fuel ⟨k ++ '\n' :: (t ++ w), false, false⟩)
      (fun n r => constraints_mono _ _ _ n r)
      (P := fun a => List.Forall₂ (Spec.Constraint.HasRow c.names) cs a.2 ∧
        Spec.AfterSection w a.1.rest a.1.eof a.1.fail (fun k => isKeywordEnd (firstWord k)))
      ⟨N, fun fuel hf => by obtain ⟨s, ms, h1, h2, h3⟩ := hN fuel hf; exact ⟨(s, ms), h1, h2, h3⟩⟩
    obtain ⟨d', h1, h2⟩ := ih (d := { d with inequalities := rows }) ⟨e1, e2, e3, hP1, e5, e6, lines_all ht, e8⟩
    refine ⟨d', h1, reads_section (firstLine_line hk) hkk ⟨M, fun fuel hf => ?_⟩
      (reads_after (sectionRest_end hw).section (fun fuel k s hk => inequalitySection_end fuel k s _ hk) hP2 h2)⟩
    unfold inequalitySection
    obtain ⟨n1, n2, n3, n4⟩ := (header_kind hkk).2.2.2.2.2.2.2.1 hkn
    simp only [n1, n2, n3, n4, hkn, Bool.false_eq_true, if_false, if_true, e1, hM fuel hf, Run.bind]
  | @dimension c c' k b n b' w hk hkw hb hb' hn hd0 hv _ ih =>
    intro d hd
    obtain ⟨e1, e2, e3, e4, e5, e6, e7, e8⟩ := hd
    obtain ⟨d', h1, h2⟩ := ih (d := { d with dimension := some (Spec.decimal n) }) ⟨e1, e2, e3, e4, e5, rfl, e7, e8⟩
    have hkn := (header_dimension k).2 (hkw.mono (by decide +kernel))
    have hkk := (header_keyword k).2 (hkw.mono (by decide +kernel))
    have hbn := blanks_no_newline hb'
    refine ⟨d', h1, reads_section (firstLine_line hk) hkk ⟨0, fun fuel hf => ?_⟩
      (reads_skip (firstLine_line hbn) (by rw [trim_blanks hb']; exact isKeyword_nil) h2)⟩
    unfold inequalitySection
    simp only [hkn, if_true, readDimension_line hkw hb hb' hn hd0 hv, Run.bind]

/-! ### what the rows of constraints mean -/

theorem value_rowHolds {names : Names} {row : Row} {n : Nat} (hn : names.length = n) (hd : names.Nodup) (equation : Bool) (p : Fin n → ℚ) :
    Spec.rowHolds equation names row (Spec.valuation names p) ↔
      if equation then Spec.value n row p = 0 else Spec.value n row p ≤ 0 := by
  subst hn
  have : ∀ j : Fin names.length, Spec.valuation names p names[j] = p j := by
    intro j
    unfold Spec.valuation
    have hj : names.idxOf names[(j : Nat)] = j := hd.idxOf_getElem j j.2
    simp only [Fin.getElem_fin, hj, Fin.eta, Fin.is_lt, dif_pos]
  unfold Spec.rowHolds Spec.value
  simp only [this]

theorem unnamed_value {n : Nat} {xs : Row} {rel : Spec.Rel} {rhs : Int} (hs' : xs.length = n) (p : Fin n → ℚ) :
    Spec.value n (xs.map (rel.sign * ·) ++ [rel.sign * (-rhs)]) p = (rel.sign : ℚ) * (∑ j : Fin n, (xs.getD j 0 : ℚ) * p j - rhs) := by
  unfold Spec.value
  rw [mul_sub, Finset.mul_sum]
  have e : (xs.map (rel.sign * ·) ++ [rel.sign * (-rhs)]).getD n 0 = rel.sign * (-rhs) := by
    rw [List.getD_eq_getElem?_getD, List.getElem?_append_right (by simp [hs'])]; simp [hs']
  rw [e]
  push_cast
  rw [sub_eq_add_neg]
  congr 1
  · refine Finset.sum_congr rfl fun j _ => ?_
    have hj : (j : Nat) < xs.length := by rw [hs']; exact j.2
    rw [List.getD_eq_getElem?_getD, List.getElem?_append_left (by simpa using hj), List.getElem?_map,
      List.getD_eq_getElem?_getD, List.getElem?_eq_getElem hj]
    simp only [Option.map_some, Option.getD_some]
    push_cast
    ring
  · ring

theorem hasRow_meaning {equation : Bool} {names : Names} {t : List Char} {a : Spec.Constraint} {row : Row} {n : Nat}
    (ht : Spec.ConstraintText equation names t a) (hr : a.HasRow names row) (hs : a.HasSize names n) (p : Fin n → ℚ) :
    row.length = n + 1 ∧ ((if equation then Spec.value n row p = 0 else Spec.value n row p ≤ 0) ↔ a.HoldsAt equation names p) := by
  cases a with
  | named terms rel rhs =>
    obtain ⟨⟨h1, h2⟩, -, -, h3, -, -, h4⟩ := ht
    have hs' : names.length = n := hs
    refine ⟨by rw [hr.1, hs'], ?_⟩
    rw [← value_rowHolds hs' h1.1 equation p]
    exact C42_meaning hr h1.1 (fun q hq => (h3 q hq).1) h4 _
  | unnamed xs rel rhs =>
    obtain ⟨rfl, -, -, -, h4⟩ := ht
    have hs' : xs.length = n := hs
    have hr' : row = xs.map (rel.sign * ·) ++ [rel.sign * (-rhs)] := hr
    subst hr'
    refine ⟨by simp [hs'], ?_⟩
    have hv := unnamed_value (rel := rel) (rhs := rhs) hs' p
    rw [hv]
    show _ ↔ rel.holds _ _
    cases rel with
    | le =>
      have he : equation = false := by simpa using h4
      simp only [he, Bool.false_eq_true, if_false, Spec.Rel.sign, Spec.Rel.holds]
      push_cast
      constructor <;> intro h <;> linarith
    | ge =>
      have he : equation = false := by simpa using h4
      simp only [he, Bool.false_eq_true, if_false, Spec.Rel.sign, Spec.Rel.holds]
      push_cast
      constructor <;> intro h <;> linarith
    | eq =>
      have he : equation = true := by simpa using h4
      simp only [he, if_true, Spec.Rel.sign, Spec.Rel.holds]
      push_cast
      constructor <;> intro h <;> linarith
  | raw r =>
    have hr' : row = r := hr
    subst hr'
    exact ⟨hs, Iff.rfl⟩

theorem coefficient_symmetric : ∀ {terms : List (List Char × Int)}, (∀ q ∈ terms, Spec.Symmetric q.2) → ¬ Spec.Repeated terms →
    ∀ x, Spec.Symmetric (Spec.coefficient terms x)
  | [], _, _, x => by simp [Spec.coefficient, Spec.Symmetric]
  | (y, c) :: l, h, hr, x => by
    have hr' : ¬ Spec.Repeated l := fun h => hr (Or.inr h)
    have ih := coefficient_symmetric (fun q hq => h q (by simp [hq])) hr' x
    rw [coefficient_cons]
    by_cases hx : y = x
    · subst hx
      rw [if_pos rfl]
      by_cases hc : c = 0
      · rw [hc, zero_add]; exact ih
      · have : Spec.coefficient l y = 0 := by
          unfold Spec.coefficient
          have : (l.filter fun q => decide (q.1 = y)) = [] := by
            rw [List.filter_eq_nil_iff]
            intro q hq
            simp only [decide_eq_true_eq]
            exact fun e => hr (Or.inl ⟨hc, q, hq, e⟩)
          rw [this]; rfl
        rw [this, add_zero]; exact h (y, c) (by simp)
    · rw [if_neg hx, zero_add]; exact ih

theorem hasRow_range {equation : Bool} {names : Names} {t : List Char} {a : Spec.Constraint} {row : Row}
    (ht : Spec.ConstraintText equation names t a) (hr : a.HasRow names row) :
    ∀ x ∈ row, Spec.Symmetric x ∨ (a = .raw row ∧ Spec.IsInt x) := by
  have hsym : ∀ (rel : Spec.Rel) {x : Int}, Spec.Symmetric x → Spec.Symmetric (rel.sign * x) := by
    intro rel x hx
    unfold Spec.Symmetric at *
    cases rel <;> simp only [Spec.Rel.sign] <;> omega
  have hneg : ∀ {x : Int}, Spec.Symmetric x → Spec.Symmetric (-x) := by
    intro x hx; unfold Spec.Symmetric at *; omega
  intro x hx
  cases a with
  | named terms rel rhs =>
    obtain ⟨-, -, -, h3, h5, h6, -⟩ := ht
    obtain ⟨r1, r2, r3⟩ := hr
    obtain ⟨j, hj, rfl⟩ := List.getElem_of_mem hx
    have e : row[j] = row.getD j 0 := by
      rw [List.getD_eq_getElem?_getD, List.getElem?_eq_getElem hj, Option.getD_some]
    rw [e]
    rcases Nat.lt_or_ge j names.length with hlt | hge
    · rw [r2 j hlt]
      exact Or.inl (hsym rel (coefficient_symmetric (fun q hq => (h3 q hq).2) h6 _))
    · obtain rfl : j = names.length := by omega
      rw [r3]
      exact Or.inl (hsym rel (hneg h5))
  | unnamed xs rel rhs =>
    obtain ⟨-, -, h1, h2, -⟩ := ht
    have hr' : row = xs.map (rel.sign * ·) ++ [rel.sign * (-rhs)] := hr
    subst hr'
    rcases List.mem_append.1 hx with hx | hx
    · obtain ⟨y, hy, rfl⟩ := List.mem_map.1 hx
      exact Or.inl (hsym rel (h1 y hy))
    · rw [List.mem_singleton.1 hx]
      exact Or.inl (hsym rel (hneg h2))
  | raw r =>
    have hr' : row = r := hr
    subst hr'
    exact Or.inr ⟨rfl, ht.2.2 x hx⟩

theorem hasRow_min {equation : Bool} {names : Names} {t : List Char} {a : Spec.Constraint} {row : Row}
    (ht : Spec.ConstraintText equation names t a) (hr : a.HasRow names row)
    (hm : ∀ r, a = .raw r → (-2147483648 : Int) ∉ r) : ∀ x ∈ row, x ≠ -2147483648 := by
  intro x hx
  rcases hasRow_range ht hr x hx with h | ⟨h, -⟩
  · unfold Spec.Symmetric at h; omega
  · intro e; rw [e] at hx; exact hm _ h hx

theorem hasRow_int {equation : Bool} {names : Names} {t : List Char} {a : Spec.Constraint} {row : Row}
    (ht : Spec.ConstraintText equation names t a) (hr : a.HasRow names row) : ∀ x ∈ row, Spec.IsInt x := by
  intro x hx
  rcases hasRow_range ht hr x hx with h | ⟨-, h⟩
  · unfold Spec.Symmetric at h; unfold Spec.IsInt; omega
  · exact h

theorem forall₂_right {α β : Type} {R : α → β → Prop} {P : α → Prop} {l : List α} {m : List β} (h : List.Forall₂ R l m)
    (hP : ∀ a ∈ l, P a) : ∀ b ∈ m, ∃ a ∈ l, P a ∧ R a b := by
  induction h with
  | nil => intro b hb; simp at hb
  | cons hab _ ih =>
    intro y hy
    rcases List.mem_cons.1 hy with rfl | hy
    · exact ⟨_, by simp, hP _ (by simp), hab⟩
    · obtain ⟨a, h1, h2⟩ := ih (fun a ha => hP a (by simp [ha])) y hy
      exact ⟨a, by simp [h1], h2⟩

theorem forall₂_left {α β : Type} {R : α → β → Prop} {l : List α} {m : List β} (h : List.Forall₂ R l m) :
    ∀ a ∈ l, ∃ b ∈ m, R a b := by
  induction h with
  | nil => intro b hb; simp at hb
  | cons hab _ ih =>
    intro y hy
    rcases List.mem_cons.1 hy with rfl | hy
    · exact ⟨_, by simp, hab⟩
    · obtain ⟨a, h1, h2⟩ := ih y hy
      exact ⟨a, by simp [h1], h2⟩

theorem rows_meaning {equation : Bool} {names : Names} {cs : List Spec.Constraint} {rows : Matrix} {n : Nat}
    (h : List.Forall₂ (Spec.Constraint.HasRow names) cs rows) (ht : ∀ a ∈ cs, ∃ t, Spec.ConstraintText equation names t a)
    (hs : ∀ a ∈ cs, a.HasSize names n) (p : Fin n → ℚ) :
    (∀ r ∈ rows, if equation then Spec.value n r p = 0 else Spec.value n r p ≤ 0) ↔ ∀ a ∈ cs, a.HoldsAt equation names p := by
  constructor
  · intro hh a ha
    obtain ⟨r, hr, har⟩ := forall₂_left h a ha
    obtain ⟨t, ht⟩ := ht a ha
    exact (hasRow_meaning ht har (hs a ha) p).2.1 (hh r hr)
  · intro hh r hr
    obtain ⟨a, ha, ⟨t, ht⟩, har⟩ := forall₂_right h ht r hr
    exact (hasRow_meaning ht har (hs a ha) p).2.2 (hh a ha)

/-- **C57** A file with inequalities and equations in the documented format with a header among its first twenty lines: the
rows handed to the algorithms have entries in the range of `int` and as solutions exactly the points that satisfy all constraints of the file; the names are those of
the file and the maps do what their lines say. -/
theorem C57_inequalities {args : List Arg} {f text : List Char} {files : Files} {order : InputOrder} {c : Spec.InequalityContent} {n : Nat}
    (ha : Spec.PlainCommand args f) (hf : files f = some text) (ho : getInputOrder args = .ok order)
    (h20 : Spec.EarlyHeader 20 text) (h : Spec.InequalityFile {} text c) (hc : c.Consistent n) :
    ∃ (A : Matrix) (maps : Maps), (∀ a ∈ A, a.length = n + 1) ∧ (∀ a ∈ A, ∀ x ∈ a, Spec.IsInt x) ∧ List.replicate n 0 ++ [-1] ∈ A ∧
      (∀ p : Fin n → ℚ, Spec.Solves n A p ↔
        (∀ a ∈ c.inequalities, a.HoldsAt false c.names p) ∧ ∀ a ∈ c.equations, a.HoldsAt true c.names p) ∧
      List.Forall₂ (Spec.DoesImages c.names) c.maps maps ∧
      ∃ N, ∀ fuel ≥ N, inputInequalities fuel files args = some (.ok (A, c.names, maps, [])) := by
  obtain ⟨d, ⟨e1, -, e3, e4, e5, e6, e7, e8⟩, N, hN⟩ := inequalityFile_reads h (d := {})
    ⟨rfl, by intro x hx; simp at hx, .nil, .nil, .nil, rfl, by intro x hx; simp at hx, by intro x hx; simp at hx⟩
  obtain ⟨c1, c2, c3, c4, c5, c6⟩ := hc
  have l1 : ∀ r ∈ d.inequalities, r.length = n + 1 := by
    intro r hr
    obtain ⟨a, ha, ⟨t, ht⟩, har⟩ := forall₂_right e4 e7 r hr
    exact (hasRow_meaning ht har (c2 a ha) 0).1
  have l2 : ∀ r ∈ d.equations, r.length = n + 1 := by
    intro r hr
    obtain ⟨a, ha, ⟨t, ht⟩, har⟩ := forall₂_right e5 e8 r hr
    exact (hasRow_meaning ht har (c3 a ha) 0).1
  have l3 : ∀ r ∈ d.equations, ∀ x ∈ r, x ≠ -2147483648 := by
    intro r hr
    obtain ⟨a, ha, ⟨t, ht⟩, har⟩ := forall₂_right e5 e8 r hr
    exact hasRow_min ht har fun r' e => c6 r' (e ▸ ha)
  have hcons : Spec.ConsistentInequalities d.inequalities d.names d.dimension := by
    refine ⟨?_, n + 1, l1, ?_, ?_⟩
    · intro h0; rw [h0] at e4; exact c1 (List.forall₂_nil_right_iff.1 e4)
    · intro hne; rw [e1] at hne ⊢; rw [c4 hne]
    · intro k hk; rw [e6] at hk; rw [c5 k hk]
  have i1 : ∀ r ∈ d.inequalities, ∀ x ∈ r, Spec.IsInt x := by
    intro r hr
    obtain ⟨a, ha, ⟨t, ht⟩, har⟩ := forall₂_right e4 e7 r hr
    exact hasRow_int ht har
  have i2 : ∀ r ∈ d.equations, ∀ x ∈ r, Spec.IsInt x := by
    intro r hr
    obtain ⟨a, ha, ⟨t, ht⟩, har⟩ := forall₂_right e5 e8 r hr
    exact hasRow_int ht har
  obtain ⟨A, a1, a2, a3, a4, a5⟩ := C46_assembled ho hcons l1 l2 l3
  refine ⟨A, d.maps, a2, ?_, a3, fun p => ?_, e3, N, fun fuel hfu => ?_⟩
  · intro a ha x hx
    rcases a5 a ha with h | ⟨e, he, rfl | rfl⟩ | rfl
    · exact i1 a h x hx
    · exact i2 _ he x hx
    · obtain ⟨y, hy, rfl⟩ := List.mem_map.1 hx
      have := i2 e he y hy
      have := l3 e he y hy
      unfold Spec.IsInt at *; omega
    · rcases List.mem_append.1 hx with hx | hx
      · rw [(List.mem_replicate.1 hx).2]; unfold Spec.IsInt; decide
      · rw [List.mem_singleton.1 hx]; unfold Spec.IsInt; decide
  · rw [a4 p, ← rows_meaning e4 e7 c2 p, ← rows_meaning e5 e8 c3 p]
    simp only [Bool.false_eq_true, if_false, if_true]
  · unfold inputInequalities
    rw [(C55_filename ha.1).1 f rfl]
    simp only [Run.bind, hf]
    rw [if_neg (by rw [show containsKeywords text = true from containsKeywords_early.1 h20]; simp), checkOption_plain ha,
      inequalityFileLoop_eq, hN fuel hfu]
    simp only [a1]
    unfold knownVertices
    rw [known_absent false args ha.2.2.2]
    simp [Run.bind, e1]

end Panda
