import Verif.Proofs.MapNormExact

/-! # When normalising a map is defined -/

namespace Panda

/-- all equations on one image -/
def foldImage : Image → List Row → Outcome Image
  | im, [] => .ok im
  | im, e :: es => (subtractEquationImage (firstNonzero e) e im).bind fun im' => foldImage im' es

theorem Outcome.bind_ok_iff {α β : Type} {x : Outcome α} {f : α → Outcome β} {b : β} :
    x.bind f = .ok b ↔ ∃ a, x = .ok a ∧ f a = .ok b := by
  cases x <;> simp [Outcome.bind]

theorem subtractEquation_forall {k : Nat} {e : Row} : ∀ {m m' : SymMap},
    subtractEquation k e m = .ok m' ↔ List.Forall₂ (fun im im' => subtractEquationImage k e im = .ok im') m m'
  | [], m' => by
    rw [subtractEquation, List.forall₂_nil_left_iff]
    simp [eq_comm]
  | im :: ims, m' => by
    rw [subtractEquation, Outcome.bind_ok_iff, List.forall₂_cons_left_iff]
    constructor
    · rintro ⟨im', h1, h2⟩
      obtain ⟨ims', h3, h4⟩ := Outcome.bind_ok_iff.1 h2
      simp only [Outcome.ok.injEq] at h4
      exact ⟨im', ims', h1, subtractEquation_forall.1 h3, h4.symm⟩
    · rintro ⟨im', ims', h1, h2, rfl⟩
      exact ⟨im', h1, Outcome.bind_ok_iff.2 ⟨ims', subtractEquation_forall.2 h2, rfl⟩⟩

theorem subtractEquations_forall : ∀ {E : List Row} {m m' : SymMap},
    subtractEquations m E = .ok m' ↔ List.Forall₂ (fun im im' => foldImage im E = .ok im') m m'
  | [], m, m' => by
    simp only [subtractEquations, foldImage, Outcome.ok.injEq]
    rw [List.forall₂_eq_eq_eq]
  | e :: E, m, m' => by
    rw [subtractEquations, Outcome.bind_ok_iff]
    simp only [foldImage, Outcome.bind_ok_iff]
    constructor
    · rintro ⟨m1, h1, h2⟩
      have h1 := subtractEquation_forall.1 h1
      have h2 := subtractEquations_forall.1 h2
      clear * - h1 h2
      induction h1 generalizing m' with
      | nil => cases h2; exact .nil
      | cons a _ ih =>
        cases h2 with
        | cons b t => exact .cons ⟨_, a, b⟩ (ih _ t)
    · intro h
      obtain ⟨m1, h1, h2⟩ : ∃ m1, List.Forall₂ (fun im im' => subtractEquationImage (firstNonzero e) e im = .ok im') m m1 ∧
          List.Forall₂ (fun im im' => foldImage im E = .ok im') m1 m' := by
        clear * - h
        induction h with
        | nil => exact ⟨[], .nil, .nil⟩
        | cons a _ ih =>
          obtain ⟨x, x1, x2⟩ := a
          obtain ⟨m1, y1, y2⟩ := ih
          exact ⟨x :: m1, .cons x1 y1, .cons x2 y2⟩
      exact ⟨m1, subtractEquation_forall.2 h1, subtractEquations_forall.2 h2⟩

theorem normDef_forall₂_exists {α β : Type} {R : α → β → Prop} : ∀ {l : List α}, (∀ a ∈ l, ∃ b, R a b) → ∃ l', List.Forall₂ R l l'
  | [], _ => ⟨[], .nil⟩
  | a :: l, h => by
    obtain ⟨b, hb⟩ := h a (by simp)
    obtain ⟨l', hl⟩ := normDef_forall₂_exists (l := l) fun x hx => h x (by simp [hx])
    exact ⟨b :: l', .cons hb hl⟩

theorem normDef_forall₂_left {α β : Type} {R : α → β → Prop} {l : List α} {l' : List β} (h : List.Forall₂ R l l') : ∀ a ∈ l, ∃ b ∈ l', R a b := by
  induction h with
  | nil => simp
  | cons hab _ ih =>
    intro x hx
    rcases List.mem_cons.1 hx with rfl | hx
    · exact ⟨_, by simp, hab⟩
    · obtain ⟨b, hb, hr⟩ := ih x hx
      exact ⟨b, by simp [hb], hr⟩

theorem normDef_forall₂_right {α β : Type} {R : α → β → Prop} {l : List α} {l' : List β} (h : List.Forall₂ R l l') : ∀ b ∈ l', ∃ a ∈ l, R a b := by
  induction h with
  | nil => simp
  | cons hab _ ih =>
    intro x hx
    rcases List.mem_cons.1 hx with rfl | hx
    · exact ⟨_, by simp, hab⟩
    · obtain ⟨b, hb, hr⟩ := ih x hx
      exact ⟨b, by simp [hb], hr⟩

theorem foldImage_nil : ∀ E : List Row, foldImage [] E = .ok []
  | [] => rfl
  | e :: E => by rw [foldImage, subtractEquationImage, Outcome.bind, foldImage_nil E]

/-- a term that no equation eliminates is kept -/
theorem foldImage_keep : ∀ {E : List Row} {t : Term}, (∀ e ∈ E, firstNonzero e ≠ t.1) → foldImage [t] E = .ok [t]
  | [], _, _ => rfl
  | e :: E, t, h => by
    rw [foldImage, subtractEquationImage, Outcome.bind]
    have : replaceTerm (firstNonzero e) e t = [t] := by
      unfold replaceTerm
      rw [if_neg (fun hc => h e (by simp) hc.symm)]
    rw [this]
    exact foldImage_keep fun x hx => h x (by simp [hx])

theorem foldImage_append : ∀ {A B : List Row} {im im' : Image}, foldImage im A = .ok im' → foldImage im (A ++ B) = foldImage im' B
  | [], B, im, im', h => by simp [foldImage] at h; subst h; rfl
  | a :: A, B, im, im', h => by
    rw [foldImage, Outcome.bind_ok_iff] at h
    obtain ⟨x, h1, h2⟩ := h
    rw [List.cons_append, foldImage, h1, Outcome.bind]
    exact foldImage_append h2

/-- the number of the other coordinates that occur in an equation -/
def otherTerms (e : Row) : Nat := ((List.range e.length).filter fun j => decide (firstNonzero e < j) && decide (e.getD j 0 ≠ 0)).length

theorem replaceTerm_length {e : Row} {c : Int} : (replaceTerm (firstNonzero e) e (firstNonzero e, c)).length = otherTerms e := by
  simp [replaceTerm, otherTerms]

theorem replaceTerm_index {e : Row} {c : Int} : ∀ u ∈ replaceTerm (firstNonzero e) e (firstNonzero e, c), u.1 ≠ firstNonzero e ∧ e.getD u.1 0 ≠ 0 := by
  intro u hu
  simp only [replaceTerm, if_pos, List.mem_map, List.mem_filter, Bool.and_eq_true, decide_eq_true_eq] at hu
  obtain ⟨j, ⟨_, h1, h2⟩, rfl⟩ := hu
  exact ⟨by simp only; omega, h2⟩

/-- when one image can be treated -/
theorem foldImage_ok {n : Nat} {E : Matrix} (hE : Echelon n E) (h0 : E ≠ []) {im : Image} :
    (∃ im', foldImage im E = .ok im') ↔ im.length ≤ 1 ∧ ∀ e ∈ E.dropLast, ∀ c, im = [(firstNonzero e, c)] → otherTerms e ≤ 1 := by
  match im with
  | [] => simp [foldImage_nil]
  | a :: b :: l =>
    obtain ⟨e, E', rfl⟩ := List.exists_cons_of_ne_nil h0
    simp [foldImage, subtractEquationImage, Outcome.bind]
  | [(t, c)] =>
    simp only [List.length_singleton, le_refl, true_and, List.cons.injEq, Prod.mk.injEq, and_true]
    by_cases hex : ∃ e ∈ E, firstNonzero e = t
    · obtain ⟨e, he, rfl⟩ := hex
      obtain ⟨A, B, rfl⟩ := List.append_of_mem he
      have hpre : foldImage [(firstNonzero e, c)] A = .ok [(firstNonzero e, c)] := by
        refine foldImage_keep fun x hx hc => ?_
        have := (List.pairwise_append.1 hE.iso).2.2 x hx e (by simp)
        have h2 := (hE.lead e he).2
        rw [show firstNonzero x = firstNonzero e from hc] at this
        rw [this.1] at h2; exact absurd h2 (by decide)
      rw [foldImage_append hpre, foldImage, subtractEquationImage, Outcome.bind]
      have huniq : ∀ x ∈ A ++ e :: B, firstNonzero x = firstNonzero e → x = e := by
        intro x hx hc
        by_contra hne
        have := hE.iso' hx he hne
        rw [hc] at this
        have h2 := (hE.lead e he).2
        rw [this] at h2; exact absurd h2 (by decide)
      by_cases hB : B = []
      · subst hB
        refine iff_of_true ⟨_, rfl⟩ fun x hx c' hc => ?_
        rw [List.dropLast_concat] at hx
        have := huniq x (by simp [hx]) hc.1.symm
        subst this
        have h1 := (List.pairwise_append.1 hE.iso).2.2 x hx x (by simp)
        have h2 := (hE.lead x he).2
        rw [h1.1] at h2; exact absurd h2 (by decide)
      · have hmem : e ∈ (A ++ e :: B).dropLast := by
          rw [List.dropLast_append_of_ne_nil (by simp), List.dropLast_cons_of_ne_nil hB]; simp
        have hlen := replaceTerm_length (e := e) (c := c)
        have hidx := replaceTerm_index (e := e) (c := c)
        match hr : replaceTerm (firstNonzero e) e (firstNonzero e, c), hlen, hidx with
        | [], hlen, _ =>
          refine iff_of_true ⟨_, foldImage_nil B⟩ fun x hx c' hc => ?_
          rw [huniq x (List.mem_of_mem_dropLast hx) hc.1.symm, ← hlen]; simp
        | [u], hlen, hidx =>
          refine iff_of_true ⟨_, foldImage_keep fun x hx hc => ?_⟩ fun x hx c' hc => ?_
          · have hx' : x ∈ A ++ e :: B := by simp [hx]
            have hne : x ≠ e := by
              rintro rfl
              exact (hidx u (by simp)).1 hc.symm
            have := hE.iso' hx' he hne
            rw [hc] at this
            exact (hidx u (by simp)).2 this
          · rw [huniq x (List.mem_of_mem_dropLast hx) hc.1.symm, ← hlen]; simp
        | u :: v :: l, hlen, _ =>
          refine iff_of_false ?_ fun h => ?_
          · obtain ⟨b, B', rfl⟩ := List.exists_cons_of_ne_nil hB
            simp [foldImage, subtractEquationImage, Outcome.bind]
          · have := h e hmem c ⟨rfl, rfl⟩
            rw [← hlen] at this
            simp at this
    · push Not at hex
      refine iff_of_true ⟨_, foldImage_keep hex⟩ fun x hx c' hc => ?_
      exact absurd hc.1.symm (hex x (List.mem_of_mem_dropLast hx))

/-- the indices of the result are different -/
theorem foldImage_nodup : ∀ {E : List Row} {im im' : Image}, (im.map Prod.fst).Nodup → foldImage im E = .ok im' → (im'.map Prod.fst).Nodup
  | [], im, im', h, he => by simp [foldImage] at he; subst he; exact h
  | e :: E, im, im', h, he => by
    rw [foldImage, Outcome.bind_ok_iff] at he
    obtain ⟨x, h1, h2⟩ := he
    refine foldImage_nodup ?_ h2
    match im, h1 with
    | [], h1 => simp [subtractEquationImage] at h1; subst h1; simp
    | [t], h1 =>
      simp [subtractEquationImage] at h1; subst h1
      unfold replaceTerm
      split
      · rw [List.map_map]
        have : (Prod.fst ∘ fun j => (j, -t.2 * e.getD j 0)) = (id : Nat → Nat) := rfl
        rw [this, List.map_id]
        exact List.nodup_range.filter _
      · simp
    | _ :: _ :: _, h1 => simp [subtractEquationImage] at h1

theorem simplifyMap_nodup : ∀ {m : SymMap}, (∀ im ∈ m, (im.map Prod.fst).Nodup) → ∃ m', simplifyMap m = .ok m'
  | [], _ => ⟨[], rfl⟩
  | im :: ims, hm => by
    obtain ⟨m', hm'⟩ := simplifyMap_nodup (m := ims) (fun x hx => hm x (by simp [hx]))
    have h1 : simplifyImage im = .ok (sortImage im) := by
      unfold simplifyImage
      rw [simplifyLoop_distinct _ _ _ (by
        rw [((sortImage_perm im).map Prod.fst).nodup_iff]; exact hm im (by simp))]
      simp
    exact ⟨sortImage im :: m', by rw [simplifyMap, h1, hm']; rfl⟩

theorem eliminate_defined {n : Nat} : ∀ {is : List Nat} {m : SymMap}, (∀ i ∈ is, i < n) → m.length = n → ∃ m', eliminateZeroCoefficients m is = .ok m'
  | [], m, _, _ => ⟨m, rfl⟩
  | i :: is, m, h, hm => by
    rw [eliminateZeroCoefficients, if_pos (by rw [hm]; exact h i (by simp))]
    exact eliminate_defined (fun j hj => h j (by simp [hj])) (by simpa using hm)

/-- **when normalising a map is defined** -/
theorem normalizeMap_defined {n : Nat} {E : Matrix} {m : SymMap} (hE : Echelon n E) (h0 : E ≠ []) (hm : Spec.IsMap n m) :
    (∃ m', normalizeMap m E = .ok m') ↔ ∀ i < n, (∀ e ∈ E, firstNonzero e ≠ i) →
      (m.getD i []).length ≤ 1 ∧ ∀ e ∈ E.dropLast, ∀ c, m.getD i [] = [(firstNonzero e, c)] → otherTerms e ≤ 1 := by
  obtain ⟨m1, h1⟩ := eliminate_defined (is := eliminatedIndices E) (n := n) (m := m) (by
    intro i hi
    obtain ⟨e, he, rfl⟩ := List.mem_map.1 hi
    exact (hE.lead e he).1) hm.size
  obtain ⟨hm1, e1⟩ := eliminateZeroCoefficients_spec hm h1
  have hlead : ∀ i, i ∈ eliminatedIndices E ↔ ∃ e ∈ E, firstNonzero e = i := by
    intro i; simp [eliminatedIndices]
  have hcond : (∀ i < n, (∀ e ∈ E, firstNonzero e ≠ i) →
      (m.getD i []).length ≤ 1 ∧ ∀ e ∈ E.dropLast, ∀ c, m.getD i [] = [(firstNonzero e, c)] → otherTerms e ≤ 1) ↔
      ∀ im ∈ m1, ∃ im', foldImage im E = .ok im' := by
    constructor
    · intro H im him
      obtain ⟨i, hi, rfl⟩ := List.getElem_of_mem him
      have hd : m1[i] = m1.getD i [] := by rw [List.getD_eq_getElem?_getD, List.getElem?_eq_getElem hi]; rfl
      rw [hd, e1]
      by_cases hl : i ∈ eliminatedIndices E
      · rw [if_pos hl]; exact ⟨_, foldImage_nil E⟩
      · rw [if_neg hl, foldImage_ok hE h0]
        refine H i (by rw [← hm1.size]; exact hi) fun e he hc => hl ((hlead i).2 ⟨e, he, hc⟩)
    · intro H i hi hl
      have hlt : i < m1.length := by rw [hm1.size]; exact hi
      have := H _ (List.getElem_mem hlt)
      have hd : m1[i] = m1.getD i [] := by rw [List.getD_eq_getElem?_getD, List.getElem?_eq_getElem hlt]; rfl
      rw [hd, e1, if_neg (by rw [hlead]; rintro ⟨e, he, hc⟩; exact hl e he hc), foldImage_ok hE h0] at this
      exact this
  rw [hcond]
  unfold normalizeMap
  rw [h1]
  simp only [Outcome.bind]
  constructor
  · rintro ⟨m', h⟩
    obtain ⟨m2, h2, -⟩ := Outcome.bind_ok_iff.1 h
    intro im him
    obtain ⟨b, -, hb⟩ := normDef_forall₂_left (subtractEquations_forall.1 h2) im him
    exact ⟨b, hb⟩
  · intro H
    obtain ⟨m2, h2⟩ := normDef_forall₂_exists H
    obtain ⟨m', h3⟩ := simplifyMap_nodup (m := m2) (by
      intro im' him'
      obtain ⟨im, him, hf⟩ := normDef_forall₂_right h2 im' him'
      refine foldImage_nodup ?_ hf
      have hl := ((foldImage_ok hE h0).1 ⟨_, hf⟩).1
      match im, hl with
      | [], _ => simp
      | [t], _ => simp)
    exact ⟨m', Outcome.bind_ok_iff.2 ⟨m2, subtractEquations_forall.2 h2, h3⟩⟩

theorem otherTerms_le {e : Row} : otherTerms e ≤ 1 ↔
    ∀ i j, i ≠ firstNonzero e → j ≠ firstNonzero e → e.getD i 0 ≠ 0 → e.getD j 0 ≠ 0 → i = j := by
  have hmem : ∀ i, (i ∈ (List.range e.length).filter fun j => decide (firstNonzero e < j) && decide (e.getD j 0 ≠ 0)) ↔
      i ≠ firstNonzero e ∧ e.getD i 0 ≠ 0 := by
    intro i
    simp only [List.mem_filter, List.mem_range, Bool.and_eq_true, decide_eq_true_eq]
    constructor
    · rintro ⟨_, h1, h2⟩; exact ⟨by omega, h2⟩
    · rintro ⟨h1, h2⟩
      refine ⟨?_, ?_, h2⟩
      · by_contra hc
        exact h2 (by simp only [List.getD_eq_getElem?_getD, List.getElem?_eq_none (Nat.le_of_not_lt hc), Option.getD_none])
      · by_contra hc
        exact h2 (firstNonzero_zero e i (by omega))
  have hn : ((List.range e.length).filter fun j => decide (firstNonzero e < j) && decide (e.getD j 0 ≠ 0)).Nodup := List.nodup_range.filter _
  unfold otherTerms
  generalize ((List.range e.length).filter fun j => decide (firstNonzero e < j) && decide (e.getD j 0 ≠ 0)) = l at hmem hn
  constructor
  · intro h i j h1 h2 h3 h4
    have hi := (hmem i).2 ⟨h1, h3⟩
    have hj := (hmem j).2 ⟨h2, h4⟩
    match l, h with
    | [], _ => cases hi
    | [a], _ => rw [List.mem_singleton] at hi hj; rw [hi, hj]
  · intro h
    match l with
    | [] => simp
    | [a] => simp
    | a :: b :: l =>
      have ha := (hmem a).1 (by simp)
      have hb := (hmem b).1 (by simp)
      have := h a b ha.1 hb.1 ha.2 hb.2
      subst this
      simp at hn

theorem eliminateZeroCoefficients_not_thrown : ∀ (is : List Nat) (m : SymMap), eliminateZeroCoefficients m is ≠ .thrown
  | [], m => by simp [eliminateZeroCoefficients]
  | i :: is, m => by
    rw [eliminateZeroCoefficients]; split
    · exact eliminateZeroCoefficients_not_thrown is _
    · simp

theorem Outcome.bind_not_thrown {α β : Type} {x : Outcome α} {f : α → Outcome β} (hx : x ≠ .thrown) (hf : ∀ a, f a ≠ .thrown) : x.bind f ≠ .thrown := by
  cases x with
  | ok a => exact hf a
  | thrown => exact absurd rfl hx
  | ub => simp [Outcome.bind]

theorem subtractEquation_not_thrown (k : Nat) (e : Row) : ∀ m : SymMap, subtractEquation k e m ≠ .thrown
  | [] => by simp [subtractEquation]
  | im :: ims => by
    rw [subtractEquation]
    refine Outcome.bind_not_thrown ?_ fun _ => Outcome.bind_not_thrown (subtractEquation_not_thrown k e ims) fun _ => by simp
    match im with
    | [] => simp [subtractEquationImage]
    | [_] => simp [subtractEquationImage]
    | _ :: _ :: _ => simp [subtractEquationImage]

theorem subtractEquations_not_thrown : ∀ (E : List Row) (m : SymMap), subtractEquations m E ≠ .thrown
  | [], m => by simp [subtractEquations]
  | e :: E, m => by
    rw [subtractEquations]
    exact Outcome.bind_not_thrown (subtractEquation_not_thrown _ e m) fun m1 => subtractEquations_not_thrown E m1

theorem simplifyLoop_not_thrown : ∀ (fuel : Nat) (done : List Term) (rest : Image), simplifyLoop fuel done rest ≠ .thrown
  | 0, _, _ => by simp [simplifyLoop]
  | _ + 1, _, [] => by simp [simplifyLoop]
  | _ + 1, _, [_] => by simp [simplifyLoop]
  | fuel + 1, done, a :: b :: rest => by
    rw [simplifyLoop]
    split
    · split
      · split
        · split <;> simp
        · exact simplifyLoop_not_thrown _ _ _
      · exact simplifyLoop_not_thrown _ _ _
    · exact simplifyLoop_not_thrown _ _ _

theorem simplifyMap_not_thrown : ∀ m : SymMap, simplifyMap m ≠ .thrown
  | [] => by simp [simplifyMap]
  | im :: ims => by
    rw [simplifyMap]
    exact Outcome.bind_not_thrown (simplifyLoop_not_thrown _ _ _) fun _ => Outcome.bind_not_thrown (simplifyMap_not_thrown ims) fun _ => by simp

/-- no exception is thrown -/
theorem normalizeMap_not_thrown (m : SymMap) (E : Matrix) : normalizeMap m E ≠ .thrown :=
  Outcome.bind_not_thrown (eliminateZeroCoefficients_not_thrown _ _) fun _ =>
    Outcome.bind_not_thrown (subtractEquations_not_thrown _ _) fun _ => simplifyMap_not_thrown _

end Panda
