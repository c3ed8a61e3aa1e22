import Verif.Model.Maps
import Mathlib.Logic.Relation
import Mathlib.Data.Set.Finite.Basic
import Mathlib.Data.List.Nodup
import Mathlib.Data.Finset.Card
import Mathlib.Data.Finite.Defs
import Mathlib.Tactic.Tauto

/-! # Sets of rows and symmetry classes -/

namespace Panda

theorem rowLt_irrefl : ∀ a : Row, rowLt a a = false
  | [] => rfl
  | a :: as => by simp [rowLt, rowLt_irrefl as]

theorem rowLt_trans : ∀ {a b c : Row}, rowLt a b = true → rowLt b c = true → rowLt a c = true
  | _, _, [] => by intro _ h; simp [rowLt] at h
  | _, [], _ :: _ => by intro h; simp [rowLt] at h
  | [], _ :: _, _ :: _ => by intros; rfl
  | a :: as, b :: bs, c :: cs => by
    simp only [rowLt, Bool.or_eq_true, decide_eq_true_eq, Bool.and_eq_true]
    rintro (h | ⟨rfl, h⟩) (h' | ⟨rfl, h'⟩)
    · exact Or.inl (lt_trans h h')
    · exact Or.inl h
    · exact Or.inl h'
    · exact Or.inr ⟨rfl, rowLt_trans h h'⟩

theorem rowLt_tri : ∀ a b : Row, rowLt a b = true ∨ a = b ∨ rowLt b a = true
  | [], [] => Or.inr (Or.inl rfl)
  | [], _ :: _ => Or.inl rfl
  | _ :: _, [] => Or.inr (Or.inr rfl)
  | a :: as, b :: bs => by
    simp only [rowLt, Bool.or_eq_true, decide_eq_true_eq, Bool.and_eq_true, List.cons.injEq]
    rcases lt_trichotomy a b with h | h | h
    · exact Or.inl (Or.inl h)
    · rcases rowLt_tri as bs with h' | h' | h'
      · exact Or.inl (Or.inr ⟨h, h'⟩)
      · exact Or.inr (Or.inl ⟨h, h'⟩)
      · exact Or.inr (Or.inr (Or.inr ⟨h.symm, h'⟩))
    · exact Or.inr (Or.inr (Or.inl h))

theorem rowLt_asymm {a b : Row} (h : rowLt a b = true) : rowLt b a = false := by
  by_contra h'
  have := rowLt_trans h (by simpa using h')
  rw [rowLt_irrefl] at this; cases this

/-- strictly increasing list -/
def SortedSet (s : List Row) : Prop := s.Pairwise fun a b => rowLt a b = true

theorem SortedSet.nodup {s : List Row} (h : SortedSet s) : s.Nodup :=
  List.Pairwise.imp (fun {a b} hab => by rintro rfl; rw [rowLt_irrefl] at hab; cases hab) h

theorem mem_setInsert (x : Row) : ∀ (s : List Row) (y : Row), y ∈ (setInsert x s).1 ↔ y = x ∨ y ∈ s
  | [], y => by simp [setInsert]
  | z :: zs, y => by
    rw [setInsert]
    split
    · simp
    · split
      · simp only [List.mem_cons, mem_setInsert x zs]; tauto
      · rename_i h1 h2
        have : x = z := by
          rcases rowLt_tri x z with h | h | h
          · exact absurd h h1
          · exact h
          · exact absurd h h2
        subst this
        simp

theorem setInsert_sorted (x : Row) : ∀ (s : List Row), SortedSet s → SortedSet (setInsert x s).1
  | [], _ => by simp [setInsert, SortedSet]
  | z :: zs, h => by
    unfold SortedSet at h
    rw [List.pairwise_cons] at h
    rw [setInsert]
    split
    · rename_i h1
      refine List.pairwise_cons.mpr ⟨fun w hw => ?_, List.pairwise_cons.mpr h⟩
      rcases List.mem_cons.mp hw with rfl | hw
      · exact h1
      · exact rowLt_trans h1 (h.1 w hw)
    · split
      · rename_i h1 h2
        refine List.pairwise_cons.mpr ⟨fun w hw => ?_, setInsert_sorted x zs h.2⟩
        rcases (mem_setInsert x zs w).mp hw with rfl | hw
        · exact h2
        · exact h.1 w hw
      · exact List.pairwise_cons.mpr h

/-- the flag says whether the row was new -/
theorem setInsert_flag (x : Row) : ∀ (s : List Row), SortedSet s → ((setInsert x s).2 = true ↔ x ∉ s)
  | [], _ => by simp [setInsert]
  | z :: zs, h => by
    unfold SortedSet at h
    rw [List.pairwise_cons] at h
    rw [setInsert]
    split
    · rename_i h1
      simp only [List.mem_cons, not_or, true_iff]
      refine ⟨?_, fun hw => ?_⟩
      · rintro rfl; rw [rowLt_irrefl] at h1; cases h1
      · have := rowLt_trans h1 (h.1 x hw); rw [rowLt_irrefl] at this; cases this
    · split
      · rename_i h1 h2
        rw [setInsert_flag x zs h.2]
        simp only [List.mem_cons, not_or]
        refine ⟨fun hx => ⟨?_, hx⟩, fun hx => hx.2⟩
        rintro rfl; rw [rowLt_irrefl] at h2; cases h2
      · rename_i h1 h2
        have : x = z := by
          rcases rowLt_tri x z with h | h | h
          · exact absurd h h1
          · exact h
          · exact absurd h h2
        subst this
        simp

theorem setInsert_length (x : Row) : ∀ (s : List Row), (setInsert x s).2 = true → (setInsert x s).1.length = s.length + 1
  | [], _ => by simp [setInsert]
  | z :: zs, h => by
    rw [setInsert] at h ⊢
    split at h
    · rename_i h1; simp [h1]
    · rename_i h1
      split at h
      · rename_i h2
        simp only [h1, h2, if_true, List.length_cons]
        simp [setInsert_length x zs h]
      · simp at h

theorem setOf_spec (l : List Row) : SortedSet (setOf l) ∧ ∀ x, x ∈ setOf l ↔ x ∈ l := by
  have : ∀ (l s : List Row), SortedSet s → SortedSet (l.foldl (fun s r => (setInsert r s).1) s) ∧
      ∀ x, x ∈ l.foldl (fun s r => (setInsert r s).1) s ↔ x ∈ s ∨ x ∈ l := by
    intro l
    induction l with
    | nil => intro s hs; exact ⟨hs, by simp⟩
    | cons r rs ih =>
      intro s hs
      obtain ⟨h1, h2⟩ := ih _ (setInsert_sorted r s hs)
      refine ⟨h1, fun x => ?_⟩
      rw [List.foldl_cons, h2, mem_setInsert, List.mem_cons]; tauto
  obtain ⟨h1, h2⟩ := this l [] List.Pairwise.nil
  exact ⟨h1, fun x => by rw [setOf, h2]; simp⟩

/-- the last element of a strictly increasing list is the largest -/
theorem setLast_spec {s : List Row} (h : SortedSet s) (hne : s ≠ []) :
    setLast s ∈ s ∧ ∀ x ∈ s, x = setLast s ∨ rowLt x (setLast s) = true := by
  obtain ⟨l, a, rfl⟩ : ∃ l a, s = l ++ [a] := ⟨s.dropLast, s.getLast hne, (List.dropLast_append_getLast hne).symm⟩
  have : setLast (l ++ [a]) = a := by simp [setLast]
  rw [this]
  refine ⟨by simp, fun x hx => ?_⟩
  unfold SortedSet at h
  rw [List.pairwise_append] at h
  rcases List.mem_append.mp hx with hx | hx
  · exact Or.inr (h.2.2 x hx a (by simp))
  · simp at hx; exact Or.inl hx

/-! ## getClass -/

/-- one application of one of the maps -/
def Step (maps : Maps) (tag : Tag) (a b : Row) : Prop := ∃ m ∈ maps, applyMap m a tag = .ok b

/-- reachable by applying maps -/
def Reach (maps : Maps) (tag : Tag) : Row → Row → Prop := Relation.ReflTransGen (Step maps tag)

section
variable {maps : Maps} {tag : Tag} {row : Row}

/-- effect of the inner loop -/
theorem classInner_spec (cur : Row) : ∀ (ms : Maps) (rows stack : List Row), SortedSet rows →
    match classInner tag cur ms rows stack with
    | .ok (rows', stack') => SortedSet rows' ∧
        (∀ m ∈ ms, ∃ y, applyMap m cur tag = .ok y ∧ y ∈ rows') ∧
        (∃ new : List Row, stack' = new ++ stack ∧ rows'.length = rows.length + new.length ∧
          (∀ x, x ∈ rows' ↔ x ∈ rows ∨ x ∈ new) ∧ ∀ x ∈ new, Step ms tag cur x)
    | .thrown => ∃ m ∈ ms, applyMap m cur tag = .thrown
    | .ub => ∃ m ∈ ms, applyMap m cur tag = .ub
  | [], rows, stack, hs => by
    simp only [classInner]
    exact ⟨hs, by simp, [], by simp, by simp, by simp, by simp⟩
  | m :: ms, rows, stack, hs => by
    rw [classInner]
    cases hap : applyMap m cur tag with
    | thrown => exact ⟨m, by simp, hap⟩
    | ub => exact ⟨m, by simp, hap⟩
    | ok y =>
      simp only [Outcome.bind]
      have hs' := setInsert_sorted y rows hs
      by_cases hf : (setInsert y rows).2 = true
      · rw [if_pos hf]
        have ih := classInner_spec cur ms (setInsert y rows).1 (y :: stack) hs'
        split at ih
        · obtain ⟨h1, h2, new, h3, h4, h5, h6⟩ := ih
          refine ⟨h1, ?_, new ++ [y], by simp [h3], ?_, ?_, ?_⟩
          · intro m' hm'
            rcases List.mem_cons.mp hm' with rfl | hm'
            · exact ⟨y, hap, (h5 y).mpr (Or.inl ((mem_setInsert y rows y).mpr (Or.inl rfl)))⟩
            · exact h2 m' hm'
          · rw [h4, setInsert_length y rows hf]; simp; omega
          · intro x; rw [h5, mem_setInsert]; simp; tauto
          · intro x hx
            rcases List.mem_append.mp hx with hx | hx
            · obtain ⟨m', hm', h⟩ := h6 x hx; exact ⟨m', by simp [hm'], h⟩
            · simp at hx; subst hx; exact ⟨m, by simp, hap⟩
        · obtain ⟨m', hm', h⟩ := ih; exact ⟨m', by simp [hm'], h⟩
        · obtain ⟨m', hm', h⟩ := ih; exact ⟨m', by simp [hm'], h⟩
      · rw [if_neg hf]
        have hin : y ∈ rows := by by_contra hn; exact hf ((setInsert_flag y rows hs).mpr hn)
        have ih := classInner_spec cur ms (setInsert y rows).1 stack hs'
        split at ih
        · obtain ⟨h1, h2, new, h3, h4, h5, h6⟩ := ih
          have hlen : (setInsert y rows).1.length = rows.length := by
            have hsub : ∀ x, x ∈ (setInsert y rows).1 ↔ x ∈ rows := fun x => by
              rw [mem_setInsert]; constructor
              · rintro (rfl | h) <;> assumption
              · exact Or.inr
            exact ((List.perm_ext_iff_of_nodup hs'.nodup hs.nodup).mpr hsub).length_eq
          refine ⟨h1, ?_, new, h3, by rw [h4, hlen], ?_, ?_⟩
          · intro m' hm'
            rcases List.mem_cons.mp hm' with rfl | hm'
            · exact ⟨y, hap, (h5 y).mpr (Or.inl ((mem_setInsert y rows y).mpr (Or.inl rfl)))⟩
            · exact h2 m' hm'
          · intro x; rw [h5, mem_setInsert]; constructor
            · rintro ((rfl | h) | h)
              · exact Or.inl hin
              · exact Or.inl h
              · exact Or.inr h
            · rintro (h | h)
              · exact Or.inl (Or.inr h)
              · exact Or.inr h
          · intro x hx
            obtain ⟨m', hm', h⟩ := h6 x hx; exact ⟨m', by simp [hm'], h⟩
        · obtain ⟨m', hm', h⟩ := ih; exact ⟨m', by simp [hm'], h⟩
        · obtain ⟨m', hm', h⟩ := ih; exact ⟨m', by simp [hm'], h⟩

/-- invariant of the outer loop -/
structure ClassInv (maps : Maps) (tag : Tag) (row : Row) (rows stack : List Row) : Prop where
  sorted : SortedSet rows
  start : row ∈ rows
  reach : ∀ x ∈ rows, Reach maps tag row x
  onStack : ∀ x ∈ stack, x ∈ rows
  closed : ∀ x ∈ rows, x ∉ stack → ∀ m ∈ maps, ∃ y, applyMap m x tag = .ok y ∧ y ∈ rows

theorem classInv_init : ClassInv maps tag row [row] [row] :=
  ⟨by simp [SortedSet], by simp, by simp [Reach, Relation.ReflTransGen.refl], by simp,
    fun x hx hn => absurd hx hn⟩

theorem classInv_step {rows stack rows' stack' : List Row} {cur : Row} (h : ClassInv maps tag row rows (cur :: stack))
    (heq : classInner tag cur maps rows stack = .ok (rows', stack')) :
    ClassInv maps tag row rows' stack' ∧ ∃ k, rows'.length = rows.length + k ∧ stack'.length = stack.length + k := by
  have hsp := classInner_spec (tag := tag) cur maps rows stack h.sorted
  rw [heq] at hsp
  obtain ⟨h1, h2, new, h3, h4, h5, h6⟩ := hsp
  subst h3
  refine ⟨⟨h1, (h5 _).mpr (Or.inl h.start), ?_, ?_, ?_⟩, new.length, h4, by simp; omega⟩
  · intro x hx
    rcases (h5 x).mp hx with hx | hx
    · exact h.reach x hx
    · exact (h.reach cur (h.onStack cur (by simp))).tail (h6 x hx)
  · intro x hx
    rcases List.mem_append.mp hx with hx | hx
    · exact (h5 x).mpr (Or.inr hx)
    · exact (h5 x).mpr (Or.inl (h.onStack x (by simp [hx])))
  · intro x hx hn m hm
    simp only [List.mem_append, not_or] at hn
    have hx' := ((h5 x).mp hx).resolve_right hn.1
    by_cases hc : x = cur
    · subst hc; exact h2 m hm
    · obtain ⟨y, hy, hyr⟩ := h.closed x hx' (by simp [hc, hn.2]) m hm
      exact ⟨y, hy, (h5 y).mpr (Or.inl hyr)⟩

/-- partial correctness -/
theorem getClassLoop_partial : ∀ (fuel : Nat) (rows stack S : List Row), ClassInv maps tag row rows stack →
    getClassLoop maps tag fuel rows stack = some (.ok S) →
    SortedSet S ∧ (∀ x, x ∈ S ↔ Reach maps tag row x)
  | fuel, rows, [], S, h, heq => by
    have : S = rows := by cases fuel <;> simp [getClassLoop] at heq <;> exact heq.symm
    subst this
    refine ⟨h.sorted, fun x => ⟨h.reach x, fun hx => ?_⟩⟩
    induction hx with
    | refl => exact h.start
    | tail _ hstep ih =>
      obtain ⟨m, hm, hap⟩ := hstep
      obtain ⟨y, hy, hyr⟩ := h.closed _ ih (by simp) m hm
      rw [hap] at hy; cases hy; exact hyr
  | 0, rows, _ :: _, S, h, heq => by simp [getClassLoop] at heq
  | fuel + 1, rows, cur :: stack, S, h, heq => by
    rw [getClassLoop] at heq
    split at heq
    · rename_i rows' stack' hin
      exact getClassLoop_partial fuel rows' stack' S (classInv_step h hin).1 heq
    · cases heq
    · cases heq

/-- termination: `C` is a finite closed set -/
theorem getClassLoop_total {C : List Row}
    (hC : ∀ x ∈ C, ∀ m ∈ maps, ∃ y, applyMap m x tag = .ok y ∧ y ∈ C) :
    ∀ (fuel : Nat) (rows stack : List Row), ClassInv maps tag row rows stack → (∀ x ∈ rows, x ∈ C) →
      C.length + stack.length ≤ fuel + rows.length →
      ∃ S, getClassLoop maps tag fuel rows stack = some (.ok S)
  | fuel, rows, [], _, _, _ => ⟨rows, by cases fuel <;> rfl⟩
  | 0, rows, _ :: _, h, hsub, hf => by
    exfalso
    have : rows.length ≤ C.length := (h.sorted.nodup.subperm hsub).length_le
    simp at hf; omega
  | fuel + 1, rows, cur :: stack, h, hsub, hf => by
    rw [getClassLoop]
    have hcur : cur ∈ C := hsub cur (h.onStack cur (by simp))
    have hsp := classInner_spec (tag := tag) cur maps rows stack h.sorted
    split at hsp <;> rename_i heq
    · rename_i rows' stack'
      rw [heq]
      obtain ⟨hinv, k, hk1, hk2⟩ := classInv_step h heq
      obtain ⟨-, -, new, -, -, h5, h6⟩ := hsp
      refine getClassLoop_total hC fuel rows' stack' hinv ?_ (by simp at hf; omega)
      intro x hx
      rcases (h5 x).mp hx with hx | hx
      · exact hsub x hx
      · obtain ⟨m, hm, hap⟩ := h6 x hx
        obtain ⟨y, hy, hyC⟩ := hC cur hcur m hm
        rw [hap] at hy; cases hy; exact hyC
    · obtain ⟨m, hm, hap⟩ := hsp
      obtain ⟨y, hy, -⟩ := hC cur hcur m hm
      rw [hap] at hy; cases hy
    · obtain ⟨m, hm, hap⟩ := hsp
      obtain ⟨y, hy, -⟩ := hC cur hcur m hm
      rw [hap] at hy; cases hy

theorem getClass_partial {fuel : Nat} {S : List Row} (h : getClass fuel row maps tag = some (.ok S)) :
    SortedSet S ∧ (∀ x, x ∈ S ↔ Reach maps tag row x) :=
  getClassLoop_partial fuel _ _ S classInv_init h

theorem getClass_total {C : List Row} (hrow : row ∈ C)
    (hC : ∀ x ∈ C, ∀ m ∈ maps, ∃ y, applyMap m x tag = .ok y ∧ y ∈ C) {fuel : Nat} (hf : C.length ≤ fuel) :
    ∃ S, getClass fuel row maps tag = some (.ok S) ∧ SortedSet S ∧ (∀ x, x ∈ S ↔ Reach maps tag row x) := by
  obtain ⟨S, hS⟩ := getClassLoop_total hC fuel [row] [row] classInv_init (by simpa using hrow) (by simp; omega)
  exact ⟨S, hS, getClass_partial hS⟩

theorem Reach.mem_closed {C : List Row} (hC : ∀ x ∈ C, ∀ m ∈ maps, ∃ y, applyMap m x tag = .ok y ∧ y ∈ C)
    {a b : Row} (ha : a ∈ C) (h : Reach maps tag a b) : b ∈ C := by
  induction h with
  | refl => exact ha
  | tail _ hs ih =>
    obtain ⟨m, hm, hap⟩ := hs
    obtain ⟨y, hy, hyC⟩ := hC _ ih m hm
    rw [hap] at hy; cases hy; exact hyC

/-- on a finite set on which the maps act injectively, reachability is symmetric -/
theorem Reach.symm_of_perm {C : List Row}
    (hC : ∀ x ∈ C, ∀ m ∈ maps, ∃ y, applyMap m x tag = .ok y ∧ y ∈ C)
    (hinj : ∀ m ∈ maps, ∀ x ∈ C, ∀ y ∈ C, applyMap m x tag = applyMap m y tag → x = y)
    {a b : Row} (ha : a ∈ C) (h : Reach maps tag a b) : Reach maps tag b a := by
  -- one step can be undone
  have hone : ∀ x ∈ C, ∀ y, Step maps tag x y → Reach maps tag y x := by
    rintro x hx y ⟨m, hm, hap⟩
    -- iterate m
    let f : Row → Row := fun z => match applyMap m z tag with | .ok w => w | _ => z
    have hf : ∀ z ∈ C, applyMap m z tag = .ok (f z) ∧ f z ∈ C := by
      intro z hz
      obtain ⟨w, hw, hwC⟩ := hC z hz m hm
      have : f z = w := by simp only [f, hw]
      rw [this]; exact ⟨hw, hwC⟩
    have hfy : f x = y := by simp only [f, hap]
    have hit : ∀ k, f^[k] x ∈ C := by
      intro k
      induction k with
      | zero => exact hx
      | succ k ih => rw [Function.iterate_succ_apply']; exact (hf _ ih).2
    have hreach : ∀ k, Reach maps tag y (f^[k] y) := by
      intro k
      induction k with
      | zero => exact .refl
      | succ k ih =>
        rw [Function.iterate_succ_apply']
        refine ih.tail ⟨m, hm, (hf _ ?_).1⟩
        rw [← hfy, ← Function.iterate_succ_apply]; exact hit _
    -- two iterates agree
    obtain ⟨i, j, hij, heq⟩ : ∃ i j : Nat, i < j ∧ f^[i] x = f^[j] x := by
      have hfin : (Set.range fun k : Nat => f^[k] x).Finite :=
        (List.finite_toSet C).subset (by rintro _ ⟨k, rfl⟩; exact hit k)
      have hni : ¬ Function.Injective fun k : Nat => f^[k] x := fun hinj' =>
        Set.infinite_range_of_injective hinj' hfin
      unfold Function.Injective at hni
      push Not at hni
      obtain ⟨i, j, heq, hne⟩ := hni
      rcases Nat.lt_or_gt_of_ne hne with h | h
      · exact ⟨i, j, h, heq⟩
      · exact ⟨j, i, h, heq.symm⟩
    have hback : ∀ i k : Nat, f^[i] x = f^[i + k] x → x = f^[k] x := by
      intro i
      induction i with
      | zero => intro k h; simpa using h
      | succ i ih =>
        intro k h
        apply ih
        rw [Function.iterate_succ_apply', Nat.succ_add, Function.iterate_succ_apply'] at h
        refine hinj m hm _ (hit _) _ (hit _) ?_
        rw [(hf _ (hit _)).1, (hf _ (hit _)).1, h]
    have hx' := hback i (j - i) (by rw [show i + (j - i) = j by omega]; exact heq)
    obtain ⟨k, hk⟩ : ∃ k, j - i = k + 1 := ⟨j - i - 1, by omega⟩
    rw [hk, Function.iterate_succ_apply, hfy] at hx'
    have := hreach k
    rw [← hx'] at this; exact this
  induction h with
  | refl => exact .refl
  | tail hab hs ih =>
    have hb := Reach.mem_closed hC ha hab
    exact (hone _ hb _ hs).trans ih

end

/-! ## classes -/

section
variable {maps : Maps} {tag : Tag}

/-- invariant of the loop of `classes`: the representatives collected so far and the remaining rows -/
structure ClassesInv (maps : Maps) (tag : Tag) (S rows : List Row) (acc : Matrix) : Prop where
  sorted : SortedSet rows
  sub : ∀ x ∈ rows, x ∈ S
  /-- a remaining row is not reachable from a representative -/
  left : ∀ x ∈ S, x ∈ rows ∨ ∃ r ∈ acc, Reach maps tag r x
  rest : ∀ x ∈ rows, ∀ r ∈ acc, ¬ Reach maps tag r x
  rep : ∀ r ∈ acc, r ∈ S ∧ ∀ x, Reach maps tag r x → x = r ∨ rowLt x r = true
  distinct : acc.Pairwise fun r r' => ¬ Reach maps tag r r' ∧ ¬ Reach maps tag r' r

theorem classesLoop_spec {S : List Row}
    (hC : ∀ x ∈ S, ∀ m ∈ maps, ∃ y, applyMap m x tag = .ok y ∧ y ∈ S)
    (hinj : ∀ m ∈ maps, ∀ x ∈ S, ∀ y ∈ S, applyMap m x tag = applyMap m y tag → x = y)
    {fuel : Nat} (hf : S.length ≤ fuel) :
    ∀ (k : Nat) (rows : List Row) (acc : Matrix), ClassesInv maps tag S rows acc → rows.length ≤ k →
      ∃ R, classesLoop maps tag fuel k rows acc = some (.ok R) ∧ ClassesInv maps tag S [] R
  | k, [], acc, h, _ => ⟨acc, by cases k <;> rfl, h⟩
  | 0, _ :: _, _, _, hk => by simp at hk
  | k + 1, r :: rs, acc, h, hk => by
    have hr : r ∈ S := h.sub r (by simp)
    obtain ⟨cls, hcls, hsort, hmem⟩ := getClass_total (row := r) hr hC hf
    rw [classesLoop, hcls]
    simp only [Run.bind]
    have hself : r ∈ cls := (hmem r).mpr .refl
    obtain ⟨hl1, hl2⟩ := setLast_spec hsort (List.ne_nil_of_mem hself)
    have hrl : Reach maps tag r (setLast cls) := (hmem _).mp hl1
    have hlr : Reach maps tag (setLast cls) r := Reach.symm_of_perm hC hinj hr hrl
    apply classesLoop_spec hC hinj hf k
    · refine ⟨h.sorted.filter _, fun x hx => h.sub x (List.mem_of_mem_filter hx), ?_, ?_, ?_, ?_⟩
      · intro x hx
        rcases h.left x hx with h' | ⟨r', hr', h'⟩
        · by_cases hc : x ∈ cls
          · exact Or.inr ⟨setLast cls, by simp, hlr.trans ((hmem x).mp hc)⟩
          · exact Or.inl (List.mem_filter.mpr ⟨h', by simpa using hc⟩)
        · exact Or.inr ⟨r', by simp [hr'], h'⟩
      · intro x hx r' hr' hre
        obtain ⟨hx1, hx2⟩ := List.mem_filter.mp hx
        rcases List.mem_append.mp hr' with hr' | hr'
        · exact h.rest x hx1 r' hr' hre
        · simp at hr'; subst hr'
          have : x ∈ cls := (hmem x).mpr (hrl.trans hre)
          simp [this] at hx2
      · intro r' hr'
        rcases List.mem_append.mp hr' with hr' | hr'
        · exact h.rep r' hr'
        · simp at hr'; subst hr'
          exact ⟨Reach.mem_closed hC hr hrl, fun x hx => hl2 x ((hmem x).mpr (hrl.trans hx))⟩
      · rw [List.pairwise_append]
        refine ⟨h.distinct, by simp, ?_⟩
        intro r' hr' l hl
        simp at hl; subst hl
        have : ¬ Reach maps tag r' (setLast cls) := fun hre => h.rest r (by simp) r' hr' (hre.trans hlr)
        exact ⟨this, fun hre => this (Reach.symm_of_perm hC hinj (Reach.mem_closed hC hr hrl) hre)⟩
    · have : ((r :: rs).filter fun x => !(cls.elem x)).length < (r :: rs).length := by
        apply List.length_filter_lt_length_iff_exists.mpr
        exact ⟨r, by simp, by simpa using hself⟩
      simp at hk this ⊢; omega

theorem classes_spec {S : Matrix}
    (hC : ∀ x ∈ S, ∀ m ∈ maps, ∃ y, applyMap m x tag = .ok y ∧ y ∈ S)
    (hinj : ∀ m ∈ maps, ∀ x ∈ S, ∀ y ∈ S, applyMap m x tag = applyMap m y tag → x = y)
    {fuel : Nat} (hf : S.length ≤ fuel) :
    ∃ R, classes fuel S maps tag = some (.ok R) ∧ ClassesInv maps tag S [] R := by
  obtain ⟨h1, h2⟩ := setOf_spec S
  refine classesLoop_spec hC hinj hf fuel (setOf S) [] ⟨h1, fun x hx => (h2 x).mp hx, fun x hx => Or.inl ((h2 x).mpr hx),
    by simp, by simp, by simp⟩ ?_
  exact le_trans (h1.nodup.subperm fun x hx => (h2 x).mp hx).length_le hf

theorem expandLoop_spec {C : List Row}
    (hC : ∀ x ∈ C, ∀ m ∈ maps, ∃ y, applyMap m x tag = .ok y ∧ y ∈ C) {fuel : Nat} (hf : C.length ≤ fuel) :
    ∀ A : Matrix, (∀ a ∈ A, a ∈ C) → ∃ B, expandLoop fuel maps tag A = some (.ok B) ∧
      ∀ x, x ∈ B ↔ ∃ a ∈ A, Reach maps tag a x
  | [], _ => ⟨[], rfl, by simp⟩
  | a :: as, h => by
    obtain ⟨S, hS, -, hmem⟩ := getClass_total (row := a) (h a (by simp)) hC hf
    obtain ⟨B, hB, hBm⟩ := expandLoop_spec hC hf as (fun x hx => h x (by simp [hx]))
    refine ⟨S ++ B, by rw [expandLoop, hS]; simp only [Run.bind]; rw [hB], fun x => ?_⟩
    simp [hmem, hBm]

end

end Panda
