import Verif.Model.Validity
import Verif.Props.Symmetry

/-! # Lemmas about the validation of the input -/

namespace Panda

theorem activeRows_eq (dist : Row → Int) : ∀ (m active : Matrix),
    activeRows dist active m =
      if ∀ r ∈ m, 0 ≤ dist r then some (active ++ m.filter fun r => decide (dist r = 0)) else none
  | [], active => by simp [activeRows]
  | r :: rs, active => by
    rw [activeRows]
    by_cases h1 : dist r < 0
    · rw [if_pos h1, if_neg]
      intro h
      have := h r (by simp)
      omega
    · rw [if_neg h1]
      have key : (∀ x ∈ r :: rs, 0 ≤ dist x) ↔ ∀ x ∈ rs, 0 ≤ dist x := by
        constructor
        · exact fun h x hx => h x (by simp [hx])
        · intro h x hx
          rcases List.mem_cons.mp hx with rfl | hx
          · omega
          · exact h x hx
      simp only [key]
      by_cases h2 : dist r = 0
      · rw [if_pos h2, activeRows_eq dist rs]
        congr 2
        simp [h2]
      · rw [if_neg h2, activeRows_eq dist rs]
        congr 2
        simp [h2]

theorem distance_eq_ip (a v : Row) : distance a v = -(Spec.ip a v) := by
  rw [ip_eq_dot, distance, dot_comm]

theorem distance_eq_ip' (a v : Row) : distance a v = -(Spec.ip v a) := by
  rw [ip_eq_dot, distance]

theorem activeRows_ip (dist : Row → Int) (a : Row) (h : ∀ v, dist v = -(Spec.ip a v)) (V : Matrix) :
    activeRows dist [] V =
      if ∀ v ∈ V, Spec.ip a v ≤ 0 then some (V.filter fun v => decide (Spec.ip a v = 0)) else none := by
  rw [activeRows_eq]
  simp only [h, List.nil_append, Int.neg_nonneg, neg_eq_zero]

theorem inequalityIsValid_iff {n : Nat} {V : Matrix} (hV : ∀ v ∈ V, v.length = n) {a : Row} (ha : a.length = n) :
    inequalityIsValid V a (dimension V) = true ↔ Spec.IsFacet n V a ∧ ∃ v ∈ V, Spec.ip a v = 0 := by
  unfold inequalityIsValid
  rw [activeRows_ip _ a (distance_eq_ip a), C04_dimension_eq_rank n V hV]
  by_cases h : ∀ v ∈ V, Spec.ip a v ≤ 0
  · rw [if_pos h]
    have hl : ∀ v ∈ V.filter (fun v => decide (Spec.ip a v = 0)), v.length = n := fun v hv => hV v (List.mem_of_mem_filter hv)
    simp only [Bool.and_eq_true, Bool.not_eq_true', List.isEmpty_eq_false_iff, decide_eq_true_eq,
      C04_dimension_eq_rank n _ hl]
    constructor
    · rintro ⟨h1, h2⟩
      refine ⟨⟨ha, h, h2⟩, ?_⟩
      obtain ⟨v, hv⟩ := List.exists_mem_of_ne_nil _ h1
      simp only [List.mem_filter, decide_eq_true_eq] at hv
      exact ⟨v, hv⟩
    · rintro ⟨h1, v, hv, h2⟩
      refine ⟨List.ne_nil_of_mem (a := v) ?_, h1.2.2⟩
      simp [hv, h2]
  · rw [if_neg h]
    simp only [Bool.false_eq_true, false_iff, not_and]
    intro h1
    exact absurd h1.2.1 h

theorem checkRow_eq (dist : Row → Int) (V : Matrix) (a : Row) (dim : Nat) (h : ∀ v, dist v = distance a v) :
    (match activeRows dist [] V with
      | none => Outcome.thrown
      | some active => if active.isEmpty then .thrown else if dimension active + 1 ≠ dim then .thrown else .ok ())
      = if inequalityIsValid V a dim = true then .ok () else .thrown := by
  have : dist = distance a := funext h
  subst this
  unfold inequalityIsValid
  cases activeRows (distance a) [] V with
  | none => rfl
  | some x =>
    simp only
    by_cases h1 : x.isEmpty = true
    · rw [if_pos h1]; simp [h1]
    · rw [if_neg h1]
      by_cases h2 : dimension x + 1 = dim
      · rw [if_neg (by simpa using h2), if_pos]; simp [h2]; simpa using h1
      · rw [if_pos h2, if_neg]; simp [h2]

theorem checkValidityOfInequality_eq (V : Matrix) (a : Row) (dim : Nat) :
    checkValidityOfInequality V a dim = if inequalityIsValid V a dim = true then .ok () else .thrown :=
  checkRow_eq _ V a dim fun _ => rfl

theorem checkValidityOfVertex_eq (A : Matrix) (r : Row) (dim : Nat) :
    checkValidityOfVertex A r dim = if inequalityIsValid A r dim = true then .ok () else .thrown :=
  checkRow_eq _ A r dim fun v => by rw [distance, distance, dot_comm]

theorem checkEach_if {α : Type} (check : α → Outcome Unit) (p : α → Prop) [DecidablePred p]
    (h : ∀ a, check a = if p a then .ok () else .thrown) :
    ∀ l : List α, checkEach check l = if ∀ a ∈ l, p a then .ok () else .thrown
  | [] => by simp [checkEach]
  | a :: as => by
    rw [checkEach, h a, checkEach_if check p h as]
    by_cases h1 : p a
    · rw [if_pos h1]
      simp only [Outcome.bind, List.mem_cons, forall_eq_or_imp, h1, true_and]
    · have hneg : ¬ ∀ x ∈ a :: as, p x := fun hc => h1 (hc a (by simp))
      rw [if_neg h1, if_neg hneg]; rfl

theorem filterLoop_eq (valid : Row → Bool) : ∀ (l kept : Matrix), filterLoop valid kept l = kept ++ l.filter valid
  | [], kept => by simp [filterLoop]
  | r :: rs, kept => by
    rw [filterLoop]
    by_cases h : valid r = true
    · rw [if_pos h, filterLoop_eq valid rs]; simp [h]
    · rw [if_neg h, filterLoop_eq valid rs]; simp [h]

/-! ## maps -/

theorem findRow_lt : ∀ {A : Matrix} {x : Row}, findRow A x < A.length ↔ x ∈ A
  | [], _ => by simp [findRow]
  | r :: rs, x => by
    rw [findRow]
    by_cases h : r = x
    · simp [h]
    · rw [if_neg h, List.length_cons, Nat.succ_lt_succ_iff, findRow_lt]
      simp [Ne.symm h]

theorem findRow_get : ∀ {A : Matrix} {x : Row}, x ∈ A → A[findRow A x]? = some x
  | [], _, h => by simp at h
  | r :: rs, x, hx => by
    rw [findRow]
    by_cases h : r = x
    · simp [h]
    · rw [if_neg h, List.getElem?_cons_succ]
      exact findRow_get ((List.mem_cons.mp hx).resolve_left (Ne.symm h))

/-- the first position of a row is its position, if there are no duplicates -/
theorem findRow_nodup {A : Matrix} (h : A.Nodup) {i : Nat} {x : Row} (hi : A[i]? = some x) : findRow A x = i := by
  have hx : x ∈ A := List.mem_of_getElem? hi
  have h1 := findRow_get hx
  have hlt := findRow_lt.mpr hx
  obtain ⟨hi', hie⟩ := List.getElem?_eq_some_iff.mp hi
  obtain ⟨hj', hje⟩ := List.getElem?_eq_some_iff.mp h1
  exact (List.Nodup.getElem_inj_iff h).mp (by rw [hie, hje])

theorem mapIndices_eq {A : Matrix} {m : SymMap} {tag : Tag} {f : Row → Row} : ∀ (rest : Matrix) (idx : List Nat),
    (∀ r ∈ rest, applyMap m r tag = .ok (f r)) →
    mapIndices A m tag rest idx =
      if ∀ r ∈ rest, f r ∈ A then .ok (idx ++ rest.map fun r => findRow A (f r)) else .thrown
  | [], idx, _ => by simp [mapIndices]
  | r :: rs, idx, h => by
    rw [mapIndices, h r (by simp)]
    simp only [Outcome.bind]
    by_cases h1 : f r ∈ A
    · rw [if_neg (by have := findRow_lt.mpr h1; omega), mapIndices_eq rs _ fun x hx => h x (by simp [hx])]
      simp [h1]
    · rw [if_pos (by have := mt findRow_lt.mp h1; omega), if_neg]
      intro hc; exact h1 (hc r (by simp))

theorem indicesConsecutive_iff : ∀ (l : List Nat) (i : Nat),
    indicesConsecutive i l = if l = List.range' i l.length then .ok () else .thrown
  | [], i => by simp [indicesConsecutive]
  | x :: xs, i => by
    rw [indicesConsecutive, List.length_cons, List.range'_succ]
    by_cases h : x = i
    · rw [if_neg (by simpa using h), indicesConsecutive_iff xs]
      simp [h]
    · rw [if_pos h, if_neg]
      intro hc; exact h (by injection hc)

theorem sorted_range_iff (l : List Nat) :
    l.insertionSort (· ≤ ·) = List.range' 0 l.length ↔ l.Perm (List.range l.length) := by
  have hp := List.perm_insertionSort (· ≤ ·) l
  rw [← List.range_eq_range']
  constructor
  · intro h; rw [h] at hp; exact hp.symm
  · intro h
    have h1 : (l.insertionSort (· ≤ ·)).Pairwise (· ≤ ·) := List.pairwise_insertionSort _ l
    exact (hp.trans h).eq_of_pairwise (by intro a b _ _ hab hba; omega) h1 (by
      exact (List.pairwise_lt_range (n := l.length)).imp fun h => Nat.le_of_lt h)

/-- which maps are accepted, for a map that is applied to the rows as `f` -/
theorem checkValidityMap_iff {A : Matrix} {m : SymMap} {tag : Tag} {f : Row → Row}
    (h : ∀ r ∈ A, applyMap m r tag = .ok (f r)) :
    checkValidityMap A m tag = .ok () ↔ A.Nodup ∧ (∀ a ∈ A, f a ∈ A) ∧ ∀ b ∈ A, ∃ a ∈ A, f a = b := by
  unfold checkValidityMap
  rw [mapIndices_eq A [] h]
  by_cases h1 : ∀ r ∈ A, f r ∈ A
  · rw [if_pos h1]
    simp only [Outcome.bind, List.nil_append]
    rw [indicesConsecutive_iff, List.length_insertionSort]
    have key : (A.map fun r => findRow A (f r)).Perm (List.range (A.map fun r => findRow A (f r)).length) ↔
        A.Nodup ∧ (∀ a ∈ A, f a ∈ A) ∧ ∀ b ∈ A, ∃ a ∈ A, f a = b := by
      rw [List.length_map]
      constructor
      · intro hp
        have hon : ∀ i < A.length, ∃ a ∈ A, findRow A (f a) = i := by
          intro i hi
          have := hp.mem_iff.mpr (List.mem_range.mpr hi)
          obtain ⟨a, ha, hai⟩ := List.mem_map.mp this
          exact ⟨a, ha, hai⟩
        refine ⟨?_, h1, ?_⟩
        · rw [List.nodup_iff_injective_get]
          intro i j hij
          obtain ⟨a, ha, hai⟩ := hon i i.2
          obtain ⟨b, hb, hbj⟩ := hon j j.2
          have e1 := findRow_get (h1 a ha)
          have e2 := findRow_get (h1 b hb)
          rw [hai, List.getElem?_eq_getElem i.2] at e1
          rw [hbj, List.getElem?_eq_getElem j.2] at e2
          have e3 : A[i.1] = A[j.1] := hij
          have : f a = f b := by
            rw [← Option.some.inj e1, ← Option.some.inj e2]; exact e3
          rw [this, hbj] at hai
          exact Fin.ext hai.symm
        · intro b hb
          obtain ⟨i, hi, hib⟩ := List.getElem_of_mem hb
          obtain ⟨a, ha, hai⟩ := hon i hi
          have e1 := findRow_get (h1 a ha)
          rw [hai, List.getElem?_eq_getElem hi, hib] at e1
          exact ⟨a, ha, (Option.some.inj e1).symm⟩
      · rintro ⟨hnd, -, hon⟩
        -- the list of indices contains all numbers below the length, hence is a permutation of them
        have hsub : List.range A.length ⊆ A.map fun r => findRow A (f r) := by
          intro i hi
          have hi' := List.mem_range.mp hi
          obtain ⟨a, ha, hab⟩ := hon A[i] (List.getElem_mem hi')
          refine List.mem_map.mpr ⟨a, ha, ?_⟩
          show findRow A (f a) = i
          exact findRow_nodup hnd (by rw [hab]; exact List.getElem?_eq_getElem hi')
        have hsp := List.subperm_of_subset List.nodup_range hsub
        exact (hsp.perm_of_length_le (by simp)).symm
    rw [← key, ← sorted_range_iff]
    split
    · next h2 => exact iff_of_true rfl h2
    · next h2 => exact iff_of_false (by simp) h2
  · rw [if_neg h1]
    exact iff_of_false (by simp [Outcome.bind]) fun hc => h1 hc.2.1

/-- accepted or rejected, never undefined -/
theorem checkValidityMap_total {A : Matrix} {m : SymMap} {tag : Tag} {f : Row → Row}
    (h : ∀ r ∈ A, applyMap m r tag = .ok (f r)) :
    checkValidityMap A m tag = .ok () ∨ checkValidityMap A m tag = .thrown := by
  unfold checkValidityMap
  rw [mapIndices_eq A [] h]
  by_cases h1 : ∀ r ∈ A, f r ∈ A
  · rw [if_pos h1]
    simp only [Outcome.bind, List.nil_append]
    rw [indicesConsecutive_iff]
    split
    · exact Or.inl rfl
    · exact Or.inr rfl
  · rw [if_neg h1]; exact Or.inr rfl

end Panda
