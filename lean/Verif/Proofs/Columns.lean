import Verif.Model.FME
import Verif.Proofs.Basic

/-! # Erasing and reinserting zero columns; reordering the input -/

namespace Panda

/-- erase the positions of a descending list, one after the other -/
def eraseAll (zs : List Nat) (r : Row) : Row := zs.foldl (fun r c => r.eraseIdx c) r

/-- the inverse, inserting zeros -/
def insertAll (zs : List Nat) (r : Row) : Row := zs.foldr (fun c r => r.insertIdx c 0) r

@[simp] theorem eraseAll_nil (r : Row) : eraseAll [] r = r := rfl
@[simp] theorem eraseAll_cons (c : Nat) (zs : List Nat) (r : Row) :
    eraseAll (c :: zs) r = eraseAll zs (r.eraseIdx c) := rfl
@[simp] theorem insertAll_nil (r : Row) : insertAll [] r = r := rfl
@[simp] theorem insertAll_cons (c : Nat) (zs : List Nat) (r : Row) :
    insertAll (c :: zs) r = (insertAll zs r).insertIdx c 0 := rfl

theorem eraseIdx_getD_lt {r : Row} {c k : Nat} (h : k < c) : (r.eraseIdx c).getD k 0 = r.getD k 0 := by
  simp [List.getD_eq_getElem?_getD, List.getElem?_eraseIdx, h]

theorem eliminateZeroColumnsLoop_eq : ∀ (col : Nat) (m vs : Matrix) (zs0 : List Nat),
    eliminateZeroColumnsLoop col m vs zs0 =
      (m.map (eraseAll ((List.range col).reverse.filter fun c => m.all fun r => r.getD c 0 == 0)),
       vs.map (eraseAll ((List.range col).reverse.filter fun c => m.all fun r => r.getD c 0 == 0)),
       zs0 ++ (List.range col).reverse.filter fun c => m.all fun r => r.getD c 0 == 0) := by
  intro col
  induction col with
  | zero =>
    intro m vs zs0
    have h : eraseAll [] = id := rfl
    simp [eliminateZeroColumnsLoop, h]
  | succ col ih =>
    intro m vs zs0
    rw [eliminateZeroColumnsLoop, List.range_succ, List.reverse_append, List.reverse_singleton,
      List.singleton_append]
    split
    · next h =>
      rw [List.filter_cons_of_pos (p := fun c => m.all fun r => r.getD c 0 == 0) (a := col) h, ih]
      have hf : ((List.range col).reverse.filter fun c =>
          (m.map fun r => r.eraseIdx col).all fun r => r.getD c 0 == 0) =
          (List.range col).reverse.filter fun c => m.all fun r => r.getD c 0 == 0 := by
        apply List.filter_congr
        intro c hc
        have hc' : c < col := by simpa using hc
        simp only [List.all_map, Function.comp_def]
        rw [Bool.eq_iff_iff]
        simp only [List.all_eq_true, eraseIdx_getD_lt hc']
      rw [hf]
      simp only [List.map_map, List.append_assoc, List.singleton_append]
      rfl
    · next h =>
      rw [List.filter_cons_of_neg (p := fun c => m.all fun r => r.getD c 0 == 0) (a := col) h, ih]

theorem reinsertZeroColumns_eq (m : Matrix) (zs : List Nat) :
    reinsertZeroColumns m zs = m.map (insertAll zs) := by
  unfold reinsertZeroColumns
  rw [List.foldl_reverse]
  induction zs with
  | nil =>
    have : insertAll [] = id := rfl
    simp [this]
  | cons c zs ih =>
    rw [List.foldr_cons, ih, List.map_map]; rfl

/-- a descending list of positions below `n` -/
def Stack (n : Nat) (zs : List Nat) : Prop := zs.Pairwise (· > ·) ∧ ∀ c ∈ zs, c < n

theorem Stack.tail {n c : Nat} {zs : List Nat} (h : Stack n (c :: zs)) : Stack (n - 1) zs := by
  refine ⟨(List.pairwise_cons.mp h.1).2, fun x hx => ?_⟩
  have h1 := (List.pairwise_cons.mp h.1).1 x hx
  have h2 := h.2 c (by simp)
  omega

theorem Stack.length_le : ∀ {zs : List Nat} {n : Nat}, Stack n zs → zs.length ≤ n := by
  intro zs
  induction zs with
  | nil => simp
  | cons c zs ih =>
    intro n h
    have := ih h.tail
    have h2 := h.2 c (by simp)
    simp only [List.length_cons]; omega

theorem eraseAll_length : ∀ {zs : List Nat} {n : Nat} {r : Row}, Stack n zs → r.length = n →
    (eraseAll zs r).length = n - zs.length := by
  intro zs
  induction zs with
  | nil => intro n r _ h; simpa using h
  | cons c zs ih =>
    intro n r h hr
    have hc := h.2 c (by simp)
    rw [eraseAll_cons, ih h.tail (by rw [List.length_eraseIdx_of_lt (by omega)]; omega)]
    simp only [List.length_cons]; omega

theorem insertAll_length : ∀ {zs : List Nat} {n : Nat} {r : Row}, Stack n zs →
    r.length = n - zs.length → (insertAll zs r).length = n := by
  intro zs
  induction zs with
  | nil => intro n r _ h; simpa using h
  | cons c zs ih =>
    intro n r h hr
    have hc := h.2 c (by simp)
    have := ih h.tail (r := r) (by rw [hr, List.length_cons]; omega)
    rw [insertAll_cons, List.length_insertIdx_of_le_length (by omega)]; omega

theorem eraseAll_insertAll : ∀ (zs : List Nat) (r : Row), eraseAll zs (insertAll zs r) = r := by
  intro zs
  induction zs with
  | nil => intro r; rfl
  | cons c zs ih => intro r; rw [insertAll_cons, eraseAll_cons, List.eraseIdx_insertIdx_self, ih]

theorem insertIdx_eraseIdx {r : Row} {c : Nat} (hc : c < r.length) (h0 : r.getD c 0 = 0) :
    (r.eraseIdx c).insertIdx c 0 = r := by
  apply List.ext_getElem?
  intro i
  have hl : (r.eraseIdx c).length = r.length - 1 := List.length_eraseIdx_of_lt hc
  rw [List.getElem?_insertIdx]
  rcases lt_trichotomy i c with h | h | h
  · rw [if_pos h, List.getElem?_eraseIdx, if_pos h]
  · subst h
    rw [if_neg (lt_irrefl _), if_pos rfl, if_pos (by omega), List.getElem?_eq_getElem hc]
    rw [List.getD_eq_getElem?_getD, List.getElem?_eq_getElem hc] at h0
    simpa using h0.symm
  · rw [if_neg (by omega), if_neg (by omega), List.getElem?_eraseIdx, if_neg (by omega)]
    congr 1; omega

theorem insertAll_eraseAll : ∀ {zs : List Nat} {n : Nat} {r : Row}, Stack n zs → r.length = n →
    (∀ c ∈ zs, r.getD c 0 = 0) → insertAll zs (eraseAll zs r) = r := by
  intro zs
  induction zs with
  | nil => intro n r _ _ _; rfl
  | cons c zs ih =>
    intro n r h hr h0
    have hc := h.2 c (by simp)
    rw [eraseAll_cons, insertAll_cons, ih h.tail (by rw [List.length_eraseIdx_of_lt (by omega)]; omega)]
    · exact insertIdx_eraseIdx (by omega) (h0 c (by simp))
    · intro k hk
      rw [eraseIdx_getD_lt ((List.pairwise_cons.mp h.1).1 k hk)]
      exact h0 k (by simp [hk])

theorem insertAll_getD : ∀ {zs : List Nat} {n : Nat} {r : Row}, Stack n zs →
    r.length = n - zs.length → ∀ c ∈ zs, (insertAll zs r).getD c 0 = 0 := by
  intro zs
  induction zs with
  | nil => simp
  | cons c zs ih =>
    intro n r h hr k hk
    have hc := h.2 c (by simp)
    have hr' : r.length = n - 1 - zs.length := by rw [hr, List.length_cons]; omega
    have hl := insertAll_length h.tail hr'
    rw [insertAll_cons, List.getD_eq_getElem?_getD, List.getElem?_insertIdx]
    rw [List.mem_cons] at hk
    rcases hk with rfl | hk
    · rw [if_neg (lt_irrefl _), if_pos rfl, if_pos (by omega)]; rfl
    · rw [if_pos ((List.pairwise_cons.mp h.1).1 k hk), ← List.getD_eq_getElem?_getD]
      exact ih h.tail hr' k hk

theorem dot_insertIdx : ∀ (c : Nat) (a v : Row), c ≤ a.length → v.length = a.length + 1 →
    dot (a.insertIdx c 0) v = dot a (v.eraseIdx c) := by
  intro c
  induction c with
  | zero =>
    intro a v _ hv
    cases v with
    | nil => simp at hv
    | cons y v => simp
  | succ c ih =>
    intro a v hc hv
    cases a with
    | nil => simp at hc
    | cons x a =>
      cases v with
      | nil => simp at hv
      | cons y v =>
        simp only [List.insertIdx_succ_cons, List.eraseIdx_cons_succ, dot_cons]
        rw [ih a v (by simpa using hc) (by simpa using hv)]

theorem dot_insertAll : ∀ {zs : List Nat} {n : Nat} {a v : Row}, Stack n zs →
    a.length = n - zs.length → v.length = n → dot (insertAll zs a) v = dot a (eraseAll zs v) := by
  intro zs
  induction zs with
  | nil => intro n a v _ _ _; rfl
  | cons c zs ih =>
    intro n a v h ha hv
    have hc := h.2 c (by simp)
    have ha' : a.length = n - 1 - zs.length := by rw [ha, List.length_cons]; omega
    have hl := insertAll_length h.tail ha'
    rw [insertAll_cons, eraseAll_cons, dot_insertIdx c _ _ (by omega) (by omega)]
    exact ih h.tail ha' (by rw [List.length_eraseIdx_of_lt (by omega)]; omega)

theorem dot_eraseAll {zs : List Nat} {n : Nat} {a v : Row} (h : Stack n zs) (ha : a.length = n)
    (hv : v.length = n) (h0 : ∀ c ∈ zs, a.getD c 0 = 0) :
    dot (eraseAll zs a) (eraseAll zs v) = dot a v := by
  rw [← dot_insertAll h (eraseAll_length h ha) hv, insertAll_eraseAll h ha h0]

theorem listGcd_insertIdx (c : Nat) : ∀ (a : Row), listGcd (a.insertIdx c 0) = listGcd a := by
  induction c with
  | zero => intro a; simp [listGcd]
  | succ c ih =>
    intro a
    cases a with
    | nil => simp
    | cons x a => simp [listGcd, ih]

theorem listGcd_insertAll (zs : List Nat) (a : Row) : listGcd (insertAll zs a) = listGcd a := by
  induction zs with
  | nil => rfl
  | cons c zs ih => rw [insertAll_cons, listGcd_insertIdx, ih]

theorem insertAll_injective (zs : List Nat) {a b : Row} (h : insertAll zs a = insertAll zs b) : a = b := by
  rw [← eraseAll_insertAll zs a, h, eraseAll_insertAll]

/-! ## Reordering -/

theorem eraseIdx_getD_of_lt {α : Type} {l : List α} {c k : Nat} {d : α} (h : k < c) :
    (l.eraseIdx c).getD k d = l.getD k d := by
  simp [List.getD_eq_getElem?_getD, List.getElem?_eraseIdx, h]

theorem reorderLoop_spec : ∀ (is : List Nat) (used input : Matrix), is.Pairwise (· > ·) →
    (∀ i ∈ is, i < input.length) →
    ∃ rest, reorderLoop is used input = used ++ is.map (fun i => input.getD i []) ++ rest ∧
      (is.map (fun i => input.getD i []) ++ rest).Perm input := by
  intro is
  induction is with
  | nil => intro used input _ _; exact ⟨input, by simp [reorderLoop], by simp⟩
  | cons i is ih =>
    intro used input hp hb
    have hi := hb i (by simp)
    have hp' := List.pairwise_cons.mp hp
    obtain ⟨rest, h1, h2⟩ := ih (used ++ [input.getD i []]) (input.eraseIdx i) hp'.2 (by
      intro j hj
      rw [List.length_eraseIdx_of_lt hi]
      have := hp'.1 j hj
      omega)
    have hm : is.map (fun j => (input.eraseIdx i).getD j []) = is.map (fun j => input.getD j []) := by
      apply List.map_congr_left
      intro j hj; exact eraseIdx_getD_of_lt (hp'.1 j hj)
    rw [hm] at h1 h2
    refine ⟨rest, ?_, ?_⟩
    · rw [reorderLoop, h1]; simp
    · rw [List.map_cons, List.cons_append]
      refine (List.Perm.cons _ h2).trans ?_
      rw [List.getD_eq_getElem?_getD, List.getElem?_eq_getElem hi, Option.getD_some]
      exact List.getElem_cons_eraseIdx_perm hi

theorem reorder_spec (input : Matrix) (T : List Nat) (hT : T.Pairwise (· < ·))
    (hb : ∀ i ∈ T, i < input.length) :
    ∃ rest, reorder input T = T.reverse.map (fun i => input.getD i []) ++ rest ∧
      (reorder input T).Perm input := by
  obtain ⟨rest, h1, h2⟩ := reorderLoop_spec T.reverse [] input
    (by rw [List.pairwise_reverse]; exact hT) (by simpa using hb)
  refine ⟨rest, by unfold reorder; rw [h1]; simp, ?_⟩
  unfold reorder; rw [h1]; simpa using h2

end Panda
