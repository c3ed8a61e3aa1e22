import Verif.Model.Method
import Verif.Proofs.MapNorm
import Verif.Proofs.Acts
import Verif.Props.Vertices

/-! # Properties C21–C25, C47, C52: maps and symmetry classes -/

namespace Panda

theorem rowLt_iff_lt : ∀ a b : Row, rowLt a b = true ↔ a < b
  | _, [] => by simp [rowLt]
  | [], _ :: _ => by simp [rowLt]
  | a :: as, b :: bs => by
    rw [List.cons_lt_cons_iff, ← rowLt_iff_lt as bs]
    simp [rowLt]

theorem pairwise_or {α : Type} {R : α → α → Prop} : ∀ {l : List α}, l.Pairwise R → ∀ {a b : α}, a ∈ l → b ∈ l → a ≠ b →
    R a b ∨ R b a
  | [], _, _, _, ha, _, _ => by simp at ha
  | x :: xs, h, a, b, ha, hb, hne => by
    obtain ⟨h1, h2⟩ := List.pairwise_cons.mp h
    rcases List.mem_cons.mp ha with rfl | ha'
    · rcases List.mem_cons.mp hb with rfl | hb'
      · exact absurd rfl hne
      · exact Or.inl (h1 b hb')
    · rcases List.mem_cons.mp hb with rfl | hb'
      · exact Or.inr (h1 a ha')
      · exact pairwise_or h2 ha' hb' hne

/-! ## More iterations do not change a result -/

theorem getClassLoop_mono {maps : Maps} {tag : Tag} {x : Outcome (List Row)} : ∀ (fuel k : Nat) (rows stack : List Row),
    getClassLoop maps tag fuel rows stack = some x → getClassLoop maps tag (fuel + k) rows stack = some x
  | fuel, k, rows, [], h => by
    have h1 : ∀ f, getClassLoop maps tag f rows [] = some (.ok rows) := fun f => by cases f <;> rfl
    rw [h1] at h ⊢; exact h
  | 0, k, rows, _ :: _, h => by simp [getClassLoop] at h
  | fuel + 1, k, rows, cur :: stack, h => by
    rw [show fuel + 1 + k = (fuel + k) + 1 by omega]
    rw [getClassLoop] at h ⊢
    split at h
    · exact getClassLoop_mono fuel k _ _ h
    · exact h
    · exact h

theorem getClass_mono {maps : Maps} {tag : Tag} {row : Row} {x : Outcome (List Row)} {fuel k : Nat} (hk : fuel ≤ k)
    (h : getClass fuel row maps tag = some x) : getClass k row maps tag = some x := by
  obtain ⟨j, rfl⟩ := Nat.exists_eq_add_of_le hk
  exact getClassLoop_mono fuel j _ _ h

theorem classesLoop_mono {maps : Maps} {tag : Tag} {x : Outcome Matrix} {fuel fuel' : Nat} (hf : fuel ≤ fuel') :
    ∀ (k k' : Nat) (rows : List Row) (acc : Matrix), k ≤ k' →
    classesLoop maps tag fuel k rows acc = some x → classesLoop maps tag fuel' k' rows acc = some x
  | k, k', [], acc, _, h => by
    have h1 : ∀ f k, classesLoop maps tag f k [] acc = some (.ok acc) := fun f k => by cases k <;> rfl
    rw [h1] at h ⊢; exact h
  | 0, k', _ :: _, _, _, h => by simp [classesLoop] at h
  | k + 1, k', r :: rs, acc, hk, h => by
    obtain ⟨j, rfl⟩ : ∃ j, k' = j + 1 := ⟨k' - 1, by omega⟩
    rw [classesLoop] at h ⊢
    cases hg : getClass fuel r maps tag with
    | none => rw [hg] at h; cases h
    | some o =>
      rw [hg] at h
      rw [getClass_mono hf hg]
      match o, h with
      | .ok cls, h => exact classesLoop_mono hf k j _ _ (by omega) h
      | .thrown, h => exact h
      | .ub, h => exact h

theorem classes_mono {maps : Maps} {tag : Tag} {S : Matrix} {x : Outcome Matrix} {fuel k : Nat} (hk : fuel ≤ k)
    (h : classes fuel S maps tag = some x) : classes k S maps tag = some x :=
  classesLoop_mono hk fuel k _ _ hk h

/-! ## C21, C22, C23, C47 -/

section
variable {maps : Maps} {tag : Tag}

/-- **C21** If the maps act injectively on the finite set of rows `S`, reducing `S` terminates, and the
result consists of one row per orbit, the lexicographically largest one: every row of `S` is reachable
from exactly one representative. -/
theorem C21_classes_partition {S : Matrix}
    (hS : ∀ x ∈ S, ∀ m ∈ maps, ∃ y ∈ S, applyMap m x tag = .ok y)
    (hinj : ∀ m ∈ maps, ∀ x ∈ S, ∀ y ∈ S, applyMap m x tag = applyMap m y tag → x = y) :
    ∃ R N, (∀ fuel ≥ N, classes fuel S maps tag = some (.ok R)) ∧ R.Nodup ∧ (∀ r ∈ R, r ∈ S) ∧
      (∀ x ∈ S, ∃! r, r ∈ R ∧ Reach maps tag r x) ∧
      ∀ r ∈ R, ∀ x, Reach maps tag r x → x = r ∨ x < r := by
  have hS' : ∀ x ∈ S, ∀ m ∈ maps, ∃ y, applyMap m x tag = .ok y ∧ y ∈ S := fun x hx m hm => by
    obtain ⟨y, hy, h⟩ := hS x hx m hm; exact ⟨y, h, hy⟩
  obtain ⟨R, hR, inv⟩ := classes_spec hS' hinj (le_refl S.length)
  refine ⟨R, S.length, fun fuel hf => classes_mono hf hR, ?_, fun r hr => (inv.rep r hr).1, ?_, ?_⟩
  · exact List.Pairwise.imp (fun {a b} h => by rintro rfl; exact h.1 .refl) inv.distinct
  · intro x hx
    rcases inv.left x hx with h | ⟨r, hr, hre⟩
    · simp at h
    · refine ⟨r, ⟨hr, hre⟩, ?_⟩
      rintro r' ⟨hr', hre'⟩
      by_contra hne
      have hrr' : Reach maps tag r r' := hre.trans (Reach.symm_of_perm hS' hinj (inv.rep r' hr').1 hre')
      rcases pairwise_or inv.distinct hr hr' (Ne.symm hne) with h | h
      · exact h.1 hrr'
      · exact h.2 hrr'
  · intro r hr x hx
    rcases (inv.rep r hr).2 x hx with h | h
    · exact Or.inl h
    · exact Or.inr ((rowLt_iff_lt x r).mp h)

/-- **C23**, partial correctness: whenever `getClass` returns, the result is exactly the (hence finite)
set of rows reachable by applying maps, in increasing order. -/
theorem C23_get_class_correct {row : Row} {fuel : Nat} {S : List Row}
    (h : getClass fuel row maps tag = some (.ok S)) :
    S.Pairwise (· < ·) ∧ ∀ x, x ∈ S ↔ Reach maps tag row x := by
  obtain ⟨h1, h2⟩ := getClass_partial h
  exact ⟨h1.imp fun {a b} hab => (rowLt_iff_lt a b).mp hab, h2⟩

/-- **C23**, termination: if finitely many rows are reachable and the maps can be applied to them, then
`getClass` terminates and returns the reachable rows. -/
theorem C23_get_class_terminates {row : Row} (hfin : {x | Reach maps tag row x}.Finite)
    (hdef : ∀ x, Reach maps tag row x → ∀ m ∈ maps, ∃ y, applyMap m x tag = .ok y) :
    ∃ S N, (∀ fuel ≥ N, getClass fuel row maps tag = some (.ok S)) ∧ S.Pairwise (· < ·) ∧
      ∀ x, x ∈ S ↔ Reach maps tag row x := by
  have hmem : ∀ x, x ∈ hfin.toFinset.toList ↔ Reach maps tag row x := fun x => by
    rw [Finset.mem_toList, Set.Finite.mem_toFinset]; rfl
  obtain ⟨S, hS, -⟩ := getClass_total (maps := maps) (tag := tag) (row := row) (C := hfin.toFinset.toList)
    ((hmem row).mpr .refl) (fun x hx m hm => by
      obtain ⟨y, hy⟩ := hdef x ((hmem x).mp hx) m hm
      exact ⟨y, hy, (hmem y).mpr (((hmem x).mp hx).tail ⟨m, hm, hy⟩)⟩) (le_refl _)
  exact ⟨S, _, fun fuel hf => getClass_mono hf hS, C23_get_class_correct hS⟩

/-- **C22** Rows in the same orbit have the same class representative: the lexicographically largest row
of the orbit. -/
theorem C22_representative_invariant {C : List Row}
    (hC : ∀ x ∈ C, ∀ m ∈ maps, ∃ y ∈ C, applyMap m x tag = .ok y)
    (hinj : ∀ m ∈ maps, ∀ x ∈ C, ∀ y ∈ C, applyMap m x tag = applyMap m y tag → x = y)
    {a b : Row} (ha : a ∈ C) (hab : Reach maps tag a b) :
    ∃ r N, (∀ fuel ≥ N, classRepresentative fuel a maps tag = some (.ok r) ∧
        classRepresentative fuel b maps tag = some (.ok r)) ∧
      Reach maps tag a r ∧ Reach maps tag r a ∧ ∀ x, Reach maps tag a x → x = r ∨ x < r := by
  have hC' : ∀ x ∈ C, ∀ m ∈ maps, ∃ y, applyMap m x tag = .ok y ∧ y ∈ C := fun x hx m hm => by
    obtain ⟨y, hy, h⟩ := hC x hx m hm; exact ⟨y, h, hy⟩
  have hb := Reach.mem_closed hC' ha hab
  have hba := Reach.symm_of_perm hC' hinj ha hab
  obtain ⟨S, hS, s1, s2⟩ := getClass_total ha hC' (le_refl C.length)
  obtain ⟨S', hS', s1', s2'⟩ := getClass_total hb hC' (le_refl C.length)
  have hne : S ≠ [] := List.ne_nil_of_mem ((s2 a).mpr .refl)
  have hne' : S' ≠ [] := List.ne_nil_of_mem ((s2' b).mpr .refl)
  obtain ⟨l1, l2⟩ := setLast_spec s1 hne
  obtain ⟨l1', l2'⟩ := setLast_spec s1' hne'
  have hmem : ∀ x, x ∈ S ↔ x ∈ S' := fun x => by
    rw [s2, s2']; exact ⟨fun h => hba.trans h, fun h => hab.trans h⟩
  have heq : setLast S' = setLast S := by
    rcases l2 _ ((hmem _).mpr l1') with h | h
    · exact h
    · rcases l2' _ ((hmem _).mp l1) with h' | h'
      · exact h'.symm
      · rw [rowLt_asymm h] at h'; cases h'
  refine ⟨setLast S, C.length, fun fuel hf => ⟨?_, ?_⟩, (s2 _).mp l1, ?_, fun x hx => ?_⟩
  · unfold classRepresentative; rw [getClass_mono hf hS]; rfl
  · unfold classRepresentative; rw [getClass_mono hf hS', ← heq]; rfl
  · exact Reach.symm_of_perm hC' hinj ha ((s2 _).mp l1)
  · rcases l2 x ((s2 x).mpr hx) with h | h
    · exact Or.inl h
    · exact Or.inr ((rowLt_iff_lt _ _).mp h)

end

/-- **C47** Expanding rows by maps returns exactly the union of the orbits of the given rows, if these are
contained in a finite set closed under the maps; without maps it is an error. -/
theorem C47_expand {maps : Maps} {tag : Tag} {A C : Matrix} (hmaps : maps ≠ [])
    (hC : ∀ x ∈ C, ∀ m ∈ maps, ∃ y ∈ C, applyMap m x tag = .ok y) (hA : ∀ a ∈ A, a ∈ C) :
    ∃ N, ∀ fuel ≥ N, ∃ B, expand fuel A maps tag = some (.ok B) ∧ ∀ x, x ∈ B ↔ ∃ a ∈ A, Reach maps tag a x := by
  refine ⟨C.length, fun fuel hf => ?_⟩
  obtain ⟨B, hB, h⟩ := expandLoop_spec (maps := maps) (tag := tag) (C := C) (fun x hx m hm => by
    obtain ⟨y, hy, h⟩ := hC x hx m hm; exact ⟨y, h, hy⟩) hf A hA
  exact ⟨B, by rw [expand, if_neg hmaps]; exact hB, h⟩

theorem C47_no_maps (fuel : Nat) (A : Matrix) (tag : Tag) : expand fuel A [] tag = some .thrown := rfl

/-- swapping the coordinates, and a rotation of order three of the homogenised plane -/
example : classes 10 [[0, 1, 1], [1, 0, 1], [2, 2, 1]] [[[(1, 1)], [(0, 1)], [(2, 1)]]] .vertex =
      some (.ok [[1, 0, 1], [2, 2, 1]]) ∧
    expand 10 [[0, 1, 1], [2, 2, 1]] [[[(1, 1)], [(0, 1)], [(2, 1)]]] .vertex =
      some (.ok [[0, 1, 1], [1, 0, 1], [2, 2, 1]]) ∧
    classRepresentative 10 [0, 1, 1] [[[(1, 1)], [(0, 1)], [(2, 1)]]] .vertex = some (.ok [1, 0, 1]) := by decide

/-- non-termination: doubling a coordinate has an infinite orbit -/
example : getClass 5 [1, 1] [[[(0, 2)], [(1, 1)]]] .vertex = none := by decide

/-! ## C24 -/

/-- **C24** what applying a map computes: the inequality composed with the map (pulled back), respectively
the image of the point (pushed forward), divided by the gcd of its entries. -/
theorem C24_apply {n : Nat} {m : SymMap} (hm : Spec.IsMap n m) {a : Row} (ha : a.length = n) :
    (∃ b, applyMap m a .facet = .ok b ∧ b.length = n ∧
      (∃ g : Int, 0 < g ∧ Spec.pulled n m (Spec.vec n a) = (g : ℚ) • Spec.vec n b) ∧
      (Spec.pulled n m (Spec.vec n a) ≠ 0 → Spec.PrimitiveRow b)) ∧
    (∃ b, applyMap m a .vertex = .ok b ∧ b.length = n ∧
      (∃ g : Int, 0 < g ∧ Spec.pushed n m (Spec.vec n a) = (g : ℚ) • Spec.vec n b) ∧
      (Spec.pushed n m (Spec.vec n a) ≠ 0 → Spec.PrimitiveRow b)) := by
  constructor
  · obtain ⟨b, h1, h2, h3, h4⟩ := applyMap_facet hm ha
    exact ⟨b, h1, h2, h3, fun h => (primitiveRow_iff b).mpr (h4 h)⟩
  · obtain ⟨b, h1, h2, h3, h4⟩ := applyMap_vertex hm ha
    exact ⟨b, h1, h2, h3, fun h => (primitiveRow_iff b).mpr (h4 h)⟩

/-- **C24** duality: the mapped inequality at a point and the inequality at the mapped point agree up to
the two gcds; in particular they have the same sign. -/
theorem C24_dual {n : Nat} {m : SymMap} (hm : Spec.IsMap n m) {a v b w : Row} (ha : a.length = n) (hv : v.length = n)
    (hb : applyMap m a .facet = .ok b) (hw : applyMap m v .vertex = .ok w) :
    (∃ g s : Int, 0 < g ∧ 0 < s ∧ g * Spec.ip b v = s * Spec.ip a w) ∧
      (Spec.ip b v ≤ 0 ↔ Spec.ip a w ≤ 0) ∧ (Spec.ip b v = 0 ↔ Spec.ip a w = 0) := by
  obtain ⟨b', hb', hbl, ⟨g, hg, hgb⟩, -⟩ := applyMap_facet hm ha
  obtain ⟨w', hw', -, ⟨s, hs, hsw⟩, -⟩ := applyMap_vertex hm hv
  rw [hb] at hb'; cases hb'
  rw [hw] at hw'; cases hw'
  have h := pulled_value ha hbl hgb hsw
  have h' : g * Spec.ip b v = s * Spec.ip a w := by exact_mod_cast h
  refine ⟨⟨g, s, hg, hs, h'⟩, ?_, ?_⟩
  · constructor
    · intro hle
      by_contra hc
      push Not at hc
      have h1 := mul_pos hs hc
      have h2 := mul_nonpos_of_nonneg_of_nonpos hg.le hle
      omega
    · intro hle
      by_contra hc
      push Not at hc
      have h1 := mul_pos hg hc
      have h2 := mul_nonpos_of_nonneg_of_nonpos hs.le hle
      omega
  · constructor
    · intro h0; rw [h0, mul_zero] at h'; exact (mul_eq_zero.mp h'.symm).resolve_left hs.ne'
    · intro h0; rw [h0, mul_zero] at h'; exact (mul_eq_zero.mp h').resolve_left hg.ne'

theorem composed_facet {n : Nat} {V : Matrix} {m : SymMap} {a b : Row} (hb : b.length = n) {g : ℚ}
    (hgb : Spec.pulled n m (Spec.vec n a) = g • Spec.vec n b) : Composed n V (pulledL n m) a b g := by
  intro v _
  have : pulledL n m (toV n a) = g • toV n b := hgb
  rw [this, map_smul, ev_toV n b v hb.le, smul_eq_mul]

theorem composed_vertex {n : Nat} {A : Matrix} {m : SymMap} {r q : Row} (hq : q.length = n) {g : ℚ}
    (hg : Spec.pushed n m (Spec.vec n r) = g • Spec.vec n q) : Composed n A (pushedL n m) r q g := by
  intro a _
  have : pushedL n m (toV n r) = g • toV n q := hg
  rw [this, map_smul, ev_toV n q a hq.le, smul_eq_mul]

/-- **C24** a symmetry of the hull of the input rows sends valid inequalities to valid inequalities and facets to
facets. -/
theorem C24_symmetry {n : Nat} {V : Matrix} {m : SymMap} (hm : Spec.IsHullSymmetry n V m) {a : Row} (ha : a.length = n) :
    ∃ b, applyMap m a .facet = .ok b ∧ (Spec.Valid V a → Spec.Valid V b) ∧
      (Spec.IsFacet n V a → Spec.IsFacet n V b) := by
  obtain ⟨b, hb, hbl, ⟨g, hg, hgb⟩, -⟩ := applyMap_facet hm.isMap ha
  have hg' : (0 : ℚ) < g := by exact_mod_cast hg
  have hc : Composed n V (pulledL n m) a b g := composed_facet hbl hgb
  refine ⟨b, hb, fun hv v hvV => ?_, fun hf => isFacet_composed hm.permutes hf hbl hg' hc⟩
  have h1 := hm.permutes.into (toV n a) (fun w hw => by
    rw [ev_toV n a w ha.le, ← ip_eq_dot]; exact_mod_cast hv w hw) v hvV
  rw [hc v hvV] at h1
  have h2 := nonpos_of_mul_nonpos_right h1 hg'
  rw [ip_eq_dot]
  exact_mod_cast h2

/-- the reflection `x ↦ 1 - x` of the unit square -/
example : Spec.IsSymmetry 3 [[0, 0, 1], [1, 0, 1], [0, 1, 1], [1, 1, 1]] [[(2, 1), (0, -1)], [(1, 1)], [(2, 1)]] ∧
    applyMap [[(2, 1), (0, -1)], [(1, 1)], [(2, 1)]] [-1, 0, 0] .facet = .ok [1, 0, -1] := by
  refine ⟨⟨⟨rfl, by decide⟩, ?_, ?_⟩, by decide⟩
  · intro v hv
    simp only [List.mem_cons, List.not_mem_nil, or_false] at hv
    rcases hv with rfl | rfl | rfl | rfl
    · exact ⟨[1, 0, 1], by simp, 1, one_pos, by funext i; fin_cases i <;> simp [Spec.pushed, Spec.vec, Spec.factor, Fin.sum_univ_succ]⟩
    · exact ⟨[0, 0, 1], by simp, 1, one_pos, by funext i; fin_cases i <;> simp [Spec.pushed, Spec.vec, Spec.factor, Fin.sum_univ_succ]⟩
    · exact ⟨[1, 1, 1], by simp, 1, one_pos, by funext i; fin_cases i <;> simp [Spec.pushed, Spec.vec, Spec.factor, Fin.sum_univ_succ]⟩
    · exact ⟨[0, 1, 1], by simp, 1, one_pos, by funext i; fin_cases i <;> simp [Spec.pushed, Spec.vec, Spec.factor, Fin.sum_univ_succ]⟩
  · intro v hv
    simp only [List.mem_cons, List.not_mem_nil, or_false] at hv
    rcases hv with rfl | rfl | rfl | rfl
    · exact ⟨[1, 0, 1], by simp, 1, one_pos, by funext i; fin_cases i <;> simp [Spec.pushed, Spec.vec, Spec.factor, Fin.sum_univ_succ]⟩
    · exact ⟨[0, 0, 1], by simp, 1, one_pos, by funext i; fin_cases i <;> simp [Spec.pushed, Spec.vec, Spec.factor, Fin.sum_univ_succ]⟩
    · exact ⟨[1, 1, 1], by simp, 1, one_pos, by funext i; fin_cases i <;> simp [Spec.pushed, Spec.vec, Spec.factor, Fin.sum_univ_succ]⟩
    · exact ⟨[0, 1, 1], by simp, 1, one_pos, by funext i; fin_cases i <;> simp [Spec.pushed, Spec.vec, Spec.factor, Fin.sum_univ_succ]⟩

end Panda
