import Verif.Model.Assemble
import Verif.Spec.Assemble
import Verif.Proofs.Classes
import Verif.Proofs.SpecBridge
import Mathlib.Tactic.Linarith

/-! # Properties C45, C46, C48: sorting, assembling and checking the input -/

namespace Panda

/-! ## the orders -/

/-- what the proofs need of a comparison -/
structure StrictTotal (lt : Row → Row → Bool) : Prop where
  irrefl : ∀ a, lt a a = false
  trans : ∀ {a b c}, lt a b = true → lt b c = true → lt a c = true
  tri : ∀ a b, lt a b = true ∨ a = b ∨ lt b a = true

theorem rowLt_strict : StrictTotal rowLt := ⟨rowLt_irrefl, rowLt_trans, rowLt_tri⟩

theorem nonZeroAscLt_strict : StrictTotal nonZeroAscLt := by
  refine ⟨fun a => by simp [nonZeroAscLt, rowLt_irrefl], fun {a b c} => ?_, fun a b => ?_⟩
  · unfold nonZeroAscLt
    split <;> split <;> split <;> (try simp only [decide_eq_true_eq]) <;> intro h1 h2 <;> try omega
    · exact rowLt_trans h1 h2
  · unfold nonZeroAscLt
    by_cases h : zeroEntries a = zeroEntries b
    · simpa [h] using rowLt_tri a b
    · rw [if_pos h, if_pos (fun e => h e.symm)]
      simp only [decide_eq_true_eq]
      omega

theorem nonZeroDescLt_strict : StrictTotal nonZeroDescLt := by
  refine ⟨fun a => by simp [nonZeroDescLt, rowLt_irrefl], fun {a b c} => ?_, fun a b => ?_⟩
  · unfold nonZeroDescLt
    split <;> split <;> split <;> (try simp only [decide_eq_true_eq]) <;> intro h1 h2 <;> try omega
    · exact rowLt_trans h1 h2
  · unfold nonZeroDescLt
    by_cases h : zeroEntries a = zeroEntries b
    · simpa [h] using rowLt_tri a b
    · rw [if_pos h, if_pos (fun e => h e.symm)]
      simp only [decide_eq_true_eq]
      omega

namespace StrictTotal
variable {lt : Row → Row → Bool} (h : StrictTotal lt)
include h

theorem asymm {a b : Row} (hab : lt a b = true) : lt b a = false := by
  by_contra h'
  have := h.trans hab (by simpa using h')
  rw [h.irrefl] at this; cases this

theorem sorted (m : Matrix) : (stdSort lt m).Pairwise fun a b => lt b a = false := by
  have : Std.Total fun a b : Row => lt b a = false := ⟨fun a b => by
    rcases h.tri a b with h1 | h1 | h1
    · exact Or.inl (h.asymm h1)
    · subst h1; exact Or.inl (h.irrefl _)
    · exact Or.inr (h.asymm h1)⟩
  have : IsTrans Row fun a b : Row => lt b a = false := ⟨fun a b c h1 h2 => by
    by_contra h3
    have h3 : lt c a = true := by simpa using h3
    rcases h.tri a b with h4 | h4 | h4
    · have := h.trans h3 h4; rw [h2] at this; cases this
    · subst h4; rw [h3] at h2; cases h2
    · rw [h1] at h4; cases h4⟩
  exact List.pairwise_insertionSort _ m

theorem unique {m m' : Matrix} (hp : m'.Perm m) (hs : m'.Pairwise fun a b => lt b a = false) : m' = stdSort lt m := by
  have : Std.Antisymm fun a b : Row => lt b a = false := ⟨fun a b h1 h2 => by
    rcases h.tri a b with h3 | h3 | h3
    · rw [h2] at h3; cases h3
    · exact h3
    · rw [h1] at h3; cases h3⟩
  exact List.Perm.eq_of_pairwise' hs (h.sorted m) (hp.trans (List.perm_insertionSort _ m).symm)

end StrictTotal

/-- the comparison is the lexicographic order -/
theorem rowLt_false_iff : ∀ a b : Row, rowLt b a = false ↔ Spec.LexLe a b
  | [], b => by
    constructor
    · intro _; exact Or.inl (List.nil_prefix)
    · intro _; cases b <;> rfl
  | x :: xs, [] => by
    simp only [rowLt, Bool.true_eq_false, false_iff]
    rintro (⟨t, ht⟩ | ⟨c, u, v, a', b', -, h, -⟩)
    · simp at ht
    · simp at h
  | x :: xs, y :: ys => by
    simp only [rowLt, Bool.or_eq_false_iff, decide_eq_false_iff_not, Bool.and_eq_false_iff, rowLt_false_iff xs ys]
    constructor
    · rintro ⟨h1, h2⟩
      by_cases he : y = x
      · subst he
        rcases h2 with h2 | h2
        · exact absurd rfl h2
        · rcases h2 with ⟨t, rfl⟩ | ⟨c, u, v, a', b', rfl, rfl, huv⟩
          · exact Or.inl ⟨t, rfl⟩
          · exact Or.inr ⟨y :: c, u, v, a', b', rfl, rfl, huv⟩
      · exact Or.inr ⟨[], x, y, xs, ys, rfl, rfl, by omega⟩
    · rintro (⟨t, ht⟩ | ⟨c, u, v, a', b', h1, h2, huv⟩)
      · simp only [List.cons_append, List.cons.injEq] at ht
        exact ⟨by omega, Or.inr (Or.inl ⟨t, ht.2⟩)⟩
      · cases c with
        | nil =>
          simp only [List.nil_append, List.cons.injEq] at h1 h2
          exact ⟨by omega, Or.inl (by omega)⟩
        | cons w c =>
          simp only [List.cons_append, List.cons.injEq] at h1 h2
          exact ⟨by omega, Or.inr (Or.inr ⟨c, u, v, a', b', h1.2, h2.2, huv⟩)⟩

theorem zeros_add (r : Row) : zeroEntries r + Spec.nonZeros r = r.length := by
  induction r with
  | nil => rfl
  | cons x xs ih =>
    unfold zeroEntries Spec.nonZeros at *
    simp only [ne_eq, decide_not] at ih ⊢
    by_cases h : x = 0 <;> simp [h] <;> omega

theorem nonZeroAscLt_false_iff {n : Nat} {a b : Row} (ha : a.length = n) (hb : b.length = n) :
    nonZeroAscLt b a = false ↔ Spec.NonZeroAscLe a b := by
  have h1 := zeros_add a
  have h2 := zeros_add b
  unfold nonZeroAscLt Spec.NonZeroAscLe
  split
  · simp only [decide_eq_false_iff_not]; constructor
    · intro h; left; omega
    · rintro (h | h) <;> omega
  · rw [rowLt_false_iff]; constructor
    · intro h; right; exact ⟨by omega, h⟩
    · rintro (h | h)
      · omega
      · exact h.2

theorem nonZeroDescLt_false_iff {n : Nat} {a b : Row} (ha : a.length = n) (hb : b.length = n) :
    nonZeroDescLt b a = false ↔ Spec.NonZeroDescLe a b := by
  have h1 := zeros_add a
  have h2 := zeros_add b
  unfold nonZeroDescLt Spec.NonZeroDescLe
  split
  · simp only [decide_eq_false_iff_not]; constructor
    · intro h; left; omega
    · rintro (h | h) <;> omega
  · rw [rowLt_false_iff]; constructor
    · intro h; right; exact ⟨by omega, h⟩
    · rintro (h | h)
      · omega
      · exact h.2

theorem pairwise_congr_mem {P Q : Row → Row → Prop} {m : Matrix} (h : ∀ a ∈ m, ∀ b ∈ m, P a b ↔ Q a b) :
    m.Pairwise P ↔ m.Pairwise Q := by
  induction m with
  | nil => simp
  | cons x xs ih =>
    rw [List.pairwise_cons, List.pairwise_cons, ih (fun a ha b hb => h a (by simp [ha]) b (by simp [hb]))]
    exact and_congr_left fun _ => forall₂_congr fun b hb => h x (by simp) b (by simp [hb])

/-! ## C45 -/

theorem sortRows_perm (order : InputOrder) (m : Matrix) : (sortRows order m).Perm m := by
  cases order <;> simp only [sortRows, stdSort]
  · exact List.perm_insertionSort _ m
  · exact ((List.reverse_perm _).trans (List.perm_insertionSort _ _)).trans (List.reverse_perm _)
  · exact List.perm_insertionSort _ m
  · exact List.perm_insertionSort _ m
  · exact List.reverse_perm _
  · exact List.Perm.refl _

/-- **C45** Whatever the order, the rows used are a permutation of the rows given, and they are in the chosen order. -/
theorem C45_sorted {n : Nat} (m : Matrix) (hm : ∀ r ∈ m, r.length = n) :
    (∀ order, (sortRows order m).Perm m) ∧
    (sortRows .lexAsc m).Pairwise Spec.LexLe ∧
    (sortRows .lexDesc m).Pairwise (fun a b => Spec.LexLe b a) ∧
    (sortRows .nonZeroAsc m).Pairwise Spec.NonZeroAscLe ∧
    (sortRows .nonZeroDesc m).Pairwise Spec.NonZeroDescLe ∧
    sortRows .reverse m = m.reverse ∧ sortRows .noSorting m = m := by
  have hl : ∀ order, ∀ r ∈ sortRows order m, r.length = n := fun order r hr => hm r ((sortRows_perm order m).mem_iff.1 hr)
  refine ⟨fun order => sortRows_perm order m, ?_, ?_, ?_, ?_, rfl, rfl⟩
  · exact (rowLt_strict.sorted m).imp fun {a b} h => (rowLt_false_iff a b).1 h
  · rw [sortRows, List.pairwise_reverse]
    exact (rowLt_strict.sorted m.reverse).imp fun {a b} h => (rowLt_false_iff a b).1 h
  · exact (pairwise_congr_mem (fun a ha b hb => nonZeroAscLt_false_iff (hl .nonZeroAsc a ha) (hl .nonZeroAsc b hb))).1 (nonZeroAscLt_strict.sorted m)
  · exact (pairwise_congr_mem (fun a ha b hb => nonZeroDescLt_false_iff (hl .nonZeroDesc a ha) (hl .nonZeroDesc b hb))).1 (nonZeroDescLt_strict.sorted m)

/-- **C45** The result does not depend on the sorting algorithm of the standard library: a permutation of the rows that is
in the chosen order is the one computed here. -/
theorem C45_unique {n : Nat} (m m' : Matrix) (hm : ∀ r ∈ m, r.length = n) (hp : m'.Perm m) :
    (m'.Pairwise Spec.LexLe → m' = sortRows .lexAsc m) ∧
    (m'.Pairwise (fun a b => Spec.LexLe b a) → m' = sortRows .lexDesc m) ∧
    (m'.Pairwise Spec.NonZeroAscLe → m' = sortRows .nonZeroAsc m) ∧
    (m'.Pairwise Spec.NonZeroDescLe → m' = sortRows .nonZeroDesc m) := by
  have hl : ∀ r ∈ m', r.length = n := fun r hr => hm r (hp.mem_iff.1 hr)
  refine ⟨fun h => ?_, fun h => ?_, fun h => ?_, fun h => ?_⟩
  · exact rowLt_strict.unique hp (h.imp fun {a b} h => (rowLt_false_iff a b).2 h)
  · have := rowLt_strict.unique (m := m.reverse) (m' := m'.reverse)
      (((List.reverse_perm _).trans hp).trans (List.reverse_perm _).symm)
      (by rw [List.pairwise_reverse]; exact h.imp fun {a b} h => (rowLt_false_iff b a).2 h)
    rw [sortRows, ← this, List.reverse_reverse]
  · exact nonZeroAscLt_strict.unique hp
      ((pairwise_congr_mem (fun a ha b hb => nonZeroAscLt_false_iff (hl a ha) (hl b hb))).2 h)
  · exact nonZeroDescLt_strict.unique hp
      ((pairwise_congr_mem (fun a ha b hb => nonZeroDescLt_false_iff (hl a ha) (hl b hb))).2 h)

/-- the polyhedron depends only on the set of rows -/
theorem inPolyhedron_mono {d : Nat} {V V' : Matrix} (h : ∀ v ∈ V, v ∈ V') {p : Fin d → ℚ} (hp : Spec.InPolyhedron d V p) :
    Spec.InPolyhedron d V' p := by
  obtain ⟨c, hc, h1, h2⟩ := hp
  have hf : ∀ j : Fin V.length, ∃ k : Fin V'.length, V'[k] = V[j] := fun j => by
    obtain ⟨k, hk, e⟩ := List.mem_iff_getElem.1 (h V[j] (List.getElem_mem j.2))
    exact ⟨⟨k, hk⟩, e⟩
  choose f hf using hf
  refine ⟨fun k => ∑ j ∈ Finset.univ.filter (fun j => f j = k), c j, fun k => Finset.sum_nonneg fun j _ => hc j, ?_, ?_⟩
  · rw [← h1, ← Finset.sum_fiberwise Finset.univ f]
    refine Finset.sum_congr rfl fun k _ => ?_
    split
    · next h0 =>
      symm
      refine Finset.sum_eq_zero fun j hj => ?_
      rw [if_pos]
      rw [← hf j, (Finset.mem_filter.1 hj).2]; exact h0
    · next h0 =>
      refine Finset.sum_congr rfl fun j hj => ?_
      rw [if_neg]
      rw [← hf j, (Finset.mem_filter.1 hj).2]; exact h0
  · rw [h2, ← Finset.sum_fiberwise Finset.univ f]
    refine Finset.sum_congr rfl fun k _ => ?_
    rw [Finset.sum_smul]
    refine Finset.sum_congr rfl fun j hj => ?_
    rw [← hf j, (Finset.mem_filter.1 hj).2]

/-- **C45** Sorting does not change what is described: vertices and rays describe the same polyhedron, inequalities have the
same solutions. -/
theorem C45_same_polyhedron {args : List Arg} {d : Nat} {m m' : Matrix} (h : sort args m = .ok m') (p : Fin d → ℚ) :
    (Spec.InPolyhedron d m' p ↔ Spec.InPolyhedron d m p) ∧ (Spec.Solves d m' p ↔ Spec.Solves d m p) := by
  have hp : m'.Perm m := by
    unfold sort at h
    cases ho : getInputOrder args with
    | ok order => rw [ho] at h; injection h with h; rw [← h]; exact sortRows_perm _ _
    | thrown => rw [ho] at h; cases h
    | ub => rw [ho] at h; cases h
  refine ⟨⟨inPolyhedron_mono fun v hv => hp.mem_iff.1 hv, inPolyhedron_mono fun v hv => hp.mem_iff.2 hv⟩, ?_⟩
  unfold Spec.Solves
  simp only [hp.mem_iff]

example : sort ["-s".toList, "nz_desc".toList] [[0, 0, 1], [1, 2, 1], [0, 2, 1], [-1, 2, 1]] =
    .ok [[-1, 2, 1], [1, 2, 1], [0, 2, 1], [0, 0, 1]] := by decide +kernel

/-! ## C48 -/

theorem rangeCheck_iff (m : Matrix) (n : Nat) :
    rangeDimensionCheck (m.map List.length) n = (if ∀ v ∈ m, v.length = n then .ok () else .thrown) := by
  unfold rangeDimensionCheck
  by_cases h : ∀ v ∈ m, v.length = n
  · rw [if_pos h, if_pos]; simpa using h
  · rw [if_neg h, if_neg]; simpa using h

theorem rangeCheck_sizes (m : List Nat) (n : Nat) :
    rangeDimensionCheck m n = (if ∀ k ∈ m, k = n then .ok () else .thrown) := by
  unfold rangeDimensionCheck
  by_cases h : ∀ k ∈ m, k = n
  · rw [if_pos h, if_pos]; simpa using h
  · rw [if_neg h, if_neg]; simpa using h

theorem checkNames_ok (n : Nat) (names : Names) (dimension : Option Nat) :
    (checkNamesAndDimension n names dimension = .ok () ↔ (names ≠ [] → names.length + 1 = n) ∧ ∀ d ∈ dimension, d ≠ 2 ^ 64 - 1 → d + 1 = n) ∧
    (checkNamesAndDimension n names dimension = .ok () ∨ checkNamesAndDimension n names dimension = .thrown) := by
  unfold checkNamesAndDimension
  split
  · next h =>
    refine ⟨⟨(fun e => by cases e), fun e => absurd (e.1 h.1) h.2⟩, Or.inr rfl⟩
  · next h =>
    have hh : names ≠ [] → names.length + 1 = n := fun h1 => by by_contra h2; exact h ⟨h1, h2⟩
    cases dimension with
    | none => simp; exact hh
    | some d =>
      simp only [Option.mem_def, Option.some.injEq, forall_eq']
      by_cases hd : d ≠ 2 ^ 64 - 1 ∧ n ≠ d + 1
      · rw [if_pos hd]
        exact ⟨⟨(fun e => by cases e), fun e => absurd (e.2 hd.1).symm hd.2⟩, Or.inr rfl⟩
      · rw [if_neg hd]
        refine ⟨⟨fun _ => ⟨hh, fun h1 => ?_⟩, fun _ => rfl⟩, Or.inl rfl⟩
        by_contra h2
        exact hd ⟨h1, fun e => h2 e.symm⟩

/-- the declared dimension as far as it is checked -/
def checkedDimension (dimension : Option Nat) : Option Nat := dimension.filter fun d => d ≠ 2 ^ 64 - 1

theorem mem_checkedDimension {dimension : Option Nat} {d : Nat} :
    d ∈ checkedDimension dimension ↔ d ∈ dimension ∧ d ≠ 2 ^ 64 - 1 := by
  unfold checkedDimension
  cases dimension <;> simp [Option.filter]
  constructor
  · rintro ⟨h, rfl⟩; exact ⟨rfl, h⟩
  · rintro ⟨rfl, h⟩; exact ⟨h, rfl⟩

theorem checkedDimension_of_ne {dimension : Option Nat} (h : dimension ≠ some (2 ^ 64 - 1)) : checkedDimension dimension = dimension := by
  cases dimension with
  | none => rfl
  | some d => unfold checkedDimension; rw [Option.filter_some_pos]; simpa using fun e => h (by rw [e]; norm_num)

theorem check_vertices (conv cone : Matrix) (names : Names) (maps : Maps) (dimension : Option Nat) :
    (checkConsistencyVertices conv cone names maps dimension = .ok () ↔
      Spec.ConsistentVertices conv cone names (maps.map List.length) (checkedDimension dimension)) ∧
    (checkConsistencyVertices conv cone names maps dimension = .ok () ∨
      checkConsistencyVertices conv cone names maps dimension = .thrown) := by
  unfold checkConsistencyVertices Spec.ConsistentVertices
  by_cases h0 : conv = [] ∧ cone = []
  · rw [if_pos h0]; simp [h0.1, h0.2]
  rw [if_neg h0]
  have hne : conv ≠ [] ∨ cone ≠ [] := by
    by_contra h; rw [not_or, not_not, not_not] at h; exact h0 h
  generalize hn : (if conv ≠ [] then (conv.headD []).length else (cone.headD []).length) = n
  have huniq : ∀ k : Nat, (∀ v ∈ conv, v.length = k) → (∀ v ∈ cone, v.length = k) → k = n := by
    intro k h1 h2
    rw [← hn]
    split
    · next hc =>
      obtain ⟨a, r, rfl⟩ := List.exists_cons_of_ne_nil hc
      exact (h1 a (by simp)).symm
    · next hc =>
      obtain ⟨a, r, rfl⟩ := List.exists_cons_of_ne_nil (hne.resolve_left (by simpa using hc))
      exact (h2 a (by simp)).symm
  obtain ⟨hk1, hk2⟩ := checkNames_ok n names dimension
  dsimp only
  rw [rangeCheck_iff conv, rangeCheck_iff cone, rangeCheck_sizes]
  by_cases h1 : ∀ v ∈ conv, v.length = n
  swap
  · rw [if_neg h1]
    refine ⟨⟨fun e => by simp [Outcome.bind] at e, ?_⟩, Or.inr rfl⟩
    rintro ⟨-, k, e1, e2, -⟩
    rw [huniq k e1 e2] at e1; exact absurd e1 h1
  rw [if_pos h1]
  by_cases h2 : ∀ v ∈ cone, v.length = n
  swap
  · rw [if_neg h2]
    refine ⟨⟨fun e => by simp [Outcome.bind] at e, ?_⟩, Or.inr rfl⟩
    rintro ⟨-, k, e1, e2, -⟩
    rw [huniq k e1 e2] at e2; exact absurd e2 h2
  rw [if_pos h2]
  by_cases h3 : ∀ k ∈ maps.map List.length, k = n
  swap
  · rw [if_neg h3]
    refine ⟨⟨fun e => by simp [Outcome.bind] at e, ?_⟩, Or.inr rfl⟩
    rintro ⟨-, k, e1, e2, e3, -⟩
    rw [huniq k e1 e2] at e3; exact absurd e3 h3
  rw [if_pos h3]
  simp only [Outcome.bind]
  refine ⟨hk1.trans ⟨fun ⟨a, b⟩ => ⟨hne, n, h1, h2, h3, a, fun d hd => ?_⟩, ?_⟩, hk2⟩
  · rw [mem_checkedDimension] at hd; exact b d hd.1 hd.2
  rintro ⟨-, k, e1, e2, -, e4, e5⟩
  rw [huniq k e1 e2] at e4 e5
  exact ⟨e4, fun d h1 h2 => e5 d (mem_checkedDimension.2 ⟨h1, h2⟩)⟩

theorem check_inequalities (rows : Matrix) (names : Names) (dimension : Option Nat) :
    (checkConsistencyInequalities rows names dimension = .ok () ↔ Spec.ConsistentInequalities rows names (checkedDimension dimension)) ∧
    (checkConsistencyInequalities rows names dimension = .ok () ∨ checkConsistencyInequalities rows names dimension = .thrown) := by
  unfold checkConsistencyInequalities Spec.ConsistentInequalities
  by_cases h0 : rows = []
  · rw [if_pos h0]; simp [h0]
  rw [if_neg h0]
  obtain ⟨a, r, rfl⟩ := List.exists_cons_of_ne_nil h0
  simp only [List.headD_cons]
  obtain ⟨hk1, hk2⟩ := checkNames_ok a.length names dimension
  simp only [rangeCheck_iff]
  by_cases h1 : ∀ v ∈ a :: r, v.length = a.length
  swap
  · rw [if_neg h1]
    refine ⟨⟨fun e => by simp [Outcome.bind] at e, ?_⟩, Or.inr rfl⟩
    rintro ⟨-, k, e1, -⟩
    have := e1 a (by simp)
    subst this
    exact absurd e1 h1
  rw [if_pos h1]
  simp only [Outcome.bind]
  refine ⟨hk1.trans ⟨fun ⟨x, y⟩ => ⟨h0, _, h1, x, fun d hd => ?_⟩, ?_⟩, hk2⟩
  · rw [mem_checkedDimension] at hd; exact y d hd.1 hd.2
  rintro ⟨-, k, e1, e4, e5⟩
  have := e1 a (by simp)
  subst this
  exact ⟨e4, fun d h1 h2 => e5 d (mem_checkedDimension.2 ⟨h1, h2⟩)⟩

/-- **C48** Vertices and rays whose sizes (of vertices, rays, maps, names and the declared dimension) agree are accepted;
otherwise - unless the declared dimension is the largest `std::size_t` - the program stops with an error. -/
theorem C48_vertices (conv cone : Matrix) (names : Names) (maps : Maps) (dimension : Option Nat) :
    (Spec.ConsistentVertices conv cone names (maps.map List.length) dimension →
      checkConsistencyVertices conv cone names maps dimension = .ok ()) ∧
    (dimension ≠ some (2 ^ 64 - 1) → ¬ Spec.ConsistentVertices conv cone names (maps.map List.length) dimension →
      checkConsistencyVertices conv cone names maps dimension = .thrown) := by
  have h := check_vertices conv cone names maps dimension
  refine ⟨fun ⟨hne, n, h1, h2, h3, h4, h5⟩ => h.1.2 ⟨hne, n, h1, h2, h3, h4, fun d hd => h5 d (mem_checkedDimension.1 hd).1⟩, ?_⟩
  intro hd hn
  rw [checkedDimension_of_ne hd] at h
  exact h.2.resolve_left fun e => hn (h.1.1 e)

/-- **C48** Inequalities are accepted if there is one and all sizes (of rows, names and the declared dimension) agree;
otherwise - unless the declared dimension is the largest `std::size_t` - the program stops with an error. -/
theorem C48_inequalities (rows : Matrix) (names : Names) (dimension : Option Nat) :
    (Spec.ConsistentInequalities rows names dimension → checkConsistencyInequalities rows names dimension = .ok ()) ∧
    (dimension ≠ some (2 ^ 64 - 1) → ¬ Spec.ConsistentInequalities rows names dimension →
      checkConsistencyInequalities rows names dimension = .thrown) := by
  have h := check_inequalities rows names dimension
  refine ⟨fun ⟨hne, n, h1, h4, h5⟩ => h.1.2 ⟨hne, n, h1, h4, fun d hd => h5 d (mem_checkedDimension.1 hd).1⟩, ?_⟩
  intro hd hn
  rw [checkedDimension_of_ne hd] at h
  exact h.2.resolve_left fun e => hn (h.1.1 e)

/-- **C48 is false of the code** for one declared dimension: the largest `std::size_t` stands for "not declared", so a file that
declares it is accepted whenever the same file without the declaration is, although no row has that many coordinates. -/
theorem C48_dimension_false (conv cone : Matrix) (names : Names) (maps : Maps) (rows : Matrix) :
    checkConsistencyVertices conv cone names maps (some (2 ^ 64 - 1)) = checkConsistencyVertices conv cone names maps none ∧
    checkConsistencyInequalities rows names (some (2 ^ 64 - 1)) = checkConsistencyInequalities rows names none := by
  have h : ∀ n, checkNamesAndDimension n names (some (2 ^ 64 - 1)) = checkNamesAndDimension n names none := by
    intro n; unfold checkNamesAndDimension; simp
  constructor
  · unfold checkConsistencyVertices; simp only [h]
  · unfold checkConsistencyInequalities; simp only [h]

/-- a row with two coordinates and a declared dimension of 2^64 - 1 -/
example : checkConsistencyVertices [[1, 2, 1]] [] [] [] (some (2 ^ 64 - 1)) = .ok () ∧
    ¬ Spec.ConsistentVertices [[1, 2, 1]] [] [] [] (some (2 ^ 64 - 1)) := by
  refine ⟨by decide +kernel, ?_⟩
  rintro ⟨-, n, h1, -, -, -, h5⟩
  have h := h5 _ rfl
  have h2 := h1 [1, 2, 1] (by simp)
  simp at h2
  omega

example : Spec.ConsistentVertices [[1, 2, 1]] [[0, 1, 0]] ["x".toList, "y".toList] [3] (some 2) ∧
    ¬ Spec.ConsistentVertices [[1, 2, 1]] [[0, 1, 0]] ["x".toList] [3] (some 2) := by
  constructor
  · exact ⟨by simp, 3, by simp, by simp, by simp, by simp, by simp⟩
  · rintro ⟨-, n, h1, -, -, h4, h5⟩
    have h2 := h1 [1, 2, 1] (by simp)
    have h6 := h4 (by simp)
    simp at h2 h6
    omega

/-! ## C46 -/

theorem negRow_spec : ∀ e : Row, (∀ x ∈ e, x ≠ -2147483648) → negRow e = .ok (e.map fun x => -x)
  | [], _ => rfl
  | x :: xs, h => by
    rw [negRow, negInt, if_neg (show ¬ x = intMin from h x (by simp)), negRow_spec xs fun y hy => h y (by simp [hy])]
    rfl

theorem addEquations_spec : ∀ (eqs ineqs : Matrix), (∀ e ∈ eqs, ∀ x ∈ e, x ≠ -2147483648) →
    addEquations ineqs eqs = .ok (ineqs ++ eqs.flatMap fun e => [e, e.map fun x => -x])
  | [], ineqs, _ => by simp [addEquations]
  | e :: r, ineqs, h => by
    rw [addEquations, negRow_spec e (h e (by simp))]
    simp only [Outcome.bind]
    rw [addEquations_spec r _ fun f hf => h f (by simp [hf])]
    simp

theorem addEquations_ub : ∀ (eqs ineqs : Matrix), (∃ e ∈ eqs, (-2147483648 : Int) ∈ e) → addEquations ineqs eqs = .ub
  | [], ineqs, h => by simp at h
  | e :: r, ineqs, h => by
    have hub : ∀ e : Row, (-2147483648 : Int) ∈ e → negRow e = .ub := by
      intro e
      induction e with
      | nil => intro h; simp at h
      | cons x xs ih =>
        intro h
        rw [negRow, negInt]
        by_cases hx : x = intMin
        · rw [if_pos hx]; rfl
        · rw [if_neg hx]
          rcases List.mem_cons.1 h with h | h
          · exact absurd h.symm hx
          · rw [ih h]; rfl
    rw [addEquations]
    by_cases he : (-2147483648 : Int) ∈ e
    · rw [hub e he]; rfl
    · rw [negRow_spec e fun x hx h0 => he (h0 ▸ hx)]
      simp only [Outcome.bind]
      obtain ⟨f, hf, hm⟩ := h
      rcases List.mem_cons.1 hf with rfl | hf
      · exact absurd hm he
      · exact addEquations_ub r _ ⟨f, hf, hm⟩

theorem value_neg (d : Nat) (e : Row) (p : Fin d → ℚ) : Spec.value d (e.map fun x => -x) p = -Spec.value d e p := by
  have : ∀ i, (e.map fun x => -x).getD i 0 = -(e.getD i 0) := by
    intro i
    simp only [List.getD_eq_getElem?_getD, List.getElem?_map]
    cases e[i]? <;> simp
  unfold Spec.value
  rw [neg_add, ← Finset.sum_neg_distrib]
  congr 1
  · refine Finset.sum_congr rfl fun i _ => ?_
    rw [this]; push_cast; ring
  · rw [this]; push_cast; rfl

theorem value_trivial (d : Nat) (p : Fin d → ℚ) : Spec.value d (List.replicate d 0 ++ [-1]) p = -1 := by
  unfold Spec.value
  rw [Finset.sum_eq_zero]
  · simp [List.getD_eq_getElem?_getD]
  · intro i _
    have : (List.replicate d (0 : Int) ++ [-1]).getD i 0 = 0 := by
      simp [List.getD_eq_getElem?_getD, i.2]
    rw [this]; simp

/-- **C46** The assembled system: if the sizes agree (the check accepts) and no equation contains the smallest `int`, it has as
solutions exactly the points that satisfy all inequalities and equations of the input, all rows have the right size, and it
consists of the inequalities, the equations and their negatives, and the row `0 ≤ 1`. -/
theorem C46_assembled {d : Nat} {args : List Arg} {order : InputOrder} {ineqs eqs : Matrix} {names : Names} {dimension : Option Nat}
    (ho : getInputOrder args = .ok order) (hc : Spec.ConsistentInequalities ineqs names dimension)
    (h1 : ∀ a ∈ ineqs, a.length = d + 1) (h2 : ∀ e ∈ eqs, e.length = d + 1) (h3 : ∀ e ∈ eqs, ∀ x ∈ e, x ≠ -2147483648) :
    ∃ A, assembleInequalities args ineqs eqs names dimension = .ok A ∧ (∀ a ∈ A, a.length = d + 1) ∧
      List.replicate d 0 ++ [-1] ∈ A ∧
      (∀ p : Fin d → ℚ, Spec.Solves d A p ↔ (∀ a ∈ ineqs, Spec.value d a p ≤ 0) ∧ ∀ e ∈ eqs, Spec.value d e p = 0) ∧
      ∀ a ∈ A, a ∈ ineqs ∨ (∃ e ∈ eqs, a = e ∨ a = e.map fun x => -x) ∨ a = List.replicate d 0 ++ [-1] := by
  unfold assembleInequalities
  rw [(C48_inequalities ineqs names dimension).1 hc]
  simp only [Outcome.bind, addEquations_spec eqs ineqs h3, sort, ho]
  generalize hall : (ineqs ++ eqs.flatMap fun e => [e, e.map fun x => -x]) = all
  have hmem : ∀ r, r ∈ all ↔ r ∈ ineqs ∨ ∃ e ∈ eqs, r = e ∨ r = e.map fun x => -x := by
    intro r; rw [← hall]; simp
  have hp := sortRows_perm order all
  have hlen : ∀ r ∈ sortRows order all, r.length = d + 1 := by
    intro r hr
    rcases (hmem r).1 (hp.mem_iff.1 hr) with h | ⟨e, he, rfl | rfl⟩
    · exact h1 r h
    · exact h2 _ he
    · rw [List.length_map]; exact h2 e he
  have hne : sortRows order all ≠ [] := by
    obtain ⟨a, r, e⟩ := List.exists_cons_of_ne_nil hc.1
    intro h
    rw [h] at hp
    have := (hmem a).2 (Or.inl (by rw [e]; simp))
    rw [List.nil_perm.1 hp] at this
    simp at this
  have hlast : (sortRows order all).getLastD [] ∈ sortRows order all := by
    rw [List.getLastD_eq_getLast?, List.getLast?_eq_some_getLast hne]
    exact List.getLast_mem hne
  have hl := hlen _ hlast
  rw [if_neg (by rintro (h | h); exacts [hne h, by rw [h] at hl; simp at hl]), hl]
  refine ⟨_, rfl, ?_, by simp, fun p => ?_, ?_⟩
  · intro a ha
    rcases List.mem_append.1 ha with ha | ha
    · exact hlen a ha
    · rw [List.mem_singleton.1 ha]; simp
  · unfold Spec.Solves
    constructor
    · intro h
      refine ⟨fun a ha => h a ?_, fun e he => ?_⟩
      · exact List.mem_append_left _ (hp.mem_iff.2 ((hmem a).2 (Or.inl ha)))
      · have e1 := h e (List.mem_append_left _ (hp.mem_iff.2 ((hmem e).2 (Or.inr ⟨e, he, Or.inl rfl⟩))))
        have e2 := h _ (List.mem_append_left _ (hp.mem_iff.2 ((hmem _).2 (Or.inr ⟨e, he, Or.inr rfl⟩))))
        rw [value_neg] at e2
        linarith
    · rintro ⟨g1, g2⟩ a ha
      rcases List.mem_append.1 ha with ha | ha
      · rcases (hmem a).1 (hp.mem_iff.1 ha) with h | ⟨e, he, rfl | rfl⟩
        · exact g1 a h
        · exact (g2 _ he).le
        · rw [value_neg, g2 e he]; simp
      · rw [List.mem_singleton.1 ha, Nat.add_sub_cancel, value_trivial]; norm_num
  · intro a ha
    rcases List.mem_append.1 ha with ha | ha
    · rcases (hmem a).1 (hp.mem_iff.1 ha) with h | h
      · exact Or.inl h
      · exact Or.inr (Or.inl h)
    · exact Or.inr (Or.inr (by rw [List.mem_singleton.1 ha, Nat.add_sub_cancel]))

/-- the hypotheses are met: the segment `x + y = 1`, `x ≥ 0`, `y ≥ 0` -/
example : assembleInequalities ["-s".toList, "lex_asc".toList] [[0, -1, 0], [-1, 0, 0]] [[1, 1, -1]] ["x".toList, "y".toList] none =
    .ok [[-1, -1, 1], [-1, 0, 0], [0, -1, 0], [1, 1, -1], [0, 0, -1]] := by decide +kernel

/-- **C46** is not safe for the smallest `int` in an equation: negating it is undefined. -/
theorem C46_undefined_false (args : List Arg) (ineqs eqs : Matrix) (names : Names) (dimension : Option Nat)
    (hc : Spec.ConsistentInequalities ineqs names dimension) (h : ∃ e ∈ eqs, (-2147483648 : Int) ∈ e) :
    assembleInequalities args ineqs eqs names dimension = .ub := by
  unfold assembleInequalities
  rw [(C48_inequalities ineqs names dimension).1 hc]
  simp only [Outcome.bind, addEquations_ub eqs ineqs h]

/-- **C48** does not cover the equations: an equation of the wrong size is accepted, and with sorting the row `0 ≤ 1` gets the
wrong size, too. -/
theorem C48_equation_size_false :
    assembleInequalities [] [[1, 1, -1]] [[1, -1]] [] none = .ok [[1, 1, -1], [1, -1], [-1, 1], [0, -1]] := by decide +kernel

end Panda
