import Verif.Props.Adjacency
import Verif.Props.Reduced
import Verif.Props.Validity
import Verif.Proofs.Progress

/-! # C18 with symmetries and equations

The hypotheses of `C18_sound_partial` on the equations (leading coefficient one if there are maps) are needed. -/

namespace Panda

open Relation

set_option linter.unusedSectionVars false

/-- with a single initial row, this is the first row printed -/
theorem first_printed {ι : Type} [DecidableEq ι] [Fintype ι] {c : PoolConfig ι} {r : Row} (hc : c.initial = [r]) {s : Pool ι}
    (h : PoolReach c s) (hp : s.printed ≠ []) : s.printed.head? = some r := by
  suffices (s.printed = [] ∧ s.rows = [] ∧ s.master = some [r] ∧ s.iterators = [] ∧ s.workers = 1 ∧
      ∀ i, s.pc i = .idle ∨ s.pc i = .check ∨ s.pc i = .lock ∨ s.pc i = .waiting) ∨ s.printed.head? = some r by
    rcases this with h | h
    · exact absurd h.1 hp
    · exact h
  clear hp
  refine PoolReach.induct (P := fun s => (s.printed = [] ∧ s.rows = [] ∧ s.master = some [r] ∧ s.iterators = [] ∧ s.workers = 1 ∧
      ∀ i, s.pc i = .idle ∨ s.pc i = .check ∨ s.pc i = .lock ∨ s.pc i = .waiting) ∨ s.printed.head? = some r) ?_ ?_ h
  · exact .inl ⟨rfl, rfl, by rw [← hc]; rfl, rfl, rfl, fun _ => .inl rfl⟩
  · intro s s' _ H hst
    rcases H with ⟨h1, h2, h3, h4, h5, h6⟩ | H
    · have upd : ∀ (i : ι) (v : PC), (v = .idle ∨ v = .check ∨ v = .lock ∨ v = .waiting) → ∀ j,
          Function.update s.pc i v j = .idle ∨ Function.update s.pc i v j = .check ∨ Function.update s.pc i v j = .lock ∨
            Function.update s.pc i v j = .waiting := by
        intro i v hv j
        by_cases hj : j = i
        · subst hj; simpa using hv
        · simpa [Function.update_of_ne hj] using h6 j
      rcases hst with hst | ⟨i, hi⟩
      · cases hst with
        | start i hi => exact .inl ⟨h1, h2, h3, h4, h5, upd i _ (by simp)⟩
        | checkEmpty i hi hw => omega
        | checkBusy i hi => exact .inl ⟨h1, h2, h3, h4, h5, upd i _ (by simp)⟩
        | insertEmpty i hi => have := h6 i; simp [hi] at this
        | pushEmpty i hi => have := h6 i; simp [hi] at this
        | wait i hi => exact .inl ⟨h1, h2, h3, h4, h5, upd i _ (by simp)⟩
        | take i row rest hi hit => rw [h4] at hit; cases hit
        | stop i rest hi hit => rw [h4] at hit; cases hit
        | rotate i row m hi => have := h6 i; simp [hi] at this
        | put s' i row all r' rest hi => have := h6 i; simp [hi] at this
        | done i row all hi => have := h6 i; simp [hi] at this
        | masterPut s' r' rest hm hp =>
          rw [h3] at hm
          simp only [Option.some.injEq, List.cons.injEq] at hm
          obtain ⟨rfl, rfl⟩ := hm
          rcases hp.facts.cases with ⟨f, _⟩ | ⟨_, _, _, e⟩
          · rw [show ({ s with master := some [] } : Pool ι).rows = [] from h2] at f
            simp [setInsert] at f
          · right; rw [e, h1]; rfl
        | masterDone hm => rw [h3] at hm; cases hm
        | asyncPut s' r' rest hm => rw [h3] at hm; cases hm
      · exact .inl ⟨h1, h2, h3, h4, h5, upd i _ (by simp)⟩
    · right
      obtain ⟨t, ht⟩ := hst.printed_prefix
      rw [← ht]
      cases hs : s.printed with
      | nil => rw [hs] at H; cases H
      | cons a l => rw [hs] at H; simpa using H

/-- **C18 is false of the code with symmetries if the leading coefficient of an equation is not one**: the triangle (0,0,0),
(-1,-2,-6), (-2,-1,-6) lies in the plane `2x + 2y - z = 0` and the exchange of `x` and `y` is a symmetry.  If its facet
`-3y + z ≤ 0` is given as known, the first row printed, under every schedule and for every number of threads, is `3y - z ≤ 0`, which the
corner (-2,-1,-6) violates: the adapted map sends the known facet to its negative (C25). -/
theorem C18_maps_false :
    Spec.IsVInput 3 [[0, 0, 0, 1], [-1, -2, -6, 1], [-2, -1, -6, 1]] ∧
    Spec.IsSymmetry 4 [[0, 0, 0, 1], [-1, -2, -6, 1], [-2, -1, -6, 1]] [[(1, 1)], [(0, 1)], [(2, 1)], [(3, 1)]] ∧
    Spec.IsFacet 4 [[0, 0, 0, 1], [-1, -2, -6, 1], [-2, -1, -6, 1]] [0, -3, 1, 0] ∧
    ¬ (∀ v ∈ [[0, 0, 0, 1], [-1, -2, -6, 1], [-2, -1, -6, 1]], Spec.ip [0, 3, -1, 0] v ≤ 0) ∧
    ∃ a, (∀ fuel ≥ 2, adStartFacets fuel [[0, 0, 0, 1], [-1, -2, -6, 1], [-2, -1, -6, 1]] [[[(1, 1)], [(0, 1)], [(2, 1)], [(3, 1)]]]
        [[0, -3, 1, 0]] = some (.ok a)) ∧
      ∀ (ι : Type) [DecidableEq ι] [Fintype ι] (remote : ι → Prop),
        (∃ s, PoolReach (adConfig remote [[0, 0, 0, 1], [-1, -2, -6, 1], [-2, -1, -6, 1]] .facet a) s ∧ s.printed ≠ []) ∧
        ∀ s : Pool ι, PoolReach (adConfig remote [[0, 0, 0, 1], [-1, -2, -6, 1], [-2, -1, -6, 1]] .facet a) s → s.printed ≠ [] →
          s.printed.head? = some [0, 3, -1, 0] := by
  have hC := (C39_known_inequalities (n := 4) (V := [[0, 0, 0, 1], [-1, -2, -6, 1], [-2, -1, -6, 1]]) (K := [[0, -3, 1, 0]])
    (by decide) (by decide)).1.1 (by decide) [0, -3, 1, 0] (by simp)
  refine ⟨⟨by decide, by decide, by decide⟩, ⟨⟨rfl, by decide⟩, ?_, ?_⟩, hC.1, by decide,
    ⟨[[2, 2, -1, 0]], [badMap], [[0, 3, -1, 0]], [[0, 3, -1, 0]]⟩, ?_, ?_⟩
  · intro v hv
    refine ⟨[v.getD 1 0, v.getD 0 0, v.getD 2 0, v.getD 3 0], by revert v; decide, 1, one_pos, ?_⟩
    funext i
    fin_cases i <;> simp [Spec.pushed, Spec.vec, Fin.sum_univ_four, Spec.factor]
  · intro v hv
    refine ⟨[v.getD 1 0, v.getD 0 0, v.getD 2 0, v.getD 3 0], by revert v; decide, 1, one_pos, ?_⟩
    funext i
    fin_cases i <;> simp [Spec.pushed, Spec.vec, Fin.sum_univ_four, Spec.factor]
  · intro fuel hf
    obtain ⟨k, rfl⟩ : ∃ k, fuel = k + 2 := ⟨fuel - 2, by omega⟩
    have e1 : reduceFacet [[0, 0, 0, 1], [-1, -2, -6, 1], [-2, -1, -6, 1]] [[[(1, 1)], [(0, 1)], [(2, 1)], [(3, 1)]]] =
        .ok ([[2, 2, -1, 0]], [badMap]) := by decide
    have e2 : normalize [0, -3, 1, 0] [[2, 2, -1, 0]] = .ok [0, -3, 1, 0] := by decide
    have e3 : classInner .facet [0, -3, 1, 0] [badMap] [[0, -3, 1, 0]] [] = .ok ([[0, -3, 1, 0], [0, 3, -1, 0]], [[0, 3, -1, 0]]) := by decide
    have e4 : classInner .facet [0, 3, -1, 0] [badMap] [[0, -3, 1, 0], [0, 3, -1, 0]] [] = .ok ([[0, -3, 1, 0], [0, 3, -1, 0]], []) := by decide
    have e5 : getClass (k + 2) [0, -3, 1, 0] [badMap] .facet = some (.ok [[0, -3, 1, 0], [0, 3, -1, 0]]) := by
      simp only [getClass, getClassLoop, e3, e4]
    have e6 : classRepresentative (k + 2) [0, -3, 1, 0] [badMap] .facet = some (.ok [0, 3, -1, 0]) := by
      simp only [classRepresentative, e5, Run.bind]; rfl
    simp only [adStartFacets, e1, Run.bind, initializePool, initialRows, knownRows, e2, e6]
  · intro ι _ _ remote
    refine ⟨?_, fun s hs hp => first_printed rfl hs hp⟩
    refine ⟨_, .single (.inl (.masterPut _ _ [0, 3, -1, 0] [] rfl (.added _ _ rfl (.inl ⟨fun _ => by simp [Pool.init], rfl⟩)))), ?_⟩
    simp

end Panda
