import Verif.Model.Pool
import Verif.Proofs.Classes
import Mathlib.Algebra.BigOperators.Group.Finset.Basic
import Mathlib.Algebra.BigOperators.Fin
import Mathlib.Algebra.Order.BigOperators.Group.Finset
import Mathlib.Data.Finset.Card
import Mathlib.Data.Set.Finite.Basic
import Mathlib.Order.WellFounded
import Mathlib.Data.Prod.Lex

/-! # Invariants of the job pool -/

namespace Panda

open Relation

/-- every row that may enter the pool satisfies `G`, and the empty row does not -/
structure PoolConfig.Safe {ι : Type} (c : PoolConfig ι) (G : Row → Prop) : Prop where
  nonempty : ¬ G []
  initial : ∀ r ∈ c.initial, G r
  known : ∀ r ∈ c.known, G r
  rot : ∀ r m, G r → c.Rot r m → ∀ x ∈ m, G x

section
set_option linter.unusedSectionVars false
variable {ι : Type} [DecidableEq ι] {c : PoolConfig ι} {s s' : Pool ι} {r : Row}

theorem PoolReach.induct {P : Pool ι → Prop} (h0 : P (Pool.init c))
    (hs : ∀ s s', PoolReach c s → P s → PoolStep c s s' → P s') (h : PoolReach c s) : P s := by
  induction h with
  | refl => exact h0
  | tail h1 h2 ih => exact hs _ _ h1 ih h2

structure PutFacts (r : Row) (s s' : Pool ι) : Prop where
  workers : s'.workers = s.workers
  master : s'.master = s.master
  async : s'.async = s.async
  handed : s'.handed = s.handed
  submitted : s'.submitted = s.submitted ++ [r]
  pc : ∀ i, s'.pc i = s.pc i ∨ (s.pc i = .waiting ∧ s'.pc i = .lock)
  cases : ((setInsert r s.rows).2 = false ∧ s'.rows = s.rows ∧ s'.iterators = s.iterators ∧ s'.printed = s.printed ∧ s'.pc = s.pc) ∨
    ((setInsert r s.rows).2 = true ∧ s'.rows = (setInsert r s.rows).1 ∧ s'.iterators = s.iterators ++ [r] ∧ s'.printed = s.printed ++ [r])

theorem PutRow.facts (h : PutRow r s s') : PutFacts r s s' := by
  cases h with
  | present hf => exact ⟨rfl, rfl, rfl, rfl, rfl, fun i => .inl rfl, .inl ⟨hf, rfl, rfl, rfl, rfl⟩⟩
  | added pc' hf hn =>
    refine ⟨rfl, rfl, rfl, rfl, rfl, fun i => ?_, .inr ⟨hf, rfl, rfl, rfl⟩⟩
    rcases hn with ⟨_, rfl⟩ | ⟨j, hj, rfl⟩
    · exact .inl rfl
    · by_cases hij : i = j
      · subst hij; right; exact ⟨hj, by simp⟩
      · left; simp [Function.update_of_ne hij]

theorem PutRow.exists (r : Row) (s : Pool ι) : ∃ s', PutRow r s s' := by
  cases hf : (setInsert r s.rows).2 with
  | false => exact ⟨_, .present s hf⟩
  | true =>
    by_cases h : ∃ i, s.pc i = .waiting
    · obtain ⟨i, hi⟩ := h
      exact ⟨_, .added s _ hf (.inr ⟨i, hi, rfl⟩)⟩
    · push Not at h
      exact ⟨_, .added s _ hf (.inl ⟨h, rfl⟩)⟩

/-! ## Contents -/

/-- what is still to be put, and what is being worked on, satisfies `G` -/
structure InvG (G : Row → Prop) (s : Pool ι) : Prop where
  printed : ∀ r ∈ s.printed, G r
  working : ∀ i r, s.pc i = .working r → G r
  putting : ∀ i r m rest, s.pc i = .putting r m rest → G r ∧ ∀ x ∈ rest, G x
  master : ∀ m, s.master = some m → ∀ x ∈ m, G x
  async : ∀ x ∈ s.async, G x
  iterators : ∀ r ∈ s.iterators, r = [] ∨ G r

theorem PutFacts.invG {G : Row → Prop} (h : PutFacts r s s') (hr : G r) (H : InvG G s) : InvG G s' := by
  have hit : ∀ x ∈ s'.iterators, x = [] ∨ G x := by
    rcases h.cases with ⟨_, _, e, _, _⟩ | ⟨_, _, e, _⟩ <;> rw [e]
    · exact H.iterators
    · intro x hx
      rcases List.mem_append.1 hx with hx | hx
      · exact H.iterators x hx
      · rw [List.mem_singleton.1 hx]; exact .inr hr
  have hpr : ∀ x ∈ s'.printed, G x := by
    rcases h.cases with ⟨_, _, _, e, _⟩ | ⟨_, _, _, e⟩ <;> rw [e]
    · exact H.printed
    · intro x hx
      rcases List.mem_append.1 hx with hx | hx
      · exact H.printed x hx
      · rw [List.mem_singleton.1 hx]; exact hr
  refine ⟨hpr, ?_, ?_, ?_, ?_, hit⟩
  · intro i r' hi
    rcases h.pc i with e | ⟨_, e⟩
    · exact H.working i r' (e ▸ hi)
    · rw [e] at hi; cases hi
  · intro i r' m rest hi
    rcases h.pc i with e | ⟨_, e⟩
    · exact H.putting i r' m rest (e ▸ hi)
    · rw [e] at hi; cases hi
  · rw [h.master]; exact H.master
  · rw [h.async]; exact H.async

/-- changing the place of one thread to one where it carries no row -/
theorem update_cases {pc : ι → PC} {i j : ι} {v w : PC} (h : Function.update pc i v j = w) : (j = i ∧ v = w) ∨ (j ≠ i ∧ pc j = w) := by
  by_cases hji : j = i
  · subst hji; simp at h; exact .inl ⟨rfl, h⟩
  · rw [Function.update_of_ne hji] at h; exact .inr ⟨hji, h⟩

theorem notifyAll_cases {pc : ι → PC} {j : ι} : notifyAll pc j = pc j ∨ (pc j = .waiting ∧ notifyAll pc j = .lock) := by
  unfold notifyAll
  by_cases h : pc j = .waiting
  · simp [h]
  · simp [h]

theorem invG (G : Row → Prop) (hG : c.Safe G) (h : PoolReach c s) : InvG G s := by
  refine PoolReach.induct ?_ ?_ h
  · refine ⟨by simp [Pool.init], by simp [Pool.init], by simp [Pool.init], ?_, hG.known, by simp [Pool.init]⟩
    intro m hm; simp only [Pool.init, Option.some.injEq] at hm; subst hm; exact hG.initial
  · intro s s' _ H hst
    have upd : ∀ (i : ι) (v : PC), (∀ r, v = .working r → G r) → (∀ r m rest, v = .putting r m rest → G r ∧ ∀ x ∈ rest, G x) →
        InvG G { s with pc := Function.update s.pc i v } := by
      intro i v h1 h2
      refine ⟨H.printed, ?_, ?_, H.master, H.async, H.iterators⟩
      · intro j r hj
        rcases update_cases hj with ⟨_, e⟩ | ⟨_, e⟩
        · exact h1 r e
        · exact H.working j r e
      · intro j r m rest hj
        rcases update_cases hj with ⟨_, e⟩ | ⟨_, e⟩
        · exact h2 r m rest e
        · exact H.putting j r m rest e
    rcases hst with hst | ⟨i, hi⟩
    · cases hst with
      | start i => exact upd i _ (by simp) (by simp)
      | checkEmpty i => exact upd i _ (by simp) (by simp)
      | checkBusy i => exact upd i _ (by simp) (by simp)
      | insertEmpty i =>
        have := upd i .pushEmpty (by simp) (by simp)
        exact ⟨this.printed, this.working, this.putting, this.master, this.async, this.iterators⟩
      | pushEmpty i =>
        refine ⟨H.printed, ?_, ?_, H.master, H.async, ?_⟩
        · intro j r hj
          rcases update_cases hj with ⟨_, e⟩ | ⟨_, e⟩
          · cases e
          · rcases notifyAll_cases (pc := s.pc) (j := j) with e' | ⟨_, e'⟩
            · exact H.working j r (e' ▸ e)
            · rw [e'] at e; cases e
        · intro j r m rest hj
          rcases update_cases hj with ⟨_, e⟩ | ⟨_, e⟩
          · cases e
          · rcases notifyAll_cases (pc := s.pc) (j := j) with e' | ⟨_, e'⟩
            · exact H.putting j r m rest (e' ▸ e)
            · rw [e'] at e; cases e
        · intro x hx
          rcases List.mem_append.1 hx with hx | hx
          · exact H.iterators x hx
          · rw [List.mem_singleton.1 hx]; exact .inl rfl
      | wait i => exact upd i _ (by simp) (by simp)
      | take i row rest hi hit hne =>
        have hrow : G row := (H.iterators row (by rw [hit]; simp)).resolve_left hne
        have := upd i (.working row) (by rintro r ⟨⟩; exact hrow) (by simp)
        refine ⟨this.printed, this.working, this.putting, this.master, this.async, fun x hx => H.iterators x (by rw [hit]; simp [hx])⟩
      | stop i rest => 
        have := upd i .stopped (by simp) (by simp)
        exact ⟨this.printed, this.working, this.putting, this.master, this.async, this.iterators⟩
      | rotate i row m hi hR =>
        refine upd i _ (by simp) ?_
        rintro r m' rest e
        injection e with e1 e2 e3
        subst e1; subst e3
        exact ⟨H.working i _ hi, hG.rot _ _ (H.working i _ hi) hR⟩
      | put _ i row all r rest hi hp =>
        have h0 := H.putting i row all _ hi
        refine hp.facts.invG (h0.2 r (by simp)) (upd i _ (by simp) ?_)
        rintro r' m' rest' e
        injection e with e1 e2 e3
        subst e1; subst e3
        exact ⟨h0.1, fun x hx => h0.2 x (by simp [hx])⟩
      | done i row all hi =>
        have := upd i .check (by simp) (by simp)
        exact ⟨this.printed, this.working, this.putting, this.master, this.async, this.iterators⟩
      | masterPut _ r rest hm hp =>
        have h0 := H.master _ hm
        refine hp.facts.invG (h0 r (by simp)) ⟨H.printed, H.working, H.putting, ?_, H.async, H.iterators⟩
        rintro m' ⟨⟩ x hx
        exact h0 x (by simp [hx])
      | masterDone hm => exact ⟨H.printed, H.working, H.putting, by simp, H.async, H.iterators⟩
      | asyncPut _ r rest hm ha hp =>
        refine hp.facts.invG (H.async r (by rw [ha]; simp)) ⟨H.printed, H.working, H.putting, H.master, ?_, H.iterators⟩
        intro x hx
        exact H.async x (by rw [ha]; simp [hx])
    · exact upd i _ (by simp) (by simp)

/-- the set, the output and the queue agree -/
structure InvA (s : Pool ι) : Prop where
  sorted : SortedSet s.rows
  rows : ∀ r, r ≠ [] → (r ∈ s.rows ↔ r ∈ s.printed)
  nodup : s.printed.Nodup
  queue : s.printed = s.handed.map Prod.snd ++ s.iterators.filter (· ≠ [])
  submitted : ∀ r, r ∈ s.submitted ↔ r ∈ s.printed

theorem PutFacts.invA (h : PutFacts r s s') (hr : r ≠ []) (H : InvA s) : InvA s' := by
  rcases h.cases with ⟨f, e1, e2, e3, _⟩ | ⟨f, e1, e2, e3⟩
  · have hm : r ∈ s.printed := by
      rw [← H.rows r hr]
      by_contra hc
      rw [(setInsert_flag r s.rows H.sorted).2 hc] at f
      cases f
    refine ⟨e1 ▸ H.sorted, by rw [e1, e3]; exact H.rows, e3 ▸ H.nodup, by rw [e3, e2, h.handed]; exact H.queue, ?_⟩
    intro x
    rw [h.submitted, e3, List.mem_append, List.mem_singleton, H.submitted]
    constructor
    · rintro (h | rfl)
      · exact h
      · exact hm
    · exact .inl
  · have hm : r ∉ s.printed := by
      rw [← H.rows r hr]
      exact (setInsert_flag r s.rows H.sorted).1 f
    refine ⟨e1 ▸ setInsert_sorted r _ H.sorted, ?_, ?_, ?_, ?_⟩
    · intro x hx
      rw [e1, e3, mem_setInsert, List.mem_append, List.mem_singleton, H.rows x hx]
      exact or_comm
    · rw [e3]
      exact H.nodup.append (List.nodup_singleton r) (by simpa using hm)
    · rw [e3, e2, h.handed, List.filter_append, ← List.append_assoc, ← H.queue]
      simp [hr]
    · intro x
      rw [h.submitted, e3, List.mem_append, List.mem_append, H.submitted]

theorem invA {G : Row → Prop} (hG : c.Safe G) (h : PoolReach c s) : InvA s := by
  refine PoolReach.induct ?_ ?_ h
  · exact ⟨List.Pairwise.nil, by simp [Pool.init], List.nodup_nil, by simp [Pool.init], by simp [Pool.init]⟩
  · intro s s' hreach H hst
    have HG := invG G hG hreach
    have hne : ∀ {x}, G x → x ≠ [] := by rintro x hx rfl; exact hG.nonempty hx
    have upd : ∀ (pc' : ι → PC) (w : Nat) (m : Option Matrix) (a : Matrix), InvA { s with pc := pc', workers := w, master := m, async := a } :=
      fun pc' w m a => ⟨H.sorted, H.rows, H.nodup, H.queue, H.submitted⟩
    rcases hst with hst | ⟨i, hi⟩
    · cases hst with
      | start i => exact upd _ _ _ _
      | checkEmpty i => exact upd _ _ _ _
      | checkBusy i => exact upd _ _ _ _
      | insertEmpty i =>
        refine ⟨setInsert_sorted [] _ H.sorted, ?_, H.nodup, H.queue, H.submitted⟩
        intro x hx
        simp only [mem_setInsert, hx, false_or]
        exact H.rows x hx
      | pushEmpty i =>
        refine ⟨H.sorted, H.rows, H.nodup, ?_, H.submitted⟩
        simp only [List.filter_append]
        rw [H.queue]; simp
      | wait i => exact upd _ _ _ _
      | take i row rest hi hit hr =>
        refine ⟨H.sorted, H.rows, H.nodup, ?_, H.submitted⟩
        have := H.queue
        rw [hit] at this
        simp only [List.map_append, List.map_cons, List.map_nil]
        rw [this]
        simp [hr]
      | stop i rest => exact upd _ _ _ _
      | rotate i row m hi hR => exact upd _ _ _ _
      | put _ i row all r rest hi hp =>
        exact hp.facts.invA (hne ((HG.putting i row all _ hi).2 r (by simp))) (upd _ _ _ _)
      | done i row all hi => exact upd _ _ _ _
      | masterPut _ r rest hm hp =>
        exact hp.facts.invA (hne (HG.master _ hm r (by simp))) (upd _ _ _ _)
      | masterDone hm => exact upd _ _ _ _
      | asyncPut _ r rest hm ha hp =>
        exact hp.facts.invA (hne (HG.async r (by rw [ha]; simp))) (upd _ _ _ _)
    · exact upd _ _ _ _

/-! ## Counting -/

section Count
variable [Fintype ι]

theorem sum_update (f : PC → Nat) (pc : ι → PC) (i : ι) (v : PC) :
    (∑ j, f (Function.update pc i v j)) + f (pc i) = (∑ j, f (pc j)) + f v := by
  rw [← Finset.add_sum_erase _ _ (Finset.mem_univ i), ← Finset.add_sum_erase Finset.univ (fun j => f (pc j)) (Finset.mem_univ i)]
  have : ∑ j ∈ Finset.univ.erase i, f (Function.update pc i v j) = ∑ j ∈ Finset.univ.erase i, f (pc j) := by
    refine Finset.sum_congr rfl fun j hj => ?_
    rw [Function.update_of_ne (Finset.ne_of_mem_erase hj)]
  rw [this]
  simp only [Function.update_self]
  omega

theorem sum_woken (f : PC → Nat) (hf : f .waiting = f .lock) {pc pc' : ι → PC}
    (h : ∀ i, pc' i = pc i ∨ (pc i = .waiting ∧ pc' i = .lock)) : (∑ j, f (pc' j)) = ∑ j, f (pc j) := by
  refine Finset.sum_congr rfl fun j _ => ?_
  rcases h j with e | ⟨e1, e2⟩
  · rw [e]
  · rw [e1, e2, hf]

/-- threads counted by `workers` -/
def PC.busy : PC → Nat
  | .working _ => 1
  | .putting _ _ _ => 1
  | .stopped => 1
  | _ => 0

/-- the counter `workers` is the number of threads that have received a row and not yet returned their
results, plus the threads that have left, plus one during the initialisation -/
structure InvB (c : PoolConfig ι) (s : Pool ι) : Prop where
  count : s.workers = (∑ i, (s.pc i).busy) + (if s.master.isSome then 1 else 0)
  local_ : ∀ i, ¬ c.remote i → s.master ≠ none → s.pc i = .idle

theorem PutFacts.invB (h : PutFacts r s s') (H : InvB c s) : InvB c s' := by
  refine ⟨?_, ?_⟩
  · rw [h.workers, h.master, sum_woken PC.busy rfl h.pc]; exact H.count
  · intro i hi hm
    have h1 := H.local_ i hi (h.master ▸ hm)
    rcases h.pc i with e | ⟨e, _⟩
    · rw [e]; exact h1
    · rw [h1] at e; cases e

theorem invB (h : PoolReach c s) : InvB c s := by
  refine PoolReach.induct ?_ ?_ h
  · exact ⟨by simp [Pool.init, PC.busy], by simp [Pool.init]⟩
  · intro s s' hreach H hst
    have upd : ∀ (i : ι) (v : PC), s.pc i ≠ .idle → 
        ∀ j, ¬ c.remote j → s.master ≠ none → Function.update s.pc i v j = .idle := by
      intro i v hi j hj hm
      have h1 := H.local_ j hj hm
      by_cases hji : j = i
      · subst hji; exact absurd h1 hi
      · rw [Function.update_of_ne hji]; exact h1
    rcases hst with hst | ⟨i, hi⟩
    · cases hst with
      | start i hi hm =>
        have h2 := sum_update PC.busy s.pc i .check
        refine ⟨?_, ?_⟩
        · have := H.count
          rw [hi] at h2
          simp only [PC.busy] at h2 this ⊢
          omega
        · intro j hj hm'
          by_cases hji : j = i
          · subst hji
            rcases hm with hm | hm
            · exact absurd hm hj
            · exact absurd hm hm'
          · simp only [Function.update_of_ne hji]
            exact H.local_ j hj hm'
      | checkEmpty i hi => 
        have h2 := sum_update PC.busy s.pc i .insertEmpty
        have := H.count
        rw [hi] at h2
        exact ⟨by simp only [PC.busy] at h2 this ⊢; omega, upd i _ (by simp [hi])⟩
      | checkBusy i hi =>
        have h2 := sum_update PC.busy s.pc i .lock
        have := H.count
        rw [hi] at h2
        exact ⟨by simp only [PC.busy] at h2 this ⊢; omega, upd i _ (by simp [hi])⟩
      | insertEmpty i hi =>
        have h2 := sum_update PC.busy s.pc i .pushEmpty
        have := H.count
        rw [hi] at h2
        exact ⟨by simp only [PC.busy] at h2 this ⊢; omega, upd i _ (by simp [hi])⟩
      | pushEmpty i hi =>
        have h2 := sum_update PC.busy (notifyAll s.pc) i .lock
        have h3 := sum_woken PC.busy rfl (pc := s.pc) (pc' := notifyAll s.pc) (fun j => notifyAll_cases)
        have := H.count
        have hi' : notifyAll s.pc i = .pushEmpty := by simp [notifyAll, hi]
        rw [hi'] at h2
        refine ⟨by simp only [PC.busy] at h2 h3 this ⊢; omega, ?_⟩
        intro j hj hm
        have h1 := H.local_ j hj hm
        by_cases hji : j = i
        · subst hji; rw [hi] at h1; cases h1
        · simp only [Function.update_of_ne hji]
          simp [notifyAll, h1]
      | wait i hi =>
        have h2 := sum_update PC.busy s.pc i .waiting
        have := H.count
        rw [hi] at h2
        exact ⟨by simp only [PC.busy] at h2 this ⊢; omega, upd i _ (by simp [hi])⟩
      | take i row rest hi hit hr =>
        have h2 := sum_update PC.busy s.pc i (.working row)
        have := H.count
        rw [hi] at h2
        exact ⟨by simp only [PC.busy] at h2 this ⊢; omega, upd i _ (by simp [hi])⟩
      | stop i rest hi =>
        have h2 := sum_update PC.busy s.pc i .stopped
        have := H.count
        rw [hi] at h2
        exact ⟨by simp only [PC.busy] at h2 this ⊢; omega, upd i _ (by simp [hi])⟩
      | rotate i row m hi hR =>
        have h2 := sum_update PC.busy s.pc i (.putting row m m)
        have := H.count
        rw [hi] at h2
        exact ⟨by simp only [PC.busy] at h2 this ⊢; omega, upd i _ (by simp [hi])⟩
      | put _ i row all r rest hi hp =>
        have h2 := sum_update PC.busy s.pc i (.putting row all rest)
        have := H.count
        rw [hi] at h2
        exact hp.facts.invB ⟨by simp only [PC.busy] at h2 this ⊢; omega, upd i _ (by simp [hi])⟩
      | done i row all hi =>
        have h2 := sum_update PC.busy s.pc i .check
        have := H.count
        rw [hi] at h2
        refine ⟨?_, upd i _ (by simp [hi])⟩
        simp only [PC.busy, decrement] at h2 this ⊢
        split <;> omega
      | masterPut _ r rest hm hp =>
        have := H.count
        refine hp.facts.invB ⟨?_, ?_⟩
        · simp only [hm, Option.isSome_some, if_true] at this ⊢
          exact this
        · intro i hi _
          exact H.local_ i hi (by simp [hm])
      | masterDone hm =>
        have := H.count
        refine ⟨?_, by simp⟩
        simp only [hm, Option.isSome_some, if_true, decrement] at this ⊢
        rw [if_neg (by omega)]
        simp
        omega
      | asyncPut _ r rest hm ha hp =>
        exact hp.facts.invB ⟨H.count, H.local_⟩
    · have h2 := sum_update PC.busy s.pc i .lock
      have := H.count
      rw [hi] at h2
      exact ⟨by simp only [PC.busy] at h2 this ⊢; omega, upd i _ (by simp [hi])⟩

/-- when the counter is zero, no thread is busy and the initialisation is over -/
theorem InvB.of_zero (H : InvB c s) (h : s.workers = 0) : s.master = none ∧ ∀ i, (s.pc i).busy = 0 := by
  have h1 := H.count
  rw [h] at h1
  refine ⟨?_, fun i => ?_⟩
  · cases hm : s.master with
    | none => rfl
    | some m => rw [hm] at h1; simp at h1
  · have h2 : (∑ i, (s.pc i).busy) = 0 := by omega
    exact Finset.sum_eq_zero_iff.1 h2 i (Finset.mem_univ i)

end Count

/-! ## The stop signal -/

structure InvC (s : Pool ι) : Prop where
  awake : [] ∈ s.iterators → ∀ i, s.pc i ≠ .waiting
  stopped : ∀ i, s.pc i = .stopped → [] ∈ s.iterators

theorem PutFacts.invC (h : PutFacts r s s') (hr : r ≠ []) (H : InvC s) : InvC s' := by
  have hit : [] ∈ s'.iterators ↔ [] ∈ s.iterators := by
    rcases h.cases with ⟨_, _, e, _, _⟩ | ⟨_, _, e, _⟩ <;> rw [e]
    simp [hr.symm]
  refine ⟨?_, ?_⟩
  · intro h1 i
    have := H.awake (hit.1 h1) i
    rcases h.pc i with e | ⟨e, _⟩
    · rw [e]; exact this
    · exact absurd e this
  · intro i hi
    rw [hit]
    rcases h.pc i with e | ⟨_, e⟩
    · exact H.stopped i (e ▸ hi)
    · rw [e] at hi; cases hi

theorem invC {G : Row → Prop} (hG : c.Safe G) (h : PoolReach c s) : InvC s := by
  refine PoolReach.induct ?_ ?_ h
  · exact ⟨by simp [Pool.init], by simp [Pool.init]⟩
  · intro s s' hreach H hst
    have HG := invG G hG hreach
    have hne : ∀ {x}, G x → x ≠ [] := by rintro x hx rfl; exact hG.nonempty hx
    have upd : ∀ (i : ι) (v : PC), v ≠ .waiting → v ≠ .stopped → InvC { s with pc := Function.update s.pc i v } := by
      intro i v h1 h2
      refine ⟨fun hm j hj => ?_, fun j hj => ?_⟩
      · rcases update_cases hj with ⟨_, e⟩ | ⟨_, e⟩
        · exact h1 e
        · exact H.awake hm j e
      · rcases update_cases hj with ⟨_, e⟩ | ⟨_, e⟩
        · exact absurd e h2
        · exact H.stopped j e
    rcases hst with hst | ⟨i, hi⟩
    · cases hst with
      | start i => exact upd i _ (by simp) (by simp)
      | checkEmpty i => exact upd i _ (by simp) (by simp)
      | checkBusy i => exact upd i _ (by simp) (by simp)
      | insertEmpty i =>
        have := upd i .pushEmpty (by simp) (by simp)
        exact ⟨this.awake, this.stopped⟩
      | pushEmpty i =>
        refine ⟨fun _ j hj => ?_, fun j hj => by simp⟩
        rcases update_cases hj with ⟨_, e⟩ | ⟨_, e⟩
        · cases e
        · unfold notifyAll at e
          by_cases h : s.pc j = .waiting
          · simp [h] at e
          · simp [h] at e
      | wait i hi hit =>
        refine ⟨fun hm => by simp [hit] at hm, fun j hj => ?_⟩
        rcases update_cases hj with ⟨_, e⟩ | ⟨_, e⟩
        · cases e
        · exact H.stopped j e
      | take i row rest hi hit hr =>
        have := upd i (.working row) (by simp) (by simp)
        have hiff : [] ∈ rest ↔ [] ∈ s.iterators := by rw [hit]; simp [hr.symm]
        exact ⟨fun hm => this.awake (hiff.1 hm), fun j hj => hiff.2 (this.stopped j hj)⟩
      | stop i rest hi hit =>
        refine ⟨fun hm j hj => ?_, fun j hj => by simp [hit]⟩
        rcases update_cases hj with ⟨_, e⟩ | ⟨_, e⟩
        · cases e
        · exact H.awake hm j e
      | rotate i row m hi hR => exact upd i _ (by simp) (by simp)
      | put _ i row all r rest hi hp =>
        exact hp.facts.invC (hne ((HG.putting i row all _ hi).2 r (by simp))) (upd i _ (by simp) (by simp))
      | done i row all hi =>
        have := upd i .check (by simp) (by simp)
        exact ⟨this.awake, this.stopped⟩
      | masterPut _ r rest hm hp =>
        exact hp.facts.invC (hne (HG.master _ hm r (by simp))) ⟨H.awake, H.stopped⟩
      | masterDone hm => exact ⟨H.awake, H.stopped⟩
      | asyncPut _ r rest hm ha hp =>
        exact hp.facts.invC (hne (HG.async r (by rw [ha]; simp))) ⟨H.awake, H.stopped⟩
    · exact upd i _ (by simp) (by simp)

/-! ## Every row is accounted for -/

structure InvD (c : PoolConfig ι) (s : Pool ι) : Prop where
  handed : ∀ p ∈ s.handed, s.pc p.1 = .working p.2 ∨ (∃ m rest, s.pc p.1 = .putting p.2 m rest) ∨ ∃ m, c.Rot p.2 m ∧ ∀ x ∈ m, x ∈ s.printed
  working : ∀ i r, s.pc i = .working r → (i, r) ∈ s.handed
  putting : ∀ i r m rest, s.pc i = .putting r m rest → (i, r) ∈ s.handed ∧ c.Rot r m ∧ ∀ x ∈ m, x ∈ s.printed ∨ x ∈ rest
  master : ∀ x ∈ c.initial, x ∈ s.printed ∨ ∃ rest, s.master = some rest ∧ x ∈ rest
  async : ∀ x ∈ c.known, x ∈ s.printed ∨ x ∈ s.async

theorem PutFacts.printed_mono (h : PutFacts r s s') {x : Row} (hx : x ∈ s.printed) : x ∈ s'.printed := by
  rcases h.cases with ⟨_, _, _, e, _⟩ | ⟨_, _, _, e⟩ <;> rw [e]
  · exact hx
  · exact List.mem_append_left _ hx

theorem PutFacts.mem_printed (h : PutFacts r s s') (hr : r ≠ []) (H : InvA s) : r ∈ s'.printed := by
  rw [← (h.invA hr H).submitted, h.submitted]; simp

theorem invD {G : Row → Prop} (hG : c.Safe G) (h : PoolReach c s) : InvD c s := by
  refine PoolReach.induct ?_ ?_ h
  · refine ⟨by simp [Pool.init], by simp [Pool.init], by simp [Pool.init], ?_, ?_⟩
    · intro x hx; exact .inr ⟨_, rfl, hx⟩
    · intro x hx; exact .inr hx
  · intro s s' hreach H hst
    have HG := invG G hG hreach
    have HA := invA hG hreach
    have hne : ∀ {x}, G x → x ≠ [] := by rintro x hx rfl; exact hG.nonempty hx
    -- a step of a thread that is neither working nor putting, to such a place
    have upd : ∀ (i : ι) (v : PC), (∀ r, s.pc i ≠ .working r) → (∀ r m rest, s.pc i ≠ .putting r m rest) → (∀ r, v ≠ .working r) →
        (∀ r m rest, v ≠ .putting r m rest) → InvD c { s with pc := Function.update s.pc i v } := by
      intro i v h1 h2 h3 h4
      refine ⟨?_, ?_, ?_, H.master, H.async⟩
      · intro p hp
        have hpi : ∀ v', s.pc p.1 = v' → ((∃ r, v' = .working r) ∨ ∃ r m rest, v' = .putting r m rest) → p.1 ≠ i := by
          rintro v' hv' hv heq
          rw [heq] at hv'
          rcases hv with ⟨r, rfl⟩ | ⟨r, m, rest, rfl⟩
          · exact h1 _ hv'
          · exact h2 _ _ _ hv'
        rcases H.handed p hp with h | ⟨m, rest, h⟩ | h
        · left; simp only [Function.update_of_ne (hpi _ h (.inl ⟨_, rfl⟩))]; exact h
        · right; left; refine ⟨m, rest, ?_⟩
          simp only [Function.update_of_ne (hpi _ h (.inr ⟨_, _, _, rfl⟩))]; exact h
        · right; right; exact h
      · intro j r hj
        rcases update_cases hj with ⟨_, e⟩ | ⟨_, e⟩
        · exact absurd e (h3 r)
        · exact H.working j r e
      · intro j r m rest hj
        rcases update_cases hj with ⟨_, e⟩ | ⟨_, e⟩
        · exact absurd e (h4 r m rest)
        · exact H.putting j r m rest e
    -- a put: the row is printed afterwards
    have hput : ∀ {t t' : Pool ι} {r : Row}, PutFacts r t t' →
        (∀ p ∈ t.handed, t.pc p.1 = .working p.2 ∨ (∃ m rest, t.pc p.1 = .putting p.2 m rest) ∨ ∃ m, c.Rot p.2 m ∧ ∀ x ∈ m, x ∈ t.printed) →
        (∀ i r, t.pc i = .working r → (i, r) ∈ t.handed) →
        (∀ i r' m rest, t.pc i = .putting r' m rest → (i, r') ∈ t.handed ∧ c.Rot r' m ∧ ∀ x ∈ m, x ∈ t'.printed ∨ x ∈ rest) →
        (∀ x ∈ c.initial, x ∈ t'.printed ∨ ∃ rest, t.master = some rest ∧ x ∈ rest) →
        (∀ x ∈ c.known, x ∈ t'.printed ∨ x ∈ t.async) → InvD c t' := by
      intro t t' r hf h1 h2 h3 h4 h5
      have hkeep : ∀ j v, v ≠ .lock → t'.pc j = v → t.pc j = v := by
        intro j v hv hj
        rcases hf.pc j with e | ⟨_, e⟩
        · rw [← e]; exact hj
        · rw [e] at hj; exact absurd hj.symm hv
      have hkeep' : ∀ j v, v ≠ .waiting → t.pc j = v → t'.pc j = v := by
        intro j v hv hj
        rcases hf.pc j with e | ⟨e, _⟩
        · rw [e]; exact hj
        · rw [e] at hj; exact absurd hj.symm hv
      refine ⟨?_, ?_, ?_, ?_, ?_⟩
      · intro p hp
        rw [hf.handed] at hp
        rcases h1 p hp with h | ⟨m, rest, h⟩ | ⟨m, hm, h⟩
        · exact .inl (hkeep' _ _ (by simp) h)
        · exact .inr (.inl ⟨m, rest, hkeep' _ _ (by simp) h⟩)
        · exact .inr (.inr ⟨m, hm, fun x hx => hf.printed_mono (h x hx)⟩)
      · intro j r' hj
        rw [hf.handed]
        exact h2 j r' (hkeep _ _ (by simp) hj)
      · intro j r' m rest hj
        rw [hf.handed]
        exact h3 j r' m rest (hkeep _ _ (by simp) hj)
      · rw [hf.master]; exact h4
      · rw [hf.async]; exact h5
    rcases hst with hst | ⟨i, hi⟩
    · cases hst with
      | start i hi => exact upd i _ (by simp [hi]) (by simp [hi]) (by simp) (by simp)
      | checkEmpty i hi => exact upd i _ (by simp [hi]) (by simp [hi]) (by simp) (by simp)
      | checkBusy i hi => exact upd i _ (by simp [hi]) (by simp [hi]) (by simp) (by simp)
      | insertEmpty i hi =>
        have := upd i .pushEmpty (by simp [hi]) (by simp [hi]) (by simp) (by simp)
        exact ⟨this.handed, this.working, this.putting, this.master, this.async⟩
      | pushEmpty i hi =>
        have hiff : ∀ j v, v ≠ .waiting → v ≠ .lock → (Function.update (notifyAll s.pc) i PC.lock j = v ↔ Function.update s.pc i PC.lock j = v) := by
          intro j v hv1 hv2
          by_cases hji : j = i
          · subst hji; simp
          · simp only [Function.update_of_ne hji]
            rcases notifyAll_cases (pc := s.pc) (j := j) with e | ⟨e1, e2⟩
            · rw [e]
            · rw [e1, e2]; simp [hv1.symm, hv2.symm]
        have := upd i .lock (by simp [hi]) (by simp [hi]) (by simp) (by simp)
        refine ⟨?_, ?_, ?_, H.master, H.async⟩
        · intro p hp
          rcases this.handed p hp with h | ⟨m, rest, h⟩ | h
          · exact .inl ((hiff _ _ (by simp) (by simp)).2 h)
          · exact .inr (.inl ⟨m, rest, (hiff _ _ (by simp) (by simp)).2 h⟩)
          · exact .inr (.inr h)
        · intro j r hj
          exact this.working j r ((hiff _ _ (by simp) (by simp)).1 hj)
        · intro j r m rest hj
          exact this.putting j r m rest ((hiff _ _ (by simp) (by simp)).1 hj)
      | wait i hi => exact upd i _ (by simp [hi]) (by simp [hi]) (by simp) (by simp)
      | take i row rest hi hit hr =>
        refine ⟨?_, ?_, ?_, H.master, H.async⟩
        · intro p hp
          rcases List.mem_append.1 hp with hp | hp
          · have hpi : ∀ v', s.pc p.1 = v' → v' ≠ .lock → p.1 ≠ i := by
              rintro v' hv' hv heq
              rw [heq, hi] at hv'; exact hv hv'.symm
            rcases H.handed p hp with h | ⟨m, rest, h⟩ | h
            · left; simp only [Function.update_of_ne (hpi _ h (by simp))]; exact h
            · right; left; refine ⟨m, rest, ?_⟩
              simp only [Function.update_of_ne (hpi _ h (by simp))]; exact h
            · right; right; exact h
          · rw [List.mem_singleton.1 hp]; left; simp
        · intro j r hj
          rcases update_cases hj with ⟨rfl, e⟩ | ⟨_, e⟩
          · injection e with e; subst e; simp
          · exact List.mem_append_left _ (H.working j r e)
        · intro j r m rest hj
          rcases update_cases hj with ⟨_, e⟩ | ⟨_, e⟩
          · cases e
          · exact ⟨List.mem_append_left _ (H.putting j r m rest e).1, (H.putting j r m rest e).2⟩
      | stop i rest hi =>
        have := upd i .stopped (by simp [hi]) (by simp [hi]) (by simp) (by simp)
        exact ⟨this.handed, this.working, this.putting, this.master, this.async⟩
      | rotate i row m hi hR =>
        refine ⟨?_, ?_, ?_, H.master, H.async⟩
        · intro p hp
          by_cases hpi : p.1 = i
          · rcases H.handed p hp with h | ⟨m', rest, h⟩ | h
            · right; left
              rw [hpi, hi] at h
              injection h with h
              exact ⟨m, m, by simp [hpi, h]⟩
            · rw [hpi, hi] at h; cases h
            · right; right; exact h
          · simp only [Function.update_of_ne hpi]
            exact H.handed p hp
        · intro j r hj
          rcases update_cases hj with ⟨_, e⟩ | ⟨_, e⟩
          · cases e
          · exact H.working j r e
        · intro j r m' rest hj
          rcases update_cases hj with ⟨rfl, e⟩ | ⟨_, e⟩
          · injection e with e1 e2 e3
            subst e1; subst e2; subst e3
            exact ⟨H.working j _ hi, hR, fun x hx => .inr hx⟩
          · exact H.putting j r m' rest e
      | put _ i row all r rest hi hp =>
        have hf := hp.facts
        have hr : r ∈ s'.printed :=
          hf.mem_printed (hne ((HG.putting i row all _ hi).2 r (by simp))) ⟨HA.sorted, HA.rows, HA.nodup, HA.queue, HA.submitted⟩
        have h0 := H.putting i row all _ hi
        refine hput hf ?_ ?_ ?_ ?_ ?_
        · intro p hp
          by_cases hpi : p.1 = i
          · rcases H.handed p hp with h | ⟨m', rest', h⟩ | h
            · rw [hpi, hi] at h; cases h
            · right; left
              rw [hpi, hi] at h
              injection h with h1 h2 h3
              exact ⟨all, rest, by simp [hpi, h1]⟩
            · right; right; exact h
          · simp only [Function.update_of_ne hpi]
            exact H.handed p hp
        · intro j r hj
          rcases update_cases hj with ⟨_, e⟩ | ⟨_, e⟩
          · cases e
          · exact H.working j r e
        · intro j r' m' rest' hj
          rcases update_cases hj with ⟨rfl, e⟩ | ⟨_, e⟩
          · injection e with e1 e2 e3
            subst e1; subst e2; subst e3
            refine ⟨h0.1, h0.2.1, fun x hx => ?_⟩
            rcases h0.2.2 x hx with h | h
            · exact .inl (hf.printed_mono h)
            · rcases List.mem_cons.1 h with rfl | h
              · exact .inl hr
              · exact .inr h
          · have := H.putting j r' m' rest' e
            exact ⟨this.1, this.2.1, fun x hx => (this.2.2 x hx).imp (fun h => hf.printed_mono h) id⟩
        · exact fun x hx => (H.master x hx).imp (fun h => hf.printed_mono h) id
        · exact fun x hx => (H.async x hx).imp (fun h => hf.printed_mono h) id
      | done i row all hi =>
        refine ⟨?_, ?_, ?_, H.master, H.async⟩
        · intro p hp
          by_cases hpi : p.1 = i
          · rcases H.handed p hp with h | ⟨m', rest', h⟩ | h
            · rw [hpi, hi] at h; cases h
            · right; right
              rw [hpi, hi] at h
              injection h with h1 h2 h3
              have := H.putting i row all [] hi
              refine ⟨all, h1 ▸ this.2.1, fun x hx => ?_⟩
              simpa using this.2.2 x hx
            · right; right; exact h
          · simp only [Function.update_of_ne hpi]
            exact H.handed p hp
        · intro j r hj
          rcases update_cases hj with ⟨_, e⟩ | ⟨_, e⟩
          · cases e
          · exact H.working j r e
        · intro j r m' rest' hj
          rcases update_cases hj with ⟨_, e⟩ | ⟨_, e⟩
          · cases e
          · exact H.putting j r m' rest' e
      | masterPut _ r rest hm hp =>
        have hf := hp.facts
        have hr : r ∈ s'.printed :=
          hf.mem_printed (hne (HG.master _ hm r (by simp))) ⟨HA.sorted, HA.rows, HA.nodup, HA.queue, HA.submitted⟩
        refine hput hf H.handed H.working ?_ ?_ ?_
        · intro j r' m' rest' e
          have := H.putting j r' m' rest' e
          exact ⟨this.1, this.2.1, fun x hx => (this.2.2 x hx).imp (fun h => hf.printed_mono h) id⟩
        · intro x hx
          rcases H.master x hx with h | ⟨rest', h1, h2⟩
          · exact .inl (hf.printed_mono h)
          · rw [hm] at h1
            injection h1 with h1
            subst h1
            rcases List.mem_cons.1 h2 with rfl | h
            · exact .inl hr
            · exact .inr ⟨_, rfl, h⟩
        · exact fun x hx => (H.async x hx).imp (fun h => hf.printed_mono h) id
      | masterDone hm =>
        refine ⟨H.handed, H.working, H.putting, ?_, H.async⟩
        intro x hx
        rcases H.master x hx with h | ⟨rest', h1, h2⟩
        · exact .inl h
        · rw [hm] at h1
          injection h1 with h1
          subst h1
          cases h2
      | asyncPut _ r rest hm ha hp =>
        have hf := hp.facts
        have hr : r ∈ s'.printed :=
          hf.mem_printed (hne (HG.async r (by rw [ha]; simp))) ⟨HA.sorted, HA.rows, HA.nodup, HA.queue, HA.submitted⟩
        refine hput hf H.handed H.working ?_ ?_ ?_
        · intro j r' m' rest' e
          have := H.putting j r' m' rest' e
          exact ⟨this.1, this.2.1, fun x hx => (this.2.2 x hx).imp (fun h => hf.printed_mono h) id⟩
        · exact fun x hx => (H.master x hx).imp (fun h => hf.printed_mono h) id
        · intro x hx
          rcases H.async x hx with h | h
          · exact .inl (hf.printed_mono h)
          · rw [ha] at h
            rcases List.mem_cons.1 h with rfl | h
            · exact .inl hr
            · exact .inr h
    · exact upd i _ (by simp [hi]) (by simp [hi]) (by simp) (by simp)

end

end Panda
