import Verif.Model.Progress
import Verif.Proofs.PoolLive

/-! # The progress messages: classification of the steps, invariants -/

namespace Panda

open Relation

/-- the row a thread is busy with -/
def PC.row? : PC → Option Row
  | .working r => some r
  | .putting r _ _ => some r
  | _ => none

/-- number of an announcement -/
def Message.announced : Message → Option Nat
  | .processing k _ => some k
  | .done _ => none

/-- number of a completion -/
def Message.completed : Message → Option Nat
  | .processing _ _ => none
  | .done k => some k

section
set_option linter.unusedSectionVars false
variable {ι : Type} [DecidableEq ι] {c : PoolConfig ι} {s s' : Pool ι}

theorem PutFacts.prefix {r : Row} (h : PutFacts r s s') : s.printed <+: s'.printed := by
  rcases h.cases with ⟨_, _, _, e, _⟩ | ⟨_, _, _, e⟩ <;> rw [e]
  exact List.prefix_append _ _

theorem PutFacts.row? {r : Row} (h : PutFacts r s s') (i : ι) : (s'.pc i).row? = (s.pc i).row? := by
  rcases h.pc i with e | ⟨e1, e2⟩
  · rw [e]
  · rw [e1, e2]; rfl

theorem PutFacts.at_end {r : Row} (h : PutFacts r s s') {i : ι} {row : Row} {all : Matrix} (hi : s.pc i = .putting row all []) :
    s'.pc i = .putting row all [] := by
  rcases h.pc i with e | ⟨e1, _⟩
  · rw [e, hi]
  · rw [e1] at hi; cases hi

/-- steps that hand out a row -/
structure TakesRow (s s' : Pool ι) (i : ι) (row : Row) : Prop where
  place : s.pc i = .lock
  queue : ∃ rest, s.iterators = row :: rest
  nonempty : row ≠ []
  handed : s'.handed = s.handed ++ [(i, row)]
  pc : s'.pc = Function.update s.pc i (.working row)
  printed : s'.printed = s.printed

/-- steps that end the treatment of a row -/
structure EndsRow (s s' : Pool ι) (i : ι) (row : Row) (all : Matrix) : Prop where
  place : s.pc i = .putting row all []
  pc : s'.pc = Function.update s.pc i .check
  handed : s'.handed = s.handed
  printed : s'.printed = s.printed

/-- the other steps -/
structure OtherStep (s s' : Pool ι) : Prop where
  handed : s'.handed = s.handed
  row : ∀ i, (s'.pc i).row? = (s.pc i).row?
  at_end : ∀ i row all, s.pc i = .putting row all [] → s'.pc i = .putting row all []
  printed : s.printed <+: s'.printed

theorem PoolStep.kind (h : PoolStep c s s') : (∃ i row, TakesRow s s' i row) ∨ (∃ i row all, EndsRow s s' i row all) ∨ OtherStep s s' := by
  have upd : ∀ (i : ι) (v : PC), (s.pc i).row? = v.row? → (∀ row all, s.pc i ≠ .putting row all []) →
      (∀ j, (Function.update s.pc i v j).row? = (s.pc j).row?) ∧
      ∀ j row all, s.pc j = .putting row all [] → Function.update s.pc i v j = .putting row all [] := by
    intro i v hv hp
    constructor
    · intro j
      by_cases hj : j = i
      · subst hj; simp [hv]
      · simp [Function.update_of_ne hj]
    · intro j row all hj
      by_cases hji : j = i
      · subst hji; exact absurd hj (hp row all)
      · simpa [Function.update_of_ne hji] using hj
  rcases h with h | ⟨i, hi⟩
  · cases h with
    | start i hi => exact .inr (.inr ⟨rfl, (upd i .check (by rw [hi]; rfl) (by simp [hi])).1, (upd i .check (by rw [hi]; rfl) (by simp [hi])).2, List.prefix_refl _⟩)
    | checkEmpty i hi =>
      exact .inr (.inr ⟨rfl, (upd i .insertEmpty (by rw [hi]; rfl) (by simp [hi])).1, (upd i .insertEmpty (by rw [hi]; rfl) (by simp [hi])).2, List.prefix_refl _⟩)
    | checkBusy i hi => exact .inr (.inr ⟨rfl, (upd i .lock (by rw [hi]; rfl) (by simp [hi])).1, (upd i .lock (by rw [hi]; rfl) (by simp [hi])).2, List.prefix_refl _⟩)
    | insertEmpty i hi =>
      exact .inr (.inr ⟨rfl, (upd i .pushEmpty (by rw [hi]; rfl) (by simp [hi])).1, (upd i .pushEmpty (by rw [hi]; rfl) (by simp [hi])).2, List.prefix_refl _⟩)
    | pushEmpty i hi =>
      refine .inr (.inr ⟨rfl, ?_, ?_, List.prefix_refl _⟩)
      · intro j
        by_cases hj : j = i
        · subst hj; simp [hi, PC.row?]
        · simp only [Function.update_of_ne hj]
          rcases notifyAll_cases (pc := s.pc) (j := j) with e | ⟨e1, e2⟩
          · rw [e]
          · rw [e1, e2]; rfl
      · intro j row all hj
        by_cases hji : j = i
        · subst hji; rw [hi] at hj; cases hj
        · simp only [Function.update_of_ne hji]
          rcases notifyAll_cases (pc := s.pc) (j := j) with e | ⟨e1, e2⟩
          · rw [e, hj]
          · rw [e1] at hj; cases hj
    | wait i hi => exact .inr (.inr ⟨rfl, (upd i .waiting (by rw [hi]; rfl) (by simp [hi])).1, (upd i .waiting (by rw [hi]; rfl) (by simp [hi])).2, List.prefix_refl _⟩)
    | take i row rest hi hit hr => exact .inl ⟨i, row, hi, ⟨rest, hit⟩, hr, rfl, rfl, rfl⟩
    | stop i rest hi => exact .inr (.inr ⟨rfl, (upd i .stopped (by rw [hi]; rfl) (by simp [hi])).1, (upd i .stopped (by rw [hi]; rfl) (by simp [hi])).2, List.prefix_refl _⟩)
    | rotate i row m hi =>
      exact .inr (.inr ⟨rfl, (upd i (.putting row m m) (by rw [hi]; rfl) (by simp [hi])).1,
        (upd i (.putting row m m) (by rw [hi]; rfl) (by simp [hi])).2, List.prefix_refl _⟩)
    | put s' i row all r rest hi hp =>
      have hu := upd i (.putting row all rest) (by rw [hi]; rfl) (by simp [hi])
      have hf := hp.facts
      refine .inr (.inr ⟨hf.handed, fun j => ?_, fun j row' all' hj => hf.at_end (hu.2 j row' all' hj), hf.prefix⟩)
      rw [hf.row? j]; exact hu.1 j
    | done i row all hi => exact .inr (.inl ⟨i, row, all, hi, rfl, rfl, rfl⟩)
    | masterPut s' r rest hm hp =>
      have hf := hp.facts
      exact .inr (.inr ⟨hf.handed, hf.row?, fun j row all hj => hf.at_end hj, hf.prefix⟩)
    | masterDone hm => exact .inr (.inr ⟨rfl, fun _ => rfl, fun _ _ _ h => h, List.prefix_refl _⟩)
    | asyncPut s' r rest hm ha hp =>
      have hf := hp.facts
      exact .inr (.inr ⟨hf.handed, hf.row?, fun j row all hj => hf.at_end hj, hf.prefix⟩)
  · exact .inr (.inr ⟨rfl, (upd i .lock (by rw [hi]; rfl) (by simp [hi])).1, (upd i .lock (by rw [hi]; rfl) (by simp [hi])).2, List.prefix_refl _⟩)

theorem PoolStep.printed_prefix (h : PoolStep c s s') : s.printed <+: s'.printed := by
  rcases h.kind with ⟨i, row, h⟩ | ⟨i, row, all, h⟩ | h
  · rw [h.printed]
  · rw [h.printed]
  · exact h.printed

/-- a run with messages is a run -/
theorem LogReach.pool {x : Pool ι × Log ι} (h : LogReach c x) : PoolReach c x.1 := by
  induction h with
  | refl => exact .refl
  | tail _ h2 ih =>
    cases h2 with
    | take _ _ _ _ _ hst => exact ih.tail hst
    | done _ _ _ _ _ _ hst => exact ih.tail hst
    | quiet _ _ _ hst => exact ih.tail hst

/-- every run is a run with messages -/
theorem PoolReach.log (h : PoolReach c s) : ∃ l, LogReach c (s, l) := by
  induction h with
  | refl => exact ⟨_, .refl⟩
  | tail _ hst ih =>
    obtain ⟨l, hl⟩ := ih
    rcases hst.kind with ⟨i, row, h⟩ | ⟨i, row, all, h⟩ | h
    · exact ⟨_, hl.tail (.take _ _ l i row hst h.handed)⟩
    · exact ⟨_, hl.tail (.done _ _ l i row all hst h.place (by rw [h.pc]; simp))⟩
    · exact ⟨_, hl.tail (.quiet _ _ l hst h.handed h.at_end)⟩

structure InvM (c : PoolConfig ι) (s : Pool ι) (l : Log ι) : Prop where
  counter : l.counter = s.handed.length
  numbers : l.messages.filterMap Message.announced = List.range' 1 s.handed.length
  busy : ∀ i row, (s.pc i).row? = some row → ∃ j, l.index i = j + 1 ∧ s.handed[j]? = some (i, row)
  nodup : (l.messages.filterMap Message.completed).Nodup
  completed : ∀ k ∈ l.messages.filterMap Message.completed, ∃ j i row, k = j + 1 ∧ s.handed[j]? = some (i, row) ∧
    (∃ m, c.Rot row m ∧ ∀ x ∈ m, x ∈ s.printed) ∧ ((s.pc i).row? ≠ none → l.index i ≠ k)
  all : ∀ j i row, s.handed[j]? = some (i, row) → j + 1 ∈ l.messages.filterMap Message.completed ∨
    ((s.pc i).row? = some row ∧ l.index i = j + 1)

theorem LogReach.induct {P : Pool ι → Log ι → Prop} (h0 : P (Pool.init c) Log.init)
    (hs : ∀ s s' l l', LogReach c (s, l) → P s l → LogStep c (s, l) (s', l') → P s' l') {l : Log ι} (h : LogReach c (s, l)) : P s l := by
  suffices ∀ x, LogReach c x → P x.1 x.2 from this _ h
  intro x hx
  induction hx with
  | refl => exact h0
  | tail h1 h2 ih => exact hs _ _ _ _ h1 ih h2

theorem TakesRow.unique {i j : ι} {row row' : Row} (h : TakesRow s s' i row) (h' : s'.handed = s.handed ++ [(j, row')]) : j = i ∧ row' = row := by
  have := h.handed.symm.trans h'
  simpa [eq_comm] using this

theorem invM {G : Row → Prop} (hG : c.Safe G) {l : Log ι} (h : LogReach c (s, l)) : InvM c s l := by
  refine LogReach.induct ?_ ?_ h
  · refine ⟨rfl, rfl, ?_, ?_, ?_, ?_⟩ <;> simp [Pool.init, Log.init, PC.row?]
  · intro s s' l l' hr H hst
    have hreach : PoolReach c s := hr.pool
    cases hst with
    | take _ _ _ i row hst hh =>
      rcases hst.kind with ⟨i', row', k⟩ | ⟨i', row', all, k⟩ | k
      · obtain ⟨rfl, rfl⟩ := k.unique hh
        have hlen : s.handed.length = l.counter := H.counter.symm
        refine ⟨by simp [hh, H.counter], ?_, ?_, by rw [List.filterMap_append]; exact (List.append_nil _).symm ▸ H.nodup, ?_, ?_⟩
        · rw [List.filterMap_append, H.numbers, hh]
          simp [Message.announced, List.range'_concat, hlen, Nat.add_comm]
        · intro j r hj
          rw [k.pc] at hj
          by_cases hji : j = i
          · subst hji
            simp [PC.row?] at hj
            subst hj
            exact ⟨l.counter, by simp, by rw [hh, ← hlen]; simp⟩
          · rw [Function.update_of_ne hji] at hj
            obtain ⟨n, h1, h2⟩ := H.busy j r hj
            refine ⟨n, by simp [Function.update_of_ne hji, h1], ?_⟩
            rw [hh, List.getElem?_append_left]
            · exact h2
            · exact (List.getElem?_eq_some_iff.1 h2).1
        · intro n hn
          have hn' : n ∈ l.messages.filterMap Message.completed := by simpa [Message.completed] using hn
          obtain ⟨j, i2, r2, h1, h2, h3, h4⟩ := H.completed n hn'
          refine ⟨j, i2, r2, h1, ?_, ?_, ?_⟩
          · rw [hh, List.getElem?_append_left]
            · exact h2
            · exact (List.getElem?_eq_some_iff.1 h2).1
          · rw [k.printed]; exact h3
          · intro hne
            by_cases hi2 : i2 = i
            · subst hi2
              have : j < s.handed.length := (List.getElem?_eq_some_iff.1 h2).1
              simp; omega
            · rw [k.pc, Function.update_of_ne hi2] at hne
              simp only [Function.update_of_ne hi2]
              exact h4 hne
        · intro j i2 r2 hj
          rw [hh] at hj
          by_cases hjl : j < s.handed.length
          · rw [List.getElem?_append_left hjl] at hj
            rcases H.all j i2 r2 hj with h | ⟨h1, h2⟩
            · left; simpa [Message.completed] using h
            · right
              have hi2 : i2 ≠ i := by
                rintro rfl; rw [k.place] at h1; simp [PC.row?] at h1
              rw [k.pc, Function.update_of_ne hi2]
              exact ⟨h1, by simp [Function.update_of_ne hi2, h2]⟩
          · have hlt := (List.getElem?_eq_some_iff.1 hj).1
            simp at hlt
            have hjeq : j = s.handed.length := by omega
            subst hjeq
            simp at hj
            obtain ⟨rfl, rfl⟩ := hj
            right
            rw [k.pc]
            simp [PC.row?, hlen]
      · rw [k.handed] at hh; simp at hh
      · rw [k.handed] at hh; simp at hh
    | done _ _ _ i row all hst hpl hck =>
      rcases hst.kind with ⟨i', row', k⟩ | ⟨i', row', all', k⟩ | k
      · exfalso
        have hii : i ≠ i' := by rintro rfl; rw [k.place] at hpl; cases hpl
        rw [k.pc, Function.update_of_ne hii, hpl] at hck; cases hck
      · have hii : i = i' := by
          by_contra hne
          rw [k.pc, Function.update_of_ne hne, hpl] at hck; cases hck
        subst hii
        have hb : (s.pc i).row? = some row := by rw [hpl]; rfl
        obtain ⟨n, hn1, hn2⟩ := H.busy i row hb
        have hpos : l.index i > 0 := by omega
        have hmsg : (l.messages ++ if l.index i > 0 then [Message.done (l.index i)] else []) = l.messages ++ [.done (n + 1)] := by
          rw [if_pos hpos, hn1]
        have hcomp : (l.messages ++ [Message.done (n + 1)]).filterMap Message.completed = l.messages.filterMap Message.completed ++ [n + 1] := by
          simp [Message.completed]
        have hD := (invD hG hreach).putting i row all [] hpl
        rw [hmsg]
        refine ⟨by rw [k.handed]; exact H.counter, ?_, ?_, ?_, ?_, ?_⟩
        · rw [List.filterMap_append, H.numbers, k.handed]; simp [Message.announced]
        · intro j r hj
          rw [k.pc] at hj
          by_cases hji : j = i
          · subst hji; simp [PC.row?] at hj
          · rw [Function.update_of_ne hji] at hj
            rw [k.handed]
            exact H.busy j r hj
        · rw [hcomp]
          refine H.nodup.append (List.nodup_singleton _) ?_
          simp only [List.disjoint_singleton]
          intro hmem
          obtain ⟨j, i2, r2, h1, h2, _, h4⟩ := H.completed _ hmem
          have : j = n := by omega
          subst this
          rw [hn2] at h2
          simp at h2
          obtain ⟨rfl, rfl⟩ := h2
          exact h4 (by rw [hb]; simp) hn1
        · rw [hcomp, k.printed, k.handed]
          intro m hm
          rcases List.mem_append.1 hm with hm | hm
          · obtain ⟨j, i2, r2, h1, h2, h3, h4⟩ := H.completed m hm
            refine ⟨j, i2, r2, h1, h2, h3, ?_⟩
            intro hne
            by_cases hi2 : i2 = i
            · subst hi2; rw [k.pc] at hne; simp [PC.row?] at hne
            · rw [k.pc, Function.update_of_ne hi2] at hne; exact h4 hne
          · rw [List.mem_singleton] at hm
            refine ⟨n, i, row, hm, hn2, ⟨all, hD.2.1, ?_⟩, ?_⟩
            · intro x hx; simpa using hD.2.2 x hx
            · intro hne; rw [k.pc] at hne; simp [PC.row?] at hne
        · rw [hcomp, k.handed]
          intro j i2 r2 hj
          rcases H.all j i2 r2 hj with h | ⟨h1, h2⟩
          · exact .inl (List.mem_append_left _ h)
          · by_cases hi2 : i2 = i
            · subst hi2
              left
              rw [h2] at hn1
              rw [hn1]; simp
            · right
              rw [k.pc, Function.update_of_ne hi2]
              exact ⟨h1, h2⟩
      · exfalso
        rw [k.at_end i row all hpl] at hck; cases hck
    | quiet _ _ _ hst hh hend =>
      rcases hst.kind with ⟨i', row', k⟩ | ⟨i', row', all', k⟩ | k
      · rw [k.handed] at hh; simp at hh
      · exfalso
        have := hend i' row' all' k.place
        rw [k.pc] at this; simp at this
      · refine ⟨by rw [hh]; exact H.counter, by rw [hh]; exact H.numbers, ?_, H.nodup, ?_, ?_⟩
        · intro i row hi
          rw [k.row] at hi
          rw [hh]
          exact H.busy i row hi
        · intro n hn
          obtain ⟨j, i2, r2, h1, h2, ⟨m, hm, hx⟩, h4⟩ := H.completed n hn
          refine ⟨j, i2, r2, h1, by rw [hh]; exact h2, ⟨m, hm, fun x hxm => k.printed.subset (hx x hxm)⟩, ?_⟩
          rw [k.row]; exact h4
        · intro j i2 r2 hj
          rw [hh] at hj
          rw [k.row]
          exact H.all j i2 r2 hj

/-! ## The announced number of classes -/

theorem stop_row (h : PoolReach c s) : [] ∈ s.rows → ∀ {G : Row → Prop}, c.Safe G → Stopping s := by
  intro h0 G hG
  suffices [] ∈ s.rows → (∃ i, s.pc i = .pushEmpty) ∨ [] ∈ s.iterators by
    rcases this h0 with ⟨i, hi⟩ | h
    · exact .inl ⟨i, .inr (.inl hi)⟩
    · exact .inr h
  clear h0
  refine PoolReach.induct (P := fun s => [] ∈ s.rows → (∃ i, s.pc i = .pushEmpty) ∨ [] ∈ s.iterators) ?_ ?_ h
  · intro h; simp [Pool.init] at h
  · intro s s' hreach H hst hmem
    have HG := invG G hG hreach
    have hne : ∀ {x}, G x → x ≠ [] := by rintro x hx rfl; exact hG.nonempty hx
    have upd : ∀ (i : ι) (v : PC), s.pc i ≠ .pushEmpty → [] ∈ s.rows → (∃ j, Function.update s.pc i v j = .pushEmpty) ∨ [] ∈ s.iterators := by
      intro i v hi hm
      rcases H hm with ⟨j, hj⟩ | h
      · left
        refine ⟨j, ?_⟩
        have : j ≠ i := by rintro rfl; exact hi hj
        rw [Function.update_of_ne this, hj]
      · exact .inr h
    have put : ∀ {t t' : Pool ι} {r : Row}, PutFacts r t t' → r ≠ [] → ([] ∈ t.rows → (∃ i, t.pc i = .pushEmpty) ∨ [] ∈ t.iterators) →
        [] ∈ t'.rows → (∃ i, t'.pc i = .pushEmpty) ∨ [] ∈ t'.iterators := by
      intro t t' r hf hr Ht hm
      have hm' : [] ∈ t.rows := by
        rcases hf.cases with ⟨_, e, _⟩ | ⟨_, e, _⟩ <;> rw [e] at hm
        · exact hm
        · rcases (mem_setInsert _ _ _).1 hm with h | h
          · exact absurd h.symm hr
          · exact h
      rcases Ht hm' with ⟨i, hi⟩ | h
      · left
        refine ⟨i, ?_⟩
        rcases hf.pc i with e | ⟨e, _⟩
        · rw [e, hi]
        · rw [e] at hi; cases hi
      · right
        rcases hf.cases with ⟨_, _, e, _⟩ | ⟨_, _, e, _⟩ <;> rw [e]
        · exact h
        · exact List.mem_append_left _ h
    rcases hst with hst | ⟨i, hi⟩
    · cases hst with
      | start i hi => exact upd i _ (by simp [hi]) hmem
      | checkEmpty i hi => exact upd i _ (by simp [hi]) hmem
      | checkBusy i hi => exact upd i _ (by simp [hi]) hmem
      | insertEmpty i hi => exact .inl ⟨i, by simp⟩
      | pushEmpty i hi => right; simp
      | wait i hi => exact upd i _ (by simp [hi]) hmem
      | take i row rest hi hit hr =>
        rcases upd i (.working row) (by simp [hi]) hmem with h | h
        · exact .inl h
        · right
          rw [hit] at h
          rcases List.mem_cons.1 h with h | h
          · exact absurd h.symm hr
          · exact h
      | stop i rest hi hit => exact upd i _ (by simp [hi]) hmem
      | rotate i row m hi => exact upd i _ (by simp [hi]) hmem
      | put s' i row all r rest hi hp =>
        exact put hp.facts (hne ((HG.putting i row all _ hi).2 r (by simp))) (fun h => upd i _ (by simp [hi]) h) hmem
      | done i row all hi => exact upd i _ (by simp [hi]) hmem
      | masterPut s' r rest hm hp => exact put hp.facts (hne (HG.master _ hm r (by simp))) H hmem
      | masterDone hm => exact H hmem
      | asyncPut s' r rest hm ha hp => exact put hp.facts (hne (HG.async r (by rw [ha]; simp))) H hmem
    · exact upd i _ (by simp [hi]) hmem

theorem pool_rows_length {G : Row → Prop} (hG : c.Safe G) (h : PoolReach c s) :
    s.rows.length ≤ s.printed.length + 1 ∧ ([] ∉ s.rows → s.rows.length ≤ s.printed.length) := by
  have H := invA hG h
  have hn := H.sorted.nodup
  constructor
  · have : s.rows ⊆ [] :: s.printed := by
      intro r hr
      by_cases h0 : r = []
      · simp [h0]
      · exact List.mem_cons_of_mem _ ((H.rows r h0).1 hr)
    simpa using (hn.subperm this).length_le
  · intro h0
    have : s.rows ⊆ s.printed := by
      intro r hr
      exact (H.rows r (by rintro rfl; exact h0 hr)).1 hr
    exact (hn.subperm this).length_le

end

end Panda
