import Verif.Proofs.Pool

/-! # Stop signal, deadlocks and termination of the job pool -/

namespace Panda

open Relation

/-- the row is a known row or has been found from one -/
def PoolConfig.FromKnown {ι : Type} (c : PoolConfig ι) (r : Row) : Prop :=
  ∃ k ∈ c.known, ReflTransGen (fun a b => ∃ m, c.Rot a m ∧ b ∈ m) k r

theorem PoolConfig.FromKnown.step {ι : Type} {c : PoolConfig ι} {r x : Row} {m : Matrix} (h : c.FromKnown r) (hm : c.Rot r m) (hx : x ∈ m) :
    c.FromKnown x := by
  obtain ⟨k, hk, h⟩ := h
  exact ⟨k, hk, h.tail ⟨m, hm, hx⟩⟩

section
set_option linter.unusedSectionVars false
variable {ι : Type} [DecidableEq ι] {c : PoolConfig ι} {s s' : Pool ι} {r : Row}

theorem async_sub (h : PoolReach c s) : ∀ x ∈ s.async, x ∈ c.known := by
  refine PoolReach.induct (P := fun s => ∀ x ∈ s.async, x ∈ c.known) ?_ ?_ h
  · intro x hx; exact hx
  · intro s s' hreach H hst
    rcases hst with hst | ⟨i, hi⟩
    · cases hst with
      | put _ i row all r rest hi hp => rw [hp.facts.async]; exact H
      | masterPut _ r rest hm hp => rw [hp.facts.async]; exact H
      | asyncPut _ r rest hm ha hp =>
        rw [hp.facts.async]
        intro x hx
        exact H x (by rw [ha]; simp [show x ∈ rest from hx])
      | _ => exact H
    · exact H

/-- all work is done on the rows `P`, and everything else comes from the known rows -/
structure Settled (c : PoolConfig ι) (P : Row → Prop) (s : Pool ι) : Prop where
  printed : ∀ r, P r → r ∈ s.printed
  initial : ∀ r ∈ c.initial, P r
  closed : ∀ r, P r → (∃ i, (i, r) ∈ s.handed) ∧ ∃ m, c.Rot r m ∧ ∀ x ∈ m, P x
  rest : ∀ r ∈ s.printed, P r ∨ c.FromKnown r
  working : ∀ i r, s.pc i = .working r → c.FromKnown r
  putting : ∀ i r m rest, s.pc i = .putting r m rest → ∀ x ∈ rest, c.FromKnown x
  iterators : ∀ r ∈ s.iterators, r = [] ∨ c.FromKnown r
  master : s.master = none
  async : ∀ r ∈ s.async, r ∈ c.known

theorem PutFacts.settled {P : Row → Prop} (h : PutFacts r s s') (hr : c.FromKnown r) (H : Settled c P s) : Settled c P s' := by
  have hkeep : ∀ j v, v ≠ .lock → s'.pc j = v → s.pc j = v := by
    intro j v hv hj
    rcases h.pc j with e | ⟨_, e⟩
    · rw [← e]; exact hj
    · rw [e] at hj; exact absurd hj.symm hv
  refine ⟨fun r hr => h.printed_mono (H.printed r hr), H.initial, by rw [h.handed]; exact H.closed, ?_,
    fun i r hi => H.working i r (hkeep _ _ (by simp) hi), fun i r m rest hi => H.putting i r m rest (hkeep _ _ (by simp) hi), ?_,
    by rw [h.master]; exact H.master, by rw [h.async]; exact H.async⟩
  · rcases h.cases with ⟨_, _, _, e, _⟩ | ⟨_, _, _, e⟩ <;> rw [e]
    · exact H.rest
    · intro x hx
      rcases List.mem_append.1 hx with hx | hx
      · exact H.rest x hx
      · rw [List.mem_singleton.1 hx]; exact .inr hr
  · rcases h.cases with ⟨_, _, e, _, _⟩ | ⟨_, _, e, _⟩ <;> rw [e]
    · exact H.iterators
    · intro x hx
      rcases List.mem_append.1 hx with hx | hx
      · exact H.iterators x hx
      · rw [List.mem_singleton.1 hx]; exact .inr hr

theorem Settled.step {P : Row → Prop} (H : Settled c P s) (hst : PoolStep c s s') : Settled c P s' := by
  have upd : ∀ (i : ι) (v : PC), (∀ r, v = .working r → c.FromKnown r) → (∀ r m rest, v = .putting r m rest → ∀ x ∈ rest, c.FromKnown x) →
      Settled c P { s with pc := Function.update s.pc i v } := by
    intro i v h1 h2
    refine ⟨H.printed, H.initial, H.closed, H.rest, ?_, ?_, H.iterators, H.master, H.async⟩
    · intro j r hj
      rcases update_cases hj with ⟨_, e⟩ | ⟨_, e⟩
      · exact h1 r e
      · exact H.working j r e
    · intro j r m rest hj
      rcases update_cases hj with ⟨_, e⟩ | ⟨_, e⟩
      · exact h2 r m rest e
      · exact H.putting j r m rest e
  rcases hst with hst | ⟨i, hi⟩
  · cases hst with
    | start i hi => exact upd i _ (by simp) (by simp)
    | checkEmpty i hi => exact upd i _ (by simp) (by simp)
    | checkBusy i hi => exact upd i _ (by simp) (by simp)
    | insertEmpty i hi =>
      have := upd i .pushEmpty (by simp) (by simp)
      exact ⟨this.printed, this.initial, this.closed, this.rest, this.working, this.putting, this.iterators, this.master, this.async⟩
    | pushEmpty i hi =>
      refine ⟨H.printed, H.initial, H.closed, H.rest, ?_, ?_, ?_, H.master, H.async⟩
      · intro j r hj
        rcases update_cases hj with ⟨_, e⟩ | ⟨_, e⟩
        · cases e
        · rcases notifyAll_cases (pc := s.pc) (j := j) with e' | ⟨_, e'⟩
          · exact H.working j r (e' ▸ e)
          · rw [e'] at e; cases e
      · intro j r m rest hj
        rcases update_cases hj with ⟨_, e⟩ | ⟨_, e⟩
        · cases e
        · rcases notifyAll_cases (pc := s.pc) (j := j) with e' | ⟨_, e'⟩
          · exact H.putting j r m rest (e' ▸ e)
          · rw [e'] at e; cases e
      · intro x hx
        rcases List.mem_append.1 hx with hx | hx
        · exact H.iterators x hx
        · rw [List.mem_singleton.1 hx]; exact .inl rfl
    | wait i hi => exact upd i _ (by simp) (by simp)
    | take i row rest hi hit hr =>
      have h0 := (H.iterators row (by rw [hit]; simp)).resolve_left hr
      have := upd i (.working row) (by rintro r ⟨⟩; exact h0) (by simp)
      refine ⟨this.printed, this.initial, ?_, this.rest, this.working, this.putting,
        fun x hx => H.iterators x (by rw [hit]; simp [hx]), this.master, this.async⟩
      intro r hr
      obtain ⟨⟨j, hj⟩, h⟩ := H.closed r hr
      exact ⟨⟨j, List.mem_append_left _ hj⟩, h⟩
    | stop i rest hi =>
      have := upd i .stopped (by simp) (by simp)
      exact ⟨this.printed, this.initial, this.closed, this.rest, this.working, this.putting, this.iterators, this.master, this.async⟩
    | rotate i row m hi hR =>
      refine upd i _ (by simp) ?_
      rintro r m' rest e
      injection e with e1 e2 e3
      subst e1; subst e2; subst e3
      intro x hx
      exact (H.working i _ hi).step hR hx
    | put _ i row all r rest hi hp =>
      have h0 := H.putting i row all _ hi
      refine hp.facts.settled (h0 r (by simp)) (upd i _ (by simp) ?_)
      rintro r m' rest e
      injection e with e1 e2 e3
      subst e1; subst e2; subst e3
      exact fun x hx => h0 x (by simp [hx])
    | done i row all hi =>
      have := upd i .check (by simp) (by simp)
      exact ⟨this.printed, this.initial, this.closed, this.rest, this.working, this.putting, this.iterators, this.master, this.async⟩
    | masterPut _ r rest hm hp => rw [H.master] at hm; cases hm
    | masterDone hm => rw [H.master] at hm; cases hm
    | asyncPut _ r rest hm ha hp =>
      refine hp.facts.settled ⟨r, H.async r (by rw [ha]; simp), .refl⟩
        ⟨H.printed, H.initial, H.closed, H.rest, H.working, H.putting, H.iterators, H.master, fun x hx => H.async x (by rw [ha]; simp [hx])⟩
  · exact upd i _ (by simp) (by simp)

/-- some thread has decided to stop the search -/
def Stopping (s : Pool ι) : Prop := (∃ i, s.pc i = .insertEmpty ∨ s.pc i = .pushEmpty ∨ s.pc i = .stopped) ∨ [] ∈ s.iterators

theorem stopping_settled [Fintype ι] {G : Row → Prop} (hG : c.Safe G) (h : PoolReach c s) : Stopping s → ∃ P, Settled c P s := by
  refine PoolReach.induct (P := fun s => Stopping s → ∃ P, Settled c P s) ?_ ?_ h
  · rintro (⟨i, hi⟩ | h) <;> simp [Pool.init] at *
  · intro s s' hreach H hst hstop
    by_cases h0 : Stopping s
    · obtain ⟨P, hP⟩ := H h0
      exact ⟨P, hP.step hst⟩
    · have HG := invG G hG hreach
      have HA := invA hG hreach
      have HC := invC hG hreach
      have HD := invD hG hreach
      have hne : ∀ {x}, G x → x ≠ [] := by rintro x hx rfl; exact hG.nonempty hx
      have notput : ∀ {t t' : Pool ι} {r : Row}, PutFacts r t t' → r ≠ [] → Stopping t' → Stopping t := by
        rintro t t' r hf hr (⟨i, hi⟩ | h)
        · left
          refine ⟨i, ?_⟩
          rcases hf.pc i with e | ⟨_, e⟩
          · rwa [e] at hi
          · rw [e] at hi; simp at hi
        · right
          rcases hf.cases with ⟨_, _, e, _, _⟩ | ⟨_, _, e, _⟩ <;> rw [e] at h
          · exact h
          · simpa [hr.symm] using h
      have notupd : ∀ (i : ι) (v : PC) (it : List Row), v ≠ .insertEmpty → v ≠ .pushEmpty → v ≠ .stopped → ([] ∈ it → [] ∈ s.iterators) →
          ¬ ((∃ j, Function.update s.pc i v j = .insertEmpty ∨ Function.update s.pc i v j = .pushEmpty ∨ Function.update s.pc i v j = .stopped) ∨
            [] ∈ it) := by
        rintro i v it h1 h2 h3 h4 (⟨j, hj⟩ | hj)
        · by_cases hji : j = i
          · subst hji; simp [h1, h2, h3] at hj
          · simp only [Function.update_of_ne hji] at hj
            exact h0 (.inl ⟨j, hj⟩)
        · exact h0 (.inr (h4 hj))
      rcases hst with hst | ⟨i, hi⟩
      · cases hst with
        | start i hi => exact absurd hstop (notupd i _ _ (by simp) (by simp) (by simp) id)
        | checkEmpty i hi hw hit =>
          obtain ⟨hm, hb⟩ := (invB hreach).of_zero hw
          refine ⟨(· ∈ s.printed), fun r hr => hr, ?_, ?_, fun r hr => .inl hr, ?_, ?_, ?_, hm, fun r hr => async_sub hreach r hr⟩
          · intro r hr
            rcases HD.master r hr with h | ⟨rest, h, _⟩
            · exact h
            · rw [hm] at h; cases h
          · intro r hr
            have hq := HA.queue
            rw [hit] at hq
            simp only [List.filter_nil, List.append_nil] at hq
            rw [hq] at hr
            obtain ⟨p, hp, rfl⟩ := List.mem_map.1 hr
            refine ⟨⟨p.1, hp⟩, ?_⟩
            rcases HD.handed p hp with h | ⟨m, rest, h⟩ | h
            · have := hb p.1; rw [h] at this; cases this
            · have := hb p.1; rw [h] at this; cases this
            · exact h
          · intro j r hj
            rcases update_cases hj with ⟨_, e⟩ | ⟨_, e⟩
            · cases e
            · have := hb j; rw [e] at this; cases this
          · intro j r m rest hj
            rcases update_cases hj with ⟨_, e⟩ | ⟨_, e⟩
            · cases e
            · have := hb j; rw [e] at this; cases this
          · simp [hit]
        | checkBusy i hi => exact absurd hstop (notupd i _ _ (by simp) (by simp) (by simp) id)
        | insertEmpty i hi => exact absurd (.inl ⟨i, .inl hi⟩) h0
        | pushEmpty i hi => exact absurd (.inl ⟨i, .inr (.inl hi)⟩) h0
        | wait i hi => exact absurd hstop (notupd i _ _ (by simp) (by simp) (by simp) id)
        | take i row rest hi hit hr =>
          exact absurd hstop (notupd i _ _ (by simp) (by simp) (by simp) (fun h => by rw [hit]; simp [h]))
        | stop i rest hi hit => exact absurd (.inr (by rw [hit]; simp)) h0
        | rotate i row m hi hR => exact absurd hstop (notupd i _ _ (by simp) (by simp) (by simp) id)
        | put _ i row all r rest hi hp =>
          exact absurd (notput hp.facts (hne ((HG.putting i row all _ hi).2 r (by simp))) hstop) (notupd i _ _ (by simp) (by simp) (by simp) id)
        | done i row all hi => exact absurd hstop (notupd i _ _ (by simp) (by simp) (by simp) id)
        | masterPut _ r rest hm hp => exact absurd (notput hp.facts (hne (HG.master _ hm r (by simp))) hstop) h0
        | masterDone hm => exact absurd hstop h0
        | asyncPut _ r rest hm ha hp => exact absurd (notput hp.facts (hne (HG.async r (by rw [ha]; simp))) hstop) h0
      · exact absurd hstop (notupd i _ _ (by simp) (by simp) (by simp) id)

/-! ## No deadlock -/

/-- if all work is done and nobody has said so, some thread is going to -/
def Announce (s : Pool ι) : Prop :=
  s.master = none → s.iterators = [] → s.workers = 0 → ∃ i, s.pc i = .idle ∨ s.pc i = .check ∨ s.pc i = .insertEmpty ∨ s.pc i = .pushEmpty

theorem announce (hlocal : ∃ i, ¬ c.remote i) [Fintype ι] (h : PoolReach c s) : Announce s := by
  refine PoolReach.induct ?_ ?_ h
  · intro h; simp [Pool.init] at h
  · intro s s' hreach H hst
    have upd : ∀ (i : ι) (v : PC), ¬ (s.pc i = .idle ∨ s.pc i = .check ∨ s.pc i = .insertEmpty ∨ s.pc i = .pushEmpty) →
        Announce { s with pc := Function.update s.pc i v } := by
      intro i v h h1 h2 h3
      obtain ⟨j, hj⟩ := H h1 h2 h3
      have hji : j ≠ i := by rintro rfl; exact h hj
      exact ⟨j, by simpa only [Function.update_of_ne hji] using hj⟩
    have hput : ∀ {t t' : Pool ι} {r : Row}, PutFacts r t t' → Announce t → Announce t' := by
      intro t t' r hf ht h1 h2 h3
      rw [hf.master] at h1
      rw [hf.workers] at h3
      rcases hf.cases with ⟨_, _, e, _, e'⟩ | ⟨_, _, e, _⟩
      · rw [e] at h2; rw [e']; exact ht h1 h2 h3
      · rw [e] at h2; simp at h2
    rcases hst with hst | ⟨i, hi⟩
    · cases hst with
      | start i hi => intro _ _ _; exact ⟨i, by simp⟩
      | checkEmpty i hi => intro _ _ _; exact ⟨i, by simp⟩
      | checkBusy i hi hb => intro _ h2 h3; exact absurd ⟨h3, h2⟩ hb
      | insertEmpty i hi => intro _ _ _; exact ⟨i, by simp⟩
      | pushEmpty i hi => intro _ h2 _; simp at h2
      | wait i hi => exact upd i _ (by simp [hi])
      | take i row rest hi hit hr => intro _ _ h3; simp at h3
      | stop i rest hi hit => intro _ _ h3; simp at h3
      | rotate i row m hi hR => exact upd i _ (by simp [hi])
      | put _ i row all r rest hi hp => exact hput hp.facts (upd i _ (by simp [hi]))
      | done i row all hi => intro _ _ _; exact ⟨i, by simp⟩
      | masterPut _ r rest hm hp => exact hput hp.facts (fun h => by simp at h)
      | masterDone hm =>
        intro _ _ _
        obtain ⟨i, hi⟩ := hlocal
        exact ⟨i, .inl ((invB hreach).local_ i hi (by simp [hm]))⟩
      | asyncPut _ r rest hm ha hp => exact hput hp.facts H
    · exact upd i _ (by simp [hi])

/-- never are all threads waiting after the initialisation -/
theorem not_all_waiting (hlocal : ∃ i, ¬ c.remote i) [Fintype ι] (h : PoolReach c s) : ¬ (s.master = none ∧ ∀ i, s.pc i = .waiting) := by
  refine PoolReach.induct (P := fun s => ¬ (s.master = none ∧ ∀ i, s.pc i = .waiting)) ?_ ?_ h
  · simp [Pool.init]
  · intro s s' hreach H hst
    have hput : ∀ {t t' : Pool ι} {r : Row}, PutFacts r t t' → ¬ (t.master = none ∧ ∀ i, t.pc i = .waiting) → ¬ (t'.master = none ∧ ∀ i, t'.pc i = .waiting) := by
      rintro t t' r hf ht ⟨h1, h2⟩
      refine ht ⟨hf.master ▸ h1, fun i => ?_⟩
      rcases hf.pc i with e | ⟨e, _⟩
      · rw [← e]; exact h2 i
      · exact e
    have upd : ∀ (i : ι) (v : PC) (m : Option Matrix), v ≠ .waiting → ¬ (m = none ∧ ∀ j, Function.update s.pc i v j = .waiting) := by
      rintro i v m hv ⟨_, h⟩
      have := h i
      simp at this
      exact hv this
    rcases hst with hst | ⟨i, hi⟩
    · cases hst with
      | start i hi => exact upd i _ _ (by simp)
      | checkEmpty i hi => exact upd i _ _ (by simp)
      | checkBusy i hi hb => exact upd i _ _ (by simp)
      | insertEmpty i hi => exact upd i _ _ (by simp)
      | pushEmpty i hi =>
        rintro ⟨_, h⟩
        have := h i
        simp at this
      | wait i hi hit =>
        rintro ⟨h1, h2⟩
        have hw : ∀ j, j ≠ i → s.pc j = .waiting := by
          intro j hj
          have := h2 j
          simpa only [Function.update_of_ne hj] using this
        have hcount := (invB hreach).count
        have hz : (∑ j, (s.pc j).busy) = 0 := by
          refine Finset.sum_eq_zero fun j _ => ?_
          by_cases hji : j = i
          · subst hji; rw [hi]; rfl
          · rw [hw j hji]; rfl
        have h1' : s.master = none := h1
        rw [hz, h1'] at hcount
        obtain ⟨j, hj⟩ := announce hlocal hreach h1' hit (by simpa using hcount)
        by_cases hji : j = i
        · subst hji; rw [hi] at hj; simp at hj
        · rw [hw j hji] at hj; simp at hj
      | take i row rest hi hit hr => exact upd i _ _ (by simp)
      | stop i rest hi hit => exact upd i _ _ (by simp)
      | rotate i row m hi hR => exact upd i _ _ (by simp)
      | put _ i row all r rest hi hp => exact hput hp.facts (upd i _ _ (by simp))
      | done i row all hi => exact upd i _ _ (by simp)
      | masterPut _ r rest hm hp => exact hput hp.facts (by simp)
      | masterDone hm =>
        rintro ⟨_, h⟩
        obtain ⟨i, hi⟩ := hlocal
        have h1 := (invB hreach).local_ i hi (by simp [hm])
        rw [h i] at h1
        cases h1
      | asyncPut _ r rest hm ha hp => exact hput hp.facts H
    · exact upd i _ _ (by simp)

theorem progress [Fintype ι] {G : Row → Prop} (hG : c.Safe G) (hlocal : ∃ i, ¬ c.remote i) (htotal : ∀ r, G r → ∃ m, c.Rot r m)
    (h : PoolReach c s) (hf : ¬ s.Finished) : ∃ s', Progress c s s' := by
  by_contra hno
  push Not at hno
  have hm : s.master = none := by
    cases hm : s.master with
    | none => rfl
    | some m =>
      exfalso
      cases m with
      | nil => exact hno _ (.masterDone s hm)
      | cons r rest =>
        obtain ⟨s', hs'⟩ := PutRow.exists r { s with master := some rest }
        exact hno _ (.masterPut s s' r rest hm hs')
  have ha : s.async = [] := by
    cases ha : s.async with
    | nil => rfl
    | cons r rest =>
      exfalso
      obtain ⟨s', hs'⟩ := PutRow.exists r { s with async := rest }
      exact hno _ (.asyncPut s s' r rest hm ha hs')
  have hpc : ∀ i, s.pc i = .waiting ∨ s.pc i = .stopped := by
    intro i
    cases hi : s.pc i with
    | waiting => exact .inl rfl
    | stopped => exact .inr rfl
    | idle => exact absurd (.start s i hi (.inr hm)) (hno _)
    | check =>
      by_cases h0 : s.workers = 0 ∧ s.iterators = []
      · exact absurd (.checkEmpty s i hi h0.1 h0.2) (hno _)
      · exact absurd (.checkBusy s i hi h0) (hno _)
    | insertEmpty => exact absurd (.insertEmpty s i hi) (hno _)
    | pushEmpty => exact absurd (.pushEmpty s i hi) (hno _)
    | lock =>
      cases hit : s.iterators with
      | nil => exact absurd (.wait s i hi hit) (hno _)
      | cons r rest =>
        by_cases hr : r = []
        · subst hr; exact absurd (.stop s i rest hi hit) (hno _)
        · exact absurd (.take s i r rest hi hit hr) (hno _)
    | working row =>
      obtain ⟨m, hR⟩ := htotal row ((invG G hG h).working i row hi)
      exact absurd (.rotate s i row m hi hR) (hno _)
    | putting row all rest =>
      cases rest with
      | nil => exact absurd (.done s i row all hi) (hno _)
      | cons r rest =>
        obtain ⟨s', hs'⟩ := PutRow.exists r { s with pc := Function.update s.pc i (.putting row all rest) }
        exact absurd (.put s s' i row all r rest hi hs') (hno _)
  by_cases hst : ∃ i, s.pc i = .stopped
  · obtain ⟨i, hi⟩ := hst
    refine hf ⟨hm, ha, fun j => (hpc j).resolve_left ?_⟩
    exact (invC hG h).awake ((invC hG h).stopped i hi) j
  · push Not at hst
    exact not_all_waiting hlocal h ⟨hm, fun i => (hpc i).resolve_right (hst i)⟩

/-! ## Termination -/

section Measure
variable [Fintype ι]

/-- how far from leaving the loop a thread is, other than by processing rows -/
def PC.weight : PC → Nat
  | .idle => 4
  | .check => 3
  | .insertEmpty => 2
  | .pushEmpty => 1
  | .putting _ _ rest => 6 + rest.length
  | _ => 0

def PC.isWorking : PC → Nat
  | .working _ => 1
  | _ => 0

def PC.isLock : PC → Nat
  | .lock => 1
  | _ => 0

def PC.running : PC → Nat
  | .stopped => 0
  | _ => 1

/-- a thread finds nothing to do and goes to sleep -/
def GoesToSleep (s s' : Pool ι) : Prop :=
  ∃ i, s.pc i = .lock ∧ s.iterators = [] ∧ s' = { s with pc := Function.update s.pc i .waiting }

def masterWeight : Option Matrix → Nat
  | none => 0
  | some m => m.length + 1

/-- the rows not yet found, the work in the queue, the work within a thread, the threads that have not stopped -/
def measure (U : Finset Row) (s : Pool ι) : Nat ×ₗ Nat ×ₗ Nat ×ₗ Nat :=
  toLex ((U \ s.printed.toFinset).card,
  toLex (2 * (s.iterators.filter (· ≠ [])).length + ∑ i, (s.pc i).isWorking,
  toLex ((∑ i, (s.pc i).weight) + masterWeight s.master + s.async.length,
  ∑ i, (s.pc i).running)))

theorem lex4 {a b c d a' b' c' d' : Nat} (h : a' < a ∨ (a' = a ∧ (b' < b ∨ (b' = b ∧ (c' < c ∨ (c' = c ∧ d' < d)))))) :
    (toLex (a', toLex (b', toLex (c', d'))) : Nat ×ₗ Nat ×ₗ Nat ×ₗ Nat) < toLex (a, toLex (b, toLex (c, d))) := by
  simp only [Prod.Lex.toLex_lt_toLex]
  exact h

/-- a row that is added makes the measure smaller, whatever else changes -/
theorem PutFacts.measure_lt {G : Row → Prop} {U : Finset Row} (hU : ∀ r, G r → r ∈ U) {t : Pool ι} (h : PutFacts r t s') (hA : InvA t) (hr : G r)
    (hne : r ≠ []) (h1 : t.printed = s.printed) (h2 : t.iterators = s.iterators) (h3 : (∑ i, (t.pc i).isWorking) = ∑ i, (s.pc i).isWorking)
    (h4 : (∑ i, (t.pc i).weight) + masterWeight t.master + t.async.length < (∑ i, (s.pc i).weight) + masterWeight s.master + s.async.length) :
    measure U s' < measure U s := by
  apply lex4
  rcases h.cases with ⟨f, e1, e2, e3, e4⟩ | ⟨f, e1, e2, e3⟩
  · right
    refine ⟨by rw [e3, h1], .inr ⟨by rw [e2, h2, e4, h3], .inl ?_⟩⟩
    rw [e4, h.master, h.async]; exact h4
  · left
    apply Finset.card_lt_card
    rw [Finset.ssubset_iff_of_subset]
    · refine ⟨r, ?_, ?_⟩
      · rw [Finset.mem_sdiff, List.mem_toFinset, ← h1, ← hA.rows r hne]
        exact ⟨hU r hr, (setInsert_flag r t.rows hA.sorted).1 f⟩
      · rw [Finset.mem_sdiff, List.mem_toFinset, e3]; simp
    · intro x
      rw [Finset.mem_sdiff, Finset.mem_sdiff, List.mem_toFinset, List.mem_toFinset, e3, h1]
      rintro ⟨hx, hx'⟩
      exact ⟨hx, fun h => hx' (List.mem_append_left _ h)⟩

theorem measure_progress {G : Row → Prop} (hG : c.Safe G) {U : Finset Row} (hU : ∀ r, G r → r ∈ U) (h : PoolReach c s) (hst : Progress c s s') :
    GoesToSleep s s' ∨ measure U s' < measure U s := by
  have HG := invG G hG h
  have HA := invA hG h
  have hne : ∀ {x}, G x → x ≠ [] := by rintro x hx rfl; exact hG.nonempty hx
  -- a step that only moves one thread
  have upd : ∀ (i : ι) (v : PC) (rows : List Row) (w : Nat), v.isWorking = (s.pc i).isWorking →
      (v.weight < (s.pc i).weight ∨ (v.weight = (s.pc i).weight ∧ v.running < (s.pc i).running)) →
      GoesToSleep s s' ∨ measure U { s with rows := rows, workers := w, pc := Function.update s.pc i v } < measure U s := by
    intro i v rows w h1 h2
    have a1 := sum_update PC.isWorking s.pc i v
    have a2 := sum_update PC.weight s.pc i v
    have a3 := sum_update PC.running s.pc i v
    right
    apply lex4
    right
    refine ⟨rfl, .inr ⟨by simp only at a1 ⊢; omega, ?_⟩⟩
    simp only at a2 a3 ⊢
    omega
  cases hst with
  | start i hi => exact upd i _ _ _ (by rw [hi]; rfl) (.inl (by rw [hi]; decide))
  | checkEmpty i hi => exact upd i _ _ _ (by rw [hi]; rfl) (.inl (by rw [hi]; decide))
  | checkBusy i hi hb => exact upd i _ _ _ (by rw [hi]; rfl) (.inl (by rw [hi]; decide))
  | insertEmpty i hi => exact upd i _ _ _ (by rw [hi]; rfl) (.inl (by rw [hi]; decide))
  | pushEmpty i hi =>
    have b1 := sum_woken PC.isWorking rfl (pc := s.pc) (pc' := notifyAll s.pc) (fun j => notifyAll_cases)
    have b2 := sum_woken PC.weight rfl (pc := s.pc) (pc' := notifyAll s.pc) (fun j => notifyAll_cases)
    have a1 := sum_update PC.isWorking (notifyAll s.pc) i .lock
    have a2 := sum_update PC.weight (notifyAll s.pc) i .lock
    have hi' : notifyAll s.pc i = .pushEmpty := by simp [notifyAll, hi]
    rw [hi'] at a1 a2
    right
    apply lex4
    right
    refine ⟨rfl, .inr ⟨?_, .inl ?_⟩⟩
    · simp only [PC.isWorking, List.filter_append] at a1 b1 ⊢
      simp at a1 ⊢
      omega
    · simp only [PC.weight] at a2 b2 ⊢
      omega
  | wait i hi hit => exact .inl ⟨i, hi, hit, rfl⟩
  | take i row rest hi hit hr =>
    have a1 := sum_update PC.isWorking s.pc i (.working row)
    rw [hi] at a1
    right
    apply lex4
    right
    refine ⟨rfl, .inl ?_⟩
    rw [hit]
    simp only [PC.isWorking] at a1 ⊢
    simp [hr] at a1 ⊢
    omega
  | stop i rest hi hit => exact upd i _ _ _ (by rw [hi]; rfl) (.inr (by rw [hi]; decide))
  | rotate i row m hi hR =>
    have a1 := sum_update PC.isWorking s.pc i (.putting row m m)
    rw [hi] at a1
    right
    apply lex4
    right
    refine ⟨rfl, .inl ?_⟩
    simp only [PC.isWorking] at a1 ⊢
    omega
  | put _ i row all r rest hi hp =>
    have hr := (HG.putting i row all _ hi).2 r (by simp)
    have a1 := sum_update PC.isWorking s.pc i (.putting row all rest)
    have a2 := sum_update PC.weight s.pc i (.putting row all rest)
    rw [hi] at a1 a2
    right
    refine hp.facts.measure_lt (G := G) hU ⟨HA.sorted, HA.rows, HA.nodup, HA.queue, HA.submitted⟩ hr (hne hr) rfl rfl ?_ ?_
    · simp only [PC.isWorking] at a1 ⊢; omega
    · simp only [PC.weight, List.length_cons] at a2 ⊢; omega
  | done i row all hi => exact upd i _ _ _ (by rw [hi]; rfl) (.inl (by rw [hi]; simp [PC.weight]))
  | masterPut _ r rest hm hp =>
    have hr := HG.master _ hm r (by simp)
    right
    refine hp.facts.measure_lt (G := G) hU ⟨HA.sorted, HA.rows, HA.nodup, HA.queue, HA.submitted⟩ hr (hne hr) rfl rfl rfl ?_
    simp only [hm, masterWeight, List.length_cons]
    omega
  | masterDone hm =>
    right
    apply lex4
    right
    refine ⟨rfl, .inr ⟨rfl, .inl ?_⟩⟩
    simp only [hm, masterWeight]
    omega
  | asyncPut _ r rest hm ha hp =>
    have hr := HG.async r (by rw [ha]; simp)
    right
    refine hp.facts.measure_lt (G := G) hU ⟨HA.sorted, HA.rows, HA.nodup, HA.queue, HA.submitted⟩ hr (hne hr) rfl rfl rfl ?_
    simp only [ha, List.length_cons]
    omega

/-- going to sleep and spurious wake-ups do not change it -/
theorem measure_idle (U : Finset Row) (h : GoesToSleep s s' ∨ Spurious s s') : measure U s' = measure U s := by
  have key : ∀ (i : ι) (v : PC), v.isWorking = (s.pc i).isWorking → v.weight = (s.pc i).weight → v.running = (s.pc i).running →
      measure U { s with pc := Function.update s.pc i v } = measure U s := by
    intro i v h1 h2 h3
    have a1 := sum_update PC.isWorking s.pc i v
    have a2 := sum_update PC.weight s.pc i v
    have a3 := sum_update PC.running s.pc i v
    rw [h1] at a1; rw [h2] at a2; rw [h3] at a3
    unfold measure
    simp only at a1 a2 a3 ⊢
    rw [Nat.add_right_cancel a1, Nat.add_right_cancel a2, Nat.add_right_cancel a3]
  rcases h with ⟨i, hi, _, rfl⟩ | ⟨i, hi⟩
  · exact key i _ (by rw [hi]; rfl) (by rw [hi]; rfl) (by rw [hi]; rfl)
  · exact key i _ (by rw [hi]; rfl) (by rw [hi]; rfl) (by rw [hi]; rfl)

/-- the steps of the program (without spurious wake-ups) terminate -/
theorem progress_wf {G : Row → Prop} (hG : c.Safe G) (hfin : {r | G r}.Finite) :
    WellFounded fun s' s : {s : Pool ι // PoolReach c s} => Progress c s.1 s'.1 := by
  have hU : ∀ r, G r → r ∈ hfin.toFinset := fun r hr => by simpa using hr
  refine Subrelation.wf ?_ (InvImage.wf (fun s : {s : Pool ι // PoolReach c s} =>
    (toLex (measure hfin.toFinset s.1, ∑ i, (s.1.pc i).isLock) : (Nat ×ₗ Nat ×ₗ Nat ×ₗ Nat) ×ₗ Nat)) wellFounded_lt)
  intro a b hab
  simp only [InvImage, Prod.Lex.toLex_lt_toLex]
  rcases measure_progress hG hU b.2 hab with h | h
  · right
    refine ⟨measure_idle _ (.inl h), ?_⟩
    obtain ⟨i, hi, _, e⟩ := h
    have a1 := sum_update PC.isLock b.1.pc i .waiting
    rw [hi] at a1
    rw [e]
    simp only [PC.isLock] at a1 ⊢
    omega
  · exact .inl h

/-- in an infinite execution, from some point on threads only go to sleep and wake up for no reason -/
theorem eventually_idle {G : Row → Prop} (hG : c.Safe G) (hfin : {r | G r}.Finite) (f : Nat → Pool ι) (h0 : f 0 = Pool.init c)
    (hf : ∀ n, PoolStep c (f n) (f (n + 1))) : ∃ N, ∀ n, N ≤ n → GoesToSleep (f n) (f (n + 1)) ∨ Spurious (f n) (f (n + 1)) := by
  have hU : ∀ r, G r → r ∈ hfin.toFinset := fun r hr => by simpa using hr
  have hreach : ∀ n, PoolReach c (f n) := by
    intro n
    induction n with
    | zero => rw [h0]; exact .refl
    | succ n ih => exact ih.tail (hf n)
  have hcase : ∀ n, (GoesToSleep (f n) (f (n + 1)) ∨ Spurious (f n) (f (n + 1))) ∨
      measure hfin.toFinset (f (n + 1)) < measure hfin.toFinset (f n) := by
    intro n
    rcases hf n with h | h
    · rcases measure_progress hG hU (hreach n) h with h | h
      · exact .inl (.inl h)
      · exact .inr h
    · exact .inl (.inr h)
  have hle : ∀ n, measure hfin.toFinset (f (n + 1)) ≤ measure hfin.toFinset (f n) := by
    intro n
    rcases hcase n with h | h
    · exact (measure_idle _ h).le
    · exact h.le
  have hanti : Antitone fun n => measure hfin.toFinset (f n) := antitone_nat_of_succ_le hle
  obtain ⟨_, ⟨N, rfl⟩, hN⟩ := wellFounded_lt.has_min (Set.range fun n => measure hfin.toFinset (f n)) ⟨_, 0, rfl⟩
  refine ⟨N, fun n hn => (hcase n).resolve_right fun h => ?_⟩
  exact hN _ ⟨n + 1, rfl⟩ (lt_of_lt_of_le h (hanti hn))

end Measure

/-! ## Fairness -/

/-- who takes steps: the threads of the worker loop, the main thread, and the one adding the known rows -/
inductive Agent (ι : Type) where
  | thread (i : ι)
  | main
  | known

/-- a step of the program taken by the agent: it moves the agent forward -/
def StepBy (c : PoolConfig ι) : Agent ι → Pool ι → Pool ι → Prop
  | .thread i, s, s' => Progress c s s' ∧ s.pc i ≠ .waiting ∧ s'.pc i ≠ s.pc i
  | .main, s, s' => Progress c s s' ∧ s'.master ≠ s.master
  | .known, s, s' => Progress c s s' ∧ s'.async ≠ s.async

/-- the agent can take a step, and will be able to until it does -/
def Ready (s : Pool ι) : Agent ι → Prop
  | .thread i => s.master = none ∧ ((s.pc i ≠ .lock ∧ s.pc i ≠ .waiting ∧ s.pc i ≠ .stopped) ∨ (s.pc i = .lock ∧ s.iterators ≠ []))
  | .main => s.master ≠ none
  | .known => s.master = none ∧ s.async ≠ []

theorem putRow_pc_of_ne {t t' : Pool ι} {r : Row} (h : PutFacts r t t') {i : ι} (hi : t.pc i ≠ .waiting) : t'.pc i = t.pc i :=
  (h.pc i).resolve_right fun h => hi h.1

theorem Ready.enabled_of {a : Agent ι} (ha : Ready s a) (hrot : ∀ i row, a = .thread i → s.pc i = .working row → ∃ m, c.Rot row m) :
    ∃ s', StepBy c a s s' := by
  cases a with
  | main =>
    cases hm : s.master with
    | none => exact absurd hm ha
    | some m =>
      cases m with
      | nil => exact ⟨_, .masterDone s hm, by simp [hm]⟩
      | cons r rest =>
        obtain ⟨s', hs'⟩ := PutRow.exists r { s with master := some rest }
        exact ⟨s', .masterPut s s' r rest hm hs', by rw [hs'.facts.master, hm]; simp⟩
  | known =>
    cases ha' : s.async with
    | nil => exact absurd ha' ha.2
    | cons r rest =>
      obtain ⟨s', hs'⟩ := PutRow.exists r { s with async := rest }
      exact ⟨s', .asyncPut s s' r rest ha.1 ha' hs', by rw [hs'.facts.async, ha']; simp⟩
  | thread i =>
    obtain ⟨hm, ha⟩ := ha
    cases hi : s.pc i with
    | waiting => rw [hi] at ha; simp at ha
    | stopped => rw [hi] at ha; simp at ha
    | idle => exact ⟨_, .start s i hi (.inr hm), by simp [hi], by simp [hi]⟩
    | check =>
      by_cases h0 : s.workers = 0 ∧ s.iterators = []
      · exact ⟨_, .checkEmpty s i hi h0.1 h0.2, by simp [hi], by simp [hi]⟩
      · exact ⟨_, .checkBusy s i hi h0, by simp [hi], by simp [hi]⟩
    | insertEmpty => exact ⟨_, .insertEmpty s i hi, by simp [hi], by simp [hi]⟩
    | pushEmpty => exact ⟨_, .pushEmpty s i hi, by simp [hi], by simp [hi]⟩
    | lock =>
      rw [hi] at ha
      cases hit : s.iterators with
      | nil => simp [hit] at ha
      | cons r rest =>
        by_cases hr : r = []
        · subst hr; exact ⟨_, .stop s i rest hi hit, by simp [hi], by simp [hi]⟩
        · exact ⟨_, .take s i r rest hi hit hr, by simp [hi], by simp [hi]⟩
    | working row =>
      obtain ⟨m, hR⟩ := hrot i row rfl hi
      exact ⟨_, .rotate s i row m hi hR, by simp [hi], by simp [hi]⟩
    | putting row all rest =>
      cases rest with
      | nil => exact ⟨_, .done s i row all hi, by simp [hi], by simp [hi]⟩
      | cons r rest =>
        obtain ⟨s', hs'⟩ := PutRow.exists r { s with pc := Function.update s.pc i (.putting row all rest) }
        refine ⟨s', .put s s' i row all r rest hi hs', by simp [hi], ?_⟩
        rw [putRow_pc_of_ne hs'.facts (by simp), hi]
        simp

theorem Ready.enabled {G : Row → Prop} (hG : c.Safe G) (htotal : ∀ r, G r → ∃ m, c.Rot r m) (h : PoolReach c s) {a : Agent ι} (ha : Ready s a) :
    ∃ s', StepBy c a s s' :=
  ha.enabled_of fun i row _ hi => htotal row ((invG G hG h).working i row hi)

theorem Ready.idle {a : Agent ι} (ha : Ready s a) (h : GoesToSleep s s' ∨ Spurious s s') : Ready s' a := by
  cases a with
  | main => rcases h with ⟨i, _, _, rfl⟩ | ⟨i, _⟩ <;> exact ha
  | known => rcases h with ⟨i, _, _, rfl⟩ | ⟨i, _⟩ <;> exact ha
  | thread j =>
    obtain ⟨hm, ha⟩ := ha
    rcases h with ⟨i, hi, hit, rfl⟩ | ⟨i, hi⟩
    · refine ⟨hm, ?_⟩
      have hji : j ≠ i := by
        rintro rfl
        rw [hi] at ha
        simp [hit] at ha
      simpa only [Function.update_of_ne hji] using ha
    · refine ⟨hm, ?_⟩
      have hji : j ≠ i := by
        rintro rfl
        rw [hi] at ha
        simp at ha
      simpa only [Function.update_of_ne hji] using ha

theorem exists_ready [Fintype ι] {G : Row → Prop} (hG : c.Safe G) (hlocal : ∃ i, ¬ c.remote i) (h : PoolReach c s) (hf : ¬ s.Finished) :
    ∃ a, Ready s a := by
  by_contra hno
  push Not at hno
  have hm : s.master = none := by
    by_contra hm; exact hno .main hm
  have ha : s.async = [] := by
    by_contra ha; exact hno .known ⟨hm, ha⟩
  have hpc : ∀ i, (s.pc i = .lock ∧ s.iterators = []) ∨ s.pc i = .waiting ∨ s.pc i = .stopped := by
    intro i
    have := fun h => hno (.thread i) ⟨hm, h⟩
    tauto
  by_cases hst : ∃ i, s.pc i = .stopped
  · obtain ⟨i, hi⟩ := hst
    have h0 := (invC hG h).stopped i hi
    refine hf ⟨hm, ha, fun j => ?_⟩
    rcases hpc j with ⟨_, h1⟩ | h1 | h1
    · rw [h1] at h0; cases h0
    · exact absurd h1 ((invC hG h).awake h0 j)
    · exact h1
  · push Not at hst
    by_cases hit : s.iterators = []
    · have hcount := (invB h).count
      have hz : (∑ j, (s.pc j).busy) = 0 := by
        refine Finset.sum_eq_zero fun j _ => ?_
        rcases hpc j with ⟨e, _⟩ | e | e
        · rw [e]; rfl
        · rw [e]; rfl
        · exact absurd e (hst j)
      rw [hz, hm] at hcount
      obtain ⟨j, hj⟩ := announce hlocal h hm hit (by simpa using hcount)
      rcases hpc j with ⟨e, _⟩ | e | e <;> rw [e] at hj <;> simp at hj
    · refine not_all_waiting hlocal h ⟨hm, fun i => ?_⟩
      rcases hpc i with ⟨_, e⟩ | e | e
      · exact absurd e hit
      · exact e
      · exact absurd e (hst i)

/-- an agent's step is none of the idle ones while it is ready -/
theorem Ready.not_idle {a : Agent ι} (ha : Ready s a) (hs : StepBy c a s s') : ¬ (GoesToSleep s s' ∨ Spurious s s') := by
  rintro (⟨i, hi, hit, rfl⟩ | ⟨i, hi⟩)
  · cases a with
    | main => exact hs.2 rfl
    | known => exact hs.2 rfl
    | thread j =>
      have h1 := hs.2.2
      by_cases hji : j = i
      · subst hji
        have := ha.2
        rw [hi] at this
        simp [hit] at this
      · simp [Function.update_of_ne hji] at h1
  · cases a with
    | main => exact hs.2 rfl
    | known => exact hs.2 rfl
    | thread j =>
      have h1 := hs.2.2
      by_cases hji : j = i
      · subst hji
        have := ha.2
        rw [hi] at this
        simp at this
      · simp [Function.update_of_ne hji] at h1

/-- an infinite execution is unfair: some agent can take a step forever and never does -/
theorem infinite_unfair [Fintype ι] {G : Row → Prop} (hG : c.Safe G) (hfin : {r | G r}.Finite) (hlocal : ∃ i, ¬ c.remote i)
    (htotal : ∀ r, G r → ∃ m, c.Rot r m) (f : Nat → Pool ι) (h0 : f 0 = Pool.init c)
    (hf : ∀ n, PoolStep c (f n) (f (n + 1))) :
    ∃ a N, (∀ n, N ≤ n → ∃ s', StepBy c a (f n) s') ∧ ∀ n, N ≤ n → ¬ StepBy c a (f n) (f (n + 1)) := by
  obtain ⟨N, hN⟩ := eventually_idle hG hfin f h0 hf
  have hreach : ∀ n, PoolReach c (f n) := by
    intro n
    induction n with
    | zero => rw [h0]; exact .refl
    | succ n ih => exact ih.tail (hf n)
  have hnf : ¬ (f N).Finished := by
    rintro ⟨_, _, h⟩
    rcases hN N le_rfl with ⟨i, hi, _⟩ | hsp
    · rw [h i] at hi; cases hi
    · generalize f (N + 1) = s' at hsp
      cases hsp with
      | wake i hi => rw [h i] at hi; cases hi
  obtain ⟨a, ha⟩ := exists_ready hG hlocal (hreach N) hnf
  have hall : ∀ k, Ready (f (N + k)) a := by
    intro k
    induction k with
    | zero => exact ha
    | succ k ih => exact ih.idle (hN _ (by omega))
  have hall' : ∀ n, N ≤ n → Ready (f n) a := by
    intro n hn
    have := hall (n - N)
    rwa [show N + (n - N) = n by omega] at this
  exact ⟨a, N, fun n hn => (hall' n hn).enabled hG htotal (hreach n), fun n hn hs => (hall' n hn).not_idle hs (hN n hn)⟩

end

end Panda
