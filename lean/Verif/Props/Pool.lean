import Verif.Proofs.PoolLive

/-! # C26 – C29: the job pool

`PoolReach c s`: some interleaving of the threads (with arbitrary spurious wake-ups) leads to `s`.
All theorems are for an arbitrary finite set of threads and an arbitrary set `G` of rows that contains
everything that may be put: the initial rows, the known rows, and the results of `rotation` on such
rows (`PoolConfig.Safe`); the empty row, which is the stop signal, is not among them. -/

namespace Panda

open Relation

set_option linter.unusedSectionVars false
variable {ι : Type} [DecidableEq ι] [Fintype ι]

/-- **C26.**  In every reachable state: no row has been printed twice; the printed rows are exactly the
rows that have been put; no row has been handed out twice; every row handed out has been printed; rows
are handed out in the order in which they have been printed, and those not yet handed out are queued. -/
theorem C26_once {c : PoolConfig ι} {G : Row → Prop} (hG : c.Safe G) {s : Pool ι} (h : PoolReach c s) :
    s.printed.Nodup ∧ (∀ r, r ∈ s.submitted ↔ r ∈ s.printed) ∧ (s.handed.map Prod.snd).Nodup ∧
    s.printed = s.handed.map Prod.snd ++ s.iterators.filter (· ≠ []) := by
  have H := invA hG h
  refine ⟨H.nodup, H.submitted, ?_, H.queue⟩
  have := H.nodup
  rw [H.queue] at this
  exact (List.nodup_append.1 this).1

/-- C26: everything that is printed is one of the rows that may be put -/
theorem C26_nothing_else {c : PoolConfig ι} {G : Row → Prop} (hG : c.Safe G) {s : Pool ι} (h : PoolReach c s) : ∀ r ∈ s.printed, G r :=
  (invG G hG h).printed

/-- **C27.**  When a thread has left its loop, there is a set of printed rows that contains the initial
rows, all of which have been handed out, and which is closed: `rotation` has returned only elements of
this set for each of them.  The printed rows outside it were found from known rows that were added
after the decision to stop. -/
theorem C27_stop {c : PoolConfig ι} {G : Row → Prop} (hG : c.Safe G) {s : Pool ι} (h : PoolReach c s) {i : ι} (hi : s.pc i = .stopped) :
    ∃ P : Row → Prop, (∀ r ∈ c.initial, P r) ∧ (∀ r, P r → r ∈ s.printed) ∧
      (∀ r, P r → (∃ j, (j, r) ∈ s.handed) ∧ ∃ m, c.Rot r m ∧ ∀ x ∈ m, P x) ∧
      ∀ r ∈ s.printed, P r ∨ ∃ k ∈ c.known, ReflTransGen (fun a b => ∃ m, c.Rot a m ∧ b ∈ m) k r := by
  obtain ⟨P, hP⟩ := stopping_settled hG h (.inl ⟨i, .inr (.inr hi)⟩)
  exact ⟨P, hP.initial, hP.printed, hP.closed, hP.rest⟩

/-- C27: without known rows, as soon as one thread has left, every printed row has been handed out and
its results are printed -/
theorem C27_stop_no_known {c : PoolConfig ι} {G : Row → Prop} (hG : c.Safe G) (hk : c.known = []) {s : Pool ι} (h : PoolReach c s) {i : ι}
    (hi : s.pc i = .stopped) :
    (∀ r ∈ c.initial, r ∈ s.printed) ∧
    ∀ r ∈ s.printed, (∃ j, (j, r) ∈ s.handed) ∧ ∃ m, c.Rot r m ∧ ∀ x ∈ m, x ∈ s.printed := by
  obtain ⟨P, h1, h2, h3, h4⟩ := C27_stop hG h hi
  refine ⟨fun r hr => h2 r (h1 r hr), fun r hr => ?_⟩
  rcases h4 r hr with h | ⟨k, hk', _⟩
  · obtain ⟨h5, m, h6, h7⟩ := h3 r h
    exact ⟨h5, m, h6, fun x hx => h2 x (h7 x hx)⟩
  · rw [hk] at hk'; cases hk'

/-- C27: when everything has finished, also all known rows are printed -/
theorem C27_known {c : PoolConfig ι} {G : Row → Prop} (hG : c.Safe G) {s : Pool ι} (h : PoolReach c s) (hf : s.Finished) :
    ∀ r ∈ c.known, r ∈ s.printed := by
  intro r hr
  rcases (invD hG h).async r hr with h | h
  · exact h
  · rw [hf.2.1] at h; cases h

/-- **C28.**  No deadlock: as long as not everything has finished, the program can take a step (one that
is not a spurious wake-up), provided there is a local thread and `rotation` terminates. -/
theorem C28_no_deadlock {c : PoolConfig ι} {G : Row → Prop} (hG : c.Safe G) (hlocal : ∃ i, ¬ c.remote i) (htotal : ∀ r, G r → ∃ m, c.Rot r m)
    {s : Pool ι} (h : PoolReach c s) (hf : ¬ s.Finished) : ∃ s', Progress c s s' :=
  progress hG hlocal htotal h hf

/-- C28: there is no infinite execution without spurious wake-ups, if there are finitely many rows to find -/
theorem C28_terminates {c : PoolConfig ι} {G : Row → Prop} (hG : c.Safe G) (hfin : {r | G r}.Finite) (f : Nat → Pool ι) (h0 : f 0 = Pool.init c) :
    ¬ ∀ n, Progress c (f n) (f (n + 1)) := by
  intro hf
  have hreach : ∀ n, PoolReach c (f n) := by
    intro n
    induction n with
    | zero => rw [h0]; exact .refl
    | succ n ih => exact ih.tail (.inl (hf n))
  have hwf := progress_wf hG hfin
  obtain ⟨_, ⟨n, rfl⟩, hn⟩ := hwf.has_min (Set.range fun n => (⟨f n, hreach n⟩ : {s : Pool ι // PoolReach c s})) ⟨_, 0, rfl⟩
  exact hn ⟨f (n + 1), hreach (n + 1)⟩ ⟨n + 1, rfl⟩ (hf n)

/-- C28: with arbitrarily many spurious wake-ups, every infinite execution is unfair: from some point on
one of the threads could always take a step, but never does -/
theorem C28_fair_termination {c : PoolConfig ι} {G : Row → Prop} (hG : c.Safe G) (hfin : {r | G r}.Finite) (hlocal : ∃ i, ¬ c.remote i)
    (htotal : ∀ r, G r → ∃ m, c.Rot r m) (f : Nat → Pool ι) (h0 : f 0 = Pool.init c) (hf : ∀ n, PoolStep c (f n) (f (n + 1))) :
    ∃ a N, (∀ n, N ≤ n → ∃ s', StepBy c a (f n) s') ∧ ∀ n, N ≤ n → ¬ StepBy c a (f n) (f (n + 1)) :=
  infinite_unfair hG hfin hlocal htotal f h0 hf

/-- C28: from every reachable state, the state in which everything has finished can be reached -/
theorem C28_can_finish {c : PoolConfig ι} {G : Row → Prop} (hG : c.Safe G) (hfin : {r | G r}.Finite) (hlocal : ∃ i, ¬ c.remote i)
    (htotal : ∀ r, G r → ∃ m, c.Rot r m) {s : Pool ι} (h : PoolReach c s) :
    ∃ s', ReflTransGen (Progress c) s s' ∧ s'.Finished := by
  have key : ∀ t : {s : Pool ι // PoolReach c s}, ∃ s', ReflTransGen (Progress c) t.1 s' ∧ s'.Finished := by
    intro t
    induction t using (progress_wf hG hfin).induction with
    | _ t ih =>
    by_cases hf : t.1.Finished
    · exact ⟨t.1, .refl, hf⟩
    · obtain ⟨s1, h1⟩ := progress hG hlocal htotal t.2 hf
      obtain ⟨s', h2, h3⟩ := ih ⟨s1, t.2.tail (.inl h1)⟩ h1
      exact ⟨s', .head h1 h2, h3⟩
  exact key ⟨s, h⟩

/-! An instance with three threads (one of them remote), two initial rows, one known row. -/

/-- an example configuration -/
def examplePool : PoolConfig (Fin 3) :=
  { remote := fun i => i = 0, Rot := fun r m => (r = [1] ∧ m = [[2], [3]]) ∨ (r = [2] ∧ m = [[1]]) ∨ (r = [3] ∧ m = []) ∨ (r = [4] ∧ m = [[3]]),
    initial := [[1], [2]], known := [[4]] }

theorem examplePool_safe : examplePool.Safe (fun r => r ∈ [[1], [2], [3], [4]]) :=
  { nonempty := by simp, initial := by simp [examplePool], known := by simp [examplePool],
    rot := by rintro r m _ (⟨_, rfl⟩ | ⟨_, rfl⟩ | ⟨_, rfl⟩ | ⟨_, rfl⟩) <;> simp }

theorem examplePool_total : ∀ r : Row, r ∈ ([[1], [2], [3], [4]] : List Row) → ∃ m, examplePool.Rot r m := by
  intro r hr
  simp only [List.mem_cons, List.not_mem_nil, or_false] at hr
  rcases hr with rfl | rfl | rfl | rfl
  · exact ⟨_, .inl ⟨rfl, rfl⟩⟩
  · exact ⟨_, .inr (.inl ⟨rfl, rfl⟩)⟩
  · exact ⟨_, .inr (.inr (.inl ⟨rfl, rfl⟩))⟩
  · exact ⟨_, .inr (.inr (.inr ⟨rfl, rfl⟩))⟩

theorem examplePool_finite : {r : Row | r ∈ ([[1], [2], [3], [4]] : List Row)}.Finite := List.finite_toSet _

example : ∃ s, PoolReach examplePool s ∧ s.Finished := by
  obtain ⟨s, h1, h2⟩ := C28_can_finish examplePool_safe examplePool_finite ⟨1, by simp [examplePool]⟩ examplePool_total (s := Pool.init examplePool) .refl
  refine ⟨s, ?_, h2⟩
  exact ReflTransGen.mono (fun _ _ h => .inl h) _ _ h1

/-- the next step of the agent reads or writes the set of rows (list.cpp:66, 88, 111) -/
def TouchesRows (s : Pool ι) : Agent ι → Prop
  | .thread i => s.pc i = .insertEmpty ∨ (∃ row all r rest, s.pc i = .putting row all (r :: rest)) ∨
      (s.pc i = .lock ∧ ∃ r rest, s.iterators = r :: rest ∧ r ≠ [])
  | .main => ∃ r rest, s.master = some (r :: rest)
  | .known => s.master = none ∧ ∃ r rest, s.async = r :: rest

/-- the next step of the agent writes the set of rows without holding the mutex (list.cpp:88) -/
def WritesUnlocked (s : Pool ι) : Agent ι → Prop
  | .thread i => s.pc i = .insertEmpty
  | _ => False

/-- two threads may access the set of rows at the same time, one of them writing and not holding the mutex -/
def DataRace (s : Pool ι) : Prop := ∃ a b, a ≠ b ∧ WritesUnlocked s a ∧ TouchesRows s b

/-- **C29 is false** of the code: with at least two threads, *every* run that can terminate has an
interleaving in which two threads write the set of rows at the same time, neither holding the mutex. -/
theorem C29_race_false {c : PoolConfig ι} {G : Row → Prop} (hG : c.Safe G) (hfin : {r | G r}.Finite) (htotal : ∀ r, G r → ∃ m, c.Rot r m)
    {i j : ι} (hij : i ≠ j) :
    ∃ s, PoolReach c s ∧ DataRace s ∧ s.pc i = .insertEmpty ∧ s.pc j = .insertEmpty := by
  have key : ∀ t : {s : Pool ι // PoolReach c s}, (∀ k, k ≠ i → t.1.pc k = .idle) → (t.1.master = none ∨ t.1.pc i = .idle) →
      t.1.pc i ≠ .insertEmpty → t.1.pc i ≠ .pushEmpty → t.1.pc i ≠ .waiting → t.1.pc i ≠ .stopped →
      (t.1.pc i = .lock → t.1.iterators ≠ []) → [] ∉ t.1.iterators → ∃ s, PoolReach c s ∧ s.pc i = .insertEmpty ∧ s.pc j = .insertEmpty := by
    intro t
    induction t using (progress_wf hG hfin).induction with
    | _ t ih =>
    obtain ⟨s, hs⟩ := t
    simp only
    intro hidle hm h1 h2 h3 h4 h5 h6
    have hne : ∀ {x}, G x → x ≠ [] := by rintro x hx rfl; exact hG.nonempty hx
    have next : ∀ s', (hp : Progress c s s') → (∀ k, k ≠ i → s'.pc k = .idle) → (s'.master = none ∨ s'.pc i = .idle) →
      s'.pc i ≠ .insertEmpty → s'.pc i ≠ .pushEmpty → s'.pc i ≠ .waiting → s'.pc i ≠ .stopped →
      (s'.pc i = .lock → s'.iterators ≠ []) → [] ∉ s'.iterators → ∃ s, PoolReach c s ∧ s.pc i = .insertEmpty ∧ s.pc j = .insertEmpty :=
      fun s' hp => ih ⟨s', hs.tail (.inl hp)⟩ hp
    have nowait : ∀ k, s.pc k ≠ .waiting := by
      intro k
      by_cases hk : k = i
      · subst hk; exact h3
      · rw [hidle k hk]; simp
    have updn : ∀ v, ∀ k, k ≠ i → Function.update s.pc i v k = .idle := by
      intro v k hk
      rw [Function.update_of_ne hk]; exact hidle k hk
    have putpc : ∀ {t t' : Pool ι} {r : Row}, PutFacts r t t' → (∀ k, t.pc k ≠ .waiting) → t'.pc = t.pc := by
      intro t t' r hf hw
      funext k
      exact putRow_pc_of_ne hf (hw k)
    have putq : ∀ {t t' : Pool ι} {r : Row}, PutFacts r t t' → r ≠ [] → [] ∉ t.iterators → [] ∉ t'.iterators := by
      intro t t' r hf hr hq
      rcases hf.cases with ⟨_, _, e, _, _⟩ | ⟨_, _, e, _⟩ <;> rw [e]
      · exact hq
      · simp [hq, hr.symm]
    cases hpi : s.pc i with
    | insertEmpty => exact absurd hpi h1
    | pushEmpty => exact absurd hpi h2
    | waiting => exact absurd hpi h3
    | stopped => exact absurd hpi h4
    | idle =>
      cases hma : s.master with
      | some m =>
        cases m with
        | nil =>
          refine next _ (.masterDone s hma) hidle (.inl rfl) ?_ ?_ ?_ ?_ ?_ h6 <;> simp [hpi]
        | cons r rest =>
          obtain ⟨s', hs'⟩ := PutRow.exists r { s with master := some rest }
          have hpc : s'.pc = s.pc := putpc (t := { s with master := some rest }) hs'.facts nowait
          refine next _ (.masterPut s s' r rest hma hs') (by rw [hpc]; exact hidle) (.inr (by rw [hpc, hpi])) ?_ ?_ ?_ ?_ ?_
            (putq hs'.facts (hne ((invG G hG hs).master _ hma r (by simp))) h6) <;> simp [hpc, hpi]
      | none =>
        refine next _ (.start s i hpi (.inr hma)) (updn _) (.inl hma) ?_ ?_ ?_ ?_ ?_ h6 <;> simp
    | check =>
      have hma : s.master = none := hm.resolve_right (by simp [hpi])
      by_cases hit : s.iterators = []
      · have hw : s.workers = 0 := by
          rw [(invB hs).count, hma]
          have : (∑ k, (s.pc k).busy) = 0 := by
            refine Finset.sum_eq_zero fun k _ => ?_
            by_cases hk : k = i
            · subst hk; rw [hpi]; rfl
            · rw [hidle k hk]; rfl
          rw [this]; rfl
        let s1 : Pool ι := { s with pc := Function.update s.pc j .check }
        have r1 : PoolReach c s1 := hs.tail (.inl (.start s j (hidle j hij.symm) (.inr hma)))
        have e1 : s1.pc i = .check := by simp only [s1]; rw [Function.update_of_ne hij]; exact hpi
        let s2 : Pool ι := { s1 with pc := Function.update s1.pc i .insertEmpty }
        have r2 : PoolReach c s2 := r1.tail (.inl (.checkEmpty s1 i e1 hw hit))
        have e2 : s2.pc j = .check := by simp [s2, s1, Function.update_of_ne hij.symm]
        refine ⟨{ s2 with pc := Function.update s2.pc j .insertEmpty }, r2.tail (.inl (.checkEmpty s2 j e2 hw hit)), ?_, ?_⟩
        · simp [s2, Function.update_of_ne hij]
        · simp
      · refine next _ (.checkBusy s i hpi (fun h => hit h.2)) (updn _) (.inl hma) ?_ ?_ ?_ ?_ ?_ h6 <;> simp [hit]
    | lock =>
      have hma : s.master = none := hm.resolve_right (by simp [hpi])
      have hit := h5 hpi
      cases hit' : s.iterators with
      | nil => exact absurd hit' hit
      | cons r rest =>
        by_cases hr : r = []
        · exact absurd (by rw [hit', hr]; simp) h6
        · refine next _ (.take s i r rest hpi hit' hr) (updn _) (.inl hma) ?_ ?_ ?_ ?_ ?_ (fun h => h6 (by rw [hit']; simp [h])) <;> simp
    | working row =>
      have hma : s.master = none := hm.resolve_right (by simp [hpi])
      obtain ⟨m, hR⟩ := htotal row ((invG G hG hs).working i row hpi)
      refine next _ (.rotate s i row m hpi hR) (updn _) (.inl hma) ?_ ?_ ?_ ?_ ?_ h6 <;> simp
    | putting row all rest =>
      have hma : s.master = none := hm.resolve_right (by simp [hpi])
      cases rest with
      | nil => refine next _ (.done s i row all hpi) (updn _) (.inl hma) ?_ ?_ ?_ ?_ ?_ h6 <;> simp
      | cons r rest =>
        obtain ⟨s', hs'⟩ := PutRow.exists r { s with pc := Function.update s.pc i (.putting row all rest) }
        have hpc : s'.pc = Function.update s.pc i (.putting row all rest) := by
          refine putpc hs'.facts fun k => ?_
          by_cases hk : k = i
          · subst hk; simp
          · simp only [Function.update_of_ne hk]; exact nowait k
        refine next _ (.put s s' i row all r rest hpi hs') (by rw [hpc]; exact updn _) (.inl (by rw [hs'.facts.master]; exact hma)) ?_ ?_ ?_ ?_ ?_
          (putq hs'.facts (hne (((invG G hG hs).putting i row all _ hpi).2 r (by simp))) h6) <;> simp [hpc]
  obtain ⟨s, hs, h1, h2⟩ := key ⟨Pool.init c, .refl⟩ (fun _ _ => rfl) (.inr rfl) (by simp [Pool.init]) (by simp [Pool.init]) (by simp [Pool.init]) (by simp [Pool.init]) (by simp [Pool.init]) (by simp [Pool.init])
  exact ⟨s, hs, ⟨.thread i, .thread j, by simpa using hij, h1, .inl h2⟩, h1, h2⟩

/-- the true part of C29: without known rows, the only possible race is between two threads that both
insert the stop signal; hence there is none if there is only one thread -/
theorem C29_race_partial {c : PoolConfig ι} {G : Row → Prop} (hG : c.Safe G) (hk : c.known = []) {s : Pool ι} (h : PoolReach c s) {a b : Agent ι}
    (hab : a ≠ b) (ha : WritesUnlocked s a) (hb : TouchesRows s b) :
    ∃ i j, i ≠ j ∧ a = .thread i ∧ b = .thread j ∧ s.pc i = .insertEmpty ∧ s.pc j = .insertEmpty := by
  cases a with
  | main => exact ha.elim
  | known => exact ha.elim
  | thread i =>
    obtain ⟨P, hP⟩ := stopping_settled hG h (.inl ⟨i, .inl ha⟩)
    have hno : ∀ r, ¬ c.FromKnown r := by
      rintro r ⟨k, hk', _⟩
      rw [hk] at hk'; cases hk'
    cases b with
    | main => obtain ⟨r, rest, e⟩ := hb; rw [hP.master] at e; cases e
    | known =>
      obtain ⟨_, r, rest, e⟩ := hb
      have := hP.async r (by rw [e]; simp)
      rw [hk] at this; cases this
    | thread j =>
      rcases hb with hb | ⟨row, all, r, rest, hb⟩ | ⟨_, r, rest, e, hr⟩
      · exact ⟨i, j, by rintro rfl; exact hab rfl, rfl, rfl, ha, hb⟩
      · exact absurd (hP.putting j row all _ hb r (by simp)) (hno r)
      · exact absurd ((hP.iterators r (by rw [e]; simp)).resolve_left hr) (hno r)

example : ∃ s, PoolReach examplePool s ∧ DataRace s := by
  obtain ⟨s, h1, h2, _⟩ := C29_race_false examplePool_safe examplePool_finite examplePool_total (i := 1) (j := 2) (by decide)
  exact ⟨s, h1, h2⟩

end Panda
