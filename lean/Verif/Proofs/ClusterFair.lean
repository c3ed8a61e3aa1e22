import Verif.Proofs.ClusterLive

/-! # A distributed run with spurious wake-ups: infinite runs are unfair -/

namespace Panda

open Relation

section
set_option linter.unusedSectionVars false
variable {ι κ ν : Type} [DecidableEq ι] [DecidableEq κ] [DecidableEq ν] [Fintype ι] [Fintype κ]
variable {c : ClusterConfig ι κ ν} {s s' : Cluster ι κ ν}

/-- only going to sleep puts a thread to sleep -/
theorem sleep_of_waiting {c : PoolConfig ι} {p p' : Pool ι} (h : Progress c p p') {i : ι} (h1 : p.pc i ≠ .waiting) (h2 : p'.pc i = .waiting) :
    GoesToSleep p p' := by
  have key : ∀ {j : ι} {v : PC}, v ≠ .waiting → Function.update p.pc j v i = .waiting → False := by
    intro j v hv hu
    by_cases hji : i = j
    · subst hji; rw [Function.update_self] at hu; exact hv hu
    · rw [Function.update_of_ne hji] at hu; exact h1 hu
  have put : ∀ {r : Row} {t t' : Pool ι}, PutRow r t t' → t.pc i ≠ .waiting → t'.pc i = .waiting → False := by
    intro r t t' ht hn hw
    rcases ht.facts.pc i with e | e
    · rw [e] at hw; exact hn hw
    · exact hn e.1
  cases h with
  | start j => exact (key (by simp) h2).elim
  | checkEmpty j => exact (key (by simp) h2).elim
  | checkBusy j => exact (key (by simp) h2).elim
  | insertEmpty j => exact (key (by simp) h2).elim
  | pushEmpty j =>
    exfalso
    by_cases hji : i = j
    · subst hji; simp at h2
    · simp only [Function.update_of_ne hji, notifyAll] at h2
      split_ifs at h2 with h3
      exact h1 h2
  | wait j h3 h4 => exact ⟨j, h3, h4, rfl⟩
  | take j => exact (key (by simp) h2).elim
  | stop j => exact (key (by simp) h2).elim
  | rotate j => exact (key (by simp) h2).elim
  | put _ j row all r rest h3 h4 =>
    refine (put h4 ?_ h2).elim
    by_cases hji : i = j
    · subst hji; simp
    · simpa only [Function.update_of_ne hji] using h1
  | done j => exact (key (by simp) h2).elim
  | masterPut _ r rest h3 h4 => exact (put h4 h1 h2).elim
  | masterDone => exact (h1 h2).elim
  | asyncPut _ r rest h3 h4 h5 => exact (put h5 h1 h2).elim

variable [Fintype ν]

/-- what gets smaller with every step that is not going to sleep -/
def Cluster.fmeasure (U : Finset Row) (s : Cluster ι κ ν) : (Nat ×ₗ Nat ×ₗ Nat ×ₗ Nat) ×ₗ Nat := toLex (Panda.measure U s.pool, s.work)

/-- a thread of the master goes to sleep, or wakes up for no reason -/
def Cluster.Idle (s s' : Cluster ι κ ν) : Prop := (GoesToSleep s.pool s'.pool ∨ Spurious s.pool s'.pool) ∧ s' = { s with pool := s'.pool }

theorem cluster_idle_or {G : Row → Prop} (hG : c.pool.Safe G) {U : Finset Row} (hU : ∀ r, G r → r ∈ U) (h : ClusterReach c s)
    (hst : ClusterStep c s s') : s.Idle s' ∨ s'.fmeasure U < s.fmeasure U := by
  have hm := cluster_measure hG hU h hst
  unfold Cluster.measure at hm
  unfold Cluster.fmeasure
  rw [Prod.Lex.toLex_lt_toLex] at hm ⊢
  rcases hm with hm | ⟨e, hm⟩
  · exact .inr (.inl hm)
  dsimp only at e hm ⊢
  rw [Prod.Lex.toLex_lt_toLex] at hm
  have outer : s'.pool = s.pool → s.Idle s' ∨ (Panda.measure U s'.pool < Panda.measure U s.pool ∨ Panda.measure U s'.pool = Panda.measure U s.pool ∧ s'.work < s.work) := by
    intro hp
    rw [hp] at hm
    rcases hm with hm | ⟨-, hm⟩
    · exact absurd hm (lt_irrefl _)
    · exact .inr (.inr ⟨e, hm⟩)
  cases hst with
  | pool p hp hk =>
    left
    obtain ⟨a, π, h1, h2, h3, h4⟩ := (clusterInv h).follows
    obtain ⟨a', k1, k2, k3⟩ := h3.step (c := c.pool) (fun i => by show _ ≠ none ↔ _ ≠ none; rw [h2])
        (fun i hi => .inl (not_not.1 hi)) hp hk
    rcases measure_progress hG hU h1 k1 with hs | hs
    · obtain ⟨i, hi, -, rfl⟩ := hs
      refine ⟨.inl (sleep_of_waiting hp (i := π.symm i) ?_ ?_), rfl⟩
      · intro hw
        have := PC.erase_waiting.1 (h3.pc.of_eq hw)
        rw [Equiv.apply_symm_apply, hi] at this
        cases this
      · refine PC.erase_waiting.1 ?_
        rw [← k2.pc.erase, Equiv.apply_symm_apply]
        simp [PC.erase]
    · rw [k2.measure, h3.measure] at hs
      exact absurd e hs.ne
  | toSlave => exact outer rfl
  | toSlaveDone => exact outer rfl
  | fromMaster => exact outer rfl
  | rotate => exact outer rfl
  | toMaster => exact outer rfl
  | toMasterDone => exact outer rfl
  | fromSlave i n row row' k m rest hi hw hd hr =>
    have k1 := sum_change (x := fun j => (s.pool.pc j).isLock) (y := fun j => (Function.update s.pool.pc i (.putting row m m) j).isLock) i
      (fun j hj => by rw [Function.update_of_ne hj])
    simp only [Function.update_self, hw] at k1
    rw [show (PC.working row).isLock = 0 from rfl, show (PC.putting row m m).isLock = 0 from rfl] at k1
    rcases hm with hm | ⟨-, hm⟩
    · dsimp only at hm; omega
    · exact .inr (.inr ⟨e, hm⟩)

theorem fmeasure_idle (U : Finset Row) (h : s.Idle s') : s'.fmeasure U = s.fmeasure U := by
  obtain ⟨h1, h2⟩ := h
  unfold Cluster.fmeasure
  rw [measure_idle U h1, h2]
  rfl

/-- in an infinite run, from some point on threads of the master only go to sleep and wake up for no reason -/
theorem cluster_eventually_idle {G : Row → Prop} (hG : c.pool.Safe G) (hfin : {r | G r}.Finite) (f : Nat → Cluster ι κ ν) (hreach : ∀ n, ClusterReach c (f n))
    (hf : ∀ n, ClusterStep c (f n) (f (n + 1)) ∨ ClusterSpurious (f n) (f (n + 1))) : ∃ N, ∀ n, N ≤ n → (f n).Idle (f (n + 1)) := by
  have hU : ∀ r, G r → r ∈ hfin.toFinset := fun r hr => by simpa using hr
  have hcase : ∀ n, (f n).Idle (f (n + 1)) ∨ (f (n + 1)).fmeasure hfin.toFinset < (f n).fmeasure hfin.toFinset := by
    intro n
    rcases hf n with h | ⟨p, h1, h2⟩
    · exact cluster_idle_or hG hU (hreach n) h
    · left
      rw [h2]
      exact ⟨.inr h1, rfl⟩
  have hle : ∀ n, (f (n + 1)).fmeasure hfin.toFinset ≤ (f n).fmeasure hfin.toFinset := by
    intro n
    rcases hcase n with h | h
    · exact (fmeasure_idle _ h).le
    · exact h.le
  have hanti : Antitone fun n => (f n).fmeasure hfin.toFinset := antitone_nat_of_succ_le hle
  obtain ⟨_, ⟨N, rfl⟩, hN⟩ := wellFounded_lt.has_min (Set.range fun n => (f n).fmeasure hfin.toFinset) ⟨_, 0, rfl⟩
  exact ⟨N, fun n hn => (hcase n).resolve_right fun h => hN _ ⟨n + 1, rfl⟩ (lt_of_lt_of_le h (hanti hn))⟩

/-- who takes steps: the threads of the master and those of the other nodes -/
inductive ClusterAgent (ι κ : Type) where
  | master (a : Agent ι)
  | slave (k : κ)

/-- a step that moves the agent forward -/
def ClusterStepBy (c : ClusterConfig ι κ ν) : ClusterAgent ι κ → Cluster ι κ ν → Cluster ι κ ν → Prop
  | .master (.thread i), s, s' => ClusterStep c s s' ∧ s.pool.pc i ≠ .waiting ∧ (s'.pool.pc i ≠ s.pool.pc i ∨ s'.phase i ≠ s.phase i)
  | .master .main, s, s' => ClusterStep c s s' ∧ s'.pool.master ≠ s.pool.master
  | .master .known, s, s' => ClusterStep c s s' ∧ s'.pool.async ≠ s.pool.async
  | .slave k, s, s' => ClusterStep c s s' ∧ s'.slave k ≠ s.slave k

/-- `t` differs from `s` only in threads of the master that sleep or wait for the mutex -/
def SameBut (s t : Cluster ι κ ν) : Prop :=
  t = { s with pool := t.pool } ∧ ∀ i, s.pool.pc i ≠ .lock → s.pool.pc i ≠ .waiting → t.pool.pc i = s.pool.pc i

theorem idle_pc {t t' : Cluster ι κ ν} (h : t.Idle t') {i : ι} (h1 : t.pool.pc i ≠ .lock) (h2 : t.pool.pc i ≠ .waiting) : t'.pool.pc i = t.pool.pc i := by
  obtain ⟨h | h, -⟩ := h
  · obtain ⟨j, hj, -, e⟩ := h
    rw [e]
    exact Function.update_of_ne (by rintro rfl; exact h1 hj) _ _
  · generalize t'.pool = p at h
    cases h with
    | wake j hj => exact Function.update_of_ne (by rintro rfl; exact h2 hj) _ _

theorem SameBut.idle {t t' : Cluster ι κ ν} (h : SameBut s t) (hi : t.Idle t') : SameBut s t' := by
  refine ⟨by rw [hi.2, h.1], fun i h1 h2 => ?_⟩
  have := h.2 i h1 h2
  rw [idle_pc hi (by rw [this]; exact h1) (by rw [this]; exact h2), this]

/-- a step outside the pool stays possible while threads of the master only go to sleep and wake up -/
theorem Outer.agent (H : ClusterInv c s) (h : Outer c s s') : ∃ a : ClusterAgent ι κ, (∀ i, a = .master (.thread i) → s.pool.pc i ≠ .lock ∧ s.pool.pc i ≠ .waiting) ∧
    ∀ t, SameBut s t → ∃ t', ClusterStepBy c a t t' := by
  obtain ⟨hst, hch⟩ := h
  have hthread : ∀ {i : ι}, ((∃ row, s.pool.pc i = .working row) ∨ s.pool.pc i = .stopped) →
      s.pool.pc i ≠ .lock ∧ s.pool.pc i ≠ .waiting := by
    rintro i (⟨row, e⟩ | e) <;> rw [e] <;> simp
  have one : ∀ (i : ι), ((∃ row, s.pool.pc i = .working row) ∨ s.pool.pc i = .stopped) → (∀ p : Pool ι, p.pc i = s.pool.pc i →
      ∃ t', ClusterStep c { s with pool := p } t' ∧ t'.phase i ≠ s.phase i) →
      ∃ a : ClusterAgent ι κ, (∀ i, a = .master (.thread i) → s.pool.pc i ≠ .lock ∧ s.pool.pc i ≠ .waiting) ∧ ∀ t, SameBut s t → ∃ t', ClusterStepBy c a t t' := by
    intro i hi hs
    obtain ⟨n1, n2⟩ := hthread hi
    refine ⟨.master (.thread i), ?_, fun t ht => ?_⟩
    · intro j hj
      cases hj
      exact ⟨n1, n2⟩
    · obtain ⟨t', h1, h2⟩ := hs t.pool (ht.2 i n1 n2)
      have e : { s with pool := t.pool } = t := ht.1.symm
      rw [e] at h1
      refine ⟨t', h1, by rw [ht.2 i n1 n2]; exact n2, .inr ?_⟩
      rw [show t.phase = s.phase by rw [ht.1]]
      exact h2
  have two : ∀ (k : κ), (∀ p : Pool ι, ∃ t', ClusterStep c { s with pool := p } t' ∧ t'.slave k ≠ s.slave k) →
      ∃ a : ClusterAgent ι κ, (∀ i, a = .master (.thread i) → s.pool.pc i ≠ .lock ∧ s.pool.pc i ≠ .waiting) ∧ ∀ t, SameBut s t → ∃ t', ClusterStepBy c a t t' := by
    intro k hs
    refine ⟨.slave k, (fun i hi => by cases hi), fun t ht => ?_⟩
    obtain ⟨t', h1, h2⟩ := hs t.pool
    have e : { s with pool := t.pool } = t := ht.1.symm
    rw [e] at h1
    refine ⟨t', h1, ?_⟩
    rw [show t.slave = s.slave by rw [ht.1]]
    exact h2
  cases hst with
  | pool p hp hk => rcases hch with h | h <;> exact absurd rfl h
  | toSlave i n row hi hph hrow =>
    refine one i (hrow.imp (fun h => ⟨row, h⟩) fun h => h.1) fun p hp => ⟨_, .toSlave _ i n row hi hph (by rw [hp]; exact hrow), ?_⟩
    simp [hph]
  | toSlaveDone i n hi hph hd =>
    refine one i (H.phase i (by rw [hph]; simp)).2 fun p hp => ⟨_, .toSlaveDone _ i n hi hph hd, ?_⟩
    simp [hph]
  | fromMaster k i row rest hk hr =>
    refine two k fun p => ⟨_, .fromMaster _ k i row rest hk hr, ?_⟩
    simp only [Function.update_self, hk]
    split_ifs <;> simp
  | rotate k row m hk hm => exact two k fun p => ⟨_, .rotate _ k row m hk hm, by simp [hk]⟩
  | toMaster k row m hk hm => exact two k fun p => ⟨_, .toMaster _ k row m hk hm, by simp [hk]⟩
  | toMasterDone k hk hd => exact two k fun p => ⟨_, .toMasterDone _ k hk hd, by simp [hk]⟩
  | fromSlave i n row row' k m rest hi hw hd hr =>
    refine one i (.inl ⟨row, hw⟩) fun p hp => ⟨_, .fromSlave _ i n row row' k m rest hi (by rw [hp]; exact hw) hd hr, ?_⟩
    simp [hd]

/-- an infinite run is unfair: some thread could take a step forever and never does -/
theorem cluster_unfair {G : Row → Prop} (hG : c.pool.Safe G) (hfin : {r | G r}.Finite) (hlocal : ∃ i, c.node i = none) (htotal : ∀ r, G r → ∃ m, c.Rot r m)
    (hne : ∀ r m, G r → c.Rot r m → m ≠ []) (hK : c.Enough) (f : Nat → Cluster ι κ ν) (h0 : f 0 = Cluster.init c)
    (hf : ∀ n, ClusterStep c (f n) (f (n + 1)) ∨ ClusterSpurious (f n) (f (n + 1))) :
    ∃ a N, (∀ n, N ≤ n → ∃ s', ClusterStepBy c a (f n) s') ∧ ∀ n, N ≤ n → ¬ ClusterStepBy c a (f n) (f (n + 1)) := by
  have hreach : ∀ n, ClusterReach c (f n) := by
    intro n
    induction n with
    | zero => rw [h0]; exact .refl
    | succ n ih => exact ih.tail (hf n)
  obtain ⟨N, hN⟩ := cluster_eventually_idle hG hfin f hreach hf
  have hnf : ¬ (f N).MasterFinished c := by
    rintro ⟨⟨_, _, h⟩, -⟩
    rcases (hN N le_rfl).1 with ⟨i, hi, _⟩ | hsp
    · rw [h i] at hi; cases hi
    · generalize (f (N + 1)).pool = s' at hsp
      cases hsp with
      | wake i hi => rw [h i] at hi; cases hi
  have all : ∀ P : Cluster ι κ ν → Prop, P (f N) → (∀ t t' : Cluster ι κ ν, P t → t.Idle t' → P t') → ∀ n, N ≤ n → P (f n) := by
    intro P p0 p1 n hn
    induction n, hn using Nat.le_induction with
    | base => exact p0
    | succ n hn ih => exact p1 _ _ ih (hN n hn)
  have nomove : ∀ n, N ≤ n → ∀ a : ClusterAgent ι κ, (∀ i, a = .master (.thread i) → (f n).pool.pc i = .lock → (f n).pool.iterators ≠ []) →
      ¬ ClusterStepBy c a (f n) (f (n + 1)) := by
    intro n hn a ha hs
    have hi := hN n hn
    have e1 : (f (n + 1)).phase = (f n).phase := by rw [hi.2]
    have e2 : (f (n + 1)).slave = (f n).slave := by rw [hi.2]
    have e3 : (f (n + 1)).pool.master = (f n).pool.master ∧ (f (n + 1)).pool.async = (f n).pool.async := by
      rcases hi.1 with ⟨i, -, -, e⟩ | h
      · rw [e]; exact ⟨rfl, rfl⟩
      · generalize (f (n + 1)).pool = p at h
        cases h with
        | wake => exact ⟨rfl, rfl⟩
    cases a with
    | slave k => exact hs.2 (by rw [e2])
    | master a =>
      cases a with
      | main => exact hs.2 e3.1
      | known => exact hs.2 e3.2
      | thread i =>
        obtain ⟨-, h2, h3 | h3⟩ := hs
        swap
        · exact h3 (by rw [e1])
        by_cases hl : (f n).pool.pc i = .lock
        · have hne := ha i rfl hl
          rcases hi.1 with ⟨j, -, hj, e⟩ | h
          · exact hne hj
          · generalize (f (n + 1)).pool = p at h h3
            cases h with
            | wake j hj =>
              refine h3 (Function.update_of_ne ?_ _ _)
              rintro rfl
              exact h2 hj
        · exact h3 (idle_pc hi hl h2)
  have H := clusterInv (hreach N)
  rcases cluster_ready hG htotal hne hK H hnf with ⟨s', ho⟩ | ⟨hidle, hpf⟩
  · obtain ⟨a, ha, hen⟩ := ho.agent H
    have hsame := all (SameBut (f N)) ⟨rfl, fun _ _ _ => rfl⟩ fun t t' h1 h2 => h1.idle h2
    refine ⟨a, N, fun n hn => hen _ (hsame n hn), fun n hn => nomove n hn a fun i hi hl => ?_⟩
    rw [(hsame n hn).2 i (ha i hi).1 (ha i hi).2] at hl
    exact absurd hl (ha i hi).1
  · obtain ⟨a, π, h1, h2, h3, h4⟩ := H.follows
    obtain ⟨b, hb⟩ := exists_ready hG (by obtain ⟨i, hi⟩ := hlocal; exact ⟨i, fun h => h hi⟩) h1 fun h => hpf (h3.finished.1 h)
    have hb' : ∃ b', Ready (f N).pool b' := by
      cases b with
      | main => exact ⟨.main, fun h => hb (by rw [h3.master]; exact h)⟩
      | known => exact ⟨.known, by rw [← h3.master]; exact hb.1, by rw [← h3.async]; exact hb.2⟩
      | thread i =>
        refine ⟨.thread (π.symm i), by rw [← h3.master]; exact hb.1, ?_⟩
        rcases hb.2 with ⟨b1, b2, b3⟩ | ⟨b1, b2⟩
        · have tr : ∀ {v : PC}, v.erase = v → (∀ x : PC, x.erase = v ↔ x = v) → a.pc i ≠ v → (f N).pool.pc (π.symm i) ≠ v := by
            intro v hv hx hn e
            have := h3.pc.of_eq e
            rw [Equiv.apply_symm_apply, hv] at this
            exact hn ((hx _).1 this)
          exact .inl ⟨tr rfl (fun _ => PC.erase_lock) b1, tr rfl (fun _ => PC.erase_waiting) b2, tr rfl (fun _ => PC.erase_stopped) b3⟩
        · refine .inr ⟨?_, by rw [← h3.iterators]; exact b2⟩
          refine PC.erase_lock.1 ?_
          rw [← h3.pc.erase, Equiv.apply_symm_apply, b1]
          rfl
    obtain ⟨b', hb'⟩ := hb'
    have hready := all (fun t => Ready t.pool b') hb' fun t t' r1 r2 => r1.idle r2.1
    have hno := all (fun t => ∀ i row, c.node i ≠ none → t.pool.pc i ≠ .working row) hidle (by
      intro t t' r1 r2 i row hi hw
      by_cases hl : t.pool.pc i = .lock
      · rcases r2.1 with ⟨j, hj, -, e⟩ | h
        · rw [e] at hw
          by_cases hij : i = j
          · subst hij; simp at hw
          · simp only [Function.update_of_ne hij, hl] at hw; cases hw
        · generalize t'.pool = p at h hw
          cases h with
          | wake j hj =>
            by_cases hij : i = j
            · subst hij; rw [hj] at hl; cases hl
            · simp only [Function.update_of_ne hij, hl] at hw; cases hw
      · by_cases hwt : t.pool.pc i = .waiting
        · rcases r2.1 with ⟨j, hj, -, e⟩ | h
          · rw [e] at hw
            by_cases hij : i = j
            · subst hij; simp at hw
            · simp only [Function.update_of_ne hij, hwt] at hw; cases hw
          · generalize t'.pool = p at h hw
            cases h with
            | wake j hj =>
              by_cases hij : i = j
              · subst hij; simp at hw
              · simp only [Function.update_of_ne hij, hwt] at hw; cases hw
        · rw [idle_pc r2 hl hwt] at hw
          exact r1 i row hi hw)
    refine ⟨.master b', N, fun n hn => ?_, fun n hn => nomove n hn _ fun i hi hl => ?_⟩
    · obtain ⟨p', hp'⟩ := (hready n hn).enabled_of (c := c.pool) (by
        intro i row _ hw
        obtain ⟨a2, π2, g1, g2, g3, -⟩ := (clusterInv (hreach n)).follows
        have hl : c.node i = none := by
          by_contra hl
          exact hno n hn i row hl hw
        exact htotal row ((invG G hG g1).working _ row (g3.pc.exact i row (.inl hl) hw)))
      have keep : ∀ i row, c.node i ≠ none → (f n).pool.pc i = .working row → p'.pc i = .working row := fun i row hi hw => absurd hw (hno n hn i row hi)
      cases b' with
      | main => exact ⟨_, .pool _ p' hp'.1 keep, hp'.2⟩
      | known => exact ⟨_, .pool _ p' hp'.1 keep, hp'.2⟩
      | thread i => exact ⟨_, .pool _ p' hp'.1 keep, hp'.2.1, .inl hp'.2.2⟩
    · cases hi
      have := (hready n hn).2
      rcases this with h | h
      · exact absurd hl h.1
      · exact h.2

end

end Panda
