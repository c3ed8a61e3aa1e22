import Verif.Proofs.ClusterSim
import Mathlib.Algebra.BigOperators.Group.List.Basic
import Mathlib.Algebra.Order.BigOperators.Group.List

/-! # Invariants of a distributed run

A distributed run is, up to exchanging request threads of the same node, a run of the pool in which the request threads
compute the results themselves. -/

namespace Panda

open Relation

/-- weight of the row that a thread has been handed -/
def PC.val (f : Row → Nat) : PC → Nat
  | .working row => f row
  | .stopped => f []
  | _ => 0

def SlavePC.val (f : Row → Nat) : SlavePC → Nat
  | .working row => f row
  | .posting row _ => f row
  | .stopped => f []
  | _ => 0

section
set_option linter.unusedSectionVars false
variable {ι κ ν : Type} [DecidableEq ι] [DecidableEq κ] [DecidableEq ν]

/-- a sum in which one term is changed -/
theorem sum_change {α : Type} [DecidableEq α] [Fintype α] {x y : α → Nat} (i : α) (h : ∀ j, j ≠ i → y j = x j) : (∑ j, y j) + x i = (∑ j, x j) + y i := by
  rw [← Finset.sum_erase_add _ _ (Finset.mem_univ i), ← Finset.sum_erase_add _ x (Finset.mem_univ i),
    Finset.sum_congr (g := x) rfl fun j hj => h j (Finset.ne_of_mem_erase hj)]
  exact Nat.add_right_comm _ _ _

theorem stopped_progress {c : PoolConfig ι} {p p' : Pool ι} (h : Progress c p p') {i : ι} (hi : p.pc i = .stopped) : p'.pc i = .stopped := by
  have upd : ∀ (x : ι → PC) (j : ι) (v : PC), x i = .stopped → x j ≠ .stopped → Function.update x j v i = .stopped := by
    intro x j v h1 h2
    rw [Function.update_of_ne (by rintro rfl; exact h2 h1)]; exact h1
  cases h with
  | put _ j row all r rest hj hp =>
    rw [putRow_pc_of_ne hp.facts]
    · exact upd _ _ _ hi (by rw [hj]; simp)
    · show Function.update p.pc j _ i ≠ _
      rw [upd _ _ _ hi (by rw [hj]; simp)]; simp
  | masterPut _ r rest hm hp => rw [putRow_pc_of_ne hp.facts (by simp [hi])]; exact hi
  | asyncPut _ r rest hm ha hp => rw [putRow_pc_of_ne hp.facts (by simp [hi])]; exact hi
  | masterDone => exact hi
  | pushEmpty j hj =>
    refine upd _ _ _ ?_ ?_ <;> simp [Panda.notifyAll, hi, hj]
  | start j hj => exact upd _ _ _ hi (by rw [hj]; simp)
  | checkEmpty j hj => exact upd _ _ _ hi (by rw [hj]; simp)
  | checkBusy j hj => exact upd _ _ _ hi (by rw [hj]; simp)
  | insertEmpty j hj => exact upd _ _ _ hi (by rw [hj]; simp)
  | wait j hj => exact upd _ _ _ hi (by rw [hj]; simp)
  | take j _ _ hj => exact upd _ _ _ hi (by rw [hj]; simp)
  | stop j _ hj => exact upd _ _ _ hi (by rw [hj]; simp)
  | rotate j _ _ hj => exact upd _ _ _ hi (by rw [hj]; simp)
  | done j _ _ hj => exact upd _ _ _ hi (by rw [hj]; simp)

theorem stopped_spurious {p p' : Pool ι} (h : Spurious p p') {i : ι} (hi : p.pc i = .stopped) : p'.pc i = .stopped := by
  obtain ⟨j, hj⟩ := h
  show Function.update p.pc j _ i = _
  rw [Function.update_of_ne (by rintro rfl; rw [hi] at hj; cases hj)]; exact hi

variable [Fintype ι] [Fintype κ] {c : ClusterConfig ι κ ν} {s s' : Cluster ι κ ν}

/-- the rows that request threads of the node have sent and not yet got results for (`[]` for those that have stopped) -/
def waitSum (c : ClusterConfig ι κ ν) (f : Row → Nat) (phase : ι → Phase) (a : Pool ι) (π : Equiv.Perm ι) (n : ν) : Nat :=
  ∑ i, if c.node i = some n ∧ phase i ≠ .fresh then (a.pc (π i)).val f else 0

/-- the rows under way to, at, or back from the node -/
def jobSum (c : ClusterConfig ι κ ν) (f : Row → Nat) (s : Cluster ι κ ν) (n : ν) : Nat :=
  ((s.rows n).map fun x => f x.2).sum + (∑ k, if c.home k = n then (s.slave k).val f else 0) + ((s.results n).map fun x => f x.2.1).sum

/-- the thread works on the row that it has been handed -/
def Exact (c : ClusterConfig ι κ ν) (phase : ι → Phase) (i : ι) : Prop := c.node i = none ∨ phase i = .fresh

/-- the pool in which the request threads compute the results themselves -/
def Follows (c : ClusterConfig ι κ ν) (s : Cluster ι κ ν) : Prop :=
  ∃ (a : Pool ι) (π : Equiv.Perm ι), PoolReach c.pool a ∧ (∀ i, c.node (π i) = c.node i) ∧ Similar π (Exact c s.phase) s.pool a ∧
    ∀ f n, waitSum c f s.phase a π n = jobSum c f s n

structure ClusterInv (c : ClusterConfig ι κ ν) (s : Cluster ι κ ν) : Prop where
  follows : Follows c s
  phase : ∀ i, s.phase i ≠ .fresh → c.node i ≠ none ∧ ((∃ row, s.pool.pc i = .working row) ∨ s.pool.pc i = .stopped)
  working : ∀ k row, s.slave k = .working row → row ≠ []
  posting : ∀ k row m, s.slave k = .posting row m → row ≠ [] ∧ c.Rot row m
  results : ∀ n x, x ∈ s.results n → x.2.1 ≠ [] ∧ c.Rot x.2.1 x.2.2
  posted : c.eager = false → ∀ n x, x ∈ s.rows n → c.node x.1 = some n ∧ s.phase x.1 = .posted ∧ (s.pool.pc x.1 = .stopped ∨ x.2 ≠ [])

theorem pool_working_nonempty {c : PoolConfig ι} {p : Pool ι} (h : PoolReach c p) {i : ι} {row : Row} (hi : p.pc i = .working row) : row ≠ [] := by
  refine PoolReach.induct (P := fun p => ∀ i row, p.pc i = .working row → row ≠ []) ?_ ?_ h i row hi
  · intro i row h; simp [Pool.init] at h
  · intro s s' _ H hst
    have upd : ∀ (x : ι → PC) (j : ι) (v : PC), (∀ i row, x i = .working row → row ≠ []) → (∀ row, v = .working row → row ≠ []) →
        ∀ i row, Function.update x j v i = .working row → row ≠ [] := by
      intro x j v h1 h2 i row h
      rcases update_cases h with ⟨_, e⟩ | ⟨_, e⟩
      · exact h2 row e
      · exact h1 i row e
    have putK : ∀ {r : Row} {t : Pool ι}, PutRow r t s' → (∀ i row, t.pc i = .working row → row ≠ []) → ∀ i row, s'.pc i = .working row → row ≠ [] := by
      intro r t hp h1 i row h
      rcases hp.facts.pc i with e | ⟨_, e⟩
      · exact h1 i row (e ▸ h)
      · rw [e] at h; cases h
    rcases hst with hst | ⟨j, hj⟩
    · cases hst with
      | put _ j row all r rest hj hp => exact putK hp (upd _ _ _ H (by simp))
      | masterPut _ r rest hm hp => exact putK hp H
      | asyncPut _ r rest hm ha hp => exact putK hp H
      | masterDone => exact H
      | pushEmpty j hj =>
        refine upd _ _ _ (fun i row h => ?_) (by simp)
        rcases notifyAll_cases (pc := s.pc) (j := i) with e | ⟨_, e⟩
        · exact H i row (e ▸ h)
        · rw [e] at h; cases h
      | take j row rest hj hit hr => exact upd _ _ _ H (by rintro r ⟨rfl⟩; exact hr)
      | start j => exact upd _ _ _ H (by simp)
      | checkEmpty j => exact upd _ _ _ H (by simp)
      | checkBusy j => exact upd _ _ _ H (by simp)
      | insertEmpty j => exact upd _ _ _ H (by simp)
      | wait j => exact upd _ _ _ H (by simp)
      | stop j => exact upd _ _ _ H (by simp)
      | rotate j => exact upd _ _ _ H (by simp)
      | done j => exact upd _ _ _ H (by simp)
    · exact upd _ _ _ H (by simp)

/-- a step of the pool -/
theorem ClusterInv.pool_step {p : Pool ι} (H : ClusterInv c s) (hk : Keep c.pool.remote s.pool p) (hstop : ∀ i, s.pool.pc i = .stopped → p.pc i = .stopped)
    (hstep : ∀ a π, PoolReach c.pool a → (∀ i, c.node (π i) = c.node i) → Similar π (Exact c s.phase) s.pool a →
      ∃ a', PoolReach c.pool a' ∧ Similar π (Exact c s.phase) p a' ∧ Keep c.pool.remote a a') : ClusterInv c { s with pool := p } := by
  obtain ⟨a, π, h1, h2, h3, h4⟩ := H.follows
  obtain ⟨a', k1, k2, k3⟩ := hstep a π h1 h2 h3
  refine ⟨⟨a', π, k1, h2, k2, fun f n => ?_⟩, fun i hi => ?_, H.working, H.posting, H.results, fun he n x hx => ?_⟩
  · rw [show jobSum c f { s with pool := p } n = jobSum c f s n from rfl, ← h4 f n]
    unfold waitSum
    refine Finset.sum_congr rfl fun i _ => ?_
    by_cases hi : c.node i = some n ∧ s.phase i ≠ .fresh
    · rw [if_pos hi, if_pos hi]
      congr 1
      rcases (H.phase i hi.2).2 with ⟨row, e⟩ | e
      · obtain ⟨r, e'⟩ := PC.erase_working.1 (h3.pc.of_eq e)
        rw [e']
        exact k3 _ _ (by show c.node (π i) ≠ none; rw [h2, hi.1]; simp) e'
      · rw [PC.erase_stopped.1 (h3.pc.of_eq e), PC.erase_stopped.1 (k2.pc.of_eq (hstop i e))]
    · rw [if_neg hi, if_neg hi]
  · obtain ⟨j1, j2⟩ := H.phase i hi
    refine ⟨j1, ?_⟩
    rcases j2 with ⟨row, e⟩ | e
    · exact .inl ⟨row, hk i row j1 e⟩
    · exact .inr (hstop i e)
  · obtain ⟨j0, j1, j2⟩ := H.posted he n x hx
    exact ⟨j0, j1, j2.imp (hstop _) id⟩

theorem waitSum_phase {f : Row → Nat} {a : Pool ι} {π : Equiv.Perm ι} {x : ι → Phase} {i : ι} {v : Phase} {n : ν} (h : v ≠ .fresh ↔ x i ≠ .fresh) :
    waitSum c f (Function.update x i v) a π n = waitSum c f x a π n := by
  unfold waitSum
  refine Finset.sum_congr rfl fun j _ => ?_
  by_cases hj : j = i
  · subst hj; simp only [Function.update_self, h]
  · simp only [Function.update_of_ne hj]

theorem waitSum_start {f : Row → Nat} {a : Pool ι} {π : Equiv.Perm ι} {x : ι → Phase} {i : ι} {v : Phase} {n : ν} (h : x i = .fresh) (hv : v ≠ .fresh) :
    waitSum c f (Function.update x i v) a π n = waitSum c f x a π n + if c.node i = some n then (a.pc (π i)).val f else 0 := by
  have key := sum_change (x := fun j => if c.node j = some n ∧ x j ≠ .fresh then (a.pc (π j)).val f else 0)
    (y := fun j => if c.node j = some n ∧ Function.update x i v j ≠ .fresh then (a.pc (π j)).val f else 0) i
    (fun j hj => by rw [Function.update_of_ne hj])
  unfold waitSum
  simpa [h, hv] using key

theorem slaveSum_update (f : Row → Nat) (x : κ → SlavePC) (k : κ) (v : SlavePC) (n : ν) :
    (∑ j, if c.home j = n then (Function.update x k v j).val f else 0) + (if c.home k = n then (x k).val f else 0) =
      (∑ j, if c.home j = n then (x j).val f else 0) + (if c.home k = n then v.val f else 0) := by
  have key := sum_change (x := fun j => if c.home j = n then (x j).val f else 0)
    (y := fun j => if c.home j = n then (Function.update x k v j).val f else 0) k (fun j hj => by rw [Function.update_of_ne hj])
  simpa using key

theorem slave_update {x : κ → SlavePC} {k k' : κ} {v w : SlavePC} (h : Function.update x k v k' = w) : (k' = k ∧ v = w) ∨ (k' ≠ k ∧ x k' = w) := by
  by_cases hk : k' = k
  · subst hk; simp at h; exact .inl ⟨rfl, h⟩
  · rw [Function.update_of_ne hk] at h; exact .inr ⟨hk, h⟩

theorem clusterInv (h : ClusterReach c s) : ClusterInv c s := by
  induction h with
  | refl =>
    refine ⟨⟨Pool.init c.pool, Equiv.refl ι, .refl, fun i => rfl, ⟨rfl, rfl, rfl, rfl, rfl, rfl, rfl, rfl, fun i => rfl, fun i r _ h => h⟩, fun f n => ?_⟩,
      by simp [Cluster.init], by simp [Cluster.init], by simp [Cluster.init], by simp [Cluster.init], by simp [Cluster.init]⟩
    simp [waitSum, jobSum, Cluster.init, SlavePC.val]
  | @tail s s' hreach hst H =>
    rcases hst with hst | ⟨p, hp, rfl⟩
    swap
    · refine H.pool_step (fun i row _ hi => ?_) (fun i hi => stopped_spurious hp hi) fun a π h1 h2 h3 => ?_
      · obtain ⟨j, hj⟩ := hp
        show Function.update s.pool.pc j _ i = _
        rw [Function.update_of_ne (by rintro rfl; rw [hi] at hj; cases hj)]; exact hi
      · obtain ⟨a', k1, k2, k3⟩ := h3.spurious (c := c.pool) hp
        exact ⟨a', h1.tail (.inr k1), k2, k3⟩
    cases hst with
    | pool p hp hk =>
      refine H.pool_step hk (fun i hi => stopped_progress hp hi) fun a π h1 h2 h3 => ?_
      obtain ⟨a', k1, k2, k3⟩ := h3.step (c := c.pool) (fun i => by show _ ≠ none ↔ _ ≠ none; rw [h2])
        (fun i hi => .inl (not_not.1 hi)) hp hk
      exact ⟨a', h1.tail (.inl k1), k2, k3⟩
    | toSlave i n row hi hph hrow =>
      obtain ⟨a, π, h1, h2, h3, h4⟩ := H.follows
      have hmono : ∀ j, Exact c (Function.update s.phase i .posted) j → Exact c s.phase j := by
        rintro j (h | h)
        · exact .inl h
        · by_cases hj : j = i
          · subst hj; simp at h
          · rw [Function.update_of_ne hj] at h; exact .inr h
      refine ⟨⟨a, π, h1, h2, ?_, fun f m => ?_⟩, fun j hj => ?_, H.working, H.posting, H.results, fun he m x hx => ?_⟩
      · exact ⟨h3.rows, h3.iterators, h3.workers, h3.master, h3.async, h3.printed, h3.submitted, h3.handed, h3.pc.erase,
          fun j r hj => h3.pc.exact j r (hmono j hj)⟩
      · have hval : (a.pc (π i)).val f = f row := by
          rcases hrow with e | ⟨e, rfl⟩
          · rw [h3.pc.exact i row (.inr hph) e]; rfl
          · rw [PC.erase_stopped.1 (h3.pc.of_eq e)]; rfl
        show waitSum c f (Function.update s.phase i .posted) a π m = _
        rw [waitSum_start hph (by simp), h4, hval, hi]
        unfold jobSum
        by_cases hm : m = n
        · subst hm
          simp only [Function.update_self, List.map_append, List.sum_append, List.map_cons, List.map_nil, List.sum_cons, List.sum_nil, if_true]
          omega
        · simp only [Function.update_of_ne hm, if_neg (show ¬ some n = some m from fun h => hm (Option.some.inj h).symm), Nat.add_zero]
      · by_cases hji : j = i
        · subst hji
          refine ⟨by rw [hi]; simp, ?_⟩
          rcases hrow with e | ⟨e, _⟩
          · exact .inl ⟨row, e⟩
          · exact .inr e
        · simp only [Function.update_of_ne hji] at hj; exact H.phase j hj
      · have old : x ∈ s.rows m → c.node x.1 = some m ∧ Function.update s.phase i .posted x.1 = .posted ∧ (s.pool.pc x.1 = .stopped ∨ x.2 ≠ []) := by
          intro hx
          obtain ⟨j0, j1, j2⟩ := H.posted he m x hx
          refine ⟨j0, ?_, j2⟩
          by_cases hji : x.1 = i
          · rw [hji]; simp
          · rw [Function.update_of_ne hji]; exact j1
        by_cases hm : m = n
        · subst hm
          simp only [Function.update_self, List.mem_append, List.mem_singleton] at hx
          rcases hx with hx | rfl
          · exact old hx
          · refine ⟨hi, by simp, ?_⟩
            rcases hrow with e | ⟨e, rfl⟩
            · exact .inr (by
                have e' := h3.pc.exact i row (.inr hph) e
                exact pool_working_nonempty h1 e')
            · exact .inl e
        · simp only [Function.update_of_ne hm] at hx
          exact old hx
    | toSlaveDone i n hi hph hd =>
      obtain ⟨a, π, h1, h2, h3, h4⟩ := H.follows
      refine ⟨⟨a, π, h1, h2, ?_, fun f m => ?_⟩, fun j hj => ?_, H.working, H.posting, H.results, fun he m x hx => ?_⟩
      · refine ⟨h3.rows, h3.iterators, h3.workers, h3.master, h3.async, h3.printed, h3.submitted, h3.handed, h3.pc.erase,
          fun j r hj => h3.pc.exact j r (hj.imp id fun h => ?_)⟩
        by_cases hji : j = i
        · subst hji; simp at h
        · simpa only [Function.update_of_ne hji] using h
      · show waitSum c f (Function.update s.phase i .done) a π m = jobSum c f s m
        rw [waitSum_phase (by rw [hph]; simp), h4]
      · by_cases hji : j = i
        · subst hji; exact H.phase j (by rw [hph]; simp)
        · simp only [Function.update_of_ne hji] at hj; exact H.phase j hj
      · obtain ⟨j0, j1, j2⟩ := H.posted he m x hx
        refine ⟨j0, ?_, j2⟩
        have hne : x.1 ≠ i := by
          rintro e
          rw [e, hi] at j0
          cases j0
          rcases hd with hd | hd
          · rw [he] at hd; cases hd
          · exact hd x hx e
        simp only [Function.update_of_ne hne]; exact j1
    | fromMaster k i row rest hk hr =>
      obtain ⟨a, π, h1, h2, h3, h4⟩ := H.follows
      refine ⟨⟨a, π, h1, h2, h3, fun f m => ?_⟩, H.phase, fun k' row' h => ?_, fun k' row' m h => ?_, H.results, fun he m x hx => ?_⟩
      · rw [h4]
        have key := slaveSum_update (c := c) f s.slave k (if row = [] then .stopped else .working row) m
        have hv : (if row = [] then SlavePC.stopped else .working row).val f = f row := by split_ifs with h <;> simp [SlavePC.val, h]
        rw [hv, hk] at key
        unfold jobSum
        by_cases hm : c.home k = m
        · subst hm
          rw [hr]
          simp only [Function.update_self, List.map_cons, List.sum_cons, if_true, SlavePC.val] at key ⊢
          omega
        · simp only [Function.update_of_ne (fun h => hm h.symm : m ≠ c.home k), if_neg hm] at key ⊢
          omega
      · rcases slave_update h with ⟨-, h⟩ | ⟨-, h⟩
        · split_ifs at h with h0
          cases h; exact h0
        · exact H.working k' row' h
      · rcases slave_update h with ⟨-, h⟩ | ⟨-, h⟩
        · split_ifs at h
        · exact H.posting k' row' m h
      · refine H.posted he m x ?_
        by_cases hm : m = c.home k
        · subst hm; simp only [Function.update_self] at hx; rw [hr]; exact List.mem_cons_of_mem _ hx
        · simp only [Function.update_of_ne hm] at hx; exact hx
    | rotate k row m hk hm =>
      obtain ⟨a, π, h1, h2, h3, h4⟩ := H.follows
      refine ⟨⟨a, π, h1, h2, h3, fun f n => ?_⟩, H.phase, fun k' row' h => ?_, fun k' row' m' h => ?_, H.results, H.posted⟩
      · rw [h4]
        have key := slaveSum_update (c := c) f s.slave k (.posting row m) n
        rw [hk] at key
        unfold jobSum
        simp only [SlavePC.val] at key ⊢
        omega
      · rcases slave_update h with ⟨-, h⟩ | ⟨-, h⟩
        · cases h
        · exact H.working k' row' h
      · rcases slave_update h with ⟨-, h⟩ | ⟨-, h⟩
        · cases h; exact ⟨H.working k row hk, hm⟩
        · exact H.posting k' row' m' h
    | toMaster k row m hk hm =>
      obtain ⟨a, π, h1, h2, h3, h4⟩ := H.follows
      refine ⟨⟨a, π, h1, h2, h3, fun f n => ?_⟩, H.phase, fun k' row' h => ?_, fun k' row' m' h => ?_, fun n x hx => ?_, H.posted⟩
      · rw [h4]
        have key := slaveSum_update (c := c) f s.slave k .sending n
        rw [hk] at key
        unfold jobSum
        by_cases hn : c.home k = n
        · subst hn
          simp only [Function.update_self, List.map_append, List.sum_append, List.map_cons, List.map_nil, List.sum_cons, List.sum_nil, if_true, SlavePC.val] at key ⊢
          omega
        · simp only [Function.update_of_ne (fun h => hn h.symm : n ≠ c.home k), if_neg hn] at key ⊢
          omega
      · rcases slave_update h with ⟨-, h⟩ | ⟨-, h⟩
        · cases h
        · exact H.working k' row' h
      · rcases slave_update h with ⟨-, h⟩ | ⟨-, h⟩
        · cases h
        · exact H.posting k' row' m' h
      · by_cases hn : n = c.home k
        · subst hn
          simp only [Function.update_self, List.mem_append, List.mem_singleton] at hx
          rcases hx with hx | rfl
          · exact H.results _ x hx
          · exact H.posting k row m hk
        · simp only [Function.update_of_ne hn] at hx; exact H.results n x hx
    | toMasterDone k hk hd =>
      obtain ⟨a, π, h1, h2, h3, h4⟩ := H.follows
      refine ⟨⟨a, π, h1, h2, h3, fun f n => ?_⟩, H.phase, fun k' row' h => ?_, fun k' row' m' h => ?_, H.results, H.posted⟩
      · rw [h4]
        have key := slaveSum_update (c := c) f s.slave k .idle n
        rw [hk] at key
        unfold jobSum
        simp only [SlavePC.val] at key ⊢
        omega
      · rcases slave_update h with ⟨-, h⟩ | ⟨-, h⟩
        · cases h
        · exact H.working k' row' h
      · rcases slave_update h with ⟨-, h⟩ | ⟨-, h⟩
        · cases h
        · exact H.posting k' row' m' h
    | fromSlave i n row row' k m rest hi hw hd hr =>
      obtain ⟨a, π, h1, h2, h3, h4⟩ := H.follows
      obtain ⟨hne, hrot⟩ := H.results n (k, row', m) (by rw [hr]; simp)
      simp only at hne hrot
      -- the thread of the pool that has this row
      obtain ⟨o, ⟨ho1, ho2⟩, ho3⟩ : ∃ o, (c.node o = some n ∧ s.phase o ≠ .fresh) ∧ a.pc (π o) = .working row' := by
        by_contra hno
        push Not at hno
        have h5 := h4 (fun r => if r = row' then 1 else 0) n
        have : waitSum c (fun r => if r = row' then 1 else 0) s.phase a π n = 0 := by
          unfold waitSum
          refine Finset.sum_eq_zero fun j _ => ?_
          split_ifs with hj
          · have := hno j hj
            cases e : a.pc (π j) with
            | working r =>
              rw [e] at this
              simp only [PC.val]
              rw [if_neg (by rintro rfl; exact this rfl)]
            | stopped => simp only [PC.val]; rw [if_neg hne.symm]
            | _ => rfl
          · rfl
        rw [this] at h5
        unfold jobSum at h5
        rw [hr] at h5
        simp only [List.map_cons, List.sum_cons, if_true] at h5
        omega
      have hio : c.node i = c.node o := by rw [hi, ho1]
      have hswap : ∀ j, c.node (Equiv.swap i o j) = c.node j := by
        intro j
        rw [Equiv.swap_apply_def]
        split_ifs with e1 e2
        · rw [e1, hio]
        · rw [e2, hio]
        · rfl
      have hwo : ∃ r, s.pool.pc o = .working r := PC.erase_working.1 (by rw [← h3.pc.erase, ho3]; rfl)
      have hcond : ∀ j, s.phase (Equiv.swap i o j) ≠ .fresh ↔ s.phase j ≠ .fresh := by
        intro j
        rw [Equiv.swap_apply_def]
        split_ifs with e1 e2
        · rw [e1, hd]; simp [ho2]
        · rw [e2, hd]; simp [ho2]
        · rfl
      have hso : ∀ j, j ≠ i → Equiv.swap i o j ≠ o := fun j hj e => hj ((Equiv.swap i o).injective (e.trans (Equiv.swap_apply_left i o).symm))
      have pi' : ∀ j, (Equiv.swap i o).trans π j = π (Equiv.swap i o j) := fun j => rfl
      refine ⟨⟨{ a with pc := Function.update a.pc (π o) (.putting row' m m) }, (Equiv.swap i o).trans π, h1.tail (.inl (.rotate a (π o) row' m ho3 hrot)),
        fun j => by rw [pi', h2, hswap], ?_, fun f l => ?_⟩, fun j hj => ?_, H.working, H.posting, fun l x hx => ?_, fun he l x hx => ?_⟩
      · refine ⟨h3.rows, h3.iterators, h3.workers, h3.master, h3.async, h3.printed, h3.submitted, h3.handed, fun j => ?_, fun j r hj hr' => ?_⟩
        · rw [pi']
          by_cases hji : j = i
          · subst hji; rw [Equiv.swap_apply_left]; simp [PC.erase]
          · have := hso j hji
            simp only [Function.update_of_ne hji]
            rw [Function.update_of_ne (by simpa using this), h3.pc.erase]
            by_cases hjo : j = o
            · subst hjo
              obtain ⟨r, e⟩ := hwo
              rw [Equiv.swap_apply_right, hw, e]; rfl
            · rw [Equiv.swap_apply_of_ne_of_ne hji hjo]
        · by_cases hji : j = i
          · subst hji; simp at hr'
          · simp only [Function.update_of_ne hji] at hr'
            have hjo : j ≠ o := by
              rintro rfl
              rcases hj with hj | hj
              · rw [ho1] at hj; cases hj
              · simp only [Function.update_of_ne hji] at hj; exact ho2 hj
            rw [pi', Equiv.swap_apply_of_ne_of_ne hji hjo]
            show Function.update a.pc (π o) _ (π j) = _
            rw [Function.update_of_ne (by simpa using hjo)]
            refine h3.pc.exact j r (hj.imp id fun h => ?_) hr'
            simpa only [Function.update_of_ne hji] using h
      · have e1 : waitSum c f s.phase a π l = ∑ j, if c.node j = some l ∧ s.phase j ≠ .fresh then (a.pc (π (Equiv.swap i o j))).val f else 0 := by
          unfold waitSum
          rw [← Equiv.sum_comp (Equiv.swap i o)]
          refine Finset.sum_congr rfl fun j _ => ?_
          rw [hswap]; simp only [hcond]
        have key := sum_change (x := fun j => if c.node j = some l ∧ s.phase j ≠ .fresh then (a.pc (π (Equiv.swap i o j))).val f else 0)
          (y := fun j => if c.node j = some l ∧ Function.update s.phase i .fresh j ≠ .fresh then
            (Function.update a.pc (π o) (.putting row' m m) (π (Equiv.swap i o j))).val f else 0) i (fun j hj => by
              have := hso j hj
              rw [Function.update_of_ne hj, Function.update_of_ne (by simpa using this)])
        rw [← e1, h4] at key
        have hx : (fun j => if c.node j = some l ∧ s.phase j ≠ .fresh then (a.pc (π (Equiv.swap i o j))).val f else 0) i = if l = n then f row' else 0 := by
          simp only [Equiv.swap_apply_left, ho3, hd, hi, PC.val]
          by_cases hl : l = n
          · subst hl; simp
          · rw [if_neg hl, if_neg fun h => hl (Option.some.inj h.1).symm]
        have hy : (fun j => if c.node j = some l ∧ Function.update s.phase i .fresh j ≠ .fresh then
            (Function.update a.pc (π o) (.putting row' m m) (π (Equiv.swap i o j))).val f else 0) i = 0 := by simp
        beta_reduce at hx hy
        rw [hx, hy] at key
        unfold waitSum
        show (∑ j, if c.node j = some l ∧ Function.update s.phase i .fresh j ≠ .fresh then
            (Function.update a.pc (π o) (.putting row' m m) (π (Equiv.swap i o j))).val f else 0) = _
        unfold jobSum at key ⊢
        by_cases hl : l = n
        · subst hl
          rw [hr] at key
          simp only [List.map_cons, List.sum_cons, if_true] at key
          simp only [Function.update_self]
          omega
        · rw [if_neg hl] at key
          simp only [Function.update_of_ne hl]
          omega
      · have hji : j ≠ i := by rintro rfl; simp at hj
        simp only [Function.update_of_ne hji] at hj ⊢
        exact H.phase j hj
      · by_cases hl : l = n
        · subst hl
          simp only [Function.update_self] at hx
          exact H.results l x (by rw [hr]; exact List.mem_cons_of_mem _ hx)
        · simp only [Function.update_of_ne hl] at hx; exact H.results l x hx
      · obtain ⟨j0, j1, j2⟩ := H.posted he l x hx
        have hji : x.1 ≠ i := by rintro e; rw [e, hd] at j1; cases j1
        simp only [Function.update_of_ne hji]
        exact ⟨j0, j1, j2⟩

end

end Panda
