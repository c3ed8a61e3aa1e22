import Verif.Proofs.ClusterFair
import Verif.Props.Adjacency
import Verif.Proofs.RotationNonempty

/-! # C71: a distributed run

`ClusterReach c s`: some interleaving of the threads of all nodes and of the messages between them leads to `s`; the rows
written by the master are `s.pool.printed`. -/

namespace Panda

open Relation

section
set_option linter.unusedSectionVars false
variable {ι κ ν : Type} [DecidableEq ι] [DecidableEq κ] [DecidableEq ν] [Fintype ι] [Fintype κ]
variable {c : ClusterConfig ι κ ν} {s : Cluster ι κ ν} {G : Row → Prop}

/-- **C71.**  At every moment: no row has been printed twice, the printed rows are exactly those that have been put, no row has
been handed out twice (to a thread of any node), and the rows are handed out in the order of the output. -/
theorem C71_once (hG : c.pool.Safe G) (h : ClusterReach c s) :
    s.pool.printed.Nodup ∧ (∀ r, r ∈ s.pool.submitted ↔ r ∈ s.pool.printed) ∧ (s.pool.handed.map Prod.snd).Nodup ∧
    s.pool.printed = s.pool.handed.map Prod.snd ++ s.pool.iterators.filter (· ≠ []) := by
  obtain ⟨a, π, h1, -, h3, -⟩ := (clusterInv h).follows
  have := C26_once hG h1
  rwa [h3.printed, h3.submitted, h3.handed, h3.iterators] at this

/-- C71: everything that is printed is one of the rows that may be put -/
theorem C71_nothing_else (hG : c.pool.Safe G) (h : ClusterReach c s) : ∀ r ∈ s.pool.printed, G r := by
  obtain ⟨a, π, h1, -, h3, -⟩ := (clusterInv h).follows
  rw [← h3.printed]
  exact C26_nothing_else hG h1

/-- a thread of any node has left its loop only if one of the pool has -/
theorem stopped_in_pool (hs : (∃ i, s.pool.pc i = .stopped) ∨ ∃ k, s.slave k = .stopped) {a : Pool ι} {π : Equiv.Perm ι} (h1 : PoolReach c.pool a)
    (h3 : Similar π (Exact c s.phase) s.pool a) (h4 : ∀ f n, waitSum c f s.phase a π n = jobSum c f s n) : ∃ i, a.pc i = .stopped := by
  rcases hs with ⟨i, hi⟩ | ⟨k, hk⟩
  · exact ⟨_, PC.erase_stopped.1 (h3.pc.of_eq hi)⟩
  · have hj : jobSum c (fun r => if r = [] then 1 else 0) s (c.home k) ≠ 0 := by
      have := slave_le (c := c) (s := s) (f := fun r => if r = [] then 1 else 0) (k := k) rfl
      rw [hk] at this
      simp only [SlavePC.val, if_true] at this
      omega
    obtain ⟨o, -, ho⟩ := job_owner h4 hj
    rcases ho with ho | ho
    · exact absurd rfl (pool_working_nonempty h1 ho)
    · exact ⟨_, ho.2⟩

/-- C71: when a thread of the master or of any other node has left its loop, the output is complete: there is a set of printed
rows that contains the initial ones, all of which have been handed out, and which is closed under `rotation`; the other
printed rows were found from known rows that were added after the decision to stop. -/
theorem C71_stop (hG : c.pool.Safe G) (h : ClusterReach c s) (hs : (∃ i, s.pool.pc i = .stopped) ∨ ∃ k, s.slave k = .stopped) :
    ∃ P : Row → Prop, (∀ r ∈ c.initial, P r) ∧ (∀ r, P r → r ∈ s.pool.printed) ∧
      (∀ r, P r → (∃ j, (j, r) ∈ s.pool.handed) ∧ ∃ m, c.Rot r m ∧ ∀ x ∈ m, P x) ∧
      ∀ r ∈ s.pool.printed, P r ∨ ∃ k ∈ c.known, ReflTransGen (fun a b => ∃ m, c.Rot a m ∧ b ∈ m) k r := by
  obtain ⟨a, π, h1, -, h3, h4⟩ := (clusterInv h).follows
  have hst := stopped_in_pool hs h1 h3 h4
  obtain ⟨i, hi⟩ := hst
  obtain ⟨P, p1, p2, p3, p4⟩ := C27_stop hG h1 hi
  refine ⟨P, p1, fun r hr => by rw [← h3.printed]; exact p2 r hr, fun r hr => ⟨?_, (p3 r hr).2⟩, fun r hr => p4 r (by rw [h3.printed]; exact hr)⟩
  obtain ⟨j, hj⟩ := (p3 r hr).1
  have : r ∈ s.pool.handed.map Prod.snd := by rw [← h3.handed]; exact List.mem_map_of_mem (f := Prod.snd) hj
  obtain ⟨⟨j', r'⟩, hx, rfl⟩ := List.mem_map.1 this
  exact ⟨j', hx⟩

/-- C71: no deadlock on the master -/
theorem C71_no_deadlock (hG : c.pool.Safe G) (hlocal : ∃ i, c.node i = none) (htotal : ∀ r, G r → ∃ m, c.Rot r m)
    (hne : ∀ r m, G r → c.Rot r m → m ≠ []) (hK : c.Enough) (h : ClusterReach c s) (hf : ¬ s.MasterFinished c) : ∃ s', ClusterStep c s s' :=
  cluster_progress hG hlocal htotal hne hK h hf

/-- C71: no deadlock anywhere, if on every node there are as many threads as the master has request threads for it -/
theorem C71_no_deadlock_all (hG : c.pool.Safe G) (hlocal : ∃ i, c.node i = none) (htotal : ∀ r, G r → ∃ m, c.Rot r m)
    (hne : ∀ r m, G r → c.Rot r m → m ≠ []) (hK : ∀ n, c.threads n = c.requests n) (h : ClusterReach c s)
    (hf : ¬ (s.MasterFinished c ∧ ∀ n, s.NodeFinished c n)) : ∃ s', ClusterStep c s s' := by
  have hE : c.Enough := .inl fun n => (hK n).ge
  by_cases hm : s.MasterFinished c
  · have : ¬ ∀ n, s.NodeFinished c n := fun h => hf ⟨hm, h⟩
    push Not at this
    obtain ⟨n, hn⟩ := this
    exact cluster_progress_all hG hlocal htotal hne hE h (hK n).le hn
  · exact cluster_progress hG hlocal htotal hne hE h hm

/-- C71: there is no infinite execution without spurious wake-ups, if there are finitely many rows to find -/
theorem C71_terminates [Fintype ν] (hG : c.pool.Safe G) (hfin : {r | G r}.Finite) (f : Nat → Cluster ι κ ν) (h0 : f 0 = Cluster.init c) :
    ¬ ∀ n, ClusterStep c (f n) (f (n + 1)) := by
  intro hf
  have hreach : ∀ n, ClusterReach c (f n) := by
    intro n
    induction n with
    | zero => rw [h0]; exact .refl
    | succ n ih => exact ih.tail (.inl (hf n))
  obtain ⟨_, ⟨n, rfl⟩, hn⟩ := (cluster_wf hG hfin).has_min (Set.range fun n => (⟨f n, hreach n⟩ : {s : Cluster ι κ ν // ClusterReach c s})) ⟨_, 0, rfl⟩
  exact hn ⟨f (n + 1), hreach (n + 1)⟩ ⟨n + 1, rfl⟩ (hf n)

/-- C71: with arbitrarily many spurious wake-ups, every infinite run is unfair: from some point on one of the threads (of the master or
of another node) could always take a step, but never does -/
theorem C71_fair_termination [Fintype ν] (hG : c.pool.Safe G) (hfin : {r | G r}.Finite) (hlocal : ∃ i, c.node i = none) (htotal : ∀ r, G r → ∃ m, c.Rot r m)
    (hne : ∀ r m, G r → c.Rot r m → m ≠ []) (hK : ∀ n, c.threads n = c.requests n) (f : Nat → Cluster ι κ ν) (h0 : f 0 = Cluster.init c)
    (hf : ∀ n, ClusterStep c (f n) (f (n + 1)) ∨ ClusterSpurious (f n) (f (n + 1))) :
    ∃ a N, (∀ n, N ≤ n → ∃ s', ClusterStepBy c a (f n) s') ∧ ∀ n, N ≤ n → ¬ ClusterStepBy c a (f n) (f (n + 1)) :=
  cluster_unfair hG hfin hlocal htotal hne (.inl fun n => (hK n).ge) f h0 hf

/-- C71: when all threads of the master have ended, all known rows have been printed -/
theorem C71_known (hG : c.pool.Safe G) (h : ClusterReach c s) (hf : s.MasterFinished c) : ∀ r ∈ c.known, r ∈ s.pool.printed := by
  obtain ⟨a, π, h1, -, h3, -⟩ := (clusterInv h).follows
  rw [← h3.printed]
  exact C27_known hG h1 (h3.finished.2 hf.1)

/-- from every reachable state one can go on until nothing is possible any more -/
theorem cluster_can_end [Fintype ν] (hG : c.pool.Safe G) (hfin : {r | G r}.Finite) (h : ClusterReach c s) :
    ∃ s', ReflTransGen (ClusterStep c) s s' ∧ ClusterReach c s' ∧ ∀ s'', ¬ ClusterStep c s' s'' := by
  have key : ∀ t : {s : Cluster ι κ ν // ClusterReach c s}, ∃ s', ReflTransGen (ClusterStep c) t.1 s' ∧ ClusterReach c s' ∧ ∀ s'', ¬ ClusterStep c s' s'' := by
    intro t
    induction t using (cluster_wf hG hfin).induction with
    | _ t ih =>
    by_cases hf : ∃ s1, ClusterStep c t.1 s1
    · obtain ⟨s1, h1⟩ := hf
      obtain ⟨s', h2, h3⟩ := ih ⟨s1, t.2.tail (.inl h1)⟩ h1
      exact ⟨s', .head h1 h2, h3⟩
    · exact ⟨t.1, .refl, t.2, fun s'' h => hf ⟨s'', h⟩⟩
  exact key ⟨s, h⟩

/-- C71: from every reachable state, the state in which everything on all nodes has finished can be reached -/
theorem C71_can_finish [Fintype ν] (hG : c.pool.Safe G) (hfin : {r | G r}.Finite) (hlocal : ∃ i, c.node i = none) (htotal : ∀ r, G r → ∃ m, c.Rot r m)
    (hne : ∀ r m, G r → c.Rot r m → m ≠ []) (hK : ∀ n, c.threads n = c.requests n) (h : ClusterReach c s) :
    ∃ s', ReflTransGen (ClusterStep c) s s' ∧ s'.MasterFinished c ∧ ∀ n, s'.NodeFinished c n := by
  obtain ⟨s', h1, h2, h3⟩ := cluster_can_end hG hfin h
  refine ⟨s', h1, ?_⟩
  by_contra hf
  obtain ⟨s'', h4⟩ := C71_no_deadlock_all hG hlocal htotal hne hK h2 hf
  exact h3 _ h4

/-- **C71 is false of the code** if a node runs more threads than the master (the default is the number of processors of the
respective machine): then this node never finishes, whatever happens. -/
theorem C71_more_threads_false {n : ν} (hK : c.requests n < c.threads n) (h : ClusterReach c s) : ¬ s.NodeFinished c n := by
  intro hf
  have e1 := all_stopped_card hf
  have e2 := stopped_slaves_le (c := c) (s := s) n
  have e3 := stops_eq (clusterInv h) n
  have e4 := stops_le (c := c) (s := s) n
  omega

/-- **C71 is false of the code** if a node runs fewer threads than the master and sending waits for the receiver: then the master never
finishes. -/
theorem C71_fewer_threads_false {n : ν} (hK : c.threads n < c.requests n) (he : c.eager = false) (h : ClusterReach c s) : ¬ s.MasterFinished c := by
  intro hf
  have H := clusterInv h
  have hrows : s.rows n = [] := by
    cases e : s.rows n with
    | nil => rfl
    | cons x l =>
      obtain ⟨h1, h2, -⟩ := H.posted he n x (by rw [e]; simp)
      rw [hf.2 x.1 (by rw [h1]; simp)] at h2; cases h2
  have e3 := stops_eq H n
  have e4 : (∑ i, if c.node i = some n ∧ s.phase i ≠ .fresh ∧ s.pool.pc i = .stopped then 1 else 0) = c.requests n := by
    unfold ClusterConfig.requests
    rw [Finset.card_filter]
    refine Finset.sum_congr rfl fun i _ => ?_
    by_cases hi : c.node i = some n
    · rw [if_pos hi, if_pos ⟨hi, by rw [hf.2 i (by rw [hi]; simp)]; simp, hf.1.2.2 i⟩]
    · rw [if_neg hi, if_neg fun h => hi h.1]
  have e5 : jobSum c isEmpty s n ≤ c.threads n := by
    unfold jobSum ClusterConfig.threads
    rw [hrows, Finset.card_filter]
    have hr : ((s.results n).map fun x => isEmpty x.2.1).sum = 0 := by
      refine List.sum_eq_zero fun x hx => ?_
      obtain ⟨y, hy, rfl⟩ := List.mem_map.1 hx
      unfold isEmpty
      rw [if_neg (H.results n y hy).1]
    rw [hr]
    simp only [List.map_nil, List.sum_nil, zero_add, add_zero]
    refine Finset.sum_le_sum fun k _ => ?_
    split_ifs with hk
    · have h1 : ∀ r, isEmpty r ≤ 1 := fun r => by unfold isEmpty; split_ifs <;> omega
      cases s.slave k <;> simp only [SlavePC.val] <;> first | exact h1 _ | omega
    · exact le_rfl
  omega

/-- a thread that is about to send an empty matrix stays there -/
theorem slave_stuck {s s' : Cluster ι κ ν} {k : κ} {row : Row} (h : s.slave k = .posting row []) (hst : ReflTransGen (fun s s' => ClusterStep c s s' ∨ ClusterSpurious s s') s s') :
    s'.slave k = .posting row [] := by
  induction hst with
  | refl => exact h
  | tail _ hst ih =>
    rename_i b t _
    have key : ∀ (k' : κ) (v : SlavePC), (b.slave k' = .posting row [] → False) → Function.update b.slave k' v k = .posting row [] := by
      intro k' v hk'
      rw [Function.update_of_ne (by rintro rfl; exact hk' ih)]; exact ih
    rcases hst with hst | ⟨p, -, rfl⟩
    · cases hst with
      | pool => exact ih
      | toSlave => exact ih
      | toSlaveDone => exact ih
      | fromMaster k' i row' rest h1 => exact key k' _ (by rw [h1]; simp)
      | rotate k' row' m h1 => exact key k' _ (by rw [h1]; simp)
      | toMaster k' row' m h1 h2 => exact key k' _ (by rw [h1]; rintro ⟨⟩; exact h2 rfl)
      | toMasterDone k' h1 => exact key k' _ (by rw [h1]; simp)
      | fromSlave => exact ih
    · exact ih

/-- **C71 is false of the code** if `rotation` may find nothing: let the first initial row be one for which it returns an empty
matrix, and a node have at least one thread; then there is an interleaving after which neither this node nor the master
ever finishes (in the code: `matrix.back()` of the empty matrix). -/
theorem C71_empty_result_false {r : Row} {rest : Matrix} (hi : c.initial = r :: rest) (hr : r ≠ []) (hR : c.Rot r []) {i : ι} {k : κ}
    (hk : c.node i = some (c.home k)) :
    ∃ s, ClusterReach c s ∧ ∀ s', ReflTransGen (fun s s' => ClusterStep c s s' ∨ ClusterSpurious s s') s s' →
      ¬ s'.NodeFinished c (c.home k) ∧ ¬ s'.MasterFinished c := by
  have keep : ∀ (x : ι → PC) (v : PC), (∀ row, x i ≠ .working row) → ∀ j row, c.node j ≠ none → x j = .working row → Function.update x i v j = .working row := by
    intro x v hx j row _ hj
    rw [Function.update_of_ne (by rintro rfl; exact hx row hj)]; exact hj
  -- the request thread starts and waits for the mutex
  let p0 := Pool.init c.pool
  let p1 : Pool ι := { p0 with pc := Function.update p0.pc i .check }
  have g1 : Progress c.pool p0 p1 := .start p0 i rfl (.inl (by rw [show c.pool.remote = fun i => c.node i ≠ none from rfl]; simp [hk]))
  let p2 : Pool ι := { p1 with pc := Function.update p1.pc i .lock }
  have g2 : Progress c.pool p1 p2 := .checkBusy p1 i (by simp [p1]) (by rintro ⟨h, -⟩; cases h)
  have hm : p2.master = some (r :: rest) := by show some c.initial = _; rw [hi]
  let p3 : Pool ι := { p2 with master := some rest, rows := [r], printed := [r], iterators := [r], submitted := [r] }
  have g3 : Progress c.pool p2 p3 := by
    refine .masterPut p2 p3 r rest hm ?_
    refine .added { p2 with master := some rest } p2.pc rfl (.inl ⟨fun j => ?_, rfl⟩)
    by_cases hj : j = i
    · subst hj; simp [p2]
    · simp only [p2, p1, p0, Pool.init, Function.update_of_ne hj]; simp
  let p4 : Pool ι := { p3 with workers := p3.workers + 1, iterators := [], pc := Function.update p3.pc i (.working r), handed := p3.handed ++ [(i, r)] }
  have g4 : Progress c.pool p3 p4 := .take p3 i r [] (by simp [p3, p2]) rfl hr
  let s0 := Cluster.init c
  have k1 : ClusterStep c s0 { s0 with pool := p1 } := .pool s0 p1 g1 (keep _ _ (by intro row h; cases h))
  have k2 : ClusterStep c { s0 with pool := p1 } { s0 with pool := p2 } :=
    .pool { s0 with pool := p1 } p2 g2 (keep _ _ (by intro row h; simp [p1] at h))
  have k3 : ClusterStep c { s0 with pool := p2 } { s0 with pool := p3 } :=
    .pool { s0 with pool := p2 } p3 g3 (fun j row _ h => h)
  have k4 : ClusterStep c { s0 with pool := p3 } { s0 with pool := p4 } :=
    .pool { s0 with pool := p3 } p4 g4 (keep _ _ (by intro row h; simp [p3, p2] at h))
  have k5 := ClusterStep.toSlave (c := c) { s0 with pool := p4 } i (c.home k) r hk rfl (.inl (by simp [p4]))
  have k6 := ClusterStep.fromMaster (c := c) (k := k) (i := i) (row := r) (rest := []) (s := { s0 with pool := p4, phase := Function.update s0.phase i .posted, rows := Function.update s0.rows (c.home k) (s0.rows (c.home k) ++ [(i, r)]) })
    rfl (by simp [s0, Cluster.init])
  rw [if_neg hr] at k6
  refine ⟨_, ((((((ReflTransGen.refl.tail (.inl k1)).tail (.inl k2)).tail (.inl k3)).tail (.inl k4)).tail (.inl k5)).tail (.inl k6)).tail
    (.inl (.rotate _ k r [] (by simp) hR)), ?_⟩
  intro s' hs'
  have hst := slave_stuck (k := k) (row := r) (by simp) hs'
  have hreach : ClusterReach c s' := ReflTransGen.trans (((((((ReflTransGen.refl.tail (.inl k1)).tail (.inl k2)).tail (.inl k3)).tail (.inl k4)).tail (.inl k5)).tail (.inl k6)).tail
    (.inl (.rotate _ k r [] (by simp) hR))) hs'
  refine ⟨fun hf => by have := hf k rfl; rw [hst] at this; simp at this, fun hf => ?_⟩
  have h1 := jobs_eq (clusterInv hreach) (c.home k)
  have h2 := slave_le (c := c) (s := s') (f := isJob) (k := k) rfl
  rw [hst] at h2
  simp only [SlavePC.val, isJob, if_neg hr] at h2
  have h3 : (Finset.univ.filter fun i => c.node i = some (c.home k) ∧ s'.phase i ≠ .fresh ∧ s'.pool.pc i ≠ .stopped).card ≠ 0 := by
    rw [h1]; exact Nat.pos_iff_ne_zero.1 h2
  obtain ⟨o, ho⟩ := Finset.card_ne_zero.1 h3
  exact (Finset.mem_filter.1 ho).2.2.2 (hf.1.2.2 o)

end

/-! ### The facets -/

section
variable {d : Nat} {V E : Matrix} {maps maps' : Maps} {known : Matrix}

/-- **C71**, facets: on any number of nodes with any numbers of threads, for every interleaving: what the master prints are facets, no
two of them equal or equivalent. -/
theorem C71_facets_sound (h : ADInput d V E maps maps' known) :
    ∃ a N, (∀ fuel ≥ N, adStartFacets fuel V maps known = some (.ok a)) ∧ a.equations = E ∧
      ∀ (ι κ ν : Type) [DecidableEq ι] [Fintype ι] [DecidableEq κ] [Fintype κ] [DecidableEq ν] (node : ι → Option ν) (home : κ → ν)
        (eager : Bool) (s : Cluster ι κ ν), ClusterReach (adCluster node home eager V .facet a) s →
        s.pool.printed.Nodup ∧ (∀ r ∈ s.pool.printed, Spec.NormalisedFacet (d+1) V E r) ∧
        (∀ r ∈ s.pool.printed, ∀ f, Spec.FacetOrbit (d+1) V E maps r f → f = r ∨ f < r) ∧
        ∀ r ∈ s.pool.printed, ∀ r' ∈ s.pool.printed, Spec.FacetOrbit (d+1) V E maps r r' → r = r' := by
  obtain ⟨a, N, h1, h2, h3⟩ := C18_sound_partial h
  refine ⟨a, N, h1, h2, fun ι κ ν _ _ _ _ _ node home eager s hs => ?_⟩
  obtain ⟨b, π, e1, -, e3, -⟩ := (clusterInv hs).follows
  have := h3 ι (fun i => node i ≠ none) b e1
  rwa [e3.printed] at this

/-- C71, facets: as soon as one thread of any node has left its loop, every facet (other than the trivial one) is equivalent to exactly
one printed row. -/
theorem C71_facets_complete (h : ADInput d V E maps maps' known) (hthree : Spec.ThreeIndependent (d+1) V ∨ (3 ≤ Spec.rank (d+1) V ∧ ¬ Spec.ContainsLine d V)) :
    ∃ a N, (∀ fuel ≥ N, adStartFacets fuel V maps known = some (.ok a)) ∧
      ∀ (ι κ ν : Type) [DecidableEq ι] [Fintype ι] [DecidableEq κ] [Fintype κ] [DecidableEq ν] (node : ι → Option ν) (home : κ → ν)
        (eager : Bool) (s : Cluster ι κ ν), ClusterReach (adCluster node home eager V .facet a) s →
        ((∃ i, s.pool.pc i = .stopped) ∨ ∃ k, s.slave k = .stopped) → ∀ g, Spec.NormalisedFacet (d+1) V E g → g ≠ List.replicate d 0 ++ [-1] →
          ∃! r, r ∈ s.pool.printed ∧ Spec.FacetOrbit (d+1) V E maps r g := by
  obtain ⟨a, N, h1, h3⟩ := C19_complete_partial h hthree
  refine ⟨a, N, h1, fun ι κ ν _ _ _ _ _ node home eager s hs hst => ?_⟩
  obtain ⟨b, π, e1, -, e3, e4⟩ := (clusterInv hs).follows
  have := h3 ι (fun i => node i ≠ none) b e1 (stopped_in_pool hst e1 e3 e4)
  rwa [e3.printed] at this

/-- C71, facets: every known inequality is printed (up to normalisation and symmetry) when all threads of the master have ended -/
theorem C71_facets_known (h : ADInput d V E maps maps' known) :
    ∃ a N, (∀ fuel ≥ N, adStartFacets fuel V maps known = some (.ok a)) ∧
      ∀ (ι κ ν : Type) [DecidableEq ι] [Fintype ι] [DecidableEq κ] [Fintype κ] [DecidableEq ν] (node : ι → Option ν) (home : κ → ν)
        (eager : Bool) (s : Cluster ι κ ν), ClusterReach (adCluster node home eager V .facet a) s →
        s.MasterFinished (adCluster node home eager V .facet a) →
        ∀ k ∈ known, ∃ r ∈ s.pool.printed, ∃ k0, normalize k E = .ok k0 ∧ Spec.FacetOrbit (d+1) V E maps k0 r := by
  obtain ⟨a, N, h1, h3⟩ := C18_known_printed h
  refine ⟨a, N, h1, fun ι κ ν _ _ _ _ _ node home eager s hs hf => ?_⟩
  obtain ⟨b, π, e1, -, e3, -⟩ := (clusterInv hs).follows
  have := h3 ι (fun i => node i ≠ none) b e1 (e3.finished.2 hf.1)
  rwa [e3.printed] at this

/-- C71, facets: with the same number of threads on all machines the distributed run terminates, on all nodes: as long as a thread
has not ended, some thread can take a step, and there is no infinite run without spurious wake-ups. -/
theorem C71_facets_terminates (h : ADInput d V E maps maps' known) (hthree : Spec.ThreeIndependent (d+1) V ∨ (3 ≤ Spec.rank (d+1) V ∧ ¬ Spec.ContainsLine d V)) :
    ∃ a N, (∀ fuel ≥ N, adStartFacets fuel V maps known = some (.ok a)) ∧
      ∀ (ι κ ν : Type) [DecidableEq ι] [Fintype ι] [DecidableEq κ] [Fintype κ] [DecidableEq ν] [Fintype ν] (node : ι → Option ν) (home : κ → ν)
        (eager : Bool), (∃ i, node i = none) →
        (∀ n, (Finset.univ.filter fun k => home k = n).card = (Finset.univ.filter fun i => node i = some n).card) →
        (∀ s : Cluster ι κ ν, ClusterReach (adCluster node home eager V .facet a) s →
          ¬ (s.MasterFinished (adCluster node home eager V .facet a) ∧ ∀ n, s.NodeFinished (adCluster node home eager V .facet a) n) →
          ∃ s', ClusterStep (adCluster node home eager V .facet a) s s') ∧
        ∀ f : Nat → Cluster ι κ ν, f 0 = Cluster.init (adCluster node home eager V .facet a) →
          ¬ ∀ n, ClusterStep (adCluster node home eager V .facet a) (f n) (f (n + 1)) := by
  obtain ⟨F0, R, T, a, hsp, hel, h1, h2, h3, hacts, hboth, h4, h5, -⟩ := h.core
  have hV := (IsVInput.rect h.input).1
  refine ⟨a, F0.length, h1, fun ι κ ν _ _ _ _ _ _ node home eager hloc hT => ?_⟩
  have hsafe : (adCluster node home eager V .facet a).pool.Safe _ := adSafe hsp hV hel hacts h.rank h3 h4 h5 (fun i => node i ≠ none)
  have htot : ∀ r, ADGood (d+1) V E maps' .facet r → ∃ m, (adCluster node home eager V .facet a).Rot r m :=
    adTotal hsp hV hel hacts h.rank h3 (fun i => node i ≠ none)
  have hD : ThreeDim (d+1) V := hthree.elim .of_independent fun hh => .of_pointed h.input hh.1 hh.2
  have hne : ∀ r m, ADGood (d+1) V E maps' .facet r → (adCluster node home eager V .facet a).Rot r m → m ≠ [] := by
    rintro r m hr ⟨fuel, e⟩
    rw [h3] at e
    exact rot_nonempty hsp hV hel hacts hD hr.1 e
  exact ⟨fun s hs hf => C71_no_deadlock_all hsafe hloc htot hne hT hs hf, fun f h0 => C71_terminates hsafe (adFinite hel) f h0⟩

end

/-! ### Non-vacuity -/

/-- two local threads and two request threads for the only other node -/
def exampleNode : Fin 4 → Option (Fin 1) := fun i => if i.val < 2 then none else some 0

/-- the square on two nodes with two threads each: a run in which everything finishes, and then the output is as it should be -/
example : ∃ a, (∃ N, ∀ fuel ≥ N, adStartFacets fuel [[0, 0, 1], [1, 0, 1], [0, 1, 1], [1, 1, 1]] [[[(2, 1), (0, -1)], [(1, 1)], [(2, 1)]]] [[0, 2, -2]] = some (.ok a)) ∧
    ∃ s : Cluster (Fin 4) (Fin 2) (Fin 1), ClusterReach (adCluster exampleNode (fun _ => 0) false [[0, 0, 1], [1, 0, 1], [0, 1, 1], [1, 1, 1]] .facet a) s ∧
      s.MasterFinished (adCluster exampleNode (fun _ => 0) false [[0, 0, 1], [1, 0, 1], [0, 1, 1], [1, 1, 1]] .facet a) ∧
      (∀ k, s.slave k = .stopped) ∧
      ∀ g, Spec.NormalisedFacet 3 [[0, 0, 1], [1, 0, 1], [0, 1, 1], [1, 1, 1]] [] g → g ≠ [0, 0, -1] →
          ∃! r, r ∈ s.pool.printed ∧ Spec.FacetOrbit 3 [[0, 0, 1], [1, 0, 1], [0, 1, 1], [1, 1, 1]] [] [[[(2, 1), (0, -1)], [(1, 1)], [(2, 1)]]] r g := by
  obtain ⟨a, N, h1, h2⟩ := C71_facets_terminates exampleAD (.inl exampleAD_three)
  obtain ⟨a', N', h1', h3⟩ := C71_facets_complete exampleAD (.inl exampleAD_three)
  have : a = a' := by
    have e1 := h1 (max N N') (le_max_left _ _)
    have e2 := h1' (max N N') (le_max_right _ _)
    rw [e1] at e2; cases e2; rfl
  subst this
  obtain ⟨p1, p2⟩ := h2 (Fin 4) (Fin 2) (Fin 1) exampleNode (fun _ => 0) false ⟨0, rfl⟩ (by decide)
  -- a run that cannot be prolonged
  have key : ∃ s : Cluster (Fin 4) (Fin 2) (Fin 1), ClusterReach (adCluster exampleNode (fun _ => 0) false [[0, 0, 1], [1, 0, 1], [0, 1, 1], [1, 1, 1]] .facet a) s ∧
      ∀ s', ¬ ClusterStep (adCluster exampleNode (fun _ => 0) false [[0, 0, 1], [1, 0, 1], [0, 1, 1], [1, 1, 1]] .facet a) s s' := by
    by_contra hno
    push Not at hno
    choose! nx hnx using hno
    have hr : ∀ n, ClusterReach (adCluster exampleNode (fun _ => 0) false [[0, 0, 1], [1, 0, 1], [0, 1, 1], [1, 1, 1]] .facet a) (nx^[n] (Cluster.init (adCluster exampleNode (fun _ => 0) false [[0, 0, 1], [1, 0, 1], [0, 1, 1], [1, 1, 1]] .facet a))) := by
      intro n
      induction n with
      | zero => exact .refl
      | succ n ih => rw [Function.iterate_succ_apply']; exact ih.tail (.inl (hnx _ ih))
    exact p2 (fun n => nx^[n] (Cluster.init (adCluster exampleNode (fun _ => 0) false [[0, 0, 1], [1, 0, 1], [0, 1, 1], [1, 1, 1]] .facet a))) rfl fun n => by
      simp only [Function.iterate_succ_apply']; exact hnx _ (hr n)
  obtain ⟨s, hs, hend⟩ := key
  have hfin : s.MasterFinished (adCluster exampleNode (fun _ => 0) false [[0, 0, 1], [1, 0, 1], [0, 1, 1], [1, 1, 1]] .facet a) ∧ ∀ n, s.NodeFinished (adCluster exampleNode (fun _ => 0) false [[0, 0, 1], [1, 0, 1], [0, 1, 1], [1, 1, 1]] .facet a) n := by
    by_contra hf
    obtain ⟨s', hs'⟩ := p1 s hs hf
    exact hend s' hs'
  exact ⟨a, ⟨N, h1⟩, s, hs, hfin.1, fun k => hfin.2 0 k rfl, h3 _ _ _ _ _ _ s hs (.inl ⟨0, hfin.1.1.2.2 0⟩)⟩

/-- `C71_empty_result_false` happens: the segment from `0` to `1` on two nodes with one thread each -/
theorem C71_segment_false : ∃ a, adStartFacets 10 [[0, 1], [1, 1]] [] [] = some (.ok a) ∧
    ∃ s : Cluster (Fin 2) (Fin 1) (Fin 1), ClusterReach (adCluster (fun i => if i = 0 then none else some 0) (fun _ => 0) true [[0, 1], [1, 1]] .facet a) s ∧
      ∀ s', ReflTransGen (fun s s' => ClusterStep (adCluster (fun i => if i = 0 then none else some 0) (fun _ => 0) true [[0, 1], [1, 1]] .facet a) s s' ∨ ClusterSpurious s s') s s' →
        ¬ s'.MasterFinished (adCluster (fun i => if i = 0 then none else some 0) (fun _ => 0) true [[0, 1], [1, 1]] .facet a) := by
  refine ⟨_, (by decide +kernel : adStartFacets 10 [[0, 1], [1, 1]] [] [] = some (.ok ⟨[], [], [[-1, 0], [1, -1]], []⟩)), ?_⟩
  obtain ⟨s, h1, h2⟩ := C71_empty_result_false (c := adCluster (ι := Fin 2) (κ := Fin 1) (ν := Fin 1) (fun i => if i = 0 then none else some 0) (fun _ => 0) true [[0, 1], [1, 1]] .facet
    ⟨[], [], [[-1, 0], [1, -1]], []⟩) (r := [-1, 0]) (rest := [[1, -1]]) rfl (by decide) ⟨10, by decide +kernel⟩ (i := 1) (k := 0) rfl
  exact ⟨s, h1, fun s' hs' => (h2 s' hs').2⟩

/-- more and fewer threads on the other node than the master has request threads for it -/
example (eager : Bool) (s : Cluster (Fin 2) (Fin 2) (Fin 1))
    (h : ClusterReach (adCluster (fun i => if i = 0 then none else some 0) (fun _ => 0) eager [[0, 0, 1], [1, 0, 1], [0, 1, 1]] .facet ⟨[], [], [[0, -1, 0]], []⟩) s) :
    ∃ k, s.slave k ≠ .stopped := by
  have := C71_more_threads_false (c := adCluster (ι := Fin 2) (κ := Fin 2) (ν := Fin 1) (fun i => if i = 0 then none else some 0) (fun _ => 0) eager [[0, 0, 1], [1, 0, 1], [0, 1, 1]] .facet
    ⟨[], [], [[0, -1, 0]], []⟩) (n := 0) (by unfold ClusterConfig.requests ClusterConfig.threads adCluster; dsimp only; clear h s; decide +revert) h
  unfold Cluster.NodeFinished at this
  push Not at this
  obtain ⟨k, -, hk⟩ := this
  exact ⟨k, hk⟩

example (s : Cluster (Fin 3) (Fin 1) (Fin 1))
    (h : ClusterReach (adCluster (fun i => if i = 0 then none else some 0) (fun _ => 0) false [[0, 0, 1], [1, 0, 1], [0, 1, 1]] .facet ⟨[], [], [[0, -1, 0]], []⟩) s) :
    ¬ s.MasterFinished (adCluster (fun i => if i = 0 then none else some 0) (fun _ => 0) false [[0, 0, 1], [1, 0, 1], [0, 1, 1]] .facet ⟨[], [], [[0, -1, 0]], []⟩) :=
  C71_fewer_threads_false (n := 0) (by unfold ClusterConfig.requests ClusterConfig.threads adCluster; decide) rfl h

end Panda
