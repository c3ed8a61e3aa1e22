import Verif.Proofs.Cluster

/-! # A distributed run comes to an end -/

namespace Panda

open Relation

section
set_option linter.unusedSectionVars false
variable {ι κ ν : Type} [DecidableEq ι] [DecidableEq κ] [DecidableEq ν] [Fintype ι] [Fintype κ]

/-- the number of request threads for the node -/
def ClusterConfig.requests (c : ClusterConfig ι κ ν) (n : ν) : Nat := (Finset.univ.filter fun i => c.node i = some n).card

/-- the number of threads of the node -/
def ClusterConfig.threads (c : ClusterConfig ι κ ν) (n : ν) : Nat := (Finset.univ.filter fun k => c.home k = n).card

variable {c : ClusterConfig ι κ ν} {s s' : Cluster ι κ ν}

/-- a row at a node is one that some thread of the pool works on -/
theorem job_owner {a : Pool ι} {π : Equiv.Perm ι} (h : ∀ f n, waitSum c f s.phase a π n = jobSum c f s n) {row : Row} {n : ν}
    (hj : jobSum c (fun r => if r = row then 1 else 0) s n ≠ 0) :
    ∃ o, (c.node o = some n ∧ s.phase o ≠ .fresh) ∧ (a.pc (π o) = .working row ∨ (row = [] ∧ a.pc (π o) = .stopped)) := by
  by_contra hno
  push Not at hno
  apply hj
  rw [← h]
  unfold waitSum
  refine Finset.sum_eq_zero fun j _ => ?_
  split_ifs with hj
  · have := hno j hj
    cases e : a.pc (π j) with
    | working r =>
      simp only [PC.val]
      rw [if_neg (by rintro rfl; exact this.1 e)]
    | stopped => simp only [PC.val]; rw [if_neg (by rintro rfl; exact this.2 rfl e)]
    | _ => rfl
  · rfl

theorem slave_le {f : Row → Nat} {n : ν} {k : κ} (hk : c.home k = n) : (s.slave k).val f ≤ jobSum c f s n := by
  unfold jobSum
  have : (s.slave k).val f ≤ ∑ k, if c.home k = n then (s.slave k).val f else 0 := by
    refine le_trans ?_ (Finset.single_le_sum (f := fun k => if c.home k = n then (s.slave k).val f else 0) (fun _ _ => Nat.zero_le _) (Finset.mem_univ k))
    rw [if_pos hk]
  omega

/-- the row that a thread of another node works on may be put -/
theorem slave_good {G : Row → Prop} (hG : c.pool.Safe G) (H : ClusterInv c s) {k : κ} {row : Row}
    (h : s.slave k = .working row ∨ ∃ m, s.slave k = .posting row m) : G row := by
  obtain ⟨a, π, h1, -, -, h4⟩ := H.follows
  have hne : row ≠ [] := by
    rcases h with h | ⟨m, h⟩
    · exact H.working k row h
    · exact (H.posting k row m h).1
  have hj : jobSum c (fun r => if r = row then 1 else 0) s (c.home k) ≠ 0 := by
    have := slave_le (c := c) (s := s) (f := fun r => if r = row then 1 else 0) (k := k) rfl
    rcases h with h | ⟨m, h⟩ <;>
    · rw [h] at this
      simp only [SlavePC.val, if_true] at this
      omega
  obtain ⟨o, -, ho | ⟨ho, -⟩⟩ := job_owner h4 hj
  · exact (invG G hG h1).working _ _ ho
  · exact absurd ho hne

/-- a step that is not one of the pool: it changes the phase of a request thread or the state of a thread of another node -/
def Outer (c : ClusterConfig ι κ ν) (s s' : Cluster ι κ ν) : Prop := ClusterStep c s s' ∧ (s'.phase ≠ s.phase ∨ s'.slave ≠ s.slave)

theorem update_ne {α β : Type} [DecidableEq α] {x : α → β} {i : α} {v : β} (h : x i ≠ v) : Function.update x i v ≠ x :=
  fun e => h (by rw [← congrFun e i, Function.update_self])

/-- a thread of another node that has something to do can do it, if no result is under way -/
theorem slave_step {G : Row → Prop} (hG : c.pool.Safe G) (htotal : ∀ r, G r → ∃ m, c.Rot r m) (hne : ∀ r m, G r → c.Rot r m → m ≠ [])
    (H : ClusterInv c s) {k : κ} (hres : s.results (c.home k) = []) (h : (s.rows (c.home k) ≠ [] ∧ s.slave k ≠ .stopped) ∨
      (s.slave k ≠ .idle ∧ s.slave k ≠ .stopped)) : ∃ s', Outer c s s' := by
  cases e : s.slave k with
  | idle =>
    rcases h with h | h
    · obtain ⟨⟨i, row⟩, rest, er⟩ := List.exists_cons_of_ne_nil h.1
      exact ⟨_, .fromMaster s k i row rest e er, .inr (update_ne (by rw [e]; split_ifs <;> simp))⟩
    · exact absurd e h.1
  | working row =>
    obtain ⟨m, hm⟩ := htotal row (slave_good hG H (.inl e))
    exact ⟨_, .rotate s k row m e hm, .inr (update_ne (by rw [e]; simp))⟩
  | posting row m => exact ⟨_, .toMaster s k row m e (hne row m (slave_good hG H (.inr ⟨m, e⟩)) (H.posting k row m e).2), .inr (update_ne (by rw [e]; simp))⟩
  | sending => exact ⟨_, .toMasterDone s k e (.inr (by simp [hres])), .inr (update_ne (by rw [e]; simp))⟩
  | stopped => rcases h with h | h <;> exact absurd e h.2

/-- enough threads on the other nodes: at least as many as there are request threads for them; or at least one, if sending never
waits and there are no known rows -/
def ClusterConfig.Enough (c : ClusterConfig ι κ ν) : Prop :=
  (∀ n, c.requests n ≤ c.threads n) ∨ (c.eager = true ∧ c.known = [] ∧ ∀ i n, c.node i = some n → ∃ k, c.home k = n)

/-- the rows that are empty: stop signals -/
def isEmpty (r : Row) : Nat := if r = [] then 1 else 0

/-- the rows that are not -/
def isJob (r : Row) : Nat := if r = [] then 0 else 1

/-- the number of stop signals sent is the number of request threads that have stopped and sent it -/
theorem stops_eq (H : ClusterInv c s) (n : ν) :
    (∑ i, if c.node i = some n ∧ s.phase i ≠ .fresh ∧ s.pool.pc i = .stopped then 1 else 0) = jobSum c isEmpty s n := by
  obtain ⟨a, π, h1, -, h3, h4⟩ := H.follows
  rw [← h4]
  unfold waitSum
  refine Finset.sum_congr rfl fun i _ => ?_
  by_cases hi : c.node i = some n ∧ s.phase i ≠ .fresh
  · rw [if_pos hi]
    rcases (H.phase i hi.2).2 with ⟨row, e⟩ | e
    · obtain ⟨r, e'⟩ := PC.erase_working.1 (h3.pc.of_eq e)
      rw [if_neg (by rw [e]; simp), e']
      simp [PC.val, isEmpty, pool_working_nonempty h1 e']
    · rw [if_pos ⟨hi.1, hi.2, e⟩, PC.erase_stopped.1 (h3.pc.of_eq e)]; rfl
  · rw [if_neg hi, if_neg fun h => hi ⟨h.1, h.2.1⟩]

theorem jobs_eq (H : ClusterInv c s) (n : ν) :
    (Finset.univ.filter fun i => c.node i = some n ∧ s.phase i ≠ .fresh ∧ s.pool.pc i ≠ .stopped).card = jobSum c isJob s n := by
  obtain ⟨a, π, h1, -, h3, h4⟩ := H.follows
  rw [← h4, Finset.card_filter]
  unfold waitSum
  refine Finset.sum_congr rfl fun i _ => ?_
  by_cases hi : c.node i = some n ∧ s.phase i ≠ .fresh
  · rw [if_pos hi]
    rcases (H.phase i hi.2).2 with ⟨row, e⟩ | e
    · obtain ⟨r, e'⟩ := PC.erase_working.1 (h3.pc.of_eq e)
      rw [if_pos ⟨hi.1, hi.2, by rw [e]; simp⟩, e']
      simp [PC.val, isJob, pool_working_nonempty h1 e']
    · rw [if_neg (by rw [e]; simp), PC.erase_stopped.1 (h3.pc.of_eq e)]; rfl
  · rw [if_neg hi, if_neg fun h => hi ⟨h.1, h.2.1⟩]

theorem stopped_slaves_le (n : ν) : (Finset.univ.filter fun k => c.home k = n ∧ s.slave k = .stopped).card +
    ((s.rows n).map fun x => isEmpty x.2).sum ≤ jobSum c isEmpty s n := by
  unfold jobSum
  have : (Finset.univ.filter fun k => c.home k = n ∧ s.slave k = .stopped).card ≤ ∑ k, if c.home k = n then (s.slave k).val isEmpty else 0 := by
    rw [Finset.card_filter]
    refine Finset.sum_le_sum fun k _ => ?_
    by_cases hk : c.home k = n
    · rw [if_pos hk]
      by_cases e : s.slave k = .stopped
      · rw [if_pos ⟨hk, e⟩, e]; rfl
      · rw [if_neg fun h => e h.2]; exact Nat.zero_le _
    · rw [if_neg fun h => hk h.1]; exact Nat.zero_le _
  omega

theorem all_stopped_card {n : ν} (h : ∀ k, c.home k = n → s.slave k = .stopped) :
    (Finset.univ.filter fun k => c.home k = n ∧ s.slave k = .stopped).card = c.threads n := by
  unfold ClusterConfig.threads
  congr 1
  ext k
  simp only [Finset.mem_filter, Finset.mem_univ, true_and]
  exact ⟨fun h => h.1, fun hk => ⟨hk, h k hk⟩⟩

theorem stops_le (n : ν) : (∑ i, if c.node i = some n ∧ s.phase i ≠ .fresh ∧ s.pool.pc i = .stopped then 1 else 0) ≤ c.requests n := by
  unfold ClusterConfig.requests
  rw [Finset.card_filter]
  refine Finset.sum_le_sum fun i _ => ?_
  by_cases hi : c.node i = some n
  · rw [if_pos hi]; split_ifs <;> omega
  · rw [if_neg fun h => hi h.1]; exact Nat.zero_le _

theorem stops_lt {n : ν} {i : ι} (hi : c.node i = some n) (hs : s.phase i = .fresh ∨ s.pool.pc i ≠ .stopped) :
    (∑ i, if c.node i = some n ∧ s.phase i ≠ .fresh ∧ s.pool.pc i = .stopped then 1 else 0) < c.requests n := by
  unfold ClusterConfig.requests
  rw [Finset.card_filter]
  refine Finset.sum_lt_sum (fun i _ => ?_) ⟨i, Finset.mem_univ _, ?_⟩
  · by_cases hi : c.node i = some n
    · rw [if_pos hi]; split_ifs <;> omega
    · rw [if_neg fun h => hi h.1]; exact Nat.zero_le _
  · rw [if_neg (by rintro ⟨-, h1, h2⟩; exact hs.elim h1 (· h2)), if_pos hi]; exact Nat.zero_lt_one

/-- as long as a request thread of the node waits for a result, some thread of the node has not stopped -/
theorem not_all_stopped {G : Row → Prop} (hG : c.pool.Safe G) (hK : c.Enough) (H : ClusterInv c s) {i : ι} {n : ν} {row : Row} (hi : c.node i = some n)
    (hw : s.pool.pc i = .working row) : ∃ k, c.home k = n ∧ s.slave k ≠ .stopped := by
  by_contra hno
  push Not at hno
  have e1 := all_stopped_card hno
  have e2 := stopped_slaves_le (c := c) (s := s) n
  have e3 := stops_eq H n
  rcases hK with hK | ⟨-, hkn, hK⟩
  · have e4 := stops_lt (c := c) (s := s) hi (.inr (by rw [hw]; simp))
    have := hK n
    omega
  · obtain ⟨k, hk⟩ := hK i n hi
    obtain ⟨a, π, h1, -, h3, h4⟩ := H.follows
    have hj : jobSum c (fun r => if r = [] then 1 else 0) s n ≠ 0 := by
      have := slave_le (c := c) (s := s) (f := fun r => if r = [] then 1 else 0) hk
      rw [hno k hk] at this
      simp only [SlavePC.val, if_true] at this
      omega
    obtain ⟨o, -, ho⟩ := job_owner h4 hj
    have ho : a.pc (π o) = .stopped := by
      rcases ho with ho | ho
      · exact absurd rfl (pool_working_nonempty h1 ho)
      · exact ho.2
    obtain ⟨P, hP⟩ := stopping_settled hG h1 (.inl ⟨_, .inr (.inr ho)⟩)
    obtain ⟨r, e⟩ := PC.erase_working.1 (h3.pc.of_eq hw)
    obtain ⟨x, hx, -⟩ := hP.working _ _ e
    have : c.pool.known = [] := hkn
    rw [this] at hx; cases hx

theorem map_sum_pos {α : Type} {l : List α} {f : α → Nat} (h : (l.map f).sum ≠ 0) : l ≠ [] := by
  rintro rfl; exact h rfl

theorem results_nil {n : ν} (H : ClusterInv c s) (h : ((s.results n).map fun x => isJob x.2.1).sum = 0) : s.results n = [] := by
  by_contra hne
  obtain ⟨x, rest, e⟩ := List.exists_cons_of_ne_nil hne
  have := (H.results n x (by rw [e]; simp)).1
  rw [e] at h
  simp only [List.map_cons, List.sum_cons, isJob, if_neg this] at h
  omega

theorem slave_busy {n : ν} (h : (∑ k, if c.home k = n then (s.slave k).val isJob else 0) ≠ 0) : ∃ k, c.home k = n ∧ s.slave k ≠ .idle ∧ s.slave k ≠ .stopped := by
  obtain ⟨k, -, hk⟩ := Finset.exists_ne_zero_of_sum_ne_zero h
  by_cases hh : c.home k = n
  · rw [if_pos hh] at hk
    refine ⟨k, hh, ?_, ?_⟩ <;> rintro e <;> rw [e] at hk <;> simp [SlavePC.val, isJob] at hk
  · rw [if_neg hh] at hk; exact absurd rfl hk

/-- a request thread that works on a row does not prevent progress -/
theorem waiting_progress {G : Row → Prop} (hG : c.pool.Safe G) (htotal : ∀ r, G r → ∃ m, c.Rot r m) (hne : ∀ r m, G r → c.Rot r m → m ≠ [])
    (hK : c.Enough) (H : ClusterInv c s) {i : ι} {n : ν} {row : Row} (hi : c.node i = some n) (hw : s.pool.pc i = .working row) :
    ∃ s', Outer c s s' := by
  by_contra hno
  have hno' : ∀ s', ¬ Outer c s s' := fun s' h => hno ⟨s', h⟩
  have hfresh : s.phase i ≠ .fresh := fun h => hno' _ ⟨.toSlave s i n row hi h (.inl hw), .inl (update_ne (by rw [h]; simp))⟩
  have hjobs := jobs_eq H n
  have hpos : 0 < (Finset.univ.filter fun i => c.node i = some n ∧ s.phase i ≠ .fresh ∧ s.pool.pc i ≠ .stopped).card :=
    Finset.card_pos.2 ⟨i, by simp [hi, hfresh, hw]⟩
  have hres : s.results n = [] := by
    by_cases hd : ∃ j row', c.node j = some n ∧ s.phase j = .done ∧ s.pool.pc j = .working row'
    · obtain ⟨j, row', j1, j2, j3⟩ := hd
      by_contra hr
      obtain ⟨⟨k, r, m⟩, rest, e⟩ := List.exists_cons_of_ne_nil hr
      exact hno' _ ⟨.fromSlave s j n row' r k m rest j1 j3 j2 e, .inl (update_ne (by rw [j2]; simp))⟩
    · -- all request threads that wait for a result have sent their row, and it has not arrived
      have hall : ∀ j, c.node j = some n ∧ s.phase j ≠ .fresh ∧ s.pool.pc j ≠ .stopped → ∃ x ∈ s.rows n, x.1 = j ∧ x.2 ≠ [] := by
        rintro j ⟨j1, j2, j3⟩
        obtain ⟨row', hj⟩ := (H.phase j j2).2.resolve_right j3
        have hph : s.phase j = .posted := by
          cases e : s.phase j with
          | fresh => exact absurd e j2
          | posted => rfl
          | done => exact absurd ⟨j, row', j1, e, hj⟩ hd
        have hdone : ¬ (c.eager = true ∨ ∀ x ∈ s.rows n, x.1 ≠ j) := fun hc => hno' _ ⟨.toSlaveDone s j n j1 hph hc, .inl (update_ne (by rw [hph]; simp))⟩
        push Not at hdone
        obtain ⟨he, x, hx, hxj⟩ := hdone
        refine ⟨x, hx, hxj, ?_⟩
        have := (H.posted (by simpa using he) n x hx).2.2
        rw [hxj] at this
        exact this.resolve_left j3
      have hle : (Finset.univ.filter fun i => c.node i = some n ∧ s.phase i ≠ .fresh ∧ s.pool.pc i ≠ .stopped).card ≤
          ((s.rows n).filter fun x => x.2 ≠ []).length := by
        refine le_trans (Finset.card_le_card (t := (((s.rows n).filter fun x => x.2 ≠ []).map Prod.fst).toFinset) ?_) ?_
        · intro j hj
          simp only [Finset.mem_filter, Finset.mem_univ, true_and] at hj
          obtain ⟨x, x1, x2, x3⟩ := hall j hj
          rw [List.mem_toFinset, List.mem_map]
          exact ⟨x, List.mem_filter.2 ⟨x1, by simpa using x3⟩, x2⟩
        · refine le_trans (List.toFinset_card_le _) ?_
          rw [List.length_map]
      have hlen : ∀ l : List (ι × Row), (l.filter fun x => x.2 ≠ []).length = (l.map fun x => isJob x.2).sum := by
        intro l
        induction l with
        | nil => rfl
        | cons x l ih =>
          rw [List.filter_cons, List.map_cons, List.sum_cons, ← ih]
          by_cases hx : x.2 = []
          · simp [hx, isJob]
          · simp [hx, isJob, Nat.add_comm]
      rw [hlen] at hle
      refine results_nil H ?_
      unfold jobSum at hjobs
      omega
  obtain ⟨k, hk, hks⟩ := not_all_stopped hG hK H hi hw
  subst hk
  by_cases hrows : s.rows (c.home k) = []
  · have : (∑ k', if c.home k' = c.home k then (s.slave k').val isJob else 0) ≠ 0 := by
      unfold jobSum at hjobs
      rw [hrows, hres] at hjobs
      simp only [List.map_nil, List.sum_nil] at hjobs
      omega
    obtain ⟨k', hk', hb⟩ := slave_busy this
    exact hno (slave_step hG htotal hne H (k := k') (by rw [hk']; exact hres) (.inr hb))
  · exact hno (slave_step hG htotal hne H hres (.inl ⟨hrows, hks⟩))

/-- as long as not all threads of the master have ended, a step outside the pool is possible, or no request thread works on a row and
the threads of the pool have not ended -/
theorem cluster_ready {G : Row → Prop} (hG : c.pool.Safe G) (htotal : ∀ r, G r → ∃ m, c.Rot r m)
    (hne : ∀ r m, G r → c.Rot r m → m ≠ []) (hK : c.Enough) (H : ClusterInv c s) (hf : ¬ s.MasterFinished c) :
    (∃ s', Outer c s s') ∨ ((∀ i row, c.node i ≠ none → s.pool.pc i ≠ .working row) ∧ ¬ s.pool.Finished) := by
  by_contra hno2
  push Not at hno2
  obtain ⟨hno', hno3⟩ := hno2
  have hno : ¬ ∃ s', Outer c s s' := fun ⟨s', h⟩ => hno' s' h
  have hidle : ∀ i row, c.node i ≠ none → s.pool.pc i ≠ .working row := by
    intro i row hi hw
    obtain ⟨n, hn⟩ := Option.ne_none_iff_exists'.1 hi
    exact hno (waiting_progress hG htotal hne hK H hn hw)
  have hpf := hno3 hidle
  refine hf ⟨hpf, fun i hi => ?_⟩
  obtain ⟨n, hn⟩ := Option.ne_none_iff_exists'.1 hi
  cases e : s.phase i with
  | done => rfl
  | fresh => exact absurd ⟨.toSlave s i n [] hn e (.inr ⟨hpf.2.2 i, rfl⟩), .inl (update_ne (by rw [e]; simp))⟩ (hno' _)
  | posted =>
    exfalso
    have hdone : ¬ (c.eager = true ∨ ∀ x ∈ s.rows n, x.1 ≠ i) := fun hc => hno' _ ⟨.toSlaveDone s i n hn e hc, .inl (update_ne (by rw [e]; simp))⟩
    push Not at hdone
    obtain ⟨he, x, hx, hxi⟩ := hdone
    rcases hK with hK | ⟨hK, -⟩
    swap
    · exact he hK
    have hjobs := jobs_eq H n
    have hz : (Finset.univ.filter fun i => c.node i = some n ∧ s.phase i ≠ .fresh ∧ s.pool.pc i ≠ .stopped).card = 0 := by
      rw [Finset.card_eq_zero, Finset.filter_eq_empty_iff]
      rintro j - ⟨-, -, hj⟩
      exact hj (hpf.2.2 j)
    have hres : s.results n = [] := results_nil H (by unfold jobSum at hjobs; omega)
    have hxe : 0 < ((s.rows n).map fun x => isEmpty x.2).sum := by
      have hx2 : x.2 = [] := by
        by_contra hx2
        have : isJob x.2 ≤ ((s.rows n).map fun x => isJob x.2).sum := List.single_le_sum (by simp) _ (List.mem_map.2 ⟨x, hx, rfl⟩)
        unfold jobSum at hjobs
        simp only [isJob, if_neg hx2] at this hjobs
        omega
      have : isEmpty x.2 ≤ ((s.rows n).map fun x => isEmpty x.2).sum := List.single_le_sum (by simp) _ (List.mem_map.2 ⟨x, hx, rfl⟩)
      rw [hx2] at this
      exact lt_of_lt_of_le Nat.zero_lt_one this
    have hk : ∃ k, c.home k = n ∧ s.slave k ≠ .stopped := by
      by_contra hall
      push Not at hall
      have e1 := all_stopped_card hall
      have e2 := stopped_slaves_le (c := c) (s := s) n
      have e3 := stops_eq H n
      have e4 := stops_le (c := c) (s := s) n
      have := hK n
      omega
    obtain ⟨k, rfl, hks⟩ := hk
    exact hno (slave_step hG htotal hne H hres (.inl ⟨map_sum_pos (Nat.pos_iff_ne_zero.1 hxe), hks⟩))

/-- as long as not all threads of the master have ended, some thread can take a step -/
theorem cluster_progress {G : Row → Prop} (hG : c.pool.Safe G) (hlocal : ∃ i, c.node i = none) (htotal : ∀ r, G r → ∃ m, c.Rot r m)
    (hne : ∀ r m, G r → c.Rot r m → m ≠ []) (hK : c.Enough) (h : ClusterReach c s) (hf : ¬ s.MasterFinished c) : ∃ s', ClusterStep c s s' := by
  have H := clusterInv h
  rcases cluster_ready hG htotal hne hK H hf with ⟨s', h1, -⟩ | ⟨hidle, hpf⟩
  · exact ⟨s', h1⟩
  obtain ⟨a, π, h1, h2, h3, h4⟩ := H.follows
  have hfa : ¬ a.Finished := fun h => hpf (h3.finished.1 h)
  · obtain ⟨a', ha'⟩ := progress hG (by obtain ⟨i, hi⟩ := hlocal; exact ⟨i, fun h => h hi⟩) htotal h1 hfa
    have hka : Keep c.pool.remote a a' := by
      intro i row hi hw
      exfalso
      obtain ⟨r, e⟩ := PC.erase_working.1 (h3.symm.pc.of_eq hw)
      refine hidle (π.symm i) r ?_ e
      have := h2 (π.symm i)
      rw [Equiv.apply_symm_apply] at this
      rw [← this]; exact hi
    obtain ⟨p', k1, k2, k3⟩ := h3.symm.step (c := c.pool) (fun i => by
        show c.node (π.symm i) ≠ none ↔ c.node i ≠ none
        have := h2 (π.symm i)
        rw [Equiv.apply_symm_apply] at this
        rw [this]) (fun i hi => by
        left
        have := h2 (π.symm i)
        rw [Equiv.apply_symm_apply] at this
        rw [← this]; exact not_not.1 hi) ha' hka
    exact ⟨_, .pool s p' k1 k3⟩

/-- if every node has as many threads as there are request threads for it, then as long as any thread has not ended some thread
can take a step -/
theorem cluster_progress_all {G : Row → Prop} (hG : c.pool.Safe G) (hlocal : ∃ i, c.node i = none) (htotal : ∀ r, G r → ∃ m, c.Rot r m)
    (hne : ∀ r m, G r → c.Rot r m → m ≠ []) (hK : c.Enough) (h : ClusterReach c s) {n : ν} (hn : c.threads n ≤ c.requests n) (hf : ¬ s.NodeFinished c n) :
    ∃ s', ClusterStep c s s' := by
  by_cases hm : s.MasterFinished c
  swap
  · exact cluster_progress hG hlocal htotal hne hK h hm
  have H := clusterInv h
  unfold Cluster.NodeFinished at hf
  push Not at hf
  obtain ⟨k, rfl, hk⟩ := hf
  have hjobs := jobs_eq H (c.home k)
  have hz : (Finset.univ.filter fun i => c.node i = some (c.home k) ∧ s.phase i ≠ .fresh ∧ s.pool.pc i ≠ .stopped).card = 0 := by
    rw [Finset.card_eq_zero, Finset.filter_eq_empty_iff]
    rintro j - ⟨-, -, hj⟩
    exact hj (hm.1.2.2 j)
  have hres : s.results (c.home k) = [] := results_nil H (by unfold jobSum at hjobs; omega)
  by_cases hb : s.slave k = .idle
  swap
  · exact (slave_step hG htotal hne H hres (.inr ⟨hb, hk⟩)).imp fun _ h => h.1
  refine (slave_step hG htotal hne H hres (.inl ⟨?_, hk⟩)).imp fun _ h => h.1
  have e3 := stops_eq H (c.home k)
  have e4 : (∑ i, if c.node i = some (c.home k) ∧ s.phase i ≠ .fresh ∧ s.pool.pc i = .stopped then 1 else 0) = c.requests (c.home k) := by
    unfold ClusterConfig.requests
    rw [Finset.card_filter]
    refine Finset.sum_congr rfl fun i _ => ?_
    by_cases hi : c.node i = some (c.home k)
    · rw [if_pos hi, if_pos ⟨hi, by rw [hm.2 i (by rw [hi]; simp)]; simp, hm.1.2.2 i⟩]
    · rw [if_neg hi, if_neg fun h => hi h.1]
  have e5 : (∑ k', if c.home k' = c.home k then (s.slave k').val isEmpty else 0) < c.threads (c.home k) := by
    unfold ClusterConfig.threads
    rw [Finset.card_filter]
    refine Finset.sum_lt_sum (fun k' _ => ?_) ⟨k, Finset.mem_univ _, ?_⟩
    · by_cases hk' : c.home k' = c.home k
      · rw [if_pos hk', if_pos hk']
        cases s.slave k' <;> simp only [SlavePC.val, isEmpty] <;> (try split_ifs) <;> omega
      · rw [if_neg hk', if_neg hk']
    · rw [if_pos rfl, if_pos rfl, hb]; exact Nat.zero_lt_one
  intro hrows
  unfold jobSum at e3
  rw [hrows, hres] at e3
  simp only [List.map_nil, List.sum_nil] at e3
  omega

/-- steps left of a request thread with the row that it has got -/
def Phase.weight : Phase → Nat
  | .fresh => 7
  | .posted => 1
  | .done => 0

/-- steps left of a thread of another node -/
def SlavePC.weight : SlavePC → Nat
  | .working _ => 4
  | .posting _ _ => 3
  | .sending => 1
  | _ => 0

variable [Fintype ν]

/-- the work that is left outside the pool -/
def Cluster.work (s : Cluster ι κ ν) : Nat :=
  (∑ i, (s.phase i).weight) + (∑ n, (5 * (s.rows n).length + (s.results n).length)) + ∑ k, (s.slave k).weight

theorem lock_lt {p p' : Pool ι} (h : GoesToSleep p p') : (∑ i, (p'.pc i).isLock) < ∑ i, (p.pc i).isLock := by
  obtain ⟨i, hi, -, rfl⟩ := h
  have key := sum_change (x := fun j => (p.pc j).isLock) (y := fun j => (Function.update p.pc i .waiting j).isLock) i
    (fun j hj => by rw [Function.update_of_ne hj])
  simp only [Function.update_self, hi] at key
  rw [show PC.isLock .lock = 1 from rfl, show PC.isLock .waiting = 0 from rfl] at key
  show (∑ j, (Function.update p.pc i .waiting j).isLock) < _
  omega

/-- what gets smaller with every step -/
def Cluster.measure (U : Finset Row) (s : Cluster ι κ ν) : (Nat ×ₗ Nat ×ₗ Nat ×ₗ Nat) ×ₗ Nat ×ₗ Nat :=
  toLex (Panda.measure U s.pool, toLex (∑ i, (s.pool.pc i).isLock, s.work))

theorem cluster_measure {G : Row → Prop} (hG : c.pool.Safe G) {U : Finset Row} (hU : ∀ r, G r → r ∈ U) (h : ClusterReach c s)
    (hst : ClusterStep c s s') : s'.measure U < s.measure U := by
  have work_lt : ∀ {t : Cluster ι κ ν}, t.pool = s.pool → t.work < s.work → t.measure U < s.measure U := by
    intro t e hw
    unfold Cluster.measure
    rw [e, Prod.Lex.toLex_lt_toLex]
    refine .inr ⟨rfl, ?_⟩
    rw [Prod.Lex.toLex_lt_toLex]
    exact .inr ⟨rfl, hw⟩
  cases hst with
  | pool p hp hk =>
    obtain ⟨a, π, h1, h2, h3, h4⟩ := (clusterInv h).follows
    obtain ⟨a', k1, k2, k3⟩ := h3.step (c := c.pool) (fun i => by show _ ≠ none ↔ _ ≠ none; rw [h2])
        (fun i hi => .inl (not_not.1 hi)) hp hk
    unfold Cluster.measure
    rw [Prod.Lex.toLex_lt_toLex]
    rcases measure_progress hG hU h1 k1 with hs | hs
    · right
      refine ⟨?_, ?_⟩
      · show Panda.measure U p = Panda.measure U s.pool
        rw [← k2.measure, ← h3.measure]
        exact measure_idle U (.inl hs)
      · rw [Prod.Lex.toLex_lt_toLex]
        left
        have := lock_lt hs
        rwa [sum_similar k2 PC.isLock (by intro x; cases x <;> rfl), sum_similar h3 PC.isLock (by intro x; cases x <;> rfl)] at this
    · left
      rwa [k2.measure, h3.measure] at hs
  | toSlave i n row hi hph hrow =>
    refine work_lt rfl ?_
    have k1 := sum_change (x := fun j => (s.phase j).weight) (y := fun j => (Function.update s.phase i .posted j).weight) i
      (fun j hj => by rw [Function.update_of_ne hj])
    have k2 := sum_change (x := fun m => 5 * (s.rows m).length + (s.results m).length)
      (y := fun m => 5 * (Function.update s.rows n (s.rows n ++ [(i, row)]) m).length + (s.results m).length) n
      (fun j hj => by rw [Function.update_of_ne hj])
    simp only [Function.update_self, hph, List.length_append, List.length_cons, List.length_nil] at k1 k2
    rw [show Phase.weight .fresh = 7 from rfl, show Phase.weight .posted = 1 from rfl] at k1
    unfold Cluster.work
    dsimp only
    omega
  | toSlaveDone i n hi hph hd =>
    refine work_lt rfl ?_
    have k1 := sum_change (x := fun j => (s.phase j).weight) (y := fun j => (Function.update s.phase i .done j).weight) i
      (fun j hj => by rw [Function.update_of_ne hj])
    simp only [Function.update_self, hph] at k1
    rw [show Phase.weight .done = 0 from rfl, show Phase.weight .posted = 1 from rfl] at k1
    unfold Cluster.work
    dsimp only
    omega
  | fromMaster k i row rest hk hr =>
    refine work_lt rfl ?_
    have k1 := sum_change (x := fun j => (s.slave j).weight) (y := fun j => (Function.update s.slave k (if row = [] then .stopped else .working row) j).weight) k
      (fun j hj => by rw [Function.update_of_ne hj])
    have k2 := sum_change (x := fun m => 5 * (s.rows m).length + (s.results m).length)
      (y := fun m => 5 * (Function.update s.rows (c.home k) rest m).length + (s.results m).length) (c.home k)
      (fun j hj => by rw [Function.update_of_ne hj])
    have k3 : (if row = [] then SlavePC.stopped else .working row).weight ≤ 4 := by split_ifs <;> simp [SlavePC.weight]
    simp only [Function.update_self, hk, hr, List.length_cons] at k1 k2
    rw [show (SlavePC.idle).weight = 0 from rfl] at k1
    unfold Cluster.work
    dsimp only
    omega
  | rotate k row m hk hm =>
    refine work_lt rfl ?_
    have k1 := sum_change (x := fun j => (s.slave j).weight) (y := fun j => (Function.update s.slave k (.posting row m) j).weight) k
      (fun j hj => by rw [Function.update_of_ne hj])
    simp only [Function.update_self, hk] at k1
    rw [show (SlavePC.working row).weight = 4 from rfl, show (SlavePC.posting row m).weight = 3 from rfl] at k1
    unfold Cluster.work
    dsimp only
    omega
  | toMaster k row m hk hm =>
    refine work_lt rfl ?_
    have k1 := sum_change (x := fun j => (s.slave j).weight) (y := fun j => (Function.update s.slave k .sending j).weight) k
      (fun j hj => by rw [Function.update_of_ne hj])
    have k2 := sum_change (x := fun l => 5 * (s.rows l).length + (s.results l).length)
      (y := fun l => 5 * (s.rows l).length + (Function.update s.results (c.home k) (s.results (c.home k) ++ [(k, row, m)]) l).length) (c.home k)
      (fun j hj => by rw [Function.update_of_ne hj])
    simp only [Function.update_self, hk, List.length_append, List.length_cons, List.length_nil] at k1 k2
    rw [show (SlavePC.posting row m).weight = 3 from rfl, show (SlavePC.sending).weight = 1 from rfl] at k1
    unfold Cluster.work
    dsimp only
    omega
  | toMasterDone k hk hd =>
    refine work_lt rfl ?_
    have k1 := sum_change (x := fun j => (s.slave j).weight) (y := fun j => (Function.update s.slave k .idle j).weight) k
      (fun j hj => by rw [Function.update_of_ne hj])
    simp only [Function.update_self, hk] at k1
    rw [show (SlavePC.idle).weight = 0 from rfl, show (SlavePC.sending).weight = 1 from rfl] at k1
    unfold Cluster.work
    dsimp only
    omega
  | fromSlave i n row row' k m rest hi hw hd hr =>
    unfold Cluster.measure
    rw [Prod.Lex.toLex_lt_toLex]
    left
    unfold Panda.measure
    apply lex4
    refine .inr ⟨rfl, .inl ?_⟩
    have k1 := sum_change (x := fun j => (s.pool.pc j).isWorking) (y := fun j => (Function.update s.pool.pc i (.putting row m m) j).isWorking) i
      (fun j hj => by rw [Function.update_of_ne hj])
    simp only [Function.update_self, hw] at k1
    rw [show (PC.working row).isWorking = 1 from rfl, show (PC.putting row m m).isWorking = 0 from rfl] at k1
    dsimp only
    omega

/-- there is no infinite run without spurious wake-ups -/
theorem cluster_wf {G : Row → Prop} (hG : c.pool.Safe G) (hfin : {r | G r}.Finite) :
    WellFounded fun s' s : {s : Cluster ι κ ν // ClusterReach c s} => ClusterStep c s.1 s'.1 := by
  have hU : ∀ r, G r → r ∈ hfin.toFinset := fun r hr => by simpa using hr
  refine Subrelation.wf ?_ (InvImage.wf (fun s : {s : Cluster ι κ ν // ClusterReach c s} => s.1.measure hfin.toFinset) wellFounded_lt)
  intro s' s hst
  exact cluster_measure hG hU s.2 hst

end

end Panda
