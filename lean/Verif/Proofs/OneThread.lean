import Verif.Model.AdjacencyTyped

/-! # Runs of adjacency decomposition with one thread -/

namespace Panda

/-- a reachable state of a program with one thread, without the history -/
def OneThread (A : Arith) (a : ADProgram) (rows iterators : List Row) (workers : Nat) (p : PC) (master : Option Matrix) (async printed : Matrix)
    (out : List Char) : Prop :=
  ∃ s : Pool (Fin a.threads), ADReach A a (.running s out) ∧ s.rows = rows ∧ s.iterators = iterators ∧ s.workers = workers ∧
    s.pc = (fun _ => p) ∧ s.master = master ∧ s.async = async ∧ s.printed = printed

namespace OneThread

variable {A : Arith} {a : ADProgram} {rows rows' iterators : List Row} {workers : Nat} {p : PC} {master : Option Matrix} {async printed : Matrix}
  {out t : List Char} {r row : Row} {rest all m : Matrix}

theorem init : OneThread A a [] [] 1 .idle (some a.initial) a.known [] a.head := ⟨_, .refl, rfl, rfl, rfl, rfl, rfl, rfl, rfl⟩

theorem notify (h : p ≠ .waiting) : NotifyOne (ι := Fin a.threads) (fun _ => p) (fun _ => p) := Or.inl ⟨fun _ => h, rfl⟩

theorem update [Subsingleton (Fin a.threads)] (i : Fin a.threads) (q : PC) (f : Fin a.threads → PC) : Function.update f i q = fun _ => q := by
  funext j
  rw [Subsingleton.elim j i, Function.update_self]

theorem putRow {s : Pool (Fin a.threads)} (h1 : s.pc = fun _ => p) (hs : setInsert r s.rows = (rows', true)) (hp : p ≠ .waiting) :
    PutRow r s { s with rows := rows', printed := s.printed ++ [r], iterators := s.iterators ++ [r], submitted := s.submitted ++ [r] } := by
  have := PutRow.added (row := r) s s.pc (by rw [hs]) (by rw [h1]; exact notify hp)
  rwa [hs] at this

theorem masterPut (h : OneThread A a rows iterators workers p (some (r :: rest)) async printed out) (hp : p ≠ .waiting)
    (hs : setInsert r rows = (rows', true)) (ht : printLine A a.names a.tag r = .ok t) :
    OneThread A a rows' (iterators ++ [r]) workers p (some rest) async (printed ++ [r]) (out ++ t) := by
  obtain ⟨s, h, rfl, rfl, rfl, h1, h2, rfl, rfl⟩ := h
  exact ⟨_, h.tail (.print _ _ _ r t (Or.inl (.masterPut _ _ r rest h2 (putRow h1 hs hp))) rfl ht), rfl, rfl, rfl, h1, rfl, rfl, rfl⟩

theorem masterDone (h : OneThread A a rows iterators workers p (some []) async printed out) :
    OneThread A a rows iterators (decrement workers) p none async printed out := by
  obtain ⟨s, h, rfl, rfl, rfl, h1, h2, rfl, rfl⟩ := h
  exact ⟨_, h.tail (.quiet _ _ _ (Or.inl (.masterDone _ h2)) rfl), rfl, rfl, rfl, h1, rfl, rfl, rfl⟩

theorem asyncDup (h : OneThread A a rows iterators workers p none (r :: rest) printed out) (hs : (setInsert r rows).2 = false) :
    OneThread A a rows iterators workers p none rest printed out := by
  obtain ⟨s, h, rfl, rfl, rfl, h1, h2, h3, rfl⟩ := h
  exact ⟨_, h.tail (.quiet _ _ _ (Or.inl (.asyncPut _ _ r rest h2 h3 (.present _ hs))) rfl), rfl, rfl, rfl, h1, h2, rfl, rfl⟩

theorem asyncThrows (h : OneThread A a rows iterators workers p none (r :: rest) printed out) (hp : p ≠ .waiting)
    (hs : setInsert r rows = (rows', true)) (ht : printLine A a.names a.tag r = .thrown) :
    OneThread A a rows' iterators workers p none [] printed out := by
  obtain ⟨s, h, rfl, rfl, rfl, h1, h2, h3, rfl⟩ := h
  exact ⟨_, h.tail (.printThrowsAsync _ _ _ r rest (Or.inl (.asyncPut _ _ r rest h2 h3 (putRow h1 hs hp))) h3 rfl rfl ht),
    by simp only [hs], rfl, rfl, h1, h2, rfl, rfl⟩

section
variable [Subsingleton (Fin a.threads)] (i : Fin a.threads)
include i

theorem start (h : OneThread A a rows iterators workers .idle none async printed out) :
    OneThread A a rows iterators workers .check none async printed out := by
  obtain ⟨s, h, rfl, rfl, rfl, h1, h2, rfl, rfl⟩ := h
  exact ⟨_, h.tail (.quiet _ _ _ (Or.inl (.start _ i (by rw [h1]) (Or.inr h2))) rfl), rfl, rfl, rfl, update _ _ _, h2, rfl, rfl⟩

theorem checkEmpty (h : OneThread A a rows [] 0 .check master async printed out) :
    OneThread A a rows [] 0 .insertEmpty master async printed out := by
  obtain ⟨s, h, rfl, h3, h4, h1, h2, rfl, rfl⟩ := h
  exact ⟨_, h.tail (.quiet _ _ _ (Or.inl (.checkEmpty _ i (by rw [h1]) h4 h3)) rfl), rfl, h3, h4, update _ _ _, h2, rfl, rfl⟩

theorem checkBusy (h : OneThread A a rows iterators workers .check master async printed out) (hb : ¬ (workers = 0 ∧ iterators = [])) :
    OneThread A a rows iterators workers .lock master async printed out := by
  obtain ⟨s, h, rfl, rfl, rfl, h1, h2, rfl, rfl⟩ := h
  exact ⟨_, h.tail (.quiet _ _ _ (Or.inl (.checkBusy _ i (by rw [h1]) hb)) rfl), rfl, rfl, rfl, update _ _ _, h2, rfl, rfl⟩

theorem insertEmpty (h : OneThread A a rows iterators workers .insertEmpty master async printed out) :
    OneThread A a (setInsert [] rows).1 iterators workers .pushEmpty master async printed out := by
  obtain ⟨s, h, rfl, rfl, rfl, h1, h2, rfl, rfl⟩ := h
  exact ⟨_, h.tail (.quiet _ _ _ (Or.inl (.insertEmpty _ i (by rw [h1]))) rfl), rfl, rfl, rfl, update _ _ _, h2, rfl, rfl⟩

theorem pushEmpty (h : OneThread A a rows iterators workers .pushEmpty master async printed out) :
    OneThread A a rows (iterators ++ [[]]) workers .lock master async printed out := by
  obtain ⟨s, h, rfl, rfl, rfl, h1, h2, rfl, rfl⟩ := h
  exact ⟨_, h.tail (.quiet _ _ _ (Or.inl (.pushEmpty _ i (by rw [h1]))) rfl), rfl, rfl, rfl, update _ _ _, h2, rfl, rfl⟩

theorem take (h : OneThread A a rows (row :: rest) workers .lock master async printed out) (hr : row ≠ []) :
    OneThread A a rows rest (workers + 1) (.working row) master async printed out := by
  obtain ⟨s, h, rfl, h3, rfl, h1, h2, rfl, rfl⟩ := h
  exact ⟨_, h.tail (.quiet _ _ _ (Or.inl (.take _ i row rest (by rw [h1]) h3 hr)) rfl), rfl, rfl, rfl, update _ _ _, h2, rfl, rfl⟩

theorem stop (h : OneThread A a rows ([] :: rest) workers .lock master async printed out) :
    OneThread A a rows ([] :: rest) (workers + 1) .stopped master async printed out := by
  obtain ⟨s, h, rfl, h3, rfl, h1, h2, rfl, rfl⟩ := h
  exact ⟨_, h.tail (.quiet _ _ _ (Or.inl (.stop _ i rest (by rw [h1]) h3)) rfl), rfl, h3, rfl, update _ _ _, h2, rfl, rfl⟩

theorem rotate (h : OneThread A a rows iterators workers (.working row) master async printed out) {fuel : Nat}
    (hr : Typed.rotation A fuel a.matrix row a.maps a.tag = some (.ok m)) :
    OneThread A a rows iterators workers (.putting row m m) master async printed out := by
  obtain ⟨s, h, rfl, rfl, rfl, h1, h2, rfl, rfl⟩ := h
  exact ⟨_, h.tail (.quiet _ _ _ (Or.inl (.rotate _ i row m (by rw [h1]) ⟨fuel, hr⟩)) rfl), rfl, rfl, rfl, update _ _ _, h2, rfl, rfl⟩

theorem putNew (h : OneThread A a rows iterators workers (.putting row all (r :: rest)) master async printed out)
    (hs : setInsert r rows = (rows', true)) (ht : printLine A a.names a.tag r = .ok t) :
    OneThread A a rows' (iterators ++ [r]) workers (.putting row all rest) master async (printed ++ [r]) (out ++ t) := by
  obtain ⟨s, h, rfl, rfl, rfl, h1, h2, rfl, rfl⟩ := h
  exact ⟨_, h.tail (.print _ _ _ r t (Or.inl (.put _ _ i row all r rest (by rw [h1]) (putRow (p := .putting row all rest) (update _ _ _) hs (by simp)))) rfl ht),
    rfl, rfl, rfl, update _ _ _, h2, rfl, rfl⟩

theorem putDup (h : OneThread A a rows iterators workers (.putting row all (r :: rest)) master async printed out)
    (hs : (setInsert r rows).2 = false) :
    OneThread A a rows iterators workers (.putting row all rest) master async printed out := by
  obtain ⟨s, h, rfl, rfl, rfl, h1, h2, rfl, rfl⟩ := h
  exact ⟨_, h.tail (.quiet _ _ _ (Or.inl (.put _ _ i row all r rest (by rw [h1]) (.present _ hs))) rfl),
    rfl, rfl, rfl, update _ _ _, h2, rfl, rfl⟩

theorem done (h : OneThread A a rows iterators workers (.putting row all []) master async printed out) :
    OneThread A a rows iterators (decrement workers) .check master async printed out := by
  obtain ⟨s, h, rfl, rfl, rfl, h1, h2, rfl, rfl⟩ := h
  exact ⟨_, h.tail (.quiet _ _ _ (Or.inl (.done _ i row all (by rw [h1]))) rfl), rfl, rfl, rfl, update _ _ _, h2, rfl, rfl⟩

end

theorem finished (h : OneThread A a rows iterators workers .stopped none [] printed out) : ADEnd A a (.finished 0 out) := by
  obtain ⟨s, h, rfl, rfl, rfl, h1, h2, h3, rfl⟩ := h
  exact ⟨rfl, s, ⟨h2, h3, fun i => by rw [h1]⟩, h⟩

end OneThread

end Panda
