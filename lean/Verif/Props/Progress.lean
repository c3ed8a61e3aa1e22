import Verif.Proofs.Progress
import Verif.Props.Pool
import Verif.Proofs.Print

/-! # C73: the progress messages

`LogReach c (s, l)`: some interleaving leads to the state `s` of the pool with the messages `l.messages` written so far.  Every
run of the pool has its messages (`C73_every_run`), so that nothing is lost by talking about `LogReach`. -/

namespace Panda

open Relation

set_option linter.unusedSectionVars false
variable {ι : Type} [DecidableEq ι] [Fintype ι] {c : PoolConfig ι} {G : Row → Prop} {s : Pool ι} {l : Log ι}

/-- the states reached with messages are the states reached -/
theorem C73_every_run : PoolReach c s ↔ ∃ l, LogReach c (s, l) :=
  ⟨fun h => h.log, fun ⟨_, h⟩ => h.pool⟩

/-- **C73.**  The announcements are numbered 1, 2, 3, … in the order in which they are written, one for each row handed out. -/
theorem C73_numbers (hG : c.Safe G) (h : LogReach c (s, l)) :
    (l.messages.filterMap fun | .processing k _ => some k | .done _ => none) = (List.range s.handed.length).map (· + 1) := by
  have := (invM hG h).numbers
  have e : (fun m : Message => match m with | .processing k _ => some k | .done _ => none) = Message.announced := by
    funext m; cases m <;> rfl
  rw [e, this]
  simp [List.range'_eq_map_range, Nat.add_comm]

/-- **C73.**  The end of a number is reported at most once; when it is, the row with this number has been handed out and all
rows that `rotation` returned for it have been printed. -/
theorem C73_done (hG : c.Safe G) (h : LogReach c (s, l)) :
    (l.messages.filterMap fun | .processing _ _ => none | .done k => some k).Nodup ∧
    ∀ k, Message.done k ∈ l.messages → 1 ≤ k ∧ ∃ p, s.handed[k - 1]? = some p ∧ ∃ m, c.Rot p.2 m ∧ ∀ x ∈ m, x ∈ s.printed := by
  have H := invM hG h
  have e : (fun m : Message => match m with | .processing _ _ => none | .done k => some k) = Message.completed := by
    funext m; cases m <;> rfl
  rw [e]
  refine ⟨H.nodup, fun k hk => ?_⟩
  obtain ⟨j, i, row, rfl, h2, h3, _⟩ := H.completed k (List.mem_filterMap.2 ⟨_, hk, rfl⟩)
  exact ⟨by omega, (i, row), by simpa using h2, h3⟩

/-- C73: the end of a number is reported after its announcement -/
theorem C73_order (hG : c.Safe G) (h : LogReach c (s, l)) {before after : List Message} {k : Nat}
    (he : l.messages = before ++ .done k :: after) : ∃ n, Message.processing k n ∈ before := by
  suffices ∀ before after k, l.messages = before ++ .done k :: after → ∃ n, Message.processing k n ∈ before from this _ _ _ he
  clear he
  refine LogReach.induct (P := fun _ l => ∀ before after k, l.messages = before ++ .done k :: after → ∃ n, Message.processing k n ∈ before) ?_ ?_ h
  · intro b a k he
    simp [Log.init] at he
  · intro s s' l l' hr H hst
    have M := invM hG hr
    cases hst with
    | take _ _ _ i row hst hh =>
      intro b a k he
      rcases List.eq_nil_or_concat a with rfl | ⟨a', x, rfl⟩
      · have := List.append_inj_right' he (by simp)
        simp at this
      · have he' : l.messages ++ [Message.processing (l.counter + 1) s.rows.length] = (b ++ .done k :: a') ++ [x] := by simpa using he
        exact H b a' k (List.append_inj_left' he' (by simp))
    | done _ _ _ i row all hst hpl hck =>
      have hb : (s.pc i).row? = some row := by rw [hpl]; rfl
      obtain ⟨n, hn1, hn2⟩ := M.busy i row hb
      intro b a k he
      dsimp only at he
      rw [if_pos (by omega)] at he
      rcases List.eq_nil_or_concat a with rfl | ⟨a', x, rfl⟩
      · have h1 := List.append_inj_right' he (by simp)
        have h2 := List.append_inj_left' he (by simp)
        simp at h1
        have hlt : n < s.handed.length := (List.getElem?_eq_some_iff.1 hn2).1
        have : n + 1 ∈ l.messages.filterMap Message.announced := by
          rw [M.numbers, List.mem_range'_1]; omega
        obtain ⟨m, hm1, hm2⟩ := List.mem_filterMap.1 this
        cases m with
        | processing k' n' =>
          simp [Message.announced] at hm2
          refine ⟨n', ?_⟩
          rw [← h2, ← h1, hn1, ← hm2]
          exact hm1
        | done k' => simp [Message.announced] at hm2
      · have he' : l.messages ++ [Message.done (l.index i)] = (b ++ .done k :: a') ++ [x] := by simpa using he
        exact H b a' k (List.append_inj_left' he' (by simp))
    | quiet _ _ _ hst hh hend => exact H

/-- C73: when everything has finished, the end of every announced number has been reported -/
theorem C73_all_done (hG : c.Safe G) (h : LogReach c (s, l)) (hf : s.Finished) {k n : Nat} (hk : Message.processing k n ∈ l.messages) :
    Message.done k ∈ l.messages := by
  have M := invM hG h
  have hk' : k ∈ l.messages.filterMap Message.announced := List.mem_filterMap.2 ⟨_, hk, rfl⟩
  rw [M.numbers, List.mem_range'_1] at hk'
  have hlt : k - 1 < s.handed.length := by omega
  rcases M.all (k - 1) (s.handed[k - 1]).1 (s.handed[k - 1]).2 (List.getElem?_eq_getElem hlt) with h1 | ⟨h1, _⟩
  · obtain ⟨m, hm1, hm2⟩ := List.mem_filterMap.1 h1
    cases m with
    | processing k' n' => simp [Message.completed] at hm2
    | done k' =>
      simp [Message.completed] at hm2
      rw [show k = k' by omega]
      exact hm1
  · rw [hf.2.2] at h1; simp [PC.row?] at h1

theorem message_bound (hG : c.Safe G) (b : Nat) (hb : ∀ s : Pool ι, PoolReach c s → ∀ row rest, s.iterators = row :: rest → row ≠ [] →
    s.rows.length ≤ s.printed.length + b) (h : LogReach c (s, l)) {k n : Nat} (hk : Message.processing k n ∈ l.messages) :
    n ≤ s.printed.length + b := by
  suffices ∀ k n, Message.processing k n ∈ l.messages → n ≤ s.printed.length + b from this _ _ hk
  clear hk
  refine LogReach.induct (P := fun s l => ∀ k n, Message.processing k n ∈ l.messages → n ≤ s.printed.length + b) ?_ ?_ h
  · intro k n h; simp [Log.init] at h
  · intro s s' l l' hr H hst
    cases hst with
    | take _ _ _ i row hst hh =>
      intro k n hk
      have hp := hst.printed_prefix.length_le
      rcases List.mem_append.1 hk with hk | hk
      · have := H k n hk; omega
      · simp at hk
        rcases hst.kind with ⟨i', row', K⟩ | ⟨i', row', all, K⟩ | K
        · obtain ⟨rest, hq⟩ := K.queue
          have := hb s hr.pool row' rest hq K.nonempty
          omega
        · rw [K.handed] at hh; simp at hh
        · rw [K.handed] at hh; simp at hh
    | done _ _ _ i row all hst hpl hck =>
      intro k n hk
      have hp := hst.printed_prefix.length_le
      have hk' : Message.processing k n ∈ l.messages := by
        rcases List.mem_append.1 hk with hk | hk
        · exact hk
        · split at hk <;> simp at hk
      have := H k n hk'; omega
    | quiet _ _ _ hst hh hend =>
      intro k n hk
      have hp := hst.printed_prefix.length_le
      have := H k n hk; omega

/-- **C73**, the true part of the last claim: without known rows, the number of classes in an announcement is a lower bound for the
number of rows that are printed. -/
theorem C73_bound_partial (hG : c.Safe G) (hk : c.known = []) (h : LogReach c (s, l)) {k n : Nat} (hm : Message.processing k n ∈ l.messages) :
    n ≤ s.printed.length := by
  refine message_bound hG 0 ?_ h hm
  intro s hs row rest hit hrow
  refine (pool_rows_length hG hs).2 fun h0 => ?_
  obtain ⟨P, hP⟩ := stopping_settled hG hs (stop_row hs h0 hG)
  rcases hP.iterators row (by rw [hit]; simp) with h | ⟨k, hk', _⟩
  · exact hrow h
  · rw [hk] at hk'; cases hk'

/-- C73: with known rows, it is too large by at most one -/
theorem C73_bound_known (hG : c.Safe G) (h : LogReach c (s, l)) {k n : Nat} (hm : Message.processing k n ∈ l.messages) :
    n ≤ s.printed.length + 1 :=
  message_bound hG 1 (fun _ hs _ _ _ _ => (pool_rows_length hG hs).1) h hm

/-- C73: the number of classes in an announcement is the number of rows printed up to then, or, with known rows, at most one more -/
theorem C73_classes (hG : c.Safe G) (h : LogReach c (s, l)) {s' : Pool ι} {l' : Log ι} (hst : LogStep c (s, l) (s', l')) {k n : Nat}
    (hm : l'.messages = l.messages ++ [.processing k n]) :
    s.printed.length ≤ n ∧ n ≤ s.printed.length + 1 ∧ (c.known = [] → n = s.printed.length) := by
  have low : s.printed.length ≤ s.rows.length := by
    have H := invA hG h.pool
    have : s.printed ⊆ s.rows := by
      intro r hr
      refine (H.rows r ?_).2 hr
      rintro rfl
      exact hG.nonempty ((invG G hG h.pool).printed _ hr)
    exact (H.nodup.subperm this).length_le
  cases hst with
  | take _ _ _ i row hst hh =>
    have e := List.append_cancel_left hm
    simp only [List.cons.injEq, Message.processing.injEq, and_true] at e
    obtain ⟨_, rfl⟩ := e
    refine ⟨low, (pool_rows_length hG h.pool).1, fun hk => ?_⟩
    refine Nat.le_antisymm ((pool_rows_length hG h.pool).2 fun h0 => ?_) low
    rcases hst.kind with ⟨i', row', K⟩ | ⟨i', row', all, K⟩ | K
    · obtain ⟨rest, hq⟩ := K.queue
      obtain ⟨P, hP⟩ := stopping_settled hG h.pool (stop_row h.pool h0 hG)
      rcases hP.iterators row' (by rw [hq]; simp) with h | ⟨k, hk', _⟩
      · exact K.nonempty h
      · rw [hk] at hk'; cases hk'
    · rw [K.handed] at hh; simp at hh
    · rw [K.handed] at hh; simp at hh
  | done _ _ _ i row all hst hpl hck =>
    have e := List.append_cancel_left hm
    split at e <;> simp at e
  | quiet _ _ _ hst hh hend => simp at hm

/-- C73: a row is announced only when its message does not contradict itself: the number is not larger than the number of classes -/
theorem C73_number_le (hG : c.Safe G) (h : LogReach c (s, l)) {k n : Nat} (hm : Message.processing k n ∈ l.messages) : k ≤ n := by
  suffices ∀ k n, Message.processing k n ∈ l.messages → k ≤ n from this _ _ hm
  clear hm
  refine LogReach.induct (P := fun _ l => ∀ k n, Message.processing k n ∈ l.messages → k ≤ n) ?_ ?_ h
  · intro k n h; simp [Log.init] at h
  · intro s s' l l' hr H hst k n hk
    cases hst with
    | take _ _ _ i row hst hh =>
      have hc := C73_classes hG hr (.take s s' l i row hst hh) (k := l.counter + 1) (n := s.rows.length) rfl
      rcases List.mem_append.1 hk with hk | hk
      · exact H k n hk
      · simp only [List.mem_singleton, Message.processing.injEq] at hk
        rw [hk.1, hk.2, (invM hG hr).counter]
        rcases hst.kind with ⟨i', row', K⟩ | ⟨i', row', all, K⟩ | K
        · obtain ⟨rest, hq⟩ := K.queue
          have := congrArg List.length (invA hG hr.pool).queue
          rw [hq] at this
          simp [K.nonempty] at this
          omega
        · rw [K.handed] at hh; simp at hh
        · rw [K.handed] at hh; simp at hh
    | done _ _ _ i row all hst hpl hck =>
      rcases List.mem_append.1 hk with hk | hk
      · exact H k n hk
      · split at hk <;> simp at hk
    | quiet _ _ _ hst hh hend => exact H k n hk

/-- C73: the text of the lines -/
theorem C73_text (k n : Nat) :
    (∃ a b, Spec.Numeral a k ∧ Spec.Numeral b n ∧ (Message.processing k n).text = "Processing #".toList ++ a ++ " of at least ".toList ++ b ++
      (if n = 1 then " class\n".toList else " classes\n".toList)) ∧
    ∃ a, Spec.Numeral a k ∧ (Message.done k).text = "Done processing #".toList ++ a ++ ['\n'] := by
  refine ⟨⟨printInt k, printInt n, printInt_numeral _, printInt_numeral _, ?_⟩, printInt k, printInt_numeral _, by unfold Message.text; dsimp only⟩
  have h1 : " class\n".toList = " class".toList ++ [] ++ ['\n'] := by decide +kernel
  have h2 : " classes\n".toList = " class".toList ++ "es".toList ++ ['\n'] := by decide +kernel
  unfold Message.text
  dsimp only
  by_cases h : n = 1
  · rw [if_pos h, if_pos h, h1]; simp only [List.append_assoc]
  · rw [if_neg h, if_neg h, h2]; simp only [List.append_assoc]

/-! ## The bound is wrong with a known row -/

/-- one thread, one initial row, one known row, no further rows -/
def latePool : PoolConfig (Fin 1) :=
  { remote := fun _ => False, Rot := fun _ m => m = [], initial := [[1]], known := [[2]] }

theorem latePool_safe : latePool.Safe (fun r => r ∈ ([[1], [2]] : List Row)) :=
  ⟨by decide, by simp [latePool], by simp [latePool], by intro r m _ hm x hx; rw [show m = [] from hm] at hx; cases hx⟩

namespace Late

/-- a state of the single thread -/
def st (rows it : List Row) (w : Nat) (p : PC) (master : Option Matrix) (async : Matrix) (printed submitted : List Row)
    (handed : List (Fin 1 × Row)) : Pool (Fin 1) := ⟨rows, it, w, fun _ => p, master, async, printed, submitted, handed⟩

theorem up (p q : PC) (i : Fin 1) : Function.update (fun _ : Fin 1 => p) i q = fun _ => q := by
  funext j; rw [Subsingleton.elim j i]; simp

variable {rows it : List Row} {w : Nat} {p : PC} {master : Option Matrix} {async : Matrix} {printed submitted : List Row}
  {handed : List (Fin 1 × Row)} {l : Log (Fin 1)}

theorem quiet {q : PC} {rows' it' : List Row} {w' : Nat} {master' : Option Matrix} {async' : Matrix} {printed' submitted' : List Row}
    (h : LogReach latePool (st rows it w p master async printed submitted handed, l))
    (hst : PoolStep latePool (st rows it w p master async printed submitted handed) (st rows' it' w' q master' async' printed' submitted' handed))
    (hp : ∀ row all, p = .putting row all [] → q = p) :
    LogReach latePool (st rows' it' w' q master' async' printed' submitted' handed, l) :=
  h.tail (.quiet _ _ _ hst rfl fun i row all (hi : p = _) => show q = _ by rw [hp row all hi, hi])

theorem start (h : LogReach latePool (st rows it w .idle none async printed submitted handed, l)) :
    LogReach latePool (st rows it w .check none async printed submitted handed, l) := by
  refine quiet h (.inl ?_) (by simp)
  have := Progress.start (c := latePool) (st rows it w .idle none async printed submitted handed) 0 rfl (.inr rfl)
  simpa [st, up] using this

theorem busy (h : LogReach latePool (st rows it w .check master async printed submitted handed, l)) (hb : ¬ (w = 0 ∧ it = [])) :
    LogReach latePool (st rows it w .lock master async printed submitted handed, l) := by
  refine quiet h (.inl ?_) (by simp)
  have := Progress.checkBusy (c := latePool) (st rows it w .check master async printed submitted handed) 0 rfl hb
  simpa [st, up] using this

theorem empty (h : LogReach latePool (st rows [] 0 .check master async printed submitted handed, l)) :
    LogReach latePool (st rows [] 0 .insertEmpty master async printed submitted handed, l) := by
  refine quiet h (.inl ?_) (by simp)
  have := Progress.checkEmpty (c := latePool) (st rows [] 0 .check master async printed submitted handed) 0 rfl rfl rfl
  simpa [st, up] using this

theorem insert (h : LogReach latePool (st rows it w .insertEmpty master async printed submitted handed, l)) :
    LogReach latePool (st (setInsert [] rows).1 it w .pushEmpty master async printed submitted handed, l) := by
  refine quiet h (.inl ?_) (by simp)
  have := Progress.insertEmpty (c := latePool) (st rows it w .insertEmpty master async printed submitted handed) 0 rfl
  simpa [st, up] using this

theorem push (h : LogReach latePool (st rows it w .pushEmpty master async printed submitted handed, l)) :
    LogReach latePool (st rows (it ++ [[]]) w .lock master async printed submitted handed, l) := by
  refine quiet h (.inl ?_) (by simp)
  have := Progress.pushEmpty (c := latePool) (st rows it w .pushEmpty master async printed submitted handed) 0 rfl
  have e : notifyAll (fun _ : Fin 1 => PC.pushEmpty) = fun _ => .pushEmpty := by funext j; simp [notifyAll]
  simpa [st, up, e] using this

theorem take {row : Row} {rest : List Row} (h : LogReach latePool (st rows (row :: rest) w .lock master async printed submitted handed, l))
    (hr : row ≠ []) :
    LogReach latePool (st rows rest (w + 1) (.working row) master async printed submitted (handed ++ [(0, row)]),
      ⟨l.counter + 1, fun _ => l.counter + 1, l.messages ++ [.processing (l.counter + 1) rows.length]⟩) := by
  have h1 : Progress latePool (st rows (row :: rest) w .lock master async printed submitted handed)
      (st rows rest (w + 1) (.working row) master async printed submitted (handed ++ [(0, row)])) := by
    have := Progress.take (c := latePool) (st rows (row :: rest) w .lock master async printed submitted handed) 0 row rest rfl rfl hr
    simpa [st, up] using this
  have h2 := h.tail (.take _ _ l 0 row (.inl h1) rfl)
  have e : Function.update l.index 0 (l.counter + 1) = fun _ => l.counter + 1 := by
    funext j; rw [Subsingleton.elim j 0]; simp
  rw [e] at h2
  exact h2

theorem stop {rest : List Row} (h : LogReach latePool (st rows ([] :: rest) w .lock master async printed submitted handed, l)) :
    LogReach latePool (st rows ([] :: rest) (w + 1) .stopped master async printed submitted handed, l) := by
  refine quiet h (.inl ?_) (by simp)
  have := Progress.stop (c := latePool) (st rows ([] :: rest) w .lock master async printed submitted handed) 0 rest rfl rfl
  simpa [st, up] using this

theorem rotate {row : Row} (h : LogReach latePool (st rows it w (.working row) master async printed submitted handed, l)) :
    LogReach latePool (st rows it w (.putting row [] []) master async printed submitted handed, l) := by
  refine quiet h (.inl ?_) (by simp)
  have := Progress.rotate (c := latePool) (st rows it w (.working row) master async printed submitted handed) 0 row [] rfl rfl
  simpa [st, up] using this

theorem done {row : Row} {k : Nat} {ms : List Message}
    (h : LogReach latePool (st rows it (w + 1) (.putting row [] []) master async printed submitted handed, ⟨k + 1, fun _ => k + 1, ms⟩)) :
    LogReach latePool (st rows it w .check master async printed submitted handed, ⟨k + 1, fun _ => k + 1, ms ++ [.done (k + 1)]⟩) := by
  have h1 : Progress latePool (st rows it (w + 1) (.putting row [] []) master async printed submitted handed)
      (st rows it w .check master async printed submitted handed) := by
    have := Progress.done (c := latePool) (st rows it (w + 1) (.putting row [] []) master async printed submitted handed) 0 row [] rfl
    simpa [st, up, decrement] using this
  have h2 := h.tail (.done _ _ _ 0 row [] (.inl h1) rfl rfl)
  unfold LogReach
  simpa using h2

theorem masterPut {r : Row} {rest : Matrix} (h : LogReach latePool (st rows it w p (some (r :: rest)) async printed submitted handed, l))
    (hn : (setInsert r rows).2 = true) (hp : p ≠ .waiting) :
    LogReach latePool (st (setInsert r rows).1 (it ++ [r]) w p (some rest) async (printed ++ [r]) (submitted ++ [r]) handed, l) := by
  refine quiet h (.inl (Progress.masterPut _ _ r rest rfl ?_)) (by simp)
  exact .added (st rows it w p (some rest) async printed submitted handed) _ hn (.inl ⟨fun _ => hp, rfl⟩)

theorem masterDone (h : LogReach latePool (st rows it 1 p (some []) async printed submitted handed, l)) :
    LogReach latePool (st rows it 0 p none async printed submitted handed, l) := by
  refine quiet h (.inl ?_) (by simp)
  exact Progress.masterDone (c := latePool) (st rows it 1 p (some []) async printed submitted handed) rfl

theorem asyncPut {r : Row} {rest : Matrix} (h : LogReach latePool (st rows it w p none (r :: rest) printed submitted handed, l))
    (hn : (setInsert r rows).2 = true) (hp : p ≠ .waiting) :
    LogReach latePool (st (setInsert r rows).1 (it ++ [r]) w p none rest (printed ++ [r]) (submitted ++ [r]) handed, l) := by
  refine quiet h (.inl (Progress.asyncPut _ _ r rest rfl rfl ?_)) (by simp)
  exact .added (st rows it w p none rest printed submitted handed) _ hn (.inl ⟨fun _ => hp, rfl⟩)

end Late

open Late in
/-- **C73 is false with known rows**: the stop signal, inserted into the set of rows although a known row is still to come, is counted as
a class.  Two rows are printed, but the second is announced as one of at least three. -/
theorem C73_bound_false : ∃ s l, LogReach latePool (s, l) ∧ s.Finished ∧ s.printed.length = 2 ∧ Message.processing 2 3 ∈ l.messages := by
  have h0 : LogReach latePool (st [] [] 1 .idle (some [[1]]) [[2]] [] [] [], Log.init) := .refl
  have h1 := start (masterDone (masterPut h0 (by decide) (by simp)))
  have h2 := rotate (take (busy h1 (by simp)) (by simp))
  have h3 := insert (empty (done h2))
  have h4 := take (push (asyncPut h3 (by decide) (by simp))) (by simp)
  have h5 := done (rotate h4)
  have h6 := stop (busy h5 (by simp))
  refine ⟨_, _, h6, ⟨rfl, rfl, fun _ => rfl⟩, rfl, ?_⟩
  decide +kernel

/-- the lines of this run -/
example : (Message.processing 2 3).text = "Processing #2 of at least 3 classes\n".toList ∧
    (Message.processing 1 1).text = "Processing #1 of at least 1 class\n".toList ∧ (Message.done 12).text = "Done processing #12\n".toList := by
  decide +kernel

/-- the hypotheses can be met: two threads and a request thread, finished, with messages -/
example : ∃ s l, LogReach examplePool (s, l) ∧ s.Finished := by
  obtain ⟨s, h1, h2⟩ := C28_can_finish examplePool_safe examplePool_finite ⟨1, by simp [examplePool]⟩ examplePool_total (s := Pool.init examplePool) .refl
  obtain ⟨l, hl⟩ := PoolReach.log (c := examplePool) (s := s) (by
    clear h2
    induction h1 with
    | refl => exact .refl
    | tail _ h ih => exact ih.tail (.inl h))
  exact ⟨s, l, hl, h2⟩

end Panda
