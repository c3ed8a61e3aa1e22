import Verif.Model.Communication
import Verif.Spec.Text
import Verif.Props.Arith
import Mathlib.Algebra.BigOperators.Group.Finset.Basic
import Mathlib.Data.Fintype.Basic

/-! # C50: messages between nodes -/

namespace Panda.Spec

/-- a matrix that can be sent: at least one row, rows of one positive size, entries in the range of `int`; sizes that fit -/
def Sendable (m : List (List Int)) : Prop :=
  m ≠ [] ∧ m.length < 2 ^ 64 ∧ ∃ n, 0 < n ∧ 4 * n < 2147483648 ∧ ∀ r ∈ m, r.length = n ∧ ∀ x ∈ r, IsInt x

end Panda.Spec

namespace Panda.Mpi

open Relation

theorem bytesOf_length : ∀ k x, (bytesOf k x).length = k
  | 0, _ => rfl
  | k + 1, x => by simp [bytesOf, bytesOf_length k]

theorem natOf_bytesOf : ∀ k x, natOf (bytesOf k x) = x % 256 ^ k
  | 0, x => by simp [natOf, bytesOf, Nat.mod_one]
  | k + 1, x => by
    rw [bytesOf, natOf, natOf_bytesOf k, BitVec.toNat_ofNat, show 256 ^ (k + 1) = 256 * 256 ^ k by ring, Nat.mod_mul]

theorem encodeInt_length (z : Int) : (encodeInt z).length = 4 := bytesOf_length _ _

theorem decode_encode {z : Int} (h : Spec.IsInt z) : decodeInt (encodeInt z) = z := by
  unfold decodeInt encodeInt
  rw [natOf_bytesOf]
  obtain ⟨h1, h2⟩ := h
  rw [BitVec.toInt_ofNat']
  have h3 : ((z % 4294967296).toNat : Int) = z % 4294967296 := Int.toNat_of_nonneg (by omega)
  have h4 : (z % 4294967296).toNat < 4294967296 := by omega
  rw [show (256 : Nat) ^ 4 = 4294967296 by norm_num, Nat.mod_eq_of_lt h4, h3]
  rw [Int.bmod_def]
  norm_num
  split <;> omega

theorem encodeRow_length (r : Row) : (encodeRow r).length = 4 * r.length := by
  induction r with
  | nil => rfl
  | cons z r ih => rw [encodeRow, List.flatMap_cons, List.length_append, encodeInt_length, ← encodeRow, ih, List.length_cons]; ring

theorem decodeRow_encode : ∀ {r : Row}, (∀ x ∈ r, Spec.IsInt x) → decodeRow r.length (encodeRow r) = r
  | [], _ => rfl
  | z :: r, h => by
    rw [List.length_cons, decodeRow, encodeRow, List.flatMap_cons, List.take_append_of_le_length (by simp [encodeInt_length]),
      List.take_of_length_le (by simp [encodeInt_length]), decode_encode (h z (by simp)), ← encodeInt_length z, List.drop_left,
      ← encodeRow, decodeRow_encode fun x hx => h x (by simp [hx])]

/-- the messages of a matrix with rows of size `n` -/
def encode (n : Nat) (m : Matrix) : List Message := bytesOf 8 m.length :: bytesOf 8 n :: m.map encodeRow

theorem rowMessages_eq {n : Nat} (hn : 0 < n) : ∀ {m : Matrix}, (∀ r ∈ m, r.length = n) → rowMessages n m = .ok (m.map encodeRow)
  | [], _ => rfl
  | r :: m, h => by
    have hr := h r (by simp)
    rw [rowMessages, if_neg (by rintro (h0 | h0); · rw [h0] at hr; simp at hr; omega
                                · omega), rowMessages_eq hn fun r hr => h r (by simp [hr]), List.take_of_length_le hr.le]
    rfl

theorem toMaster_eq {n : Nat} {m : Matrix} (hn : 0 < n) (hb : 4 * n < 2147483648) (hm : m ≠ []) (h : ∀ r ∈ m, r.length = n) :
    toMaster m = .ok (encode n m) := by
  unfold toMaster
  rw [List.getLast?_eq_some_getLast hm]
  have hl := h _ (List.getLast_mem hm)
  simp only
  rw [hl, if_neg (by omega), rowMessages_eq hn h]
  rfl

theorem receiveRows_eq {n : Nat} (hn : 0 < n) (rest : List Message) : ∀ {m : Matrix}, (∀ r ∈ m, r.length = n ∧ ∀ x ∈ r, Spec.IsInt x) →
    receiveRows n m.length (m.map encodeRow ++ rest) = some (.ok (m, rest))
  | [], _ => rfl
  | r :: m, h => by
    obtain ⟨hr, hi⟩ := h r (by simp)
    have hd := decodeRow_encode hi
    rw [hr] at hd
    rw [List.length_cons, receiveRows, if_neg (by omega), List.map_cons, List.cons_append, receive, if_neg (by rw [encodeRow_length, hr]; simp)]
    have ih := receiveRows_eq (m := m) hn rest fun r' hr' => h r' (by simp [hr'])
    simp only [Run.bind, ih, hd]

theorem fromSlave_eq {n : Nat} (hn : 0 < n) (hb : 4 * n < 2147483648) {m : Matrix} (hl : m.length < 2 ^ 64)
    (h : ∀ r ∈ m, r.length = n ∧ ∀ x ∈ r, Spec.IsInt x) (rest : List Message) :
    fromSlave (encode n m ++ rest) = some (.ok (m, rest)) := by
  unfold fromSlave encode
  simp only [List.cons_append, receive, bytesOf_length, ne_eq, not_true_eq_false, if_false, Run.bind]
  rw [natOf_bytesOf, natOf_bytesOf, Nat.mod_eq_of_lt (a := m.length) (by rw [show 256 ^ 8 = 2 ^ 64 by norm_num]; exact hl),
    Nat.mod_eq_of_lt (a := n) (by norm_num; omega)]
  exact receiveRows_eq hn rest h

theorem receiveRows_prefix {n : Nat} (hn : 0 < n) : ∀ {m : Matrix} {p : List Message}, (∀ r ∈ m, r.length = n ∧ ∀ x ∈ r, Spec.IsInt x) →
    p <+: m.map encodeRow → p ≠ m.map encodeRow → receiveRows n m.length p = none
  | [], p, _, h1, h2 => by simp at h1; exact absurd h1 h2
  | r :: m, [], _, _, _ => by rw [List.length_cons, receiveRows, if_neg (by omega)]; rfl
  | r :: m, x :: p, h, h1, h2 => by
    rw [List.map_cons, List.cons_prefix_cons] at h1
    obtain ⟨hr, -⟩ := h r (by simp)
    rw [List.length_cons, receiveRows, if_neg (by omega), receive, if_neg (by rw [h1.1, encodeRow_length, hr]; simp)]
    simp only [Run.bind]
    rw [receiveRows_prefix hn (fun r hr => h r (by simp [hr])) h1.2 (fun e => h2 (by rw [h1.1, e, List.map_cons]))]

theorem fromSlave_prefix {n : Nat} (hn : 0 < n) (hb : 4 * n < 2147483648) {m : Matrix} (hl : m.length < 2 ^ 64)
    (h : ∀ r ∈ m, r.length = n ∧ ∀ x ∈ r, Spec.IsInt x) {p : List Message} (h1 : p <+: encode n m) (h2 : p ≠ encode n m) :
    fromSlave p = none := by
  unfold encode at h1 h2
  unfold fromSlave
  match p, h1, h2 with
  | [], _, _ => rfl
  | [x], h1, _ =>
    rw [List.cons_prefix_cons] at h1
    rw [receive, if_neg (by rw [h1.1, bytesOf_length]; simp)]
    rfl
  | x :: y :: p, h1, h2 =>
    rw [List.cons_prefix_cons, List.cons_prefix_cons] at h1
    obtain ⟨rfl, rfl, h1⟩ := h1
    simp only [receive, bytesOf_length, ne_eq, not_true_eq_false, if_false, Run.bind]
    rw [natOf_bytesOf, natOf_bytesOf, Nat.mod_eq_of_lt (a := m.length) (by rw [show 256 ^ 8 = 2 ^ 64 by norm_num]; exact hl),
      Nat.mod_eq_of_lt (a := n) (by norm_num; omega)]
    exact receiveRows_prefix hn h h1 fun e => h2 (by rw [e])

/-- **C50** A matrix that has been sent to the master is received as the same matrix: whatever follows its messages is left
for the next call, and as long as not all of its messages have arrived the receiver waits. -/
theorem C50_matrix {m : Matrix} (h : Spec.Sendable m) :
    ∃ ms, toMaster m = .ok ms ∧ ms ≠ [] ∧ (∀ rest, fromSlave (ms ++ rest) = some (.ok (m, rest))) ∧
      ∀ p, p <+: ms → p ≠ ms → fromSlave p = none := by
  obtain ⟨h0, h1, n, hn, hb, h2⟩ := h
  exact ⟨encode n m, toMaster_eq hn hb h0 (fun r hr => (h2 r hr).1), by simp [encode], fun rest => fromSlave_eq hn hb h1 h2 rest,
    fun p hp hp' => fromSlave_prefix hn hb h1 h2 hp hp'⟩

/-- **C50** A row (also the empty row, which tells the slave to stop) is received as the same row. -/
theorem C50_row {r : Row} (h : ∀ x ∈ r, Spec.IsInt x) (hb : 4 * r.length < 2147483648) :
    ∃ x, toSlave r = .ok x ∧ ∀ rest, fromMaster (x :: rest) = some (.ok (r, rest)) := by
  refine ⟨encodeRow r, by rw [toSlave, if_neg (by omega)], fun rest => ?_⟩
  have : (encodeRow r).length / 4 = r.length := by rw [encodeRow_length]; omega
  rw [fromMaster, this, receive, if_neg (by rw [encodeRow_length]; simp)]
  simp only [Run.bind, decodeRow_encode h]

example : toMaster [[1, -2], [-2147483648, 2147483647]] =
    .ok [[2, 0, 0, 0, 0, 0, 0, 0], [2, 0, 0, 0, 0, 0, 0, 0], [1, 0, 0, 0, 254, 255, 255, 255], [0, 0, 0, 128, 255, 255, 255, 127]] := by
  decide +kernel

/-- **C50** is limited to matrices with at least one row (a node whose rotation finds nothing has nothing to send) -/
theorem C50_empty_false : toMaster [] = .ub := rfl

section
variable {ι κ : Type} [DecidableEq ι] [DecidableEq κ]

/-- the messages of a matrix -/
noncomputable def messages (m : Matrix) : List Message := match toMaster m with | .ok ms => ms | _ => []

theorem messages_eq {m : Matrix} {ms : List Message} (h : toMaster m = .ok ms) : messages m = ms := by unfold messages; rw [h]

/-- still to be posted -/
def remaining (s : Channel ι κ) : List Message :=
  match s.slave with
  | none => []
  | some i => match s.pc i with
    | .posting _ rest => rest
    | _ => []

structure Inv (s : Channel ι κ) : Prop where
  holder : ∀ i, s.slave = some i → ∃ h rest, s.pc i = .posting h rest
  lock : ∀ i h rest, s.pc i = .posting h rest → s.slave = some i
  part : s.partly = [] ∨ s.master ≠ none
  wait : fromSlave s.partly = none
  order : ∃ tail, s.sent = s.received ++ tail ∧
    s.partly ++ s.arrived ++ s.posted.map (·.message) ++ remaining s = tail.flatMap messages

theorem cases_prefix {α : Type} {a b c d : List α} (h : a ++ b = c ++ d) : (∃ e, c = a ++ e ∧ b = e ++ d) ∨ ∃ e, a = c ++ e ∧ d = e ++ b := by
  rcases List.append_eq_append_iff.1 h with ⟨e, h1, h2⟩ | ⟨e, h1, h2⟩
  · exact Or.inl ⟨e, h1, h2⟩
  · exact Or.inr ⟨e, h1, h2⟩

/-- what the receiver gets with the next message -/
theorem next_message {s : Channel ι κ} (h : Inv s) (hs : ∀ m ∈ s.sent, Spec.Sendable m) {x : Message} {rest : List Message}
    (hx : s.arrived = x :: rest) :
    ∃ m tail, s.sent = s.received ++ m :: tail ∧ (fromSlave (s.partly ++ [x]) = none ∨
      (fromSlave (s.partly ++ [x]) = some (.ok (m, [])) ∧
        rest ++ s.posted.map (·.message) ++ remaining s = tail.flatMap messages)) := by
  obtain ⟨tail, h1, h2⟩ := h.order
  rw [hx] at h2
  match tail, h1, h2 with
  | [], _, h2 => simp at h2
  | m :: tail, h1, h2 =>
    refine ⟨m, tail, h1, ?_⟩
    obtain ⟨ms, k1, k2, k3, k4⟩ := C50_matrix (hs m (by rw [h1]; simp))
    rw [List.flatMap_cons, messages_eq k1] at h2
    have h2 : (s.partly ++ [x]) ++ (rest ++ s.posted.map (·.message) ++ remaining s) = ms ++ tail.flatMap messages := by
      rw [← h2]; simp
    rcases cases_prefix h2 with ⟨e, e1, e2⟩ | ⟨e, e1, e2⟩
    · by_cases he : e = []
      · right
        rw [he, List.append_nil] at e1
        rw [← e1]
        have := k3 []
        rw [List.append_nil] at this
        exact ⟨this, by rw [e2, he, List.nil_append]⟩
      · left
        refine k4 _ ⟨e, e1.symm⟩ fun h0 => he ?_
        rw [h0] at e1
        exact List.append_right_eq_self.1 e1.symm
    · by_cases he : e = []
      · right
        rw [he, List.append_nil] at e1
        rw [e1]
        have := k3 []
        rw [List.append_nil] at this
        exact ⟨this, by rw [e2, he, List.nil_append]⟩
      · exfalso
        obtain ⟨e', y, rfl⟩ : ∃ e' y, e = e' ++ [y] := ⟨e.dropLast, e.getLast he, (List.dropLast_append_getLast he).symm⟩
        rw [← List.append_assoc] at e1
        obtain ⟨e3, -⟩ := List.append_inj' e1 rfl
        have := h.wait
        rw [e3, k3 e'] at this
        simp at this

theorem Inv.init : Inv ({} : Channel ι κ) :=
  ⟨by simp, by simp, Or.inl rfl, rfl, [], rfl, rfl⟩

theorem Inv.step {eager : Bool} {s s' : Channel ι κ} (h : Inv s) (hstep : ChannelStep eager s s') (hu : s'.undefined = false)
    (hs : ∀ m ∈ s'.sent, Spec.Sendable m) : Inv s' := by
  cases hstep with
  | enter i m ms h1 h2 h3 =>
    obtain ⟨tail, o1, o2⟩ := h.order
    have o2' : s.partly ++ s.arrived ++ s.posted.map (·.message) = tail.flatMap messages := by
      rw [← o2]; simp [remaining, h2]
    refine ⟨?_, ?_, h.part, h.wait, tail ++ [m], by simp [o1], ?_⟩
    · intro j hj
      simp only [Option.some.injEq] at hj
      subst hj
      exact ⟨2, ms, by simp⟩
    · intro j k rest hj
      by_cases e : j = i
      · rw [e]
      · simp only [Function.update_of_ne e] at hj
        have := h.lock j k rest hj
        rw [h2] at this; simp at this
    · simp only [remaining, Function.update_self, List.flatMap_append, List.flatMap_cons, List.flatMap_nil, List.append_nil,
        messages_eq h3]
      rw [← o2']
  | post i k x rest h1 h2 =>
    obtain ⟨tail, o1, o2⟩ := h.order
    refine ⟨?_, ?_, h.part, h.wait, tail, o1, ?_⟩
    · intro j hj
      have hj : s.slave = some j := hj
      rw [h2] at hj
      simp only [Option.some.injEq] at hj
      subst hj
      exact ⟨k - 1, rest, by simp⟩
    · intro j k' rest' hj
      by_cases e : j = i
      · rw [e]; exact h2
      · simp only [Function.update_of_ne e] at hj
        exact h.lock j k' rest' hj
    · rw [← o2]
      simp [remaining, h2, h1]
  | leave i k h1 h2 =>
    obtain ⟨tail, o1, o2⟩ := h.order
    refine ⟨by simp, ?_, h.part, h.wait, tail, o1, ?_⟩
    · intro j k' rest' hj
      by_cases e : j = i
      · rw [e] at hj; simp at hj
      · simp only [Function.update_of_ne e] at hj
        have := h.lock j k' rest' hj
        rw [h2] at this
        simp only [Option.some.injEq] at this
        exact absurd this.symm e
    · rw [← o2]
      simp [remaining, h2, h1]
  | garbage x rest y h1 h2 h3 => simp at hu
  | transfer x rest h1 h2 =>
    obtain ⟨tail, o1, o2⟩ := h.order
    refine ⟨h.holder, h.lock, h.part, h.wait, tail, o1, ?_⟩
    rw [← o2, h1]
    simp [remaining]
  | finish i h1 h2 =>
    obtain ⟨tail, o1, o2⟩ := h.order
    refine ⟨?_, ?_, h.part, h.wait, tail, o1, ?_⟩
    · intro j hj
      obtain ⟨k, rest, hk⟩ := h.holder j hj
      refine ⟨k, rest, ?_⟩
      by_cases e : j = i
      · rw [e, h1] at hk; simp at hk
      · simp only [Function.update_of_ne e, hk]
    · intro j k' rest' hj
      by_cases e : j = i
      · rw [e] at hj; simp at hj
      · simp only [Function.update_of_ne e] at hj
        exact h.lock j k' rest' hj
    · rw [← o2]
      unfold remaining
      cases hsl : s.slave with
      | none => simp
      | some j =>
        obtain ⟨k, rest, hk⟩ := h.holder j hsl
        have e : j ≠ i := by rintro rfl; rw [h1] at hk; simp at hk
        simp [hk, e]
  | probe k h1 h2 =>
    have hp : s.partly = [] := h.part.resolve_right (by rw [h1]; simp)
    obtain ⟨tail, o1, o2⟩ := h.order
    refine ⟨h.holder, h.lock, Or.inl rfl, rfl, tail, o1, ?_⟩
    rw [← o2, hp]
    simp [remaining]
  | next k x rest h1 h2 h3 =>
    obtain ⟨tail, o1, o2⟩ := h.order
    refine ⟨h.holder, h.lock, Or.inr (by simp [h1]), h3, tail, o1, ?_⟩
    rw [← o2, h2]
    simp [remaining]
  | last k x rest m h1 h2 h3 =>
    obtain ⟨m', tail, o1, o2⟩ := next_message h hs h2
    rcases o2 with o2 | ⟨o2, o3⟩
    · rw [o2] at h3; simp at h3
    · rw [o2] at h3
      simp only [Option.some.injEq, Outcome.ok.injEq, Prod.mk.injEq, and_true] at h3
      subst h3
      refine ⟨h.holder, h.lock, Or.inl rfl, rfl, tail, by simp [o1], ?_⟩
      rw [← o3]
      simp [remaining]

theorem sent_mono {eager : Bool} {s s' : Channel ι κ} (hstep : ChannelStep eager s s') : s.sent <+: s'.sent := by
  cases hstep <;> simp

theorem undefined_mono {eager : Bool} {s s' : Channel ι κ} (hstep : ChannelStep eager s s') (h : s'.undefined = false) :
    s.undefined = false := by
  cases hstep <;> first | exact h | simp at h

theorem inv {eager : Bool} {s : Channel ι κ} (h : ChannelReach eager s) (hu : s.undefined = false) (hs : ∀ m ∈ s.sent, Spec.Sendable m) :
    Inv s := by
  induction h with
  | refl => exact Inv.init
  | tail _ hstep ih => exact (ih (undefined_mono hstep hu) fun m hm => hs m ((sent_mono hstep).subset hm)).step hstep hu hs

/-- **C50** Threads of a slave send matrices to the master, threads of the master receive them, in any interleaving of their
steps with those of the network.  As long as no buffer has been read after the end of its life, the matrices received so far
are the first of those sent, in the order of sending (not mixed, not changed, none lost, none twice); receiving never
fails; and if nothing is under way all of them have been received. -/
theorem C50_intact {eager : Bool} {s : Channel ι κ} (h : ChannelReach eager s) (hu : s.undefined = false)
    (hs : ∀ m ∈ s.sent, Spec.Sendable m) :
    s.received <+: s.sent ∧ ¬ s.Fails ∧
      (s.slave = none → s.posted = [] → s.arrived = [] → s.partly = [] → s.received = s.sent) := by
  have H := inv h hu hs
  refine ⟨?_, ?_, ?_⟩
  · obtain ⟨tail, o1, -⟩ := H.order
    exact ⟨tail, o1.symm⟩
  · rintro ⟨k, x, rest, -, h2, h3, h4⟩
    obtain ⟨m, tail, -, o⟩ := next_message H hs h2
    rcases o with o | ⟨o, -⟩
    · exact h3 o
    · exact h4 m o
  · intro h1 h2 h3 h4
    obtain ⟨tail, o1, o2⟩ := H.order
    match tail, o1, o2 with
    | [], o1, _ => rw [o1, List.append_nil]
    | m :: tail, o1, o2 =>
      exfalso
      obtain ⟨ms, k1, k2, -⟩ := C50_matrix (hs m (by rw [o1]; simp))
      simp only [h2, h3, h4, remaining, h1, List.flatMap_cons, messages_eq k1, List.map_nil, List.append_nil] at o2
      exact k2 (List.append_eq_nil_iff.1 o2.symm).1

/-- **C50** As long as not everything that was sent has been received, some thread or the network can make a step that is not
the start of another transmission: nobody waits for ever. -/
theorem C50_progress [Nonempty κ] {eager : Bool} {s : Channel ι κ} (h : ChannelReach eager s) (hs : ∀ m ∈ s.sent, Spec.Sendable m)
    (hu : s.undefined = false) (hr : s.received ≠ s.sent) : ∃ s', ChannelStep eager s s' ∧ s'.sent = s.sent := by
  have H := inv h hu hs
  cases hsl : s.slave with
  | some i =>
    obtain ⟨k, rest, hk⟩ := H.holder i hsl
    match rest, hk with
    | [], hk => exact ⟨_, .leave s i k hk hsl, rfl⟩
    | x :: rest, hk => exact ⟨_, .post s i k x rest hk hsl, rfl⟩
  | none =>
    match hp : s.posted with
    | x :: rest =>
      by_cases hd : s.Dangling eager x
      · exact ⟨_, .garbage s x rest x.message hp hd rfl, rfl⟩
      · exact ⟨_, .transfer s x rest hp hd, rfl⟩
    | [] =>
      match ha : s.arrived with
      | x :: rest =>
        cases hm : s.master with
        | none => exact ⟨_, .probe s (Classical.arbitrary κ) hm (by rw [ha]; simp), rfl⟩
        | some k =>
          obtain ⟨m, tail, -, o⟩ := next_message H hs ha
          rcases o with o | ⟨o, -⟩
          · exact ⟨_, .next s k x rest hm ha o, rfl⟩
          · exact ⟨_, .last s k x rest m hm ha o, rfl⟩
      | [] =>
        exfalso
        obtain ⟨tail, o1, o2⟩ := H.order
        rw [hp, ha] at o2
        simp only [remaining, hsl, List.map_nil, List.append_nil] at o2
        match tail, o1, o2 with
        | [], o1, _ => rw [List.append_nil] at o1; exact hr o1.symm
        | m :: tail, o1, o2 =>
          obtain ⟨ms, k1, k2, k3, k4⟩ := C50_matrix (hs m (by rw [o1]; simp))
          rw [List.flatMap_cons, messages_eq k1] at o2
          have := H.wait
          rw [o2, k3] at this
          simp at this

/-- **C50** If `MPI_Isend` copies the data at once, no buffer is read after the end of its life. -/
theorem C50_eager {s : Channel ι κ} (h : ChannelReach true s) : s.undefined = false := by
  induction h with
  | refl => rfl
  | tail _ hstep ih =>
    cases hstep with
    | garbage x rest y h1 h2 h3 => simp [Channel.Dangling] at h2
    | _ => exact ih

/-- work left in a thread -/
def weight : SendPC → Nat
  | .idle => 0
  | .posting _ rest => 2 + 4 * rest.length
  | .waiting => 1

theorem weight_idle : weight .idle = 0 := rfl
theorem weight_waiting : weight .waiting = 1 := rfl
theorem weight_posting (k : Nat) (rest : List Message) : weight (.posting k rest) = 2 + 4 * rest.length := rfl

theorem sum_update [Fintype ι] (pc : ι → SendPC) (i : ι) (p : SendPC) :
    (∑ j, weight (Function.update pc i p j)) + weight (pc i) = (∑ j, weight (pc j)) + weight p := by
  rw [← Finset.sum_erase_add _ _ (Finset.mem_univ i), ← Finset.sum_erase_add _ (fun j => weight (pc j)) (Finset.mem_univ i)]
  rw [Finset.sum_congr rfl fun j hj => by rw [Function.update_of_ne (Finset.ne_of_mem_erase hj)]]
  rw [Function.update_self]
  omega

/-- work left -/
def Channel.work [Fintype ι] (s : Channel ι κ) : Nat :=
  (∑ i, weight (s.pc i)) + 3 * s.posted.length + 2 * s.arrived.length + if s.master = none then 1 else 0

theorem work_step [Fintype ι] {eager : Bool} {s s' : Channel ι κ} (h : ChannelStep eager s s') (he : s'.sent = s.sent) :
    s'.work < s.work := by
  cases h with
  | enter i m ms h1 h2 h3 => simp at he
  | post i k x rest h1 h2 =>
    have := sum_update s.pc i (.posting (k - 1) rest)
    rw [h1] at this
    simp only [weight_idle, weight_posting, weight_waiting, List.length_cons] at this
    simp only [Channel.work, List.length_append, List.length_cons, List.length_nil]
    omega
  | leave i k h1 h2 =>
    have := sum_update s.pc i .waiting
    rw [h1] at this
    simp only [weight_idle, weight_posting, weight_waiting, List.length_nil] at this
    simp only [Channel.work]
    omega
  | transfer x rest h1 h2 => simp only [Channel.work, h1, List.length_append, List.length_cons, List.length_nil]; omega
  | garbage x rest y h1 h2 h3 => simp only [Channel.work, h1, List.length_append, List.length_cons, List.length_nil]; omega
  | finish i h1 h2 =>
    have := sum_update s.pc i .idle
    rw [h1] at this
    simp only [weight_idle, weight_posting, weight_waiting] at this
    simp only [Channel.work]
    omega
  | probe k h1 h2 => simp [Channel.work, h1]
  | next k x rest h1 h2 h3 => simp [Channel.work, h1, h2]
  | last k x rest m h1 h2 h3 => simp [Channel.work, h1, h2]; omega

/-- **C50** There is no infinite execution in which no further transmission is started (with `C50_progress`: every execution
that goes on as long as it can ends with everything received). -/
theorem C50_terminates [Fintype ι] (eager : Bool) :
    WellFounded fun s' s : Channel ι κ => ChannelStep eager s s' ∧ s'.sent = s.sent :=
  Subrelation.wf (fun h => work_step h.1 h.2) (InvImage.wf Channel.work Nat.lt_wfRel.wf)

/-- **C50** From every state, everything that has been sent can be received. -/
theorem C50_delivered [Fintype ι] [Nonempty κ] {s : Channel ι κ} (h : ChannelReach true s) (hs : ∀ m ∈ s.sent, Spec.Sendable m) :
    ∃ s', ChannelReach true s' ∧ ReflTransGen (ChannelStep true) s s' ∧ s'.sent = s.sent ∧ s'.received = s.sent := by
  induction hw : s.work using Nat.strong_induction_on generalizing s with
  | _ w ih =>
    by_cases hr : s.received = s.sent
    · exact ⟨s, h, .refl, rfl, hr⟩
    · obtain ⟨t, h1, h2⟩ := C50_progress h hs (C50_eager h) hr
      obtain ⟨s', k1, k2, k3, k4⟩ := ih t.work (by rw [← hw]; exact work_step h1 h2) (h.tail h1) (by rwa [h2]) rfl
      exact ⟨s', k1, .head h1 k2, by rw [k3, h2], by rw [k4, h2]⟩

/-- the matrix of the examples can be sent -/
theorem sendable_example : Spec.Sendable [[1, -2], [-2147483648, 2147483647]] := by
  refine ⟨by simp, by norm_num, 2, by norm_num, by norm_num, ?_⟩
  simp [Spec.IsInt]

/-- an execution in which that matrix is received -/
example : ∃ s : Channel (Fin 2) (Fin 2), ChannelReach true s ∧ s.undefined = false ∧ (∀ m ∈ s.sent, Spec.Sendable m) ∧
    s.received = [[[1, -2], [-2147483648, 2147483647]]] := by
  obtain ⟨ms, h, -⟩ := C50_matrix sendable_example
  have h1 : ChannelStep true ({} : Channel (Fin 2) (Fin 2)) _ := .enter {} 0 _ ms rfl rfl h
  obtain ⟨s, k1, -, k2, k3⟩ := C50_delivered (.single h1) (by simpa using sendable_example)
  refine ⟨s, k1, C50_eager k1, ?_, k3⟩
  rw [k2]
  simpa using sendable_example

/-- **C50** is false of the code otherwise: `size` and `row_size`, the buffers of the first two messages, are local variables of
a block that ends before the transmission has been waited for, so that the data may be read from dead variables; whatever
matrix was sent, any eight bytes may arrive as its number of rows. -/
theorem C50_dangling_false [Nonempty ι] {m : Matrix} (hm : Spec.Sendable m) (y : Message) (hy : y.length = 8) :
    ∃ s : Channel ι κ, ChannelReach false s ∧ s.sent = [m] ∧ s.undefined = true ∧ s.arrived = [y] := by
  obtain ⟨h0, h1, n, hn, hb, h2⟩ := hm
  have hms := toMaster_eq hn hb h0 fun r hr => (h2 r hr).1
  let i : ι := Classical.arbitrary ι
  have post : ∀ (rest : List Message) (k : Nat) (s : Channel ι κ), s.pc i = .posting k rest → s.slave = some i → s.posted ≠ [] →
      ∃ s' : Channel ι κ, ReflTransGen (ChannelStep false) s s' ∧ s'.pc i = .posting (k - rest.length) [] ∧ s'.slave = some i ∧
        s'.posted.head? = s.posted.head? ∧ s'.sent = s.sent ∧ s'.arrived = s.arrived := by
    intro rest
    induction rest with
    | nil => intro k s hk hs hp; exact ⟨s, .refl, by simpa using hk, hs, rfl, rfl, rfl⟩
    | cons x rest ih =>
      intro k s hk hs hp
      obtain ⟨s', g1, g2, g3, g4, g5, g6⟩ := ih (k - 1) { s with posted := s.posted ++ [⟨i, decide (0 < k), x⟩], pc := Function.update s.pc i (.posting (k - 1) rest) }
        (by simp) hs (by simp)
      refine ⟨s', .head (.post s i k x rest hk hs) g1, ?_, g3, ?_, g5, g6⟩
      · rw [g2, List.length_cons]; congr 1; omega
      · rw [g4]
        obtain ⟨y, ys, e⟩ := List.exists_cons_of_ne_nil hp
        simp [e]
  let s1 : Channel ι κ := { ({} : Channel ι κ) with slave := some i, pc := Function.update (fun _ => .idle) i (.posting 2 (encode n m)), sent := [m] }
  let s2 : Channel ι κ := { s1 with posted := [⟨i, true, bytesOf 8 m.length⟩], pc := Function.update s1.pc i (.posting 1 (bytesOf 8 n :: m.map encodeRow)) }
  have r1 : ChannelStep false ({} : Channel ι κ) s1 := .enter {} i m _ rfl rfl hms
  have e1 : s1.pc i = .posting 2 (bytesOf 8 m.length :: bytesOf 8 n :: m.map encodeRow) := by simp [s1, encode]
  have r2 : ChannelStep false s1 s2 := .post s1 i 2 _ _ e1 rfl
  have e2 : s2.pc i = .posting 1 (bytesOf 8 n :: m.map encodeRow) := by simp [s2]
  obtain ⟨s', g1, g2, g3, g4, g5, g6⟩ := post _ 1 s2 e2 rfl (by simp [s2])
  have hhead : s'.posted.head? = some ⟨i, true, bytesOf 8 m.length⟩ := by rw [g4]; rfl
  obtain ⟨rest, hrest⟩ : ∃ rest, s'.posted = ⟨i, true, bytesOf 8 m.length⟩ :: rest := by
    cases hp : s'.posted with
    | nil => rw [hp] at hhead; simp at hhead
    | cons a b => rw [hp] at hhead; simp at hhead; exact ⟨b, by rw [hhead]⟩
  refine ⟨_, .tail (.tail (.trans (.tail (.single r1) r2) g1) (.leave s' i _ g2 g3))
    (.garbage _ _ rest y hrest ⟨rfl, rfl, by simp⟩ (by simp [bytesOf_length, hy])), ?_, rfl, ?_⟩
  · show s'.sent = [m]
    rw [g5]
  · show s'.arrived ++ [y] = [y]
    rw [g6]; rfl

end

end Panda.Mpi
