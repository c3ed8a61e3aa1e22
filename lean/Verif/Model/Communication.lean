import Verif.Model.Basic
import Verif.Model.Maps
import Mathlib.Logic.Relation
import Mathlib.Logic.Function.Basic

/-! # Messages between nodes

Model of `/repo/src/communication.cpp` (compiled with `MPI_SUPPORT`).  Of MPI it is assumed that messages from one node to
another with the same tag arrive in the order in which they were sent (they are "non-overtaking"), completely and unchanged.
Integers are represented in memory as two's complement, least significant byte first, on all nodes; `sizeof(int)` is 4,
`sizeof(std::size_t)` is 8. -/

namespace Panda.Mpi

/-- the content of one message -/
abbrev Message := List (BitVec 8)

/-- `k` bytes of the memory representation of a number -/
def bytesOf : Nat → Nat → Message
  | 0, _ => []
  | k + 1, x => BitVec.ofNat 8 x :: bytesOf k (x / 256)

/-- the number that is represented by the bytes -/
def natOf : Message → Nat
  | [] => 0
  | b :: bs => b.toNat + 256 * natOf bs

/-- the four bytes of an `int` -/
def encodeInt (z : Int) : Message := bytesOf 4 (z % 4294967296).toNat

/-- the `int` in four bytes -/
def decodeInt (m : Message) : Int := (BitVec.ofNat 32 (natOf m)).toInt

/-- the memory of `count` entries, seen as a row -/
def decodeRow : Nat → Message → Row
  | 0, _ => []
  | n + 1, m => decodeInt (m.take 4) :: decodeRow n (m.drop 4)

/-- the memory of a row -/
def encodeRow (row : Row) : Message := row.flatMap encodeInt

/-- `receive` (communication.cpp:177-188): waits for the next message (`none`); a message that is longer than the buffer is an
error in MPI, which ends the program, a shorter one throws -/
def receive (bytes : Nat) : List Message → Run (Message × List Message)
  | [] => none
  | m :: rest => if m.length ≠ bytes then some .thrown else some (.ok (m, rest))

/-- the messages of the rows sent by `toMaster` (communication.cpp:94-98).  `row.front()` needs a non-empty row, and
`row_size` entries are read from every row. -/
def rowMessages (size : Nat) : Matrix → Outcome (List Message)
  | [] => .ok []
  | row :: m => if row = [] ∨ row.length < size then .ub
    else (rowMessages size m).bind fun ms => .ok (encodeRow (row.take size) :: ms)

/-- the messages sent by `toMaster` (communication.cpp:83-99), in the order of the calls.  `matrix.back()` needs a non-empty
matrix.  The number of bytes has to fit into `int`. -/
def toMaster (matrix : Matrix) : Outcome (List Message) :=
  match matrix.getLast? with
  | none => .ub
  | some last =>
    if 2147483648 ≤ 4 * last.length then .ub
    else (rowMessages last.length matrix).bind fun ms => .ok (bytesOf 8 matrix.length :: bytesOf 8 last.length :: ms)

/-- the loop of `fromSlave` (communication.cpp:120-125) -/
def receiveRows (size : Nat) : Nat → List Message → Run (Matrix × List Message)
  | 0, queue => some (.ok ([], queue))
  | n + 1, queue =>
    if size = 0 then some .ub
    else Run.bind (receive (4 * size) queue) fun r =>
      Run.bind (receiveRows size n r.2) fun rs => some (.ok (decodeRow size r.1 :: rs.1, rs.2))

/-- `fromSlave` (communication.cpp:107-129) on the messages that have arrived from that node with the tag `matrix`; the result
is the matrix and the remaining messages, or `none` if it has to wait for more messages -/
def fromSlave (queue : List Message) : Run (Matrix × List Message) :=
  Run.bind (receive 8 queue) fun size =>
  Run.bind (receive 8 size.2) fun rowSize =>
  receiveRows (natOf rowSize.1) (natOf size.1) rowSize.2

/-- the message sent by `toSlave` (communication.cpp:131-142) -/
def toSlave (row : Row) : Outcome Message := if 2147483648 ≤ 4 * row.length then .ub else .ok (encodeRow row)

/-- `fromMaster` (communication.cpp:144-164) on the messages that have arrived from the master with the tag `row`: the
size is found out from the message -/
def fromMaster : List Message → Run (Row × List Message)
  | [] => none
  | m :: rest => Run.bind (receive (4 * (m.length / 4)) (m :: rest)) fun r => some (.ok (decodeRow (m.length / 4) r.1, r.2))

/-! ## The threads that send matrices from one slave to the master, and the threads that receive them -/

/-- where a thread of the slave is in `toMaster` -/
inductive SendPC where
  /-- not in `toMaster` -/
  | idle
  /-- holding the mutex (communication.cpp:88-99), with the messages still to be posted; the first two have as buffer the
  local variables `size` and `row_size` -/
  | posting (headers : Nat) (rest : List Message)
  /-- waiting for completion (communication.cpp:100-104); `size` and `row_size` do not exist any more -/
  | waiting

/-- a message that has been posted and not yet been transferred -/
structure Posted (ι : Type) where
  sender : ι
  /-- the buffer is a local variable of the block at communication.cpp:88-99 -/
  local_ : Bool
  message : Message

/-- the state; `sent` and `received` record what has happened.  `undefined`: a buffer has been read after the end of its life. -/
structure Channel (ι κ : Type) where
  /-- the mutex of the slave -/
  slave : Option ι := none
  /-- the mutex of the master -/
  master : Option κ := none
  pc : ι → SendPC := fun _ => .idle
  /-- posted by `MPI_Isend`, not yet transferred -/
  posted : List (Posted ι) := []
  /-- arrived at the master -/
  arrived : List Message := []
  /-- the messages that the thread in `fromSlave` has received so far -/
  partly : List Message := []
  sent : List Matrix := []
  received : List Matrix := []
  undefined : Bool := false

section
variable {ι κ : Type} [DecidableEq ι] [DecidableEq κ]

/-- the data of the message is read when it is transferred (not `eager`), from a local variable of a block that has been left -/
def Channel.Dangling (s : Channel ι κ) (eager : Bool) (x : Posted ι) : Prop := eager = false ∧ x.local_ = true ∧ s.slave ≠ some x.sender

/-- the steps of the threads and of the network.  `eager`: `MPI_Isend` copies the data at once (otherwise it reads the buffer
when the message is transferred). -/
inductive ChannelStep (eager : Bool) : Channel ι κ → Channel ι κ → Prop where
  /-- `toMaster` takes the mutex (communication.cpp:89-91) -/
  | enter (s : Channel ι κ) (i : ι) (m : Matrix) (ms : List Message) : s.pc i = .idle → s.slave = none → toMaster m = .ok ms →
      ChannelStep eager s { s with slave := some i, pc := Function.update s.pc i (.posting 2 ms), sent := s.sent ++ [m] }
  /-- `MPI_Isend` (communication.cpp:92-97) -/
  | post (s : Channel ι κ) (i : ι) (h : Nat) (x : Message) (rest : List Message) : s.pc i = .posting h (x :: rest) → s.slave = some i →
      ChannelStep eager s { s with posted := s.posted ++ [⟨i, decide (0 < h), x⟩], pc := Function.update s.pc i (.posting (h - 1) rest) }
  /-- the end of the block (communication.cpp:99) -/
  | leave (s : Channel ι κ) (i : ι) (h : Nat) : s.pc i = .posting h [] → s.slave = some i →
      ChannelStep eager s { s with slave := none, pc := Function.update s.pc i .waiting }
  /-- the network transfers the oldest message -/
  | transfer (s : Channel ι κ) (x : Posted ι) (rest : List (Posted ι)) : s.posted = x :: rest → ¬ s.Dangling eager x →
      ChannelStep eager s { s with posted := rest, arrived := s.arrived ++ [x.message] }
  /-- the network reads a buffer that does not exist any more: anything of that size may arrive -/
  | garbage (s : Channel ι κ) (x : Posted ι) (rest : List (Posted ι)) (y : Message) : s.posted = x :: rest → s.Dangling eager x →
      y.length = x.message.length → ChannelStep eager s { s with posted := rest, arrived := s.arrived ++ [y], undefined := true }
  /-- all requests have completed and `toMaster` returns (communication.cpp:100-105) -/
  | finish (s : Channel ι κ) (i : ι) : s.pc i = .waiting → (∀ x ∈ s.posted, x.sender ≠ i) →
      ChannelStep eager s { s with pc := Function.update s.pc i .idle }
  /-- `fromSlave` takes the mutex and finds a message (communication.cpp:112-113) -/
  | probe (s : Channel ι κ) (k : κ) : s.master = none → s.arrived ≠ [] →
      ChannelStep eager s { s with master := some k, partly := [] }
  /-- one `MPI_Recv` (communication.cpp:117-124), after which more are needed -/
  | next (s : Channel ι κ) (k : κ) (x : Message) (rest : List Message) : s.master = some k → s.arrived = x :: rest →
      fromSlave (s.partly ++ [x]) = none →
      ChannelStep eager s { s with arrived := rest, partly := s.partly ++ [x] }
  /-- the last `MPI_Recv`, `fromSlave` returns -/
  | last (s : Channel ι κ) (k : κ) (x : Message) (rest : List Message) (m : Matrix) : s.master = some k → s.arrived = x :: rest →
      fromSlave (s.partly ++ [x]) = some (.ok (m, [])) →
      ChannelStep eager s { s with arrived := rest, partly := [], master := none, received := s.received ++ [m] }

/-- the states that some interleaving reaches -/
def ChannelReach (eager : Bool) : Channel ι κ → Prop := Relation.ReflTransGen (ChannelStep eager) {}

/-- the thread in `fromSlave` would fail on the next message -/
def Channel.Fails (s : Channel ι κ) : Prop :=
  ∃ k x rest, s.master = some k ∧ s.arrived = x :: rest ∧ fromSlave (s.partly ++ [x]) ≠ none ∧
    ∀ m, fromSlave (s.partly ++ [x]) ≠ some (.ok (m, []))

end

end Panda.Mpi
