import Verif.Model.Pool
import Verif.Model.Print

/-! # The progress messages of the job pool

The lines that `List::get` and `List::put(matrix)` write to the standard error (list.cpp:47-57, 101-115), together with the
variables they use: `counter`, a member of the pool (list.cpp:128), and `index`, one for every thread (list.cpp:26; the
alternative with a `std::map` keyed by the thread, list.cpp:33, behaves in the same way).  Both pieces of code run while the
mutex is held, so a message belongs to the same step as the change of the pool. -/

namespace Panda

/-- a line on the standard error -/
inductive Message where
  /-- list.cpp:111-113 -/
  | processing (number classes : Nat)
  /-- list.cpp:54-55 -/
  | done (number : Nat)
  deriving DecidableEq, Repr

/-- the text of the line (list.cpp:54, 111-112) -/
def Message.text : Message → List Char
  | .processing k n => "Processing #".toList ++ printInt k ++ " of at least ".toList ++ printInt n ++ " class".toList ++
      (if n = 1 then [] else "es".toList) ++ ['\n']
  | .done k => "Done processing #".toList ++ printInt k ++ ['\n']

/-- the variables and what has been written so far -/
structure Log (ι : Type) where
  counter : Nat
  index : ι → Nat
  messages : List Message

/-- list.cpp:128; a thread-local variable starts with zero -/
def Log.init {ι : Type} : Log ι := ⟨0, fun _ => 0, []⟩

section
variable {ι : Type} [DecidableEq ι]

/-- one transition of the pool with its message -/
inductive LogStep (c : PoolConfig ι) : Pool ι × Log ι → Pool ι × Log ι → Prop where
  /-- a row is handed out (list.cpp:93-116) -/
  | take (s s' : Pool ι) (l : Log ι) (i : ι) (row : Row) : PoolStep c s s' → s'.handed = s.handed ++ [(i, row)] →
      LogStep c (s, l) (s', { counter := l.counter + 1, index := Function.update l.index i (l.counter + 1)
                              messages := l.messages ++ [.processing (l.counter + 1) s.rows.length] })
  /-- the end of `put(matrix)` (list.cpp:45-57) in the thread `i` -/
  | done (s s' : Pool ι) (l : Log ι) (i : ι) (row : Row) (all : Matrix) : PoolStep c s s' → s.pc i = .putting row all [] →
      s'.pc i = .check →
      LogStep c (s, l) (s', { l with messages := l.messages ++ (if l.index i > 0 then [.done (l.index i)] else []) })
  /-- every other step; this includes the end of `put(matrix)` in the main thread, whose `index` is zero -/
  | quiet (s s' : Pool ι) (l : Log ι) : PoolStep c s s' → s'.handed = s.handed →
      (∀ i row all, s.pc i = .putting row all [] → s'.pc i = .putting row all []) → LogStep c (s, l) (s', l)

/-- the states that some interleaving reaches -/
def LogReach (c : PoolConfig ι) : Pool ι × Log ι → Prop := Relation.ReflTransGen (LogStep c) (Pool.init c, Log.init)

end

end Panda
