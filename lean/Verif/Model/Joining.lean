/-! # Threads that are joined at the end of a scope

Model of `/repo/src/joining_thread.h`, `/repo/src/joining_thread.tpp` and `/repo/src/joining_thread.cpp`. A history is a list of operations, **latest
first**: those of the program on its `JoiningThread` objects, and the ends of the threads, which happen at any time. The objects are numbered in the
order of their construction, the threads in the order of their start. Failure of the operating system to start a thread is not modelled. -/

namespace Panda

/-- the data of a `JoiningThread` (joining_thread.h:29): its `std::thread`, which is joinable iff it stands for a thread -/
structure JoiningThread where
  thread : Option Nat

/-- operations of a program on its threads, and the end of a thread -/
inductive JoinOp where
  | start
  | move (i : Nat)
  | destroy (i : Nat)
  | ended (t : Nat)

/-- all objects constructed so far (`none`: destroyed), for every thread started so far whether it has ended, the threads joined so far, and whether
`std::terminate` was called -/
structure JoinState where
  objects : List (Option JoiningThread)
  threads : List Bool
  joined : List Nat
  terminated : Bool

/-- the defaulted move constructor (joining_thread.h:21): the new object and what is left of the old one -/
def JoiningThread.moved (other : JoiningThread) : JoiningThread × JoiningThread := (⟨other.thread⟩, ⟨none⟩)

/-- the body of the destructor (joining_thread.cpp:11-17): the object after it and the thread it joins -/
def JoiningThread.join (a : JoiningThread) : JoiningThread × Option Nat :=
  if a.thread.isSome then (⟨none⟩, a.thread) else (a, none)

/-- the destructor of the member after the body: `~std::thread` calls `std::terminate` if the thread is joinable -/
def JoiningThread.release (a : JoiningThread) : Bool := a.thread.isSome

/-- one operation; `none` if it is not possible: it refers to an object that does not exist (any more), or `join` has to wait because the thread has
not ended, or there is no such thread running -/
def joinStep (s : JoinState) : JoinOp → Option JoinState
  -- the constructor (joining_thread.tpp:7-12) starts a thread
  | .start => some { s with objects := s.objects ++ [some ⟨some s.threads.length⟩], threads := s.threads ++ [false] }
  | .move i => match s.objects[i]? with
    | some (some a) => some { s with objects := s.objects.set i (some a.moved.2) ++ [some a.moved.1] }
    | _ => none
  | .destroy i => match s.objects[i]? with
    | some (some a) =>
      if a.join.2.all (fun t => s.threads.getD t false) then
        some { s with objects := s.objects.set i none, joined := s.joined ++ a.join.2.toList, terminated := s.terminated || a.join.1.release }
      else none
    | _ => none
  | .ended t => if s.threads[t]? = some false then some { s with threads := s.threads.set t true } else none

/-- a whole history, latest operation first -/
def joinRun : List JoinOp → Option JoinState
  | [] => some ⟨[], [], [], false⟩
  | e :: h => (joinRun h).bind fun s => joinStep s e

end Panda
