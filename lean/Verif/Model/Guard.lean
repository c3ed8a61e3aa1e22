/-! # Guards that run a function at the end of a scope

Model of `/repo/src/scope_guard.tpp`, `/repo/src/scope_guard.h`, `/repo/src/delayed_action.tpp` and `/repo/src/delayed_action.h`.
A history is a list of the operations of a program on guards, **latest first**; the objects are numbered in the order of their
construction. A function is an arbitrary value; running it appends it to the list `ran`. -/

namespace Panda

/-! ## scope_guard.tpp -/

/-- the data of a `ScopeGuard` (scope_guard.h:47-48) -/
structure ScopeGuard (F : Type) where
  dismissed : Bool
  function : F

/-- the constructors from a function (scope_guard.tpp:7-21), used by `makeScopeGuard` (scope_guard.tpp:47-51) -/
def ScopeGuard.new {F : Type} (f : F) : ScopeGuard F := ⟨false, f⟩

/-- the move constructor (scope_guard.tpp:23-30): the new object and what is left of the old one. The moved-from function of the old one
is in an unspecified state; the model keeps the value, it is never called because the old object is dismissed. -/
def ScopeGuard.moved {F : Type} (other : ScopeGuard F) : ScopeGuard F × ScopeGuard F :=
  (⟨other.dismissed, other.function⟩, { other with dismissed := true })

/-- `dismiss` (scope_guard.tpp:41-45) -/
def ScopeGuard.dismiss {F : Type} (g : ScopeGuard F) : ScopeGuard F := { g with dismissed := true }

/-- the destructor (scope_guard.tpp:32-39): the functions it runs -/
def ScopeGuard.destroy {F : Type} (g : ScopeGuard F) : List F := if !g.dismissed then [g.function] else []

/-- an operation of a program on its guards -/
inductive GuardOp (F : Type) where
  | make (f : F)
  | move (i : Nat)
  | dismiss (i : Nat)
  | destroy (i : Nat)

/-- all objects constructed so far (`none`: destroyed), and the functions run so far -/
structure GuardState (G F : Type) where
  objects : List (Option G)
  ran : List F

/-- one operation; `none` if it refers to an object that does not exist (any more), which no C++ program may do -/
def guardStep {F : Type} (s : GuardState (ScopeGuard F) F) : GuardOp F → Option (GuardState (ScopeGuard F) F)
  | .make f => some { s with objects := s.objects ++ [some (ScopeGuard.new f)] }
  | .move i => match s.objects[i]? with
    | some (some g) => some { s with objects := s.objects.set i (some g.moved.2) ++ [some g.moved.1] }
    | _ => none
  | .dismiss i => match s.objects[i]? with
    | some (some g) => some { s with objects := s.objects.set i (some g.dismiss) }
    | _ => none
  | .destroy i => match s.objects[i]? with
    | some (some g) => some { objects := s.objects.set i none, ran := s.ran ++ g.destroy }
    | _ => none

/-- a whole history, latest operation first -/
def guardRun {F : Type} : List (GuardOp F) → Option (GuardState (ScopeGuard F) F)
  | [] => some ⟨[], []⟩
  | e :: h => (guardRun h).bind fun s => guardStep s e

/-! ## delayed_action.tpp -/

/-- the data of a `DelayedAction` (delayed_action.h:51-54); times in nanoseconds, without the bounds of the type -/
structure DelayedAction (F : Type) where
  dismissed : Bool
  runnable : F
  start : Int
  minimum : Int

/-- the constructor (delayed_action.tpp:31-39), `now` being the time shown by the system clock -/
def DelayedAction.new {F : Type} (f : F) (now minimum : Int) : DelayedAction F := ⟨false, f, now, minimum⟩

/-- the overload for seconds (delayed_action.tpp:9-15) -/
def nanosecondsOfSeconds (seconds : Int) : Int := 1000000000 * seconds

/-- the overload for milliseconds (delayed_action.tpp:17-23) -/
def nanosecondsOfMilliseconds (milliseconds : Int) : Int := 1000000 * milliseconds

/-- the defaulted move constructor (delayed_action.h:46): all members are copied or moved, `dismissed` of the old object is unchanged -/
def DelayedAction.moved {F : Type} (other : DelayedAction F) : DelayedAction F × DelayedAction F := (other, other)

/-- `dismiss` (delayed_action.tpp:50-54) -/
def DelayedAction.dismiss {F : Type} (a : DelayedAction F) : DelayedAction F := { a with dismissed := true }

/-- the destructor (delayed_action.tpp:41-48) at the time `now` -/
def DelayedAction.destroy {F : Type} (a : DelayedAction F) (now : Int) : List F :=
  if !a.dismissed && decide (now - a.start ≥ a.minimum) then [a.runnable] else []

/-- an operation of a program on its delayed actions, with the time shown by the system clock where it is read -/
inductive DelayedOp (F : Type) where
  | make (f : F) (now minimum : Int)
  | move (i : Nat)
  | dismiss (i : Nat)
  | destroy (i : Nat) (now : Int)

/-- one operation; `none` if it refers to an object that does not exist (any more) -/
def delayedStep {F : Type} (s : GuardState (DelayedAction F) F) : DelayedOp F → Option (GuardState (DelayedAction F) F)
  | .make f now minimum => some { s with objects := s.objects ++ [some (DelayedAction.new f now minimum)] }
  | .move i => match s.objects[i]? with
    | some (some a) => some { s with objects := s.objects.set i (some a.moved.2) ++ [some a.moved.1] }
    | _ => none
  | .dismiss i => match s.objects[i]? with
    | some (some a) => some { s with objects := s.objects.set i (some a.dismiss) }
    | _ => none
  | .destroy i now => match s.objects[i]? with
    | some (some a) => some { objects := s.objects.set i none, ran := s.ran ++ a.destroy now }
    | _ => none

/-- a whole history, latest operation first -/
def delayedRun {F : Type} : List (DelayedOp F) → Option (GuardState (DelayedAction F) F)
  | [] => some ⟨[], []⟩
  | e :: h => (delayedRun h).bind fun s => delayedStep s e

end Panda
