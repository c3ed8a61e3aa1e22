import Verif.Model.Guard
import Mathlib.Tactic.ByContra
import Mathlib.Tactic.ClearExcept

/-! # C74, C75: guards at the end of a scope -/

namespace Panda

/-! ## Specification -/

/-- the number of guards constructed in a history -/
def Spec.constructed {F : Type} : List (GuardOp F) → Nat
  | [] => 0
  | .make _ :: h => Spec.constructed h + 1
  | .move _ :: h => Spec.constructed h + 1
  | .dismiss _ :: h => Spec.constructed h
  | .destroy _ :: h => Spec.constructed h

/-- the function guard number `i` is in charge of after the history (latest operation first): the guard made for it, until it is
dismissed, destroyed or moved from; then the guard it was moved to -/
def Spec.inCharge {F : Type} : List (GuardOp F) → Nat → Option F
  | [], _ => none
  | .make f :: h, i => if i = Spec.constructed h then some f else Spec.inCharge h i
  | .move j :: h, i => if i = Spec.constructed h then Spec.inCharge h j else if i = j then none else Spec.inCharge h i
  | .dismiss j :: h, i => if i = j then none else Spec.inCharge h i
  | .destroy j :: h, i => if i = j then none else Spec.inCharge h i

/-- the functions for which guards were made, in this order -/
def Spec.guarded {F : Type} : List (GuardOp F) → List F
  | [] => []
  | .make f :: h => Spec.guarded h ++ [f]
  | .move _ :: h => Spec.guarded h
  | .dismiss _ :: h => Spec.guarded h
  | .destroy _ :: h => Spec.guarded h

/-- the number of delayed actions constructed in a history -/
def Spec.delayedConstructed {F : Type} : List (DelayedOp F) → Nat
  | [] => 0
  | .make _ _ _ :: h => Spec.delayedConstructed h + 1
  | .move _ :: h => Spec.delayedConstructed h + 1
  | .dismiss _ :: h => Spec.delayedConstructed h
  | .destroy _ _ :: h => Spec.delayedConstructed h

/-- what delayed action number `i` waits for (the function, the time of its creation and the minimum waiting time): the action made for it, until
it is dismissed, destroyed or moved from; then the action it was moved to -/
def Spec.waiting {F : Type} : List (DelayedOp F) → Nat → Option (F × Int × Int)
  | [], _ => none
  | .make f now minimum :: h, i => if i = Spec.delayedConstructed h then some (f, now, minimum) else Spec.waiting h i
  | .move j :: h, i => if i = Spec.delayedConstructed h then Spec.waiting h j else if i = j then none else Spec.waiting h i
  | .dismiss j :: h, i => if i = j then none else Spec.waiting h i
  | .destroy j _ :: h, i => if i = j then none else Spec.waiting h i

/-! ## Scope guards -/

/-- the function a guard object will run -/
def ScopeGuard.live {F : Type} (g : Option (ScopeGuard F)) : Option F := g.bind fun g => if g.dismissed then none else some g.function

theorem filterMap_set_count {α β : Type} [DecidableEq β] (l : α → Option β) (b : β) (x y : α) :
    ∀ (os : List α) (i : Nat), os[i]? = some y →
    ((os.set i x).filterMap l).count b + (if l y = some b then 1 else 0) = (os.filterMap l).count b + (if l x = some b then 1 else 0)
  | [], i, h => by simp at h
  | o :: os, 0, h => by
    simp only [List.getElem?_cons_zero, Option.some.injEq] at h
    subst h
    simp only [List.set_cons_zero, List.filterMap_cons]
    rcases l x with _ | bx <;> rcases l o with _ | bo <;> simp [List.count_cons] <;> omega
  | o :: os, i + 1, h => by
    simp only [List.getElem?_cons_succ] at h
    have := filterMap_set_count l b x y os i h
    simp only [List.set_cons_succ, List.filterMap_cons]
    rcases l o with _ | bo
    · exact this
    · simp only [List.count_cons]; omega

theorem guardRun_inCharge {F : Type} : ∀ (h : List (GuardOp F)) (s : GuardState (ScopeGuard F) F), guardRun h = some s →
    s.objects.length = Spec.constructed h ∧ ∀ i, ScopeGuard.live (s.objects[i]?.join) = Spec.inCharge h i := by
  intro h
  induction h with
  | nil => rintro s ⟨⟩; simp [Spec.constructed, Spec.inCharge, ScopeGuard.live]
  | cons e h ih =>
    intro s hs
    rw [guardRun, Option.bind_eq_some_iff] at hs
    obtain ⟨s0, h0, h1⟩ := hs
    obtain ⟨hl, hi⟩ := ih s0 h0
    cases e with
    | make f =>
      simp only [guardStep, Option.some.injEq] at h1
      subst h1
      refine ⟨by simp [Spec.constructed, hl], fun i => ?_⟩
      rw [Spec.inCharge]
      split
      · rename_i hi'; subst hi'; rw [← hl]; simp [ScopeGuard.live, ScopeGuard.new]
      · rename_i hne
        rw [← hi i]
        by_cases hlt : i < s0.objects.length
        · simp [List.getElem?_append_left hlt]
        · have : s0.objects.length + 1 ≤ i := by omega
          rw [List.getElem?_eq_none (by simpa using this), List.getElem?_eq_none (by omega)]
    | move j =>
      simp only [guardStep] at h1
      split at h1
      · rename_i g hg
        simp only [Option.some.injEq] at h1
        subst h1
        have hj : j < s0.objects.length := by by_contra hc; rw [List.getElem?_eq_none (by omega)] at hg; simp at hg
        refine ⟨by simp [Spec.constructed, hl], fun i => ?_⟩
        rw [Spec.inCharge]
        split
        · rename_i hi'; subst hi'; rw [← hl, ← hi j, hg]; simp [ScopeGuard.live, ScopeGuard.moved]
        · rename_i hne
          by_cases hlt : i < s0.objects.length
          · rw [List.getElem?_append_left (by simpa using hlt)]
            split
            · rename_i hij; subst hij; simp [hlt, ScopeGuard.live, ScopeGuard.moved]
            · rename_i hij; rw [← hi i, List.getElem?_set_ne (by omega)]
          · rw [if_neg (by omega), ← hi i]
            have : s0.objects.length + 1 ≤ i := by omega
            rw [List.getElem?_eq_none (by simpa using this), List.getElem?_eq_none (by omega)]
      · simp at h1
    | dismiss j =>
      simp only [guardStep] at h1
      split at h1
      · rename_i g hg
        simp only [Option.some.injEq] at h1
        subst h1
        have hj : j < s0.objects.length := by by_contra hc; rw [List.getElem?_eq_none (by omega)] at hg; simp at hg
        refine ⟨by simp [Spec.constructed, hl], fun i => ?_⟩
        rw [Spec.inCharge]
        split
        · rename_i hij; subst hij; simp [hj, ScopeGuard.live, ScopeGuard.dismiss]
        · rename_i hij; rw [← hi i, List.getElem?_set_ne (by omega)]
      · simp at h1
    | destroy j =>
      simp only [guardStep] at h1
      split at h1
      · rename_i g hg
        simp only [Option.some.injEq] at h1
        subst h1
        have hj : j < s0.objects.length := by by_contra hc; rw [List.getElem?_eq_none (by omega)] at hg; simp at hg
        refine ⟨by simp [Spec.constructed, hl], fun i => ?_⟩
        rw [Spec.inCharge]
        split
        · rename_i hij; subst hij; simp [hj, ScopeGuard.live]
        · rename_i hij; rw [← hi i, List.getElem?_set_ne (by omega)]
      · simp at h1

/-- **C74** the function of a scope guard is run when, and only when, the guard in charge of it is destroyed: the destruction of a guard runs
the function it is in charge of (if any) and nothing else -/
theorem C74_destroy {F : Type} {h : List (GuardOp F)} {i : Nat} {s s' : GuardState (ScopeGuard F) F} (hs : guardRun h = some s)
    (hs' : guardRun (.destroy i :: h) = some s') : s'.ran = s.ran ++ (Spec.inCharge h i).toList := by
  rw [guardRun, hs, Option.bind_some, guardStep] at hs'
  have hi := (guardRun_inCharge h s hs).2 i
  split at hs'
  · rename_i g hg
    simp only [Option.some.injEq] at hs'
    subst hs'
    rw [← hi, hg]
    cases hd : g.dismissed <;> simp [ScopeGuard.live, ScopeGuard.destroy, hd]
  · simp at hs'

/-- **C74** no other operation runs a function -/
theorem C74_silent {F : Type} {h : List (GuardOp F)} {e : GuardOp F} {s s' : GuardState (ScopeGuard F) F} (hs : guardRun h = some s)
    (hs' : guardRun (e :: h) = some s') (he : ∀ i, e ≠ .destroy i) : s'.ran = s.ran := by
  rw [guardRun, hs, Option.bind_some] at hs'
  cases e with
  | make f => simp only [guardStep, Option.some.injEq] at hs'; subst hs'; rfl
  | move j => simp only [guardStep] at hs'; split at hs' <;> simp at hs'; subst hs'; rfl
  | dismiss j => simp only [guardStep] at hs'; split at hs' <;> simp at hs'; subst hs'; rfl
  | destroy j => exact absurd rfl (he j)

/-- the function an operation gives up -/
def givenUp {F : Type} (s : GuardState (ScopeGuard F) F) : GuardOp F → Option F
  | .dismiss i => ScopeGuard.live (s.objects[i]?.join)
  | _ => none

/-- the function an operation makes a guard for -/
def madeFor {F : Type} : GuardOp F → Option F
  | .make f => some f
  | _ => none

/-- bookkeeping of one operation: functions run, still to be run, and guarded -/
theorem guardStep_count {F : Type} [DecidableEq F] (f : F) {e : GuardOp F} {s s' : GuardState (ScopeGuard F) F} (hs : guardStep s e = some s') :
    s'.ran.count f + (s'.objects.filterMap ScopeGuard.live).count f + (if givenUp s e = some f then 1 else 0) =
    s.ran.count f + (s.objects.filterMap ScopeGuard.live).count f + (if madeFor e = some f then 1 else 0) := by
  cases e with
  | make g =>
    simp only [guardStep, Option.some.injEq] at hs
    subst hs
    have : List.filterMap ScopeGuard.live [some (ScopeGuard.new g)] = [g] := by simp [ScopeGuard.live, ScopeGuard.new]
    rw [List.filterMap_append, List.count_append, this, List.count_singleton]
    simp only [beq_iff_eq, givenUp, madeFor, Option.some.injEq, reduceCtorEq, if_false]; omega
  | move j =>
    simp only [guardStep] at hs
    split at hs
    · rename_i g hg
      simp only [Option.some.injEq] at hs
      subst hs
      have := filterMap_set_count ScopeGuard.live f (some g.moved.2) (some g) s.objects j hg
      have h2 : ScopeGuard.live (some g.moved.2) = none := by simp [ScopeGuard.live, ScopeGuard.moved]
      have h3 : ScopeGuard.live (some g.moved.1) = ScopeGuard.live (some g) := by simp [ScopeGuard.live, ScopeGuard.moved]
      rw [List.filterMap_append, List.count_append]
      simp only [h2, reduceCtorEq, if_false] at this
      simp only [List.filterMap_cons, List.filterMap_nil, h3]
      rcases hx : ScopeGuard.live (some g) with _ | x <;> simp only [hx, Option.some.injEq, reduceCtorEq, if_false] at this ⊢
      · simp [givenUp, madeFor]; omega
      · rw [List.count_singleton]; simp only [beq_iff_eq, givenUp, madeFor, reduceCtorEq, if_false]; omega
    · simp at hs
  | dismiss j =>
    simp only [guardStep] at hs
    split at hs
    · rename_i g hg
      simp only [Option.some.injEq] at hs
      subst hs
      have := filterMap_set_count ScopeGuard.live f (some g.dismiss) (some g) s.objects j hg
      have h2 : ScopeGuard.live (some g.dismiss) = none := by simp [ScopeGuard.live, ScopeGuard.dismiss]
      simp only [h2, reduceCtorEq, if_false] at this
      simp only [givenUp, madeFor, reduceCtorEq, if_false, hg, Option.join_some]
      omega
    · simp at hs
  | destroy j =>
    simp only [guardStep] at hs
    split at hs
    · rename_i g hg
      simp only [Option.some.injEq] at hs
      subst hs
      have := filterMap_set_count ScopeGuard.live f none (some g) s.objects j hg
      have h2 : ScopeGuard.live (none : Option (ScopeGuard F)) = none := rfl
      have h3 : g.destroy.count f = if ScopeGuard.live (some g) = some f then 1 else 0 := by
        cases hd : g.dismissed <;> simp [ScopeGuard.destroy, ScopeGuard.live, hd, List.count_singleton]
      simp only [h2, reduceCtorEq, if_false] at this
      rw [List.count_append, h3]
      simp only [givenUp, madeFor, reduceCtorEq, if_false]
      omega
    · simp at hs

theorem guardRun_count {F : Type} [DecidableEq F] (f : F) : ∀ (h : List (GuardOp F)) (s : GuardState (ScopeGuard F) F), guardRun h = some s →
    s.ran.count f + (s.objects.filterMap ScopeGuard.live).count f ≤ (Spec.guarded h).count f ∧
    ((∀ i, .dismiss i ∉ h) → s.ran.count f + (s.objects.filterMap ScopeGuard.live).count f = (Spec.guarded h).count f) := by
  intro h
  induction h with
  | nil => rintro s ⟨⟩; simp [Spec.guarded]
  | cons e h ih =>
    intro s hs
    rw [guardRun, Option.bind_eq_some_iff] at hs
    obtain ⟨s0, h0, h1⟩ := hs
    obtain ⟨ih1, ih2⟩ := ih s0 h0
    have hc := guardStep_count f h1
    have hg : ∀ i, givenUp s0 (GuardOp.move i) = none ∧ givenUp s0 (GuardOp.destroy i) = none := fun i => ⟨rfl, rfl⟩
    have hg' : ∀ f, givenUp s0 (GuardOp.make f) = none := fun f => rfl
    cases e with
    | make g =>
      simp only [Spec.guarded, madeFor, hg, hg', Option.some.injEq, reduceCtorEq, if_false, List.count_append, List.count_singleton, beq_iff_eq] at *
      exact ⟨by omega, fun hd => by have := ih2 fun i hi => hd i (List.mem_cons_of_mem _ hi); omega⟩
    | move j =>
      simp only [Spec.guarded, madeFor, hg, reduceCtorEq, if_false] at *
      exact ⟨by omega, fun hd => by have := ih2 fun i hi => hd i (List.mem_cons_of_mem _ hi); omega⟩
    | dismiss j => exact ⟨by simp only [Spec.guarded, madeFor, hg, reduceCtorEq, if_false] at *; omega, fun hd => absurd (List.mem_cons_self) (hd j)⟩
    | destroy j =>
      simp only [Spec.guarded, madeFor, hg, reduceCtorEq, if_false] at *
      exact ⟨by omega, fun hd => by have := ih2 fun i hi => hd i (List.mem_cons_of_mem _ hi); omega⟩

/-- **C74** at most once: a function is run at most as often as guards were made for it, whatever is moved, dismissed and destroyed -/
theorem C74_once {F : Type} [DecidableEq F] {h : List (GuardOp F)} {s : GuardState (ScopeGuard F) F} (hs : guardRun h = some s) (f : F) :
    s.ran.count f ≤ (Spec.guarded h).count f := by
  have := (guardRun_count f h s hs).1
  omega

/-- **C74** exactly once: if nothing is dismissed and every guard has been destroyed, every function has been run exactly as often as guards
were made for it -/
theorem C74_exactly {F : Type} [DecidableEq F] {h : List (GuardOp F)} {s : GuardState (ScopeGuard F) F} (hs : guardRun h = some s)
    (hd : ∀ i, .dismiss i ∉ h) (hall : ∀ i < Spec.constructed h, .destroy i ∈ h) : s.ran.Perm (Spec.guarded h) := by
  rw [List.perm_iff_count]
  intro f
  have hc := (guardRun_count f h s hs).2 hd
  have hnone : ∀ (h : List (GuardOp F)) (s : GuardState (ScopeGuard F) F), guardRun h = some s → ∀ i, .destroy i ∈ h → s.objects[i]? = some none := by
    clear * -
    intro h
    induction h with
    | nil => intro s _ i hi; simp at hi
    | cons e h ih =>
      intro s hs i hi
      rw [guardRun, Option.bind_eq_some_iff] at hs
      obtain ⟨s0, h0, h1⟩ := hs
      have step : ∀ j g, s0.objects[i]? = some none → s0.objects[j]? = some (some g) → i ≠ j := by
        rintro j g h2 h3 rfl; rw [h2] at h3; simp at h3
      have hlt : s0.objects[i]? = some none → i < s0.objects.length := fun h => by
        by_contra hc; rw [List.getElem?_eq_none (by omega)] at h; simp at h
      cases e with
      | make g =>
        simp only [guardStep, Option.some.injEq] at h1
        subst h1
        have h2 := ih s0 h0 i (by simpa using hi)
        simpa [List.getElem?_append_left (hlt h2)] using h2
      | move j =>
        simp only [guardStep] at h1
        split at h1
        · rename_i g hg
          simp only [Option.some.injEq] at h1
          subst h1
          have h2 := ih s0 h0 i (by simpa using hi)
          rw [List.getElem?_append_left (by simpa using hlt h2), List.getElem?_set_ne (step j g h2 hg).symm, h2]
        · simp at h1
      | dismiss j =>
        simp only [guardStep] at h1
        split at h1
        · rename_i g hg
          simp only [Option.some.injEq] at h1
          subst h1
          have h2 := ih s0 h0 i (by simpa using hi)
          rw [List.getElem?_set_ne (step j g h2 hg).symm, h2]
        · simp at h1
      | destroy j =>
        simp only [guardStep] at h1
        split at h1
        · rename_i g hg
          simp only [Option.some.injEq] at h1
          subst h1
          by_cases hij : i = j
          · subst hij
            have hl : i < s0.objects.length := by by_contra hc; rw [List.getElem?_eq_none (by omega)] at hg; simp at hg
            simp [hl]
          · have h2 := ih s0 h0 i (by simpa [hij] using hi)
            rw [List.getElem?_set_ne (step j g h2 hg).symm, h2]
        · simp at h1
  have hempty : s.objects.filterMap ScopeGuard.live = [] := by
    rw [List.filterMap_eq_nil_iff]
    intro o ho
    obtain ⟨i, hi, rfl⟩ := List.mem_iff_getElem.1 ho
    have := hnone h s hs i (hall i (by rw [← (guardRun_inCharge h s hs).1]; exact hi))
    rw [List.getElem?_eq_getElem hi, Option.some.injEq] at this
    rw [this]; rfl
  rw [hempty] at hc
  simpa using hc

/-- **C74** dismissal: once the guard in charge of a function is dismissed, this function is never run any more (unless another guard is made for
it): one guard made for it stays without effect for ever -/
theorem C74_dismissed {F : Type} [DecidableEq F] {h : List (GuardOp F)} {i : Nat} {f : F} (hi : Spec.inCharge h i = some f) :
    ∀ (later : List (GuardOp F)) (s : GuardState (ScopeGuard F) F), guardRun (later ++ .dismiss i :: h) = some s →
      s.ran.count f + 1 ≤ (Spec.guarded (later ++ .dismiss i :: h)).count f := by
  suffices H : ∀ (later : List (GuardOp F)) (s : GuardState (ScopeGuard F) F), guardRun (later ++ .dismiss i :: h) = some s →
      s.ran.count f + (s.objects.filterMap ScopeGuard.live).count f + 1 ≤ (Spec.guarded (later ++ .dismiss i :: h)).count f by
    intro later s hs
    have := H later s hs
    omega
  intro later
  induction later with
  | nil =>
    intro s hs
    rw [List.nil_append, guardRun, Option.bind_eq_some_iff] at hs
    obtain ⟨s0, h0, h1⟩ := hs
    have hc := guardStep_count f h1
    have h2 := (guardRun_count f h s0 h0).1
    simp only [givenUp, madeFor, (guardRun_inCharge h s0 h0).2 i, hi] at hc
    simp only [List.nil_append, Spec.guarded]
    simp at hc
    omega
  | cons e later ih =>
    intro s hs
    rw [List.cons_append, guardRun, Option.bind_eq_some_iff] at hs
    obtain ⟨s0, h0, h1⟩ := hs
    have hc := guardStep_count f h1
    have ih' := ih s0 h0
    have hg : ∀ i, givenUp s0 (GuardOp.move i) = none ∧ givenUp s0 (GuardOp.destroy i) = none := fun i => ⟨rfl, rfl⟩
    have hg' : ∀ f, givenUp s0 (GuardOp.make f) = none := fun f => rfl
    cases e with
    | make g => simp only [List.cons_append, Spec.guarded, madeFor, hg, hg', Option.some.injEq, reduceCtorEq, if_false, List.count_append, List.count_singleton, beq_iff_eq] at *; omega
    | move j => simp only [List.cons_append, Spec.guarded, madeFor, hg, reduceCtorEq, if_false] at *; omega
    | dismiss j => simp only [List.cons_append, Spec.guarded, madeFor, hg, reduceCtorEq, if_false] at *; omega
    | destroy j => simp only [List.cons_append, Spec.guarded, madeFor, hg, reduceCtorEq, if_false] at *; omega

/-- a guard for function 7 is made and moved, one for function 8 is made and dismissed, one for 9 stays in its scope: all are destroyed in the
opposite order; only 9 and 7 are run -/
example : (guardRun [GuardOp.destroy 0, .destroy 1, .destroy 2, .destroy 3, .dismiss 2, .make 9, .make 8, .move 0, .make (7 : Nat)]).map
    (fun s => s.ran) = some [9, 7] := by decide

example : Spec.inCharge [GuardOp.make 9, .make 8, .move 0, .make (7 : Nat)] 1 = some 7 ∧
    Spec.inCharge [GuardOp.make 9, .make 8, .move 0, .make (7 : Nat)] 0 = none := by decide

/-- the hypotheses of `C74_exactly` and `C74_dismissed` can be met -/
example : ∃ h : List (GuardOp Nat), (guardRun h).isSome ∧ (∀ i < Spec.constructed h, GuardOp.destroy i ∈ h) ∧ Spec.guarded h = [7, 9] :=
  ⟨[.destroy 0, .destroy 1, .destroy 2, .make 9, .move 0, .make 7], by decide, by
    intro i hi
    have : i = 0 ∨ i = 1 ∨ i = 2 := by simp [Spec.constructed] at hi; omega
    rcases this with rfl | rfl | rfl <;> simp, rfl⟩

/-! ## Delayed actions -/

/-- what a delayed action waits for -/
def DelayedAction.live {F : Type} (a : Option (DelayedAction F)) : Option (F × Int × Int) :=
  a.bind fun a => if a.dismissed then none else some (a.runnable, a.start, a.minimum)

theorem delayedRun_waiting {F : Type} : ∀ (h : List (DelayedOp F)) (s : GuardState (DelayedAction F) F), delayedRun h = some s →
    (∀ i, .move i ∉ h) → s.objects.length = Spec.delayedConstructed h ∧
      ∀ i, DelayedAction.live (s.objects[i]?.join) = Spec.waiting h i := by
  intro h
  induction h with
  | nil => rintro s ⟨⟩ -; simp [Spec.delayedConstructed, Spec.waiting, DelayedAction.live]
  | cons e h ih =>
    intro s hs hm
    rw [delayedRun, Option.bind_eq_some_iff] at hs
    obtain ⟨s0, h0, h1⟩ := hs
    obtain ⟨hl, hi⟩ := ih s0 h0 fun i hi => hm i (List.mem_cons_of_mem _ hi)
    cases e with
    | make f now minimum =>
      simp only [delayedStep, Option.some.injEq] at h1
      subst h1
      refine ⟨by simp [Spec.delayedConstructed, hl], fun i => ?_⟩
      rw [Spec.waiting]
      split
      · rename_i hi'; subst hi'; rw [← hl]; simp [DelayedAction.live, DelayedAction.new]
      · rename_i hne
        rw [← hi i]
        by_cases hlt : i < s0.objects.length
        · simp [List.getElem?_append_left hlt]
        · have : s0.objects.length + 1 ≤ i := by omega
          rw [List.getElem?_eq_none (by simpa using this), List.getElem?_eq_none (by omega)]
    | move j => exact absurd List.mem_cons_self (hm j)
    | dismiss j =>
      simp only [delayedStep] at h1
      split at h1
      · rename_i g hg
        simp only [Option.some.injEq] at h1
        subst h1
        have hj : j < s0.objects.length := by by_contra hc; rw [List.getElem?_eq_none (by omega)] at hg; simp at hg
        refine ⟨by simp [Spec.delayedConstructed, hl], fun i => ?_⟩
        rw [Spec.waiting]
        split
        · rename_i hij; subst hij; simp [hj, DelayedAction.live, DelayedAction.dismiss]
        · rename_i hij; rw [← hi i, List.getElem?_set_ne (by omega)]
      · simp at h1
    | destroy j now =>
      simp only [delayedStep] at h1
      split at h1
      · rename_i g hg
        simp only [Option.some.injEq] at h1
        subst h1
        have hj : j < s0.objects.length := by by_contra hc; rw [List.getElem?_eq_none (by omega)] at hg; simp at hg
        refine ⟨by simp [Spec.delayedConstructed, hl], fun i => ?_⟩
        rw [Spec.waiting]
        split
        · rename_i hij; subst hij; simp [hj, DelayedAction.live]
        · rename_i hij; rw [← hi i, List.getElem?_set_ne (by omega)]
      · simp at h1

/-- **C75** (part: delayed actions that are not moved) the destruction of a delayed action runs its function exactly if it was not dismissed and at
least the minimum waiting time has passed on the system clock since its creation; it runs nothing else -/
theorem C75_destroy_partial {F : Type} {h : List (DelayedOp F)} {i : Nat} {now : Int} {s s' : GuardState (DelayedAction F) F}
    (hs : delayedRun h = some s) (hs' : delayedRun (.destroy i now :: h) = some s') (hm : ∀ i, .move i ∉ h) :
    (∃ f start minimum, Spec.waiting h i = some (f, start, minimum) ∧ start + minimum ≤ now ∧ s'.ran = s.ran ++ [f]) ∨
    ((∀ f start minimum, Spec.waiting h i = some (f, start, minimum) → now < start + minimum) ∧ s'.ran = s.ran) := by
  rw [delayedRun, hs, Option.bind_some, delayedStep] at hs'
  have hi := (delayedRun_waiting h s hs hm).2 i
  split at hs'
  · rename_i a ha
    simp only [Option.some.injEq] at hs'
    subst hs'
    rw [← hi, ha]
    cases hd : a.dismissed
    · by_cases ht : a.start + a.minimum ≤ now
      · left
        refine ⟨a.runnable, a.start, a.minimum, by simp [DelayedAction.live, hd], ht, ?_⟩
        have : now - a.start ≥ a.minimum := by omega
        simp [DelayedAction.destroy, hd, this]
      · right
        refine ⟨fun f st mn hx => ?_, ?_⟩
        · simp [DelayedAction.live, hd] at hx
          obtain ⟨-, rfl, rfl⟩ := hx
          omega
        · have : ¬ now - a.start ≥ a.minimum := by omega
          simp [DelayedAction.destroy, this]
    · right
      exact ⟨fun f st mn hx => by simp [DelayedAction.live, hd] at hx, by simp [DelayedAction.destroy, hd]⟩
  · simp at hs'

/-- **C75** (part) no other operation runs a function, whatever is moved -/
theorem C75_silent_partial {F : Type} {h : List (DelayedOp F)} {e : DelayedOp F} {s s' : GuardState (DelayedAction F) F} (hs : delayedRun h = some s)
    (hs' : delayedRun (e :: h) = some s') (he : ∀ i now, e ≠ .destroy i now) : s'.ran = s.ran := by
  rw [delayedRun, hs, Option.bind_some] at hs'
  cases e with
  | make f now m => simp only [delayedStep, Option.some.injEq] at hs'; subst hs'; rfl
  | move j => simp only [delayedStep] at hs'; split at hs' <;> simp at hs'; subst hs'; rfl
  | dismiss j => simp only [delayedStep] at hs'; split at hs' <;> simp at hs'; subst hs'; rfl
  | destroy j now => exact absurd rfl (he j now)

/-- **C75 is false** of delayed actions that are moved: the defaulted move constructor leaves the old object in charge as well. The function is run
twice; and it is run although the action it was moved to has been dismissed. -/
theorem C75_moved_false (f : Nat) (start minimum now : Int) (hn : start + minimum ≤ now) :
    (delayedRun [.destroy 0 now, .destroy 1 now, .move 0, .make f start minimum]).map (fun s => s.ran) = some [f, f] ∧
    (delayedRun [.destroy 0 now, .destroy 1 now, .dismiss 1, .move 0, .make f start minimum]).map (fun s => s.ran) = some [f] := by
  have : now - start ≥ minimum := by omega
  constructor <;>
    simp [delayedRun, delayedStep, DelayedAction.new, DelayedAction.moved, DelayedAction.destroy, DelayedAction.dismiss, this]

/-- the message of the elimination (algorithm_fourier_motzkin_elimination.cpp:345-348): two seconds are 2·10⁹ nanoseconds; it is written by a step
that takes two seconds and not by a step that takes less -/
theorem C75_two_seconds (start now : Int) :
    (delayedRun [.destroy 0 now, .make () start (nanosecondsOfSeconds 2)]).map (fun s => s.ran) =
      some (if now - start ≥ 2000000000 then [()] else []) ∧
    nanosecondsOfSeconds 2 = nanosecondsOfMilliseconds 2000 := by
  refine ⟨?_, by decide⟩
  have h2 : nanosecondsOfSeconds 2 = 2000000000 := by decide
  simp [delayedRun, delayedStep, DelayedAction.new, DelayedAction.destroy, h2]

example : (delayedRun [.destroy 0 3000000000, .destroy 1 3000000000, .dismiss 1, .make 8 (5 : Int) 2, .make (7 : Nat) 0 2000000000]).map
    (fun s => s.ran) = some [7] := by decide

end Panda
