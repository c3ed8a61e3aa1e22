import Verif.Model.Joining
import Mathlib.Tactic.ByContra
import Mathlib.Data.List.Nodup

/-! # C78: threads are joined -/

namespace Panda

/-! ## Specification -/

/-- the number of objects constructed in a history -/
def Spec.joiners : List JoinOp → Nat
  | [] => 0
  | .start :: h => Spec.joiners h + 1
  | .move _ :: h => Spec.joiners h + 1
  | .destroy _ :: h => Spec.joiners h
  | .ended _ :: h => Spec.joiners h

/-- the number of threads started in a history -/
def Spec.started : List JoinOp → Nat
  | [] => 0
  | .start :: h => Spec.started h + 1
  | _ :: h => Spec.started h

/-- the thread object number `i` is in charge of after the history (latest operation first): the object that started it, until it is destroyed or moved
from; then the object it was moved to -/
def Spec.threadOf : List JoinOp → Nat → Option Nat
  | [], _ => none
  | .start :: h, i => if i = Spec.joiners h then some (Spec.started h) else Spec.threadOf h i
  | .move j :: h, i => if i = Spec.joiners h then Spec.threadOf h j else if i = j then none else Spec.threadOf h i
  | .destroy j :: h, i => if i = j then none else Spec.threadOf h i
  | .ended _ :: h, i => Spec.threadOf h i

/-- thread `t` has ended in the history -/
def Spec.HasEnded (h : List JoinOp) (t : Nat) : Prop := JoinOp.ended t ∈ h

/-! ## Invariant -/

/-- the thread of an object -/
def handle (a : Option JoiningThread) : Option Nat := a.bind (·.thread)

structure JoinInv (h : List JoinOp) (s : JoinState) : Prop where
  count : s.objects.length = Spec.joiners h
  threads : s.threads.length = Spec.started h
  charge : ∀ i, handle (s.objects[i]?.join) = Spec.threadOf h i
  ended : ∀ t, s.threads[t]? = some true ↔ (t < Spec.started h ∧ Spec.HasEnded h t)
  joined : ∀ t ∈ s.joined, s.threads[t]? = some true
  once : ∀ t, s.joined.count t + (s.objects.filterMap handle).count t = if t < Spec.started h then 1 else 0
  calm : s.terminated = false

theorem set_count (b : Nat) (x y : Option JoiningThread) :
    ∀ (os : List (Option JoiningThread)) (i : Nat), os[i]? = some y →
    ((os.set i x).filterMap handle).count b + (if handle y = some b then 1 else 0) = (os.filterMap handle).count b + (if handle x = some b then 1 else 0)
  | [], i, h => by simp at h
  | o :: os, 0, h => by
    simp only [List.getElem?_cons_zero, Option.some.injEq] at h
    subst h
    simp only [List.set_cons_zero, List.filterMap_cons]
    rcases handle x with _ | bx <;> rcases handle o with _ | bo <;> simp [List.count_cons] <;> omega
  | o :: os, i + 1, h => by
    simp only [List.getElem?_cons_succ] at h
    have := set_count b x y os i h
    simp only [List.set_cons_succ, List.filterMap_cons]
    rcases handle o with _ | bo
    · exact this
    · simp only [List.count_cons]; omega

theorem joinRun_inv : ∀ (h : List JoinOp) (s : JoinState), joinRun h = some s → JoinInv h s := by
  intro h
  induction h with
  | nil => rintro s ⟨⟩; constructor <;> simp [Spec.joiners, Spec.started, Spec.threadOf, handle]
  | cons e h ih =>
    intro s hs
    rw [joinRun, Option.bind_eq_some_iff] at hs
    obtain ⟨s0, h0, h1⟩ := hs
    have I := ih s0 h0
    cases e with
    | start =>
      simp only [joinStep, Option.some.injEq] at h1
      subst h1
      refine ⟨by simp [Spec.joiners, I.count], by simp [Spec.started, I.threads], fun i => ?_, fun t => ?_, fun t ht => ?_, fun t => ?_, I.calm⟩
      · rw [Spec.threadOf]
        split
        · rename_i hi; subst hi; rw [← I.count]; simp [handle, I.threads]
        · rename_i hne
          rw [← I.charge i]
          by_cases hlt : i < s0.objects.length
          · simp [List.getElem?_append_left hlt]
          · have := I.count
            rw [List.getElem?_eq_none (by simp; omega), List.getElem?_eq_none (by omega)]
      · have hE : Spec.HasEnded (.start :: h) t ↔ Spec.HasEnded h t := by simp [Spec.HasEnded]
        rw [hE, Spec.started]
        have := I.ended t
        have hl := I.threads
        dsimp only
        by_cases hlt : t < s0.threads.length
        · rw [List.getElem?_append_left hlt, this]
          constructor
          · rintro ⟨_, b⟩; exact ⟨by omega, b⟩
          · rintro ⟨_, b⟩; exact ⟨by omega, b⟩
        · constructor
          · intro hc
            by_cases he : t = s0.threads.length
            · subst he; simp at hc
            · rw [List.getElem?_eq_none (by simp; omega)] at hc; simp at hc
          · rintro ⟨ha, hb⟩
            exfalso
            have hte : t = s0.threads.length := by omega
            -- a thread that was not started cannot have ended
            have hne : ∀ (h' : List JoinOp) (s' : JoinState), joinRun h' = some s' → ∀ t, Spec.HasEnded h' t → t < s'.threads.length := by
              intro h'
              induction h' with
              | nil => intro s' _ t ht; simp [Spec.HasEnded] at ht
              | cons e' h' ih' =>
                intro s' hs' t ht
                rw [joinRun, Option.bind_eq_some_iff] at hs'
                obtain ⟨u, hu, hu'⟩ := hs'
                have ihu := ih' u hu
                cases e' with
                | start =>
                  simp only [joinStep, Option.some.injEq] at hu'
                  subst hu'
                  have := ihu t (by simpa [Spec.HasEnded] using ht)
                  simp; omega
                | move j =>
                  simp only [joinStep] at hu'
                  split at hu' <;> simp at hu'
                  subst hu'
                  exact ihu t (by simpa [Spec.HasEnded] using ht)
                | destroy j =>
                  simp only [joinStep] at hu'
                  split at hu'
                  · split at hu' <;> simp at hu'
                    subst hu'
                    exact ihu t (by simpa [Spec.HasEnded] using ht)
                  · simp at hu'
                | ended r =>
                  simp only [joinStep] at hu'
                  split at hu' <;> simp at hu'
                  rename_i hr
                  subst hu'
                  rw [Spec.HasEnded, List.mem_cons] at ht
                  rcases ht with ht | ht
                  · simp only [JoinOp.ended.injEq] at ht
                    subst ht
                    by_contra hc
                    simp only [List.length_set] at hc
                    rw [List.getElem?_eq_none (by omega)] at hr; simp at hr
                  · simpa using ihu t ht
            have := hne h s0 h0 t hb
            omega
      · have := I.joined t ht
        dsimp only
        have hlt : t < s0.threads.length := by by_contra hc; rw [List.getElem?_eq_none (by omega)] at this; simp at this
        rw [List.getElem?_append_left hlt]; exact this
      · have := I.once t
        have hl := I.threads
        have hh : List.filterMap handle [some (⟨some s0.threads.length⟩ : JoiningThread)] = [s0.threads.length] := by simp [handle]
        dsimp only
        rw [List.filterMap_append, List.count_append, hh, List.count_singleton, Spec.started]
        by_cases he : s0.threads.length = t
        · subst he
          rw [hl, if_neg (by omega)] at this
          rw [hl] at *
          simp; omega
        · simp only [beq_iff_eq, he, if_false]
          by_cases hlt : t < Spec.started h
          · rw [if_pos hlt] at this; rw [if_pos (by omega)]; omega
          · rw [if_neg hlt] at this; rw [if_neg (by omega)]; omega
    | move j =>
      simp only [joinStep] at h1
      split at h1
      · rename_i g hg
        simp only [Option.some.injEq] at h1
        subst h1
        have hj : j < s0.objects.length := by by_contra hc; rw [List.getElem?_eq_none (by omega)] at hg; simp at hg
        refine ⟨by simp [Spec.joiners, I.count], I.threads, fun i => ?_, fun t => ?_, I.joined, fun t => ?_, I.calm⟩
        · rw [Spec.threadOf]
          have hl := I.count
          split
          · rename_i hi'; subst hi'; rw [← hl, ← I.charge j, hg]; simp [handle, JoiningThread.moved]
          · rename_i hne
            by_cases hlt : i < s0.objects.length
            · dsimp only
              rw [List.getElem?_append_left (by simpa using hlt)]
              split
              · rename_i hij; subst hij; simp [hlt, handle, JoiningThread.moved]
              · rename_i hij; rw [← I.charge i, List.getElem?_set_ne (by omega)]
            · rw [if_neg (by omega), ← I.charge i]
              rw [List.getElem?_eq_none (by simp; omega), List.getElem?_eq_none (by omega)]
        · have hE : Spec.HasEnded (.move j :: h) t ↔ Spec.HasEnded h t := by simp [Spec.HasEnded]
          rw [hE]; exact I.ended t
        · have := set_count t (some g.moved.2) (some g) s0.objects j hg
          have h2 : handle (some g.moved.2) = none := rfl
          have h3 : List.filterMap handle [some g.moved.1] = (handle (some g)).toList := by
            obtain ⟨_ | u⟩ := g <;> simp [handle, JoiningThread.moved]
          rw [h2] at this
          simp only [reduceCtorEq, if_false, Nat.add_zero] at this
          dsimp only
          rw [List.filterMap_append, List.count_append, h3]
          have ho := I.once t
          have h4 : (handle (some g)).toList.count t = if handle (some g) = some t then 1 else 0 := by
            rcases handle (some g) with _ | u
            · simp
            · simp [List.count_singleton]
          rw [h4]
          rw [Spec.started]
          · omega
          · simp
      · simp at h1
    | destroy j =>
      simp only [joinStep] at h1
      split at h1
      · rename_i g hg
        split at h1
        · rename_i hall
          simp only [Option.some.injEq] at h1
          subst h1
          have hj : j < s0.objects.length := by by_contra hc; rw [List.getElem?_eq_none (by omega)] at hg; simp at hg
          have hjoin : g.join.2 = handle (some g) := by obtain ⟨_ | u⟩ := g <;> simp [handle, JoiningThread.join]
          refine ⟨by simp [Spec.joiners, I.count], I.threads, fun i => ?_, fun t => ?_, fun t ht => ?_, fun t => ?_, ?_⟩
          · rw [Spec.threadOf]
            split
            · rename_i hij; subst hij; simp [hj, handle]
            · rename_i hij; rw [← I.charge i, List.getElem?_set_ne (by omega)]
          · have hE : Spec.HasEnded (.destroy j :: h) t ↔ Spec.HasEnded h t := by simp [Spec.HasEnded]
            rw [hE]; exact I.ended t
          · dsimp only at ht ⊢
            rw [List.mem_append] at ht
            rcases ht with ht | ht
            · exact I.joined t ht
            · rw [Option.mem_toList] at ht
              rw [Option.mem_def.mp ht] at hall
              simp only [Option.all_some, List.getD_eq_getElem?_getD] at hall
              rcases hv : s0.threads[t]? with _ | b
              · rw [hv] at hall; simp at hall
              · rw [hv] at hall; simp at hall; rw [hall]
          · have := set_count t none (some g) s0.objects j hg
            have h2 : handle none = none := rfl
            rw [h2] at this
            simp only [reduceCtorEq, if_false, Nat.add_zero] at this
            have ho := I.once t
            have h4 : (handle (some g)).toList.count t = if handle (some g) = some t then 1 else 0 := by
              rcases handle (some g) with _ | u
              · simp
              · simp [List.count_singleton]
            dsimp only
            rw [List.count_append, hjoin, h4, Spec.started]
            · omega
            · simp
          · show (s0.terminated || g.join.1.release) = false
            rw [I.calm]
            obtain ⟨_ | u⟩ := g <;> simp [JoiningThread.join, JoiningThread.release]
        · simp at h1
      · simp at h1
    | ended r =>
      simp only [joinStep] at h1
      split at h1
      · rename_i hr
        simp only [Option.some.injEq] at h1
        subst h1
        have hlt : r < s0.threads.length := by by_contra hc; rw [List.getElem?_eq_none (by omega)] at hr; simp at hr
        refine ⟨by simp [Spec.joiners, I.count], by simp [Spec.started, I.threads], fun i => I.charge i, fun t => ?_, fun t ht => ?_, fun t => ?_, I.calm⟩
        · have hE : Spec.HasEnded (.ended r :: h) t ↔ (t = r ∨ Spec.HasEnded h t) := by simp [Spec.HasEnded]
          rw [hE]
          have hs : Spec.started (.ended r :: h) = Spec.started h := by rw [Spec.started]; simp
          rw [hs]
          dsimp only
          by_cases ht : t = r
          · subst ht
            have := I.threads
            simp [hlt]; omega
          · rw [List.getElem?_set_ne (by omega), I.ended t]; simp [ht]
        · dsimp only at ht ⊢
          have := I.joined t ht
          by_cases hte : r = t
          · subst hte; simp [hlt]
          · rw [List.getElem?_set_ne hte]; exact this
        · have hs : Spec.started (.ended r :: h) = Spec.started h := by rw [Spec.started]; simp
          rw [hs]; exact I.once t
      · simp at h1

/-! ## C78 -/

/-- **C78** the program is never terminated by the destruction of an object whose thread was neither joined nor detached -/
theorem C78_calm {h : List JoinOp} {s : JoinState} (hs : joinRun h = some s) : s.terminated = false := (joinRun_inv h s hs).calm

/-- **C78** the destruction of an object returns only after the thread it is in charge of has ended, and joins this thread and no other -/
theorem C78_destroy {h : List JoinOp} {i : Nat} {s s' : JoinState} (hs : joinRun h = some s) (hs' : joinRun (.destroy i :: h) = some s') :
    s'.joined = s.joined ++ (Spec.threadOf h i).toList ∧ ∀ t, Spec.threadOf h i = some t → Spec.HasEnded h t := by
  have I := joinRun_inv h s hs
  have I' := joinRun_inv _ s' hs'
  rw [joinRun, hs, Option.bind_some, joinStep] at hs'
  split at hs'
  · rename_i g hg
    split at hs'
    · rename_i hall
      simp only [Option.some.injEq] at hs'
      have hjoin : g.join.2 = Spec.threadOf h i := by
        rw [← I.charge i, hg]
        obtain ⟨_ | u⟩ := g <;> simp [handle, JoiningThread.join]
      subst hs'
      refine ⟨by rw [hjoin], fun t ht => ?_⟩
      have := I'.joined t (by dsimp only; rw [hjoin, ht]; simp)
      exact ((I.ended t).mp this).2
    · simp at hs'
  · simp at hs'

/-- **C78** the destruction of an object has to wait for nothing but the end of the thread it is in charge of -/
theorem C78_ready {h : List JoinOp} {i : Nat} {s : JoinState} (hs : joinRun h = some s) {a : JoiningThread} (hi : s.objects[i]? = some (some a)) :
    (∃ s', joinRun (.destroy i :: h) = some s') ↔ ∀ t, Spec.threadOf h i = some t → Spec.HasEnded h t := by
  have I := joinRun_inv h s hs
  constructor
  · rintro ⟨s', hs'⟩; exact (C78_destroy hs hs').2
  · intro hE
    have hjoin : a.join.2 = Spec.threadOf h i := by
      rw [← I.charge i, hi]
      obtain ⟨_ | u⟩ := a <;> simp [handle, JoiningThread.join]
    have hall : a.join.2.all (fun t => s.threads.getD t false) = true := by
      rw [hjoin]
      rcases ht : Spec.threadOf h i with _ | t
      · rfl
      · have hlt : t < Spec.started h := by
          have ho := I.once t
          have hm : t ∈ s.objects.filterMap handle := by
            rw [List.mem_filterMap]
            refine ⟨some a, List.mem_of_getElem? hi, ?_⟩
            have := I.charge i
            rw [hi, ht] at this
            exact this
          have := List.count_pos_iff.mpr hm
          by_contra hc
          rw [if_neg hc] at ho
          omega
        have := (I.ended t).mpr ⟨hlt, hE t ht⟩
        simp [this]
    rw [joinRun, hs, Option.bind_some, joinStep]
    simp only [hi]
    rw [if_pos hall]
    exact ⟨_, rfl⟩

/-- **C78** every thread is joined at most once; a thread that is not joined is in the charge of exactly one living object -/
theorem C78_once {h : List JoinOp} {s : JoinState} (hs : joinRun h = some s) :
    s.joined.Nodup ∧ ∀ t, t < Spec.started h → t ∉ s.joined → ∃ i, Spec.threadOf h i = some t ∧ ∀ j, Spec.threadOf h j = some t → j = i := by
  have I := joinRun_inv h s hs
  constructor
  · rw [List.nodup_iff_count_le_one]
    intro t
    have := I.once t
    split at this <;> omega
  · intro t ht hn
    have ho := I.once t
    rw [if_pos ht, List.count_eq_zero_of_not_mem hn, Nat.zero_add] at ho
    have hm : t ∈ s.objects.filterMap handle := List.count_pos_iff.mp (by omega)
    rw [List.mem_filterMap] at hm
    obtain ⟨a, ha, hh⟩ := hm
    obtain ⟨i, hi, hia⟩ := List.mem_iff_getElem.mp ha
    have hi2 : s.objects[i]? = some a := by rw [List.getElem?_eq_getElem hi, hia]
    have hci : Spec.threadOf h i = some t := by rw [← I.charge i, hi2]; exact hh
    refine ⟨i, hci, fun j hj => ?_⟩
    by_contra hne
    have hj' := I.charge j
    rw [hj] at hj'
    rcases hjo : s.objects[j]? with _ | b
    · rw [hjo] at hj'; simp [handle] at hj'
    · rw [hjo] at hj'
      have hjb : handle b = some t := hj'
      have h1 := set_count t none a s.objects i hi2
      have h2 := set_count t none b (s.objects.set i none) j (by rw [List.getElem?_set_ne (fun hc => hne hc.symm)]; exact hjo)
      rw [if_pos hh] at h1
      rw [if_pos hjb] at h2
      have h3 : ¬ handle none = some t := by simp [handle]
      rw [if_neg h3] at h1 h2
      omega

/-- **C78** at the end, when all objects are destroyed, every thread that was started has ended and was joined exactly once -/
theorem C78_end {h : List JoinOp} {s : JoinState} (hs : joinRun h = some s) (hd : ∀ a ∈ s.objects, a = none) :
    ∀ t, t < Spec.started h → Spec.HasEnded h t ∧ s.joined.count t = 1 := by
  intro t ht
  have I := joinRun_inv h s hs
  have ho := I.once t
  have h0 : s.objects.filterMap handle = [] := by
    rw [List.filterMap_eq_nil_iff]
    intro a ha
    rw [hd a ha]; rfl
  rw [h0, if_pos ht] at ho
  simp only [List.count_nil, Nat.add_zero] at ho
  exact ⟨((I.ended t).mp (I.joined t (List.count_pos_iff.mp (by omega)))).2, ho⟩

/-! ## Example -/

/-- two threads are started, the first object is moved, the threads end, all objects are destroyed -/
def joinExample : List JoinOp := [.destroy 2, .ended 0, .destroy 0, .destroy 1, .ended 1, .move 0, .start, .start]

example : ∃ s, joinRun joinExample = some s ∧ (∀ a ∈ s.objects, a = none) ∧ s.joined = [1, 0] ∧ Spec.started joinExample = 2 := by
  refine ⟨_, rfl, ?_, rfl, rfl⟩
  intro a ha
  simp at ha
  exact ha

/-- before thread 0 has ended, the object in charge of it cannot be destroyed; the moved-from object can -/
example : joinRun [.destroy 2, .destroy 0, .destroy 1, .ended 1, .move 0, .start, .start] = none ∧
    (joinRun [.destroy 0, .destroy 1, .ended 1, .move 0, .start, .start]).isSome = true := ⟨rfl, rfl⟩

end Panda
