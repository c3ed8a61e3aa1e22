import Verif.Model.Cluster
import Verif.Proofs.PoolLive
import Mathlib.Logic.Equiv.Basic

/-! # Runs of the pool up to exchanging threads

Two states of the pool that differ in which thread works on which row (and in the order of the threads) can take the same
steps. -/

namespace Panda

open Relation

/-- the place without the row that is being worked on -/
def PC.erase : PC → PC
  | .working _ => .working []
  | .putting _ all rest => .putting [] all rest
  | x => x

theorem PC.erase_idle {x : PC} : x.erase = .idle ↔ x = .idle := by cases x <;> simp [PC.erase]
theorem PC.erase_check {x : PC} : x.erase = .check ↔ x = .check := by cases x <;> simp [PC.erase]
theorem PC.erase_insertEmpty {x : PC} : x.erase = .insertEmpty ↔ x = .insertEmpty := by cases x <;> simp [PC.erase]
theorem PC.erase_pushEmpty {x : PC} : x.erase = .pushEmpty ↔ x = .pushEmpty := by cases x <;> simp [PC.erase]
theorem PC.erase_lock {x : PC} : x.erase = .lock ↔ x = .lock := by cases x <;> simp [PC.erase]
theorem PC.erase_waiting {x : PC} : x.erase = .waiting ↔ x = .waiting := by cases x <;> simp [PC.erase]
theorem PC.erase_stopped {x : PC} : x.erase = .stopped ↔ x = .stopped := by cases x <;> simp [PC.erase]
theorem PC.erase_working {x : PC} : x.erase = .working [] ↔ ∃ r, x = .working r := by cases x <;> simp [PC.erase]
theorem PC.erase_putting {x : PC} {all rest : Matrix} : x.erase = .putting [] all rest ↔ ∃ r, x = .putting r all rest := by cases x <;> simp [PC.erase]

section
set_option linter.unusedSectionVars false
variable {ι : Type} [DecidableEq ι] {c : PoolConfig ι} {p p' a a' : Pool ι} {r : Row} {π : Equiv.Perm ι} {E : ι → Prop}

/-- thread `i` of the first state is where thread `π i` of the second one is, up to the row; up to nothing if `E i` -/
structure SimPC (π : Equiv.Perm ι) (E : ι → Prop) (x y : ι → PC) : Prop where
  erase : ∀ i, (y (π i)).erase = (x i).erase
  exact : ∀ i r, E i → x i = .working r → y (π i) = .working r

theorem SimPC.of_eq (H : SimPC π E p.pc a.pc) {i : ι} {v : PC} (h : p.pc i = v) : (a.pc (π i)).erase = v.erase := by rw [H.erase, h]

theorem SimPC.update {x y : ι → PC} (H : SimPC π E x y) (i : ι) {v w : PC} (h : w.erase = v.erase) (hE : E i → ∀ r, v = .working r → w = .working r) :
    SimPC π E (Function.update x i v) (Function.update y (π i) w) := by
  refine ⟨fun j => ?_, fun j r hj hx => ?_⟩
  · by_cases hji : j = i
    · subst hji; simp [h]
    · rw [Function.update_of_ne hji, Function.update_of_ne (by simpa using hji)]; exact H.erase j
  · by_cases hji : j = i
    · subst hji; simp only [Function.update_self] at hx ⊢; exact hE hj r hx
    · rw [Function.update_of_ne hji] at hx
      rw [Function.update_of_ne (by simpa using hji)]; exact H.exact j r hj hx

theorem SimPC.notifyAll {x y : ι → PC} (H : SimPC π E x y) : SimPC π E (notifyAll x) (notifyAll y) := by
  have hw : ∀ i, y (π i) = .waiting ↔ x i = .waiting := fun i => by rw [← PC.erase_waiting, H.erase, PC.erase_waiting]
  refine ⟨fun i => ?_, fun i r hi hx => ?_⟩
  · unfold Panda.notifyAll
    by_cases h : x i = .waiting
    · rw [if_pos h, if_pos ((hw i).2 h)]
    · rw [if_neg h, if_neg (fun h' => h ((hw i).1 h'))]; exact H.erase i
  · unfold Panda.notifyAll at *
    by_cases h : x i = .waiting
    · rw [if_pos h] at hx; cases hx
    · rw [if_neg h] at hx
      rw [if_neg (fun h' => h ((hw i).1 h'))]; exact H.exact i r hi hx

theorem SimPC.notifyOne {x x' y : ι → PC} (H : SimPC π E x y) (h : NotifyOne x x') : ∃ y', NotifyOne y y' ∧ SimPC π E x' y' := by
  have hw : ∀ i, y (π i) = .waiting ↔ x i = .waiting := fun i => by rw [← PC.erase_waiting, H.erase, PC.erase_waiting]
  rcases h with ⟨h, rfl⟩ | ⟨i, hi, rfl⟩
  · refine ⟨y, .inl ⟨fun i hi => ?_, rfl⟩, H⟩
    rw [← Equiv.apply_symm_apply π i, hw] at hi
    exact h _ hi
  · exact ⟨_, .inr ⟨π i, (hw i).2 hi, rfl⟩, H.update i rfl (by simp)⟩

/-- the states agree up to exchanging threads -/
structure Similar (π : Equiv.Perm ι) (E : ι → Prop) (p a : Pool ι) : Prop where
  rows : a.rows = p.rows
  iterators : a.iterators = p.iterators
  workers : a.workers = p.workers
  master : a.master = p.master
  async : a.async = p.async
  printed : a.printed = p.printed
  submitted : a.submitted = p.submitted
  handed : a.handed.map Prod.snd = p.handed.map Prod.snd
  pc : SimPC π E p.pc a.pc

theorem Similar.put (H : Similar π E p a) (h : PutRow r p p') : ∃ a', PutRow r a a' ∧ Similar π E p' a' := by
  cases h with
  | present hf =>
    refine ⟨_, .present a (by rw [H.rows]; exact hf), ?_⟩
    exact ⟨H.rows, H.iterators, H.workers, H.master, H.async, H.printed, by simp [H.submitted], H.handed, H.pc⟩
  | added pc' hf hn =>
    obtain ⟨y, h1, h2⟩ := H.pc.notifyOne hn
    refine ⟨_, .added a y (by rw [H.rows]; exact hf) h1, ?_⟩
    exact ⟨by simp [H.rows], by simp [H.iterators], H.workers, H.master, H.async, by simp [H.printed], by simp [H.submitted], H.handed, h2⟩

/-- the threads of `R` that work on a row still do so -/
def Keep (R : ι → Prop) (p p' : Pool ι) : Prop := ∀ i row, R i → p.pc i = .working row → p'.pc i = .working row

theorem keep_update {R : ι → Prop} {x : ι → PC} {i : ι} {v : PC} (h : ∀ row, x i ≠ .working row) :
    ∀ j row, R j → x j = .working row → Function.update x i v j = .working row := by
  intro j row _ hj
  by_cases hji : j = i
  · subst hji; exact absurd hj (h row)
  · rw [Function.update_of_ne hji]; exact hj

theorem keep_put {R : ι → Prop} {t : Pool ι} (h : PutRow r t a') {j : ι} {row : Row} (hj : t.pc j = .working row) : a'.pc j = .working row := by
  rw [putRow_pc_of_ne h.facts (by rw [hj]; simp)]; exact hj

theorem Similar.step (H : Similar π E p a) (hπ : ∀ i, c.remote (π i) ↔ c.remote i) (hE : ∀ i, ¬ c.remote i → E i)
    (hst : Progress c p p') (hk : Keep c.remote p p') : ∃ a', Progress c a a' ∧ Similar π E p' a' ∧ Keep c.remote a a' := by
  have simple : ∀ (i : ι) (v : PC), (∀ r, v ≠ .working r) → Similar π E { p with pc := Function.update p.pc i v } { a with pc := Function.update a.pc (π i) v } :=
    fun i v hv => ⟨H.rows, H.iterators, H.workers, H.master, H.async, H.printed, H.submitted, H.handed, H.pc.update i rfl fun _ _ h => h⟩
  cases hst with
  | start i hi hc =>
    have e := PC.erase_idle.1 (H.pc.of_eq hi)
    exact ⟨_, .start a (π i) e (by rw [hπ, H.master]; exact hc), simple i _ (by simp), keep_update (by rw [e]; simp)⟩
  | checkEmpty i hi hw hit =>
    have e := PC.erase_check.1 (H.pc.of_eq hi)
    exact ⟨_, .checkEmpty a (π i) e (by rw [H.workers]; exact hw) (by rw [H.iterators]; exact hit), simple i _ (by simp), keep_update (by rw [e]; simp)⟩
  | checkBusy i hi hw =>
    have e := PC.erase_check.1 (H.pc.of_eq hi)
    exact ⟨_, .checkBusy a (π i) e (by rw [H.workers, H.iterators]; exact hw), simple i _ (by simp), keep_update (by rw [e]; simp)⟩
  | insertEmpty i hi =>
    have e := PC.erase_insertEmpty.1 (H.pc.of_eq hi)
    refine ⟨_, .insertEmpty a (π i) e, ⟨by simp [H.rows], H.iterators, H.workers, H.master, H.async, H.printed, H.submitted, H.handed,
      H.pc.update i rfl (by simp)⟩, keep_update (by rw [e]; simp)⟩
  | pushEmpty i hi =>
    have e := PC.erase_pushEmpty.1 (H.pc.of_eq hi)
    refine ⟨_, .pushEmpty a (π i) e, ⟨H.rows, by simp [H.iterators], H.workers, H.master, H.async, H.printed, H.submitted, H.handed,
      H.pc.notifyAll.update i rfl (by simp)⟩, ?_⟩
    intro j row hj hw
    refine keep_update (R := c.remote) ?_ j row hj (x := Panda.notifyAll a.pc) ?_
    · intro r h; unfold Panda.notifyAll at h; rw [e] at h; simp at h
    · unfold Panda.notifyAll; rw [hw]; simp
  | wait i hi hit =>
    have e := PC.erase_lock.1 (H.pc.of_eq hi)
    exact ⟨_, .wait a (π i) e (by rw [H.iterators]; exact hit), simple i _ (by simp), keep_update (by rw [e]; simp)⟩
  | take i row rest hi hit hr =>
    have e := PC.erase_lock.1 (H.pc.of_eq hi)
    refine ⟨_, .take a (π i) row rest e (by rw [H.iterators]; exact hit) hr, ⟨H.rows, rfl, by simp [H.workers], H.master, H.async, H.printed,
      H.submitted, by simp [H.handed], H.pc.update i rfl fun _ _ h => h⟩, keep_update (by rw [e]; simp)⟩
  | stop i rest hi hit =>
    have e := PC.erase_lock.1 (H.pc.of_eq hi)
    refine ⟨_, .stop a (π i) rest e (by rw [H.iterators]; exact hit), ⟨H.rows, H.iterators, by simp [H.workers], H.master, H.async, H.printed,
      H.submitted, H.handed, H.pc.update i rfl (by simp)⟩, keep_update (by rw [e]; simp)⟩
  | rotate i row m hi hm =>
    have hl : ¬ c.remote i := fun h => by simpa using hk i row h hi
    have e := H.pc.exact i row (hE i hl) hi
    refine ⟨_, .rotate a (π i) row m e hm, ⟨H.rows, H.iterators, H.workers, H.master, H.async, H.printed, H.submitted, H.handed,
      H.pc.update i rfl (by simp)⟩, ?_⟩
    intro j row' hj hw
    by_cases hji : j = π i
    · subst hji; exact absurd ((hπ i).1 hj) hl
    · simp only [Function.update_of_ne hji]; exact hw
  | put _ i row all r rest hi hp =>
    obtain ⟨row', e⟩ := PC.erase_putting.1 (H.pc.of_eq hi)
    have H1 : Similar π E { p with pc := Function.update p.pc i (.putting row all rest) } { a with pc := Function.update a.pc (π i) (.putting row' all rest) } :=
      ⟨H.rows, H.iterators, H.workers, H.master, H.async, H.printed, H.submitted, H.handed, H.pc.update i rfl (by simp)⟩
    obtain ⟨a', h1, h2⟩ := H1.put hp
    refine ⟨a', .put a a' (π i) row' all r rest e h1, h2, fun j row hj hw => ?_⟩
    exact keep_put (R := c.remote) h1 (keep_update (R := c.remote) (by rw [e]; simp) j row hj hw)
  | done i row all hi =>
    obtain ⟨row', e⟩ := PC.erase_putting.1 (H.pc.of_eq hi)
    refine ⟨_, .done a (π i) row' all e, ⟨H.rows, H.iterators, by simp [H.workers], H.master, H.async, H.printed, H.submitted, H.handed,
      H.pc.update i rfl (by simp)⟩, keep_update (by rw [e]; simp)⟩
  | masterPut _ r rest hm hp =>
    have H1 : Similar π E { p with master := some rest } { a with master := some rest } :=
      ⟨H.rows, H.iterators, H.workers, rfl, H.async, H.printed, H.submitted, H.handed, H.pc⟩
    obtain ⟨a', h1, h2⟩ := H1.put hp
    exact ⟨a', .masterPut a a' r rest (by rw [H.master]; exact hm) h1, h2, fun j row hj hw => keep_put (R := c.remote) h1 hw⟩
  | masterDone hm =>
    exact ⟨_, .masterDone a (by rw [H.master]; exact hm), ⟨H.rows, H.iterators, by simp [H.workers], rfl, H.async, H.printed, H.submitted, H.handed,
      H.pc⟩, fun j row hj hw => hw⟩
  | asyncPut _ r rest hm ha hp =>
    have H1 : Similar π E { p with async := rest } { a with async := rest } :=
      ⟨H.rows, H.iterators, H.workers, H.master, rfl, H.printed, H.submitted, H.handed, H.pc⟩
    obtain ⟨a', h1, h2⟩ := H1.put hp
    exact ⟨a', .asyncPut a a' r rest (by rw [H.master]; exact hm) (by rw [H.async]; exact ha) h1, h2, fun j row hj hw => keep_put (R := c.remote) h1 hw⟩

theorem Similar.spurious (H : Similar π E p a) (hst : Spurious p p') :
    ∃ a', Spurious a a' ∧ Similar π E p' a' ∧ Keep c.remote a a' := by
  obtain ⟨i, hi⟩ := hst
  have e := PC.erase_waiting.1 (H.pc.of_eq hi)
  exact ⟨_, .wake a (π i) e, ⟨H.rows, H.iterators, H.workers, H.master, H.async, H.printed, H.submitted, H.handed, H.pc.update i rfl (by simp)⟩,
    keep_update (by rw [e]; simp)⟩

theorem Similar.symm (H : Similar π E p a) : Similar π.symm (fun i => E (π.symm i)) a p := by
  refine ⟨H.rows.symm, H.iterators.symm, H.workers.symm, H.master.symm, H.async.symm, H.printed.symm, H.submitted.symm, H.handed.symm,
    fun i => ?_, fun i r hi hr => ?_⟩
  · rw [← H.pc.erase, Equiv.apply_symm_apply]
  · have h1 := H.pc.erase (π.symm i)
    rw [Equiv.apply_symm_apply, hr] at h1
    obtain ⟨r', e⟩ := PC.erase_working.1 h1.symm
    have h2 := H.pc.exact _ _ hi e
    rw [Equiv.apply_symm_apply, hr] at h2
    rw [e, h2]

theorem Similar.finished (H : Similar π E p a) : a.Finished ↔ p.Finished := by
  unfold Pool.Finished
  rw [H.master, H.async]
  refine and_congr Iff.rfl (and_congr Iff.rfl ⟨fun h i => ?_, fun h i => ?_⟩)
  · exact PC.erase_stopped.1 (by rw [← H.pc.erase, h]; rfl)
  · rw [← Equiv.apply_symm_apply π i]
    exact PC.erase_stopped.1 (by rw [H.pc.erase, h]; rfl)

theorem sum_similar [Fintype ι] (H : Similar π E p a) (f : PC → Nat) (hf : ∀ x, f x.erase = f x) : ∑ i, f (a.pc i) = ∑ i, f (p.pc i) := by
  rw [← Equiv.sum_comp π]
  exact Finset.sum_congr rfl fun i _ => by rw [← hf, H.pc.erase, hf]

theorem Similar.measure [Fintype ι] (H : Similar π E p a) (U : Finset Row) : measure U a = measure U p := by
  unfold Panda.measure
  rw [H.printed, H.iterators, H.master, H.async, sum_similar H PC.isWorking (by intro x; cases x <;> rfl),
    sum_similar H PC.weight (by intro x; cases x <;> rfl), sum_similar H PC.running (by intro x; cases x <;> rfl)]

end

end Panda
