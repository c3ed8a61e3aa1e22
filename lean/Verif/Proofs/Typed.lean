import Mathlib.Data.List.InsertIdx
import Verif.Model.Typed
import Mathlib.Tactic.Linarith
import Mathlib.Tactic.Ring
import Mathlib.Tactic.NormNum

/-! # Computations with a given integer type follow the exact ones, or fail -/

namespace Panda

/-- the computation has the exact result (with property `P`), or it throws (only if `t`), or it is undefined (only if `u`) -/
def Sim (t u : Prop) {α : Type} (P : α → Prop) (x e : Outcome α) : Prop :=
  (x = e ∧ ∀ v, e = .ok v → P v) ∨ (t ∧ x = .thrown) ∨ (u ∧ x = .ub)

section
variable {t u : Prop} {α β : Type} {P : α → Prop} {Q : β → Prop}

theorem Sim.ok {v : α} (h : P v) : Sim t u P (.ok v) (.ok v) := Or.inl ⟨rfl, fun w hw => by cases hw; exact h⟩

theorem Sim.ub : Sim t u P .ub .ub := Or.inl ⟨rfl, fun w hw => by cases hw⟩

theorem Sim.thrown : Sim t u P .thrown .thrown := Or.inl ⟨rfl, fun w hw => by cases hw⟩

theorem Sim.bind {x e : Outcome α} {f g : α → Outcome β} (h : Sim t u P x e) (hf : ∀ v, P v → Sim t u Q (f v) (g v)) :
    Sim t u Q (x.bind f) (e.bind g) := by
  rcases h with ⟨rfl, h⟩ | ⟨ht, rfl⟩ | ⟨hu, rfl⟩
  · cases x with
    | ok v => exact hf v (h v rfl)
    | thrown => exact Sim.thrown
    | ub => exact Sim.ub
  · exact Or.inr (Or.inl ⟨ht, rfl⟩)
  · exact Or.inr (Or.inr ⟨hu, rfl⟩)

/-- as `Sim.bind`, for an exact value -/
theorem Sim.bindOk {x : Outcome α} {v : α} {f : α → Outcome β} {e : Outcome β} (h : Sim t u P x (.ok v))
    (hf : P v → Sim t u Q (f v) e) : Sim t u Q (x.bind f) e := by
  rcases h with ⟨rfl, h⟩ | ⟨ht, rfl⟩ | ⟨hu, rfl⟩
  · exact hf (h v rfl)
  · exact Or.inr (Or.inl ⟨ht, rfl⟩)
  · exact Or.inr (Or.inr ⟨hu, rfl⟩)

theorem Sim.mono {P' : α → Prop} {x e : Outcome α} (h : Sim t u P x e) (hP : ∀ v, P v → P' v) : Sim t u P' x e := by
  rcases h with ⟨h1, h⟩ | h | h
  · exact Or.inl ⟨h1, fun v hv => hP v (h v hv)⟩
  · exact Or.inr (Or.inl h)
  · exact Or.inr (Or.inr h)

theorem Sim.weaken {t' u' : Prop} {x e : Outcome α} (h : Sim t u P x e) (ht : t → t') (hu : u → u') : Sim t' u' P x e := by
  rcases h with h | ⟨a, b⟩ | ⟨a, b⟩
  · exact Or.inl h
  · exact Or.inr (Or.inl ⟨ht a, b⟩)
  · exact Or.inr (Or.inr ⟨hu a, b⟩)

theorem Sim.traverse {f : α → Outcome β} {g : α → β} : ∀ {l : List α}, (∀ a ∈ l, Sim t u Q (f a) (.ok (g a))) →
    Sim t u (fun bs => ∀ b ∈ bs, Q b) (Typed.traverse f l) (.ok (l.map g))
  | [], _ => Sim.ok (by simp)
  | a :: l, h => by
    refine (h a (by simp)).bindOk fun h1 => (Sim.traverse fun b hb => h b (by simp [hb])).bindOk fun h2 => Sim.ok ?_
    intro b hb
    rcases List.mem_cons.mp hb with rfl | hb
    · exact h1
    · exact h2 b hb

theorem Sim.foldM {f : β → α → Outcome β} {g : β → α → β} : ∀ {l : List α} {b : β},
    (∀ a ∈ l, ∀ b, Q b → Sim t u Q (f b a) (.ok (g b a))) → Q b → Sim t u Q (Typed.foldM f b l) (.ok (l.foldl g b))
  | [], _, _, hb => Sim.ok hb
  | a :: l, b, h, hb => (h a (by simp) b hb).bindOk fun h1 => Sim.foldM (fun x hx => h x (by simp [hx])) h1

end

/-- all entries satisfy `R` -/
def RowR (R : Int → Prop) (r : Row) : Prop := ∀ x ∈ r, R x
/-- all entries satisfy `R` -/
def MatR (R : Int → Prop) (m : Matrix) : Prop := ∀ r ∈ m, RowR R r

/-- division and absolute value of values with `R` are exact or fail -/
structure DivLaw (A : Arith) (R : Int → Prop) (t u : Prop) : Prop where
  zero : R 0
  div : ∀ a b, R a → R b → b ≠ 0 → Sim t u R (A.div a b) (.ok (a.tdiv b))
  mod : ∀ a b, R a → R b → 0 ≤ a → 0 < b → Sim t u R (A.mod a b) (.ok (a % b))
  abs : ∀ a, R a → Sim t u R (A.abs a) (.ok (a.natAbs : Int))

/-- the operations on values with `R` are exact or fail -/
structure Law (A : Arith) (R : Int → Prop) (t u : Prop) : Prop extends DivLaw A R t u where
  one : R 1
  negOne : R (-1)
  add : ∀ a b, R a → R b → Sim t u R (A.add a b) (.ok (a + b))
  sub : ∀ a b, R a → R b → Sim t u R (A.sub a b) (.ok (a - b))
  mul : ∀ a b, R a → R b → Sim t u R (A.mul a b) (.ok (a * b))
  neg : ∀ a, R a → Sim t u R (A.neg a) (.ok (-a))

section
variable {A : Arith} {R : Int → Prop} {t u : Prop}

theorem rowR_nil : RowR R [] := by simp [RowR]
theorem rowR_cons {x : Int} {r : Row} (hx : R x) (hr : RowR R r) : RowR R (x :: r) := by
  intro y hy; rcases List.mem_cons.mp hy with rfl | hy
  · exact hx
  · exact hr y hy

theorem rowR_getD {r : Row} (h0 : R 0) (hr : RowR R r) (i : Nat) : R (r.getD i 0) := by
  rw [List.getD_eq_getElem?_getD]
  cases h : r[i]? with
  | none => exact h0
  | some x => exact hr x (List.mem_of_getElem? h)

theorem matR_getD {m : Matrix} (hm : MatR R m) (i : Nat) : RowR R (m.getD i []) := by
  rw [List.getD_eq_getElem?_getD]
  cases h : m[i]? with
  | none => exact rowR_nil
  | some x => exact hm x (List.mem_of_getElem? h)

theorem rowR_set {r : Row} (hr : RowR R r) {x : Int} (hx : R x) (i : Nat) : RowR R (r.set i x) := by
  intro y hy
  rcases List.mem_or_eq_of_mem_set hy with h | rfl
  · exact hr y h
  · exact hx

theorem rowR_eraseIdx {r : Row} (hr : RowR R r) (i : Nat) : RowR R (r.eraseIdx i) :=
  fun y hy => hr y ((List.eraseIdx_sublist _ _).mem hy)

theorem matR_eraseIdx {m : Matrix} (hm : MatR R m) (i : Nat) : MatR R (m.eraseIdx i) :=
  fun y hy => hm y ((List.eraseIdx_sublist _ _).mem hy)

theorem rowR_replicate {x : Int} (hx : R x) (n : Nat) : RowR R (List.replicate n x) := by
  intro y hy; rw [(List.mem_replicate.mp hy).2]; exact hx

theorem matR_append {m m' : Matrix} (h : MatR R m) (h' : MatR R m') : MatR R (m ++ m') := by
  intro r hr; rcases List.mem_append.mp hr with hr | hr
  · exact h r hr
  · exact h' r hr

theorem matR_sub {m m' : Matrix} (h : MatR R m) (hs : ∀ r ∈ m', r ∈ m) : MatR R m' := fun r hr => h r (hs r hr)

theorem entryR {m : Matrix} (h0 : R 0) (hm : MatR R m) (i j : Nat) : R (entry m i j) := rowR_getD h0 (matR_getD hm i) j

/-! ## rows -/

theorem zipRow_sim {f : Int → Int → Outcome Int} {g : Int → Int → Int} (h : ∀ a b, R a → R b → Sim t u R (f a b) (.ok (g a b))) :
    ∀ {a b : Row}, RowR R a → RowR R b → Sim t u (RowR R) (Typed.zipRow f a b) (.ok (List.zipWith g a b))
  | [], _, _, _ => Sim.ok rowR_nil
  | _ :: _, [], _, _ => Sim.ok rowR_nil
  | x :: a, y :: b, ha, hb => by
    refine (h x y (ha x (by simp)) (hb y (by simp))).bindOk fun h1 =>
      (zipRow_sim h (a := a) (b := b) (fun z hz => ha z (by simp [hz])) fun z hz => hb z (by simp [hz])).bindOk fun h2 =>
      Sim.ok (rowR_cons h1 h2)

section
variable (L : DivLaw A R t u)
include L

theorem rowQuot_sim {r : Row} {d : Int} (hr : RowR R r) (hd : R d) (h0 : d ≠ 0) :
    Sim t u (RowR R) (Typed.rowQuot A r d) (.ok (rowQuot r d)) := by
  unfold Typed.rowQuot rowQuot
  split
  · exact Sim.traverse fun x hx => L.div x d (hr x hx) hd h0
  · exact Sim.ok hr

theorem gcdLoop_sim : ∀ {fuel a b : Nat}, a + b ≤ fuel → R a → R b →
    Sim t u R (Typed.gcdLoop A fuel (a : Int) (b : Int)) (.ok (gcdLoop fuel a b : Nat))
  | 0, a, b, hf, ha, hb => by
    unfold Typed.gcdLoop gcdLoop
    rw [if_neg (show ¬ ((a : Int) ≠ 0 ∧ (b : Int) ≠ 0) by omega)]
    by_cases h : a = 0
    · rw [if_pos h, if_pos (by exact_mod_cast h)]; exact Sim.ok hb
    · rw [if_neg h, if_neg (by exact_mod_cast h)]; exact Sim.ok ha
  | fuel + 1, a, b, hf, ha, hb => by
    unfold Typed.gcdLoop gcdLoop
    by_cases h : a ≠ 0 ∧ b ≠ 0
    · rw [if_pos h, if_pos (by exact_mod_cast h)]
      have m1 := Nat.mod_lt a (y := b) (by omega)
      have m2 := Nat.mod_lt b (y := a) (by omega)
      by_cases h2 : a > b
      · rw [if_pos h2, if_pos (by exact_mod_cast h2)]
        have := L.mod a b ha hb (by omega) (by omega)
        rw [← Int.natCast_mod] at this
        exact this.bindOk fun h3 => gcdLoop_sim (by omega) h3 hb
      · rw [if_neg h2, if_neg (by exact_mod_cast h2)]
        have := L.mod b a hb ha (by omega) (by omega)
        rw [← Int.natCast_mod] at this
        exact this.bindOk fun h3 => gcdLoop_sim (by omega) ha h3
    · rw [if_neg h, if_neg (by exact_mod_cast h)]
      by_cases h : a = 0
      · rw [if_pos h, if_pos (by exact_mod_cast h)]; exact Sim.ok hb
      · rw [if_neg h, if_neg (by exact_mod_cast h)]; exact Sim.ok ha

theorem gcd_sim {a b : Int} (ha : R a) (hb : R b) : Sim t u R (Typed.gcd A a b) (.ok (gcd a b)) := by
  unfold Typed.gcd gcd unsignedGcd
  refine (L.abs a ha).bindOk fun h1 => (L.abs b hb).bindOk fun h2 => ?_
  rw [Int.natAbs_natCast, Int.natAbs_natCast]
  exact gcdLoop_sim L le_rfl h1 h2

theorem rowGcdLoop_sim : ∀ {r : Row} {v : Int}, R v → RowR R r → Sim t u R (Typed.rowGcdLoop A v r) (.ok (rowGcdLoop v r))
  | [], _, hv, _ => Sim.ok hv
  | x :: r, v, hv, hr => by
    unfold Typed.rowGcdLoop rowGcdLoop
    split
    · exact (gcd_sim L (hr x (by simp)) hv).bindOk fun h => rowGcdLoop_sim h fun z hz => hr z (by simp [hz])
    · exact Sim.ok hv

theorem rowGcd_sim : ∀ {r : Row}, RowR R r → Sim t u R (Typed.rowGcd A r) (.ok (rowGcd r))
  | [], _ => Sim.ok L.zero
  | x :: r, hr => by
    unfold Typed.rowGcd rowGcd
    have h2 : RowR R r := fun z hz => hr z (by simp [hz])
    split
    · exact rowGcd_sim h2
    · exact (L.abs x (hr x (by simp))).bindOk fun h => rowGcdLoop_sim L h h2

theorem makePrimitive_sim {r : Row} (hr : RowR R r) : Sim t u (RowR R) (Typed.makePrimitive A r) (.ok (makePrimitive r)) := by
  unfold Typed.makePrimitive makePrimitive
  refine (rowGcd_sim L hr).bindOk fun h => ?_
  dsimp only
  split
  · exact rowQuot_sim L hr h (by omega)
  · exact Sim.ok hr

end

variable (L : Law A R t u)
include L

theorem rowAdd_sim {a b : Row} (ha : RowR R a) (hb : RowR R b) : Sim t u (RowR R) (Typed.rowAdd A a b) (.ok (rowAdd a b)) :=
  zipRow_sim L.add ha hb

theorem rowSub_sim {a b : Row} (ha : RowR R a) (hb : RowR R b) : Sim t u (RowR R) (Typed.rowSub A a b) (.ok (rowSub a b)) :=
  zipRow_sim L.sub ha hb

theorem rowScale_sim {r : Row} {f : Int} (hr : RowR R r) (hf : R f) : Sim t u (RowR R) (Typed.rowScale A r f) (.ok (rowScale r f)) := by
  unfold Typed.rowScale rowScale
  split
  · exact Sim.traverse fun x hx => L.mul x f (hr x hx) hf
  · exact Sim.ok hr

theorem dotLoop_sim : ∀ {a b : Row} {acc : Int}, R acc → RowR R a → RowR R b →
    Sim t u R (Typed.dotLoop A acc a b) (.ok ((List.zipWith (· * ·) a b).foldl (· + ·) acc))
  | [], _, _, h, _, _ => Sim.ok h
  | _ :: _, [], _, h, _, _ => Sim.ok h
  | x :: a, y :: b, acc, h, ha, hb => by
    refine (L.mul x y (ha x (by simp)) (hb y (by simp))).bindOk fun h1 => (L.add acc _ h h1).bindOk fun h2 => ?_
    exact dotLoop_sim h2 (fun z hz => ha z (by simp [hz])) fun z hz => hb z (by simp [hz])

theorem dot_sim {a b : Row} (ha : RowR R a) (hb : RowR R b) : Sim t u R (Typed.dot A a b) (.ok (dot a b)) :=
  dotLoop_sim L L.zero ha hb

/-! ## matrices -/

theorem matVec_sim {m : Matrix} {v : Row} (hm : MatR R m) (hv : RowR R v) :
    Sim t u (RowR R) (Typed.matVec A m v) (.ok (matVec m v)) :=
  Sim.traverse fun r hr => dot_sim L (hm r hr) hv

theorem normalizeColumn_sim {m : Matrix} {c : Nat} (hm : MatR R m) :
    Sim t u (MatR R) (Typed.normalizeColumn A m c) (.ok (normalizeColumn m c)) := by
  unfold Typed.normalizeColumn normalizeColumn
  refine (Sim.foldM (Q := R) (f := Typed.gcd A) (g := gcd) (fun x hx v hv => gcd_sim L.toDivLaw hv ?_) L.zero).bindOk fun h => ?_
  · obtain ⟨r, hr, rfl⟩ := List.mem_map.mp hx
    exact rowR_getD L.zero (hm r hr) c
  dsimp only
  split
  · refine Sim.traverse fun r hr => (L.div _ _ (rowR_getD L.zero (hm r hr) c) h (by omega)).bindOk fun h2 => Sim.ok ?_
    exact rowR_set (hm r hr) h2 c
  · exact Sim.ok hm

theorem eliminateColumn_sim {m : Matrix} {row col ecol : Nat} (hm : MatR R m) :
    Sim t u (MatR R) (Typed.eliminateColumn A m row col ecol) (.ok (eliminateColumn m row col ecol)) := by
  unfold Typed.eliminateColumn eliminateColumn
  refine (L.neg _ (entryR L.zero hm row col)).bindOk fun h => ?_
  dsimp only
  refine Sim.traverse fun r hr => ?_
  refine (L.mul _ _ (rowR_getD L.zero (hm r hr) ecol) h).bindOk fun h1 => ?_
  refine (L.mul _ _ (rowR_getD L.zero (hm r hr) col) (entryR L.zero hm row ecol)).bindOk fun h2 => ?_
  exact (L.add _ _ h1 h2).bindOk fun h3 => Sim.ok (rowR_set (hm r hr) h3 ecol)

theorem eliminateColumns_sim {m : Matrix} {row col : Nat} (hm : MatR R m) :
    Sim t u (MatR R) (Typed.eliminateColumns A m row col) (.ok (eliminateColumns m row col)) := by
  refine Sim.foldM (fun i _ m' hm' => ?_) hm
  unfold Typed.eliminateColumnsStep eliminateColumnsStep
  split
  · exact (eliminateColumn_sim L hm').bindOk fun h => normalizeColumn_sim L h
  · exact Sim.ok hm'

theorem gaussLoop_sim {k : Nat} : ∀ {fuel row : Nat} {s : GaussState}, MatR R s.m →
    Sim t u (fun s' => MatR R s'.m) (Typed.gaussLoop A k fuel row s) (.ok (gaussLoop k fuel row s))
  | 0, _, _, hs => Sim.ok hs
  | fuel + 1, row, s, hs => by
    unfold Typed.gaussLoop gaussLoop
    dsimp only
    split
    · split
      · exact Sim.ok hs
      · refine (eliminateColumns_sim L hs).bindOk fun h => gaussLoop_sim h
    · exact Sim.ok hs

theorem fixSign_sim {m : Matrix} {c : Nat} (hm : MatR R m) : Sim t u (MatR R) (Typed.fixSign A m c) (.ok (fixSign m c)) := by
  unfold Typed.fixSign fixSign
  cases m.find? fun r => decide (r.getD c 0 ≠ 0) with
  | none => exact Sim.ok hm
  | some r =>
    dsimp only
    split
    · refine Sim.traverse fun r hr => ?_
      exact (L.mul _ _ (rowR_getD L.zero (hm r hr) c) L.negOne).bindOk fun h => Sim.ok (rowR_set (hm r hr) h c)
    · exact Sim.ok hm

theorem gaussianElimination_sim {m : Matrix} (hm : MatR R m) :
    Sim t u (fun r => MatR R r.1) (Typed.gaussianElimination A m) (.ok (gaussianElimination m)) := by
  unfold Typed.gaussianElimination gaussianElimination
  refine (gaussLoop_sim L (s := { m := m, used := [], L := [], T := [] }) hm).bindOk fun h => ?_
  exact (Sim.foldM (fun c _ m' hm' => fixSign_sim L hm') h).bindOk fun h2 => Sim.ok h2

omit L in
theorem matR_swapRows {m : Matrix} (hm : MatR R m) (i j : Nat) : MatR R (swapRows m i j) := by
  unfold swapRows
  intro r hr
  rcases List.mem_or_eq_of_mem_set hr with hr | rfl
  · rcases List.mem_or_eq_of_mem_set hr with hr | rfl
    · exact hm r hr
    · exact matR_getD hm j
  · exact matR_getD hm i

omit L in
theorem matR_swapToBack : ∀ {is : List Nat} {i : Nat} {m : Matrix}, MatR R m → MatR R (swapToBack i is m)
  | [], _, _, h => h
  | _ :: _, _, _, h => by
    unfold swapToBack
    exact matR_swapToBack (matR_swapRows h _ _)

omit L in
theorem matR_transpose {m : Matrix} (h0 : R 0) (hm : MatR R m) : MatR R (transpose m) := by
  unfold transpose
  intro r hr
  obtain ⟨i, _, rfl⟩ := List.mem_map.mp hr
  intro x hx
  obtain ⟨j, _, rfl⟩ := List.mem_map.mp hx
  exact entryR h0 hm j i

omit L in
theorem matR_split {m : Matrix} (hm : MatR R m) (is : List Nat) : MatR R (splitEquations m is).1 ∧ MatR R (splitEquations m is).2 := by
  have h : MatR R (swapToBack 0 is m) := matR_swapToBack hm
  exact ⟨matR_sub h fun r hr => List.mem_reverse.mp (List.mem_of_mem_take hr), matR_sub h fun r hr => List.mem_of_mem_take hr⟩

theorem gaussSplit_sim {m : Matrix} (hm : MatR R m) :
    Sim t u (fun r => MatR R r.1 ∧ MatR R r.2.1) (Typed.gaussSplit A m) (.ok (gaussSplit m)) := by
  unfold Typed.gaussSplit gaussSplit
  have h1 : MatR R (appendNegativeIdentityMatrix m) := by
    unfold appendNegativeIdentityMatrix
    refine matR_append hm ?_
    intro r hr
    obtain ⟨i, _, rfl⟩ := List.mem_map.mp hr
    exact rowR_set (rowR_replicate L.zero _) L.negOne i
  refine (gaussianElimination_sim L h1).bindOk fun h => Sim.ok ?_
  exact matR_split (matR_transpose L.zero (matR_sub h fun r hr => List.mem_of_mem_drop hr)) _

theorem extractEquations_sim {m : Matrix} (hm : MatR R m) :
    Sim t u (MatR R) (Typed.extractEquations A m) (extractEquations m) := by
  unfold Typed.extractEquations extractEquations
  split
  · exact Sim.ub
  · exact (gaussSplit_sim L hm).bindOk fun h => Sim.ok h.1

/-! ## elimination -/

section
variable {B : Type} (ops : BitsetOps B)

theorem initializeR_sim {m vs : Matrix} (hm : MatR R m) (hv : MatR R vs) :
    Sim t u (fun _ => True) (Typed.initializeR A ops m vs) (.ok (initializeR ops m vs)) := by
  unfold Typed.initializeR initializeR
  refine (Sim.traverse (Q := fun _ => True) fun r hr => ?_).mono fun _ _ => trivial
  refine Sim.foldM (fun j _ b _ => ?_) trivial
  exact (dot_sim L (hm r hr) (matR_getD hv j)).bindOk fun _ => Sim.ok trivial

theorem combineRows_sim {m : Matrix} {s : Row} {n p : Nat} (hm : MatR R m) (hs : RowR R s) :
    Sim t u (RowR R) (Typed.combineRows A m s n p) (.ok (combineRows m s n p)) := by
  unfold Typed.combineRows combineRows
  refine (rowScale_sim L (matR_getD hm n) (rowR_getD L.zero hs p)).bindOk fun h1 => ?_
  refine (rowScale_sim L (matR_getD hm p) (rowR_getD L.zero hs n)).bindOk fun h2 => ?_
  exact (rowSub_sim L h1 h2).bindOk fun h3 => makePrimitive_sim L.toDivLaw h3

theorem updateSystem_sim {m : Matrix} {R' : List B} {dflt : B} {i : Nat} {neg zeros : List Nat} {s : Row} {pnrs : List (Pnr B)}
    (hm : MatR R m) (hs : RowR R s) :
    Sim t u (fun r => MatR R r.1) (Typed.updateSystem A ops m R' dflt i neg zeros s pnrs)
      (.ok (updateSystem ops m R' dflt i neg zeros s pnrs)) := by
  unfold Typed.updateSystem updateSystem
  refine (Sim.traverse (g := fun q : Pnr B => combineRows m s q.1 q.2.1) fun q _ => combineRows_sim L hm hs).bindOk fun h => Sim.ok ?_
  refine matR_append (matR_append ?_ ?_) h <;>
  · intro r hr
    obtain ⟨z, _, rfl⟩ := List.mem_map.mp hr
    exact matR_getD hm z

theorem projection_sim {mR : Matrix × List B} {dflt : B} {v : Row} {i : Nat} (hm : MatR R mR.1) (hv : RowR R v) :
    Sim t u (fun r => MatR R r.1) (Typed.projection A ops mR dflt v i) (.ok (projection ops mR dflt v i)) :=
  (matVec_sim L hm hv).bindOk fun h => updateSystem_sim L ops hm h

theorem phaseTwoLoop_sim {dflt : B} : ∀ {vs : Matrix} {i : Nat} {mR : Matrix × List B}, MatR R mR.1 → MatR R vs →
    Sim t u (fun r => MatR R r.1) (Typed.phaseTwoLoop A ops dflt i vs mR) (.ok (phaseTwoLoop ops dflt i vs mR))
  | [], _, _, h, _ => Sim.ok h
  | v :: vs, i, mR, h, hv =>
    (projection_sim L ops h (hv v (by simp))).bindOk fun h1 => phaseTwoLoop_sim h1 fun r hr => hv r (by simp [hr])

omit L in
theorem mem_detectBadRow : ∀ {m : Matrix} {r : Row}, r ∈ detectBadRow m → r ∈ m
  | [], _, h => h
  | [a], r, h => by
    unfold detectBadRow at h
    split at h
    · simp at h
    · simpa [detectBadRow] using h
  | a :: b :: m, r, h => by
    unfold detectBadRow at h
    split at h
    · rcases List.mem_cons.mp h with rfl | h
      · simp
      · have := mem_detectBadRow h; simp [this]
    · rcases List.mem_cons.mp h with rfl | h
      · simp
      · have := mem_detectBadRow h; exact List.mem_cons_of_mem _ this

theorem phaseTwo_sim {m vs : Matrix} (hm : MatR R m) (hv : MatR R vs) :
    Sim t u (MatR R) (Typed.phaseTwo A ops m vs) (.ok (phaseTwo ops m vs)) := by
  unfold Typed.phaseTwo phaseTwo
  refine (initializeR_sim L ops hm hv).bindOk fun _ => ?_
  refine (phaseTwoLoop_sim L ops (mR := (m, initializeR ops m vs)) hm (matR_sub hv fun r hr => List.mem_of_mem_drop hr)).bindOk fun h => ?_
  exact Sim.ok (matR_sub h fun r hr => mem_detectBadRow hr)

end

omit L in
theorem matR_eliminateZero : ∀ {k : Nat} {m vs : Matrix} {zs : List Nat}, MatR R m → MatR R vs →
    MatR R (eliminateZeroColumnsLoop k m vs zs).1 ∧ MatR R (eliminateZeroColumnsLoop k m vs zs).2.1
  | 0, _, _, _, hm, hv => ⟨hm, hv⟩
  | k + 1, m, vs, zs, hm, hv => by
    unfold eliminateZeroColumnsLoop
    split
    · refine matR_eliminateZero ?_ ?_ <;>
      · intro r hr
        obtain ⟨r', h, rfl⟩ := List.mem_map.mp hr
        first
          | exact rowR_eraseIdx (hm r' h) k
          | exact rowR_eraseIdx (hv r' h) k
    · exact matR_eliminateZero hm hv

omit L in
theorem matR_reorder : ∀ {is : List Nat} {used m : Matrix}, MatR R used → MatR R m → MatR R (reorderLoop is used m)
  | [], _, _, hu, hm => matR_append hu hm
  | i :: is, used, m, hu, hm => by
    unfold reorderLoop
    refine matR_reorder (matR_append hu ?_) (matR_eraseIdx hm i)
    intro r hr
    rw [List.mem_singleton.mp hr]; exact matR_getD hm i

omit L in
theorem matR_reinsert {m : Matrix} (h0 : R 0) (hm : MatR R m) (zs : List Nat) : MatR R (reinsertZeroColumns m zs) := by
  unfold reinsertZeroColumns
  generalize zs.reverse = l
  induction l generalizing m with
  | nil => exact hm
  | cons c l ih =>
    refine ih ?_
    intro r hr
    obtain ⟨r', h, rfl⟩ := List.mem_map.mp hr
    intro x hx
    rcases List.eq_or_mem_of_mem_insertIdx hx with rfl | hx
    · exact h0
    · exact hm r' h x hx

theorem fourierMotzkin_sim {m : Matrix} (hm : MatR R m) :
    Sim t u (MatR R) (Typed.fourierMotzkinElimination A m) (fourierMotzkinElimination m) := by
  unfold Typed.fourierMotzkinElimination fourierMotzkinElimination
  split
  · refine (gaussSplit_sim L hm).bindOk fun h => ?_
    dsimp only
    have h2 := matR_eliminateZero (R := R) (k := colSize (gaussSplit m).2.1) (zs := []) h.2 hm
    refine (phaseTwo_sim L _ h2.1 (matR_reorder (R := R) (by intro r hr; simp at hr) h2.2)).bindOk fun h3 => Sim.ok ?_
    exact matR_reinsert L.zero h3 _
  · exact Sim.ub

end

end Panda
