import Verif.Proofs.TypedMaps
import Verif.Model.ValidityTyped

/-! # The checks with a given integer type are those with exact integers, unless an operation fails -/

namespace Panda

section
variable {A : Arith} {R : Int → Prop} {t u : Prop} (L : Law A R t u)
include L

theorem dimReduceStep_sim {row : Row} {pr : Row × Nat} (hr : RowR R row) (hp : RowR R pr.1) :
    Sim t u (RowR R) (Typed.dimReduceStep A row pr) (.ok (dimReduceStep row pr)) := by
  unfold Typed.dimReduceStep dimReduceStep
  split
  · refine (L.neg _ (rowR_getD L.zero hp _)).bindOk fun h1 => (rowScale_sim L hr h1).bindOk fun h2 =>
      (rowScale_sim L hp (rowR_getD L.zero hr _)).bindOk fun h3 => (rowAdd_sim L h2 h3).bindOk fun h4 => ?_
    exact makePrimitive_sim L.toDivLaw h4
  · exact Sim.ok hr

theorem dimLoop_sim : ∀ {m : Matrix} {done : List (Row × Nat)}, (∀ pr ∈ done, RowR R pr.1) → MatR R m →
    Sim t u (fun _ => True) (Typed.dimLoop A done m) (.ok (dimLoop done m))
  | [], done, _, _ => Sim.ok trivial
  | row :: rest, done, hd, hm => by
    unfold Typed.dimLoop dimLoop
    refine (Sim.foldM (Q := RowR R) (fun pr hpr b hb => dimReduceStep_sim L hb (hd pr hpr)) (hm row (by simp))).bindOk fun h1 => ?_
    have hrest : MatR R rest := fun r hr => hm r (by simp [hr])
    dsimp only
    split
    · exact dimLoop_sim hd hrest
    · refine dimLoop_sim (fun pr hpr => ?_) hrest
      rcases List.mem_append.1 hpr with h | h
      · exact hd pr h
      · rw [List.mem_singleton.1 h]; exact h1

theorem dimension_sim {m : Matrix} (hm : MatR R m) : Sim t u (fun _ => True) (Typed.dimension A m) (.ok (dimension m)) :=
  (dimLoop_sim L (by simp) hm).bindOk fun _ => Sim.ok trivial

theorem checkedDistance_sim {a v : Row} (ha : RowR R a) (hv : RowR R v) (hl : a.length = v.length) :
    Sim t u R (Typed.checkedDistance A a v) (.ok (distance a v)) := by
  unfold Typed.checkedDistance distance
  rw [if_neg (by omega)]
  exact (dot_sim L hv ha).bindOk fun h => L.neg _ h

omit L in
theorem activeRows_sim {dist : Row → Outcome Int} {dist' : Row → Int} : ∀ {m active : Matrix}, MatR R active → MatR R m →
    (∀ r ∈ m, Sim t u R (dist r) (.ok (dist' r))) →
    Sim t u (MatR R) (Typed.activeRows dist active m) (match activeRows dist' active m with | none => .thrown | some a => .ok a)
  | [], active, ha, _, _ => Sim.ok ha
  | row :: rest, active, ha, hm, hd => by
    unfold Typed.activeRows activeRows
    refine (hd row (by simp)).bindOk fun _ => ?_
    have hrest : MatR R rest := fun r hr => hm r (by simp [hr])
    have hd' : ∀ r ∈ rest, Sim t u R (dist r) (.ok (dist' r)) := fun r hr => hd r (by simp [hr])
    split
    · exact Sim.thrown
    split
    · exact activeRows_sim (matR_append ha (fun r hr => by rw [List.mem_singleton.1 hr]; exact hm row (by simp))) hrest hd'
    · exact activeRows_sim ha hrest hd'

theorem checkActive_sim {active : Matrix} {dim : Nat} (ha : MatR R active) :
    Sim t u (fun _ => True) (Typed.checkActive A active dim)
      (if active.isEmpty then .thrown else if dimension active + 1 ≠ dim then .thrown else .ok ()) := by
  unfold Typed.checkActive
  split
  · exact Sim.thrown
  refine (dimension_sim L ha).bindOk fun _ => ?_
  split
  · exact Sim.thrown
  · exact Sim.ok trivial

theorem checkRow_sim {m : Matrix} {dist : Row → Outcome Int} {dist' : Row → Int} {dim : Nat} (hm : MatR R m)
    (hd : ∀ r ∈ m, Sim t u R (dist r) (.ok (dist' r))) :
    Sim t u (fun _ => True) ((Typed.activeRows dist [] m).bind fun active => Typed.checkActive A active dim)
      (match activeRows dist' [] m with
        | none => .thrown
        | some active => if active.isEmpty then .thrown else if dimension active + 1 ≠ dim then .thrown else .ok ()) := by
  have h := (activeRows_sim (active := []) (by intro r hr; simp at hr) hm hd).bind fun v hv => checkActive_sim (dim := dim) L hv
  revert h
  generalize activeRows dist' [] m = x
  intro h
  cases x <;> exact h

theorem checkValidityOfInequality_sim {m : Matrix} {a : Row} {dim : Nat} (hm : MatR R m) (ha : RowR R a) (hl : ∀ r ∈ m, r.length = a.length) :
    Sim t u (fun _ => True) (Typed.checkValidityOfInequality A m a dim) (checkValidityOfInequality m a dim) :=
  checkRow_sim L hm fun r hr => checkedDistance_sim L ha (hm r hr) (hl r hr).symm

theorem checkValidityOfVertex_sim {m : Matrix} {a : Row} {dim : Nat} (hm : MatR R m) (ha : RowR R a) (hl : ∀ r ∈ m, r.length = a.length) :
    Sim t u (fun _ => True) (Typed.checkValidityOfVertex A m a dim) (checkValidityOfVertex m a dim) :=
  checkRow_sim L hm fun r hr => checkedDistance_sim L (hm r hr) ha (hl r hr)

omit L in
theorem checkEach_sim {α : Type} {f g : α → Outcome Unit} : ∀ {l : List α}, (∀ a ∈ l, Sim t u (fun _ => True) (f a) (g a)) →
    Sim t u (fun _ => True) (checkEach f l) (checkEach g l)
  | [], _ => Sim.ok trivial
  | a :: l, h => (h a (by simp)).bind fun _ _ => checkEach_sim fun b hb => h b (by simp [hb])

theorem checkValidityOfInequalities_sim {m K : Matrix} {n : Nat} (hm : MatR R m) (hK : MatR R K) (h1 : ∀ r ∈ m, r.length = n) (h2 : ∀ r ∈ K, r.length = n) :
    Sim t u (fun _ => True) (Typed.checkValidityOfInequalities A m K) (checkValidityOfInequalities m K) := by
  unfold Typed.checkValidityOfInequalities checkValidityOfInequalities
  split
  · exact Sim.ok trivial
  · exact (dimension_sim L hm).bindOk fun _ => checkEach_sim fun a ha =>
      checkValidityOfInequality_sim L hm (hK a ha) fun r hr => by rw [h1 r hr, h2 a ha]

theorem checkValidityOfVertices_sim {m K : Matrix} {n : Nat} (hm : MatR R m) (hK : MatR R K) (h1 : ∀ r ∈ m, r.length = n) (h2 : ∀ r ∈ K, r.length = n) :
    Sim t u (fun _ => True) (Typed.checkValidityOfVertices A m K) (checkValidityOfVertices m K) := by
  unfold Typed.checkValidityOfVertices checkValidityOfVertices
  split
  · exact Sim.ok trivial
  · exact (dimension_sim L hm).bindOk fun _ => checkEach_sim fun a ha =>
      checkValidityOfVertex_sim L hm (hK a ha) fun r hr => by rw [h1 r hr, h2 a ha]

end

section
variable {A : Arith} {R S : Int → Prop} {t u : Prop} (L : Law A R t u) (hS : ∀ a, S a → Sim t u R (A.ofInt a) (.ok a))
include L hS

theorem mapIndices_sim {matrix : Matrix} {m : SymMap} {tag : Tag} (hm : MapR S m) : ∀ {rest : Matrix} {is : List Nat}, MatR R rest →
    Sim t u (fun _ => True) (Typed.mapIndices A matrix m tag rest is) (mapIndices matrix m tag rest is)
  | [], is, _ => Sim.ok trivial
  | row :: rest, is, hr => by
    unfold Typed.mapIndices mapIndices
    refine (applyMap_sim L hS (hr row (by simp)) hm).bind fun v _ => ?_
    split
    · exact Sim.thrown
    · exact mapIndices_sim hm fun r h => hr r (by simp [h])

theorem checkValidityMap_sim {matrix : Matrix} {m : SymMap} {tag : Tag} (hm : MapR S m) (hr : MatR R matrix) :
    Sim t u (fun _ => True) (Typed.checkValidityMap A matrix m tag) (checkValidityMap matrix m tag) :=
  (mapIndices_sim L hS hm hr).bind fun v _ => Or.inl ⟨rfl, fun _ _ => trivial⟩

theorem checkValidityOfClasses_sim {matrix : Matrix} {maps : Maps} {tag : Tag} (hm : ∀ m ∈ maps, MapR S m) (hr : MatR R matrix) :
    Sim t u (fun _ => True) (Typed.checkValidityOfClasses A matrix maps tag) (checkValidityOfClasses matrix maps tag) :=
  checkEach_sim fun m h => checkValidityMap_sim L hS (hm m h) hr

end

end Panda
