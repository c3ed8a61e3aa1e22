import Verif.Model.AdjacencyTyped
import Verif.Proofs.TypedMaps

/-! # Adjacency decomposition with a given integer type follows the exact one, or fails -/

namespace Panda

section
variable {t u : Prop} {α β : Type} {P : α → Prop} {Q : β → Prop}

theorem RunSim.some {x e : Outcome α} (h : Sim t u P x e) : RunSim t u P (Option.some x) (Option.some e) := h.lift

/-- an exact computation that is not even looked at -/
theorem RunSim.bindLet {x : Outcome α} {v : α} {f : α → Run β} {e : Run β} (h : Sim t u P x (.ok v))
    (hf : P v → RunSim t u Q (f v) e) : RunSim t u Q (Run.bind (Option.some x) f) e := RunSim.bindOk (RunSim.some h) hf

end

section
variable {A : Arith} {R S : Int → Prop} {t u : Prop} (L : Law A R t u)
include L

/-! ## distances, rotation -/

theorem distance_sim {a v : Row} (ha : RowR R a) (hv : RowR R v) : Sim t u R (Typed.distance A a v) (.ok (distance a v)) :=
  (dot_sim L hv ha).bindOk fun h => L.neg _ h

theorem extremalLoop_sim {better : Int → Int → Bool} {a : Row} (ha : RowR R a) : ∀ {vs : Matrix} {x : Int} {best : Row},
    MatR R vs → RowR R best →
    Sim t u (RowR R) (Typed.extremalLoop A better a vs x best) (.ok (extremalLoop better a vs x best))
  | [], _, _, _, hb => Sim.ok hb
  | v :: vs, x, best, hv, hb => by
    unfold Typed.extremalLoop extremalLoop
    have h1 : RowR R v := hv v (by simp)
    have h2 : MatR R vs := fun r hr => hv r (by simp [hr])
    refine (distance_sim L ha h1).bindOk fun _ => ?_
    split
    · exact extremalLoop_sim ha h2 h1
    · exact extremalLoop_sim ha h2 hb

theorem extremalVertex_sim {better : Int → Int → Bool} {vs : Matrix} {a : Row} (hv : MatR R vs) (ha : RowR R a) :
    Sim t u (RowR R) (Typed.extremalVertex A better vs a) (extremalVertex better vs a) := by
  match vs, hv with
  | [], _ => exact Sim.ub
  | v :: vs, hv =>
    have h1 : RowR R v := hv v (by simp)
    exact (distance_sim L ha h1).bindOk fun _ => extremalLoop_sim L ha (fun r hr => hv r (by simp [hr])) h1

theorem rotateRow_sim {f r : Row} {x y : Int} (hf : RowR R f) (hr : RowR R r) (hx : R x) (hy : R y) :
    Sim t u (RowR R) (Typed.rotateRow A f r x y) (.ok (rotateRow f r x y)) := by
  unfold Typed.rotateRow rotateRow
  refine (gcd_sim L.toDivLaw hx hy).bindOk fun hg => ?_
  have hdiv : ∀ z, R z → Sim t u R (if gcd x y > 1 then A.div z (gcd x y) else .ok z) (.ok (if gcd x y > 1 then z.tdiv (gcd x y) else z)) := by
    intro z hz
    split
    · exact L.div _ _ hz hg (by omega)
    · exact Sim.ok hz
  refine (hdiv x hx).bindOk fun h1 => (hdiv y hy).bindOk fun h2 => ?_
  exact (rowScale_sim L hr h1).bindOk fun h3 => (rowScale_sim L hf h2).bindOk fun h4 => (rowSub_sim L h3 h4).bindOk fun h5 =>
    makePrimitive_sim L.toDivLaw h5

theorem rotateLoop_sim {vs : Matrix} {f : Row} (hv : MatR R vs) (hf : RowR R f) : ∀ {fuel : Nat} {r : Row} {x y : Int},
    RowR R r → R x → R y → RunSim t u (RowR R) (Typed.rotateLoop A vs f fuel r x y) (rotateLoop vs f fuel r x y)
  | 0, _, _, _, _, _, _ => RunSim.none
  | fuel + 1, r, x, y, hr, hx, hy => by
    unfold Typed.rotateLoop rotateLoop
    refine RunSim.bindLet (rotateRow_sim L hf hr hx hy) fun h1 => (RunSim.some (extremalVertex_sim L hv h1)).bind fun v h2 => ?_
    refine RunSim.bindLet (distance_sim L hf h2) fun h3 => RunSim.bindLet (distance_sim L h1 h2) fun h4 => ?_
    split
    · exact RunSim.done h1
    · exact rotateLoop_sim hv hf h1 h3 h4

theorem rotate_sim {fuel : Nat} {vs : Matrix} {v f r : Row} (hv : MatR R vs) (h1 : RowR R v) (hf : RowR R f) (hr : RowR R r) :
    RunSim t u (RowR R) (Typed.rotate A fuel vs v f r) (rotate fuel vs v f r) :=
  RunSim.bindLet (distance_sim L hf h1) fun h3 => RunSim.bindLet (distance_sim L hr h1) fun h4 => rotateLoop_sim L hv hf hr h3 h4

theorem zeroDistance_sim {f : Row} (hf : RowR R f) : ∀ {vs : Matrix}, MatR R vs →
    Sim t u (MatR R) (Typed.verticesWithZeroDistance A f vs) (.ok (verticesWithZeroDistance vs f))
  | [], _ => Sim.ok (by intro r hr; simp [verticesWithZeroDistance] at hr)
  | v :: vs, hv => by
    have h1 : RowR R v := hv v (by simp)
    refine (distance_sim L hf h1).bindOk fun _ => (zeroDistance_sim hf fun r hr => hv r (by simp [hr])).bindOk fun h2 => ?_
    unfold verticesWithZeroDistance at h2 ⊢
    by_cases h : distance f v = 0
    · rw [if_pos h, List.filter_cons_of_pos (by simpa using h)]
      refine Sim.ok fun r hr => ?_
      rcases List.mem_cons.mp hr with rfl | hr
      · exact h1
      · exact h2 r hr
    · rw [if_neg h, List.filter_cons_of_neg (by simpa using h)]
      exact Sim.ok h2

theorem getRidges_sim {vs : Matrix} {f : Row} (hv : MatR R vs) (hf : RowR R f) :
    Sim t u (MatR R) (Typed.getRidges A vs f) (getRidges vs f) :=
  (zeroDistance_sim L hf hv).bindOk fun h => fourierMotzkin_sim L h

theorem rotateAll_sim {fuel : Nat} {vs : Matrix} {v f : Row} (hv : MatR R vs) (h1 : RowR R v) (hf : RowR R f) : ∀ {rs : Matrix},
    MatR R rs → RunSim t u (MatR R) (Typed.rotateAll A fuel vs v f rs) (rotateAll fuel vs v f rs)
  | [], _ => RunSim.done (by intro r hr; simp at hr)
  | r :: rs, hr => by
    unfold Typed.rotateAll rotateAll
    refine (rotate_sim L hv h1 hf (hr r (by simp))).bind fun x hx =>
      (rotateAll_sim hv h1 hf fun r h => hr r (by simp [h])).bind fun xs hxs => RunSim.done fun r h => ?_
    rcases List.mem_cons.mp h with rfl | h
    · exact hx
    · exact hxs r h

theorem rotation_sim (hof : ∀ a, S a → Sim t u R (A.ofInt a) (.ok a)) {fuel : Nat} {m : Matrix} {r : Row} {maps : Maps} {tag : Tag}
    (hm : MatR R m) (hr : RowR R r) (hmaps : ∀ m ∈ maps, MapR S m) :
    RunSim t u (MatR R) (Typed.rotation A fuel m r maps tag) (rotation fuel m r maps tag) := by
  unfold Typed.rotation rotation
  exact (RunSim.some (extremalVertex_sim L hm hr)).bind fun v hv => (RunSim.some (getRidges_sim L hm hr)).bind fun rs hrs =>
    (rotateAll_sim L hm hv hr hrs).bind fun rows hrows => classes_sim L hof hmaps hrows

/-! ## normalisation, representatives -/

theorem normalizeStep_sim {r e : Row} (hr : RowR R r) (he : RowR R e) : Sim t u (RowR R) (Typed.normalizeStep A r e) (normalizeStep r e) := by
  unfold Typed.normalizeStep normalizeStep
  dsimp only
  split
  · rename_i a b ha hb
    rw [ha, hb]
    dsimp only
    split
    · exact (rowScale_sim L hr (he b (List.mem_of_getElem? hb))).bindOk fun h1 =>
        (rowScale_sim L he (hr a (List.mem_of_getElem? ha))).bindOk fun h2 => rowSub_sim L h1 h2
    · exact Sim.ok hr
  · rename_i hn
    split
    · rename_i a b ha hb
      exact (hn a b ha hb).elim
    · exact Sim.ub

theorem normalizeLoop_sim : ∀ {E : Matrix} {r : Row}, MatR R E → RowR R r → Sim t u (RowR R) (Typed.normalizeLoop A r E) (normalizeLoop r E)
  | [], _, _, hr => Sim.ok hr
  | e :: E, r, hE, hr => (normalizeStep_sim L hr (hE e (by simp))).bind fun v hv => normalizeLoop_sim (fun x hx => hE x (by simp [hx])) hv

theorem normalize_sim {E : Matrix} {r : Row} (hE : MatR R E) (hr : RowR R r) : Sim t u (RowR R) (Typed.normalize A r E) (normalize r E) :=
  (normalizeLoop_sim L hE hr).bind fun v hv => makePrimitive_sim L.toDivLaw hv

theorem rowR_setLast {s : List Row} (hs : MatR R s) : RowR R (setLast s) := by
  unfold setLast
  cases h : s.getLast? with
  | none => rw [List.getLastD_eq_getLast?, h]; exact rowR_nil
  | some y => rw [List.getLastD_eq_getLast?, h]; exact hs y (List.mem_of_getLast? h)

theorem classRepresentative_sim (hof : ∀ a, S a → Sim t u R (A.ofInt a) (.ok a)) {fuel : Nat} {r : Row} {maps : Maps} {tag : Tag}
    (hr : RowR R r) (hmaps : ∀ m ∈ maps, MapR S m) :
    RunSim t u (RowR R) (Typed.classRepresentative A fuel r maps tag) (classRepresentative fuel r maps tag) :=
  (getClass_sim L hof hmaps hr).bind fun s hs => RunSim.done (rowR_setLast L hs)

theorem representatives_sim (hof : ∀ a, S a → Sim t u R (A.ofInt a) (.ok a)) {fuel : Nat} {maps : Maps} {tag : Tag}
    (hmaps : ∀ m ∈ maps, MapR S m) : ∀ {m : Matrix}, MatR R m →
    RunSim t u (MatR R) (Typed.representatives A fuel maps tag m) (representatives fuel maps tag m)
  | [], _ => RunSim.done (by intro r hr; simp at hr)
  | r :: m, hm => by
    unfold Typed.representatives representatives
    refine (classRepresentative_sim L hof (hm r (by simp)) hmaps).bind fun x hx =>
      (representatives_sim hof hmaps fun r h => hm r (by simp [h])).bind fun xs hxs => RunSim.done fun r h => ?_
    rcases List.mem_cons.mp h with rfl | h
    · exact hx
    · exact hxs r h

/-! ## the heuristic -/

theorem validFor_sim {r : Row} (hr : RowR R r) : ∀ {vs : Matrix}, MatR R vs →
    Sim t u (fun _ => True) (Typed.validFor A r vs) (.ok (vs.all fun v => decide (dot r v ≤ 0)))
  | [], _ => Sim.ok trivial
  | v :: vs, hv => by
    unfold Typed.validFor
    refine (dot_sim L hr (hv v (by simp))).bindOk fun _ => ?_
    rw [List.all_cons]
    by_cases h : dot r v ≤ 0
    · rw [if_pos h, decide_eq_true h, Bool.true_and]
      exact validFor_sim hr fun x hx => hv x (by simp [hx])
    · rw [if_neg h, decide_eq_false h, Bool.false_and]
      exact Sim.ok trivial

theorem extractFacets_sim {vs : Matrix} (hv : MatR R vs) : ∀ {m : Matrix}, MatR R m →
    Sim t u (MatR R) (Typed.extractFacets A vs m) (.ok (extractFacets m vs))
  | [], _ => Sim.ok (by intro r hr; simp [extractFacets] at hr)
  | r :: m, hm => by
    unfold Typed.extractFacets
    have h1 : RowR R r := hm r (by simp)
    refine (validFor_sim L h1 hv).bindOk fun _ => (extractFacets_sim hv fun x hx => hm x (by simp [hx])).bindOk fun h2 => ?_
    unfold extractFacets at h2 ⊢
    by_cases h : (vs.all fun v => decide (dot r v ≤ 0)) = true
    · rw [if_pos h, List.filter_cons_of_pos (p := fun r => vs.all fun v => decide (dot r v ≤ 0)) h]
      refine Sim.ok fun x hx => ?_
      rcases List.mem_cons.mp hx with rfl | hx
      · exact h1
      · exact h2 x hx
    · rw [if_neg h, List.filter_cons_of_neg (p := fun r => vs.all fun v => decide (dot r v ≤ 0)) h]
      exact Sim.ok h2

variable {B : Type} (ops : BitsetOps B)

theorem heuristicLoop_sim {dflt : B} : ∀ {vs : Matrix} {i : Nat} {mR : Matrix × List B}, MatR R mR.1 → MatR R vs →
    Sim t u (MatR R) (Typed.heuristicLoop A ops dflt i vs mR) (.ok (heuristicLoop ops dflt i vs mR))
  | [], _, _, hm, _ => Sim.ok hm
  | v :: vs, i, mR, hm, hv => by
    unfold Typed.heuristicLoop heuristicLoop
    refine (extractFacets_sim L hv hm).bindOk fun h1 => ?_
    dsimp only
    split
    · exact Sim.ok (matR_sub h1 fun r hr => mem_detectBadRow hr)
    · exact (projection_sim L ops hm (hv v (by simp))).bindOk fun h2 => heuristicLoop_sim h2 fun r hr => hv r (by simp [hr])

theorem phaseTwoHeuristic_sim {m vs : Matrix} (hm : MatR R m) (hv : MatR R vs) :
    Sim t u (MatR R) (Typed.phaseTwoHeuristic A ops m vs) (.ok (phaseTwoHeuristic ops m vs)) := by
  unfold Typed.phaseTwoHeuristic phaseTwoHeuristic
  exact (initializeR_sim L ops hm hv).bindOk fun _ =>
    heuristicLoop_sim L ops hm (matR_sub hv fun r hr => List.mem_of_mem_drop hr)

omit ops in
theorem heuristic_sim {m : Matrix} (hm : MatR R m) :
    Sim t u (MatR R) (Typed.fourierMotzkinEliminationHeuristic A m) (fourierMotzkinEliminationHeuristic m) := by
  unfold Typed.fourierMotzkinEliminationHeuristic fourierMotzkinEliminationHeuristic
  split
  · refine (gaussSplit_sim L hm).bindOk fun h => ?_
    dsimp only
    have h2 := matR_eliminateZero (R := R) (k := colSize (gaussSplit m).2.1) (zs := []) h.2 hm
    refine (phaseTwoHeuristic_sim L _ h2.1 (matR_reorder (R := R) (by intro r hr; simp at hr) h2.2)).bindOk fun h3 => Sim.ok ?_
    exact matR_reinsert L.zero h3 _
  · exact Sim.ub

/-! ## the start -/

theorem knownRow_sim (hof : ∀ a, S a → Sim t u R (A.ofInt a) (.ok a)) {fuel : Nat} {E : Matrix} {maps : Maps} {tag : Tag} {k : Row}
    (hE : MatR R E) (hk : RowR R k) (hmaps : ∀ m ∈ maps, MapR S m) :
    RunSim t u (RowR R) (Typed.knownRow A fuel E maps tag k)
      (Run.bind (some (normalize k E)) fun k0 => classRepresentative fuel k0 maps tag) :=
  (RunSim.some (normalize_sim L hE hk)).bind fun r hr => classRepresentative_sim L hof hr hmaps

theorem initialRows_sim (hof : ∀ a, S a → Sim t u R (A.ofInt a) (.ok a)) {fuel : Nat} {m known E : Matrix} {maps : Maps} {tag : Tag}
    (hm : MatR R m) (hk : MatR R known) (hE : MatR R E) (hmaps : ∀ m ∈ maps, MapR S m) :
    RunSim t u (MatR R) (Typed.initialRows A fuel m maps known E tag) (initialRows fuel m maps known E tag) := by
  match known, hk with
  | [], _ => exact (RunSim.some (heuristic_sim L hm)).bind fun fs hfs => representatives_sim L hof hmaps hfs
  | k :: ks, hk =>
    have e : initialRows fuel m maps (k :: ks) E tag =
        Run.bind (Run.bind (some (normalize k E)) fun k0 => classRepresentative fuel k0 maps tag) fun r => some (.ok [r]) := by
      unfold initialRows
      dsimp only
      generalize normalize k E = x
      cases x <;> rfl
    rw [e]
    exact (knownRow_sim L hof hE (hk k (by simp)) hmaps).bind fun r hr => RunSim.done fun x hx => by
      rw [List.mem_singleton.mp hx]; exact hr

theorem reduceFacet_sim {V E : Matrix} (hV : MatR R V) (e : extractEquations V = .ok E) {maps : Maps}
    (F : maps ≠ [] → E ≠ [] → FactorLaw A R S t u) (hmaps : ∀ m ∈ maps, MapR S m) :
    Sim t u (fun p => MatR R p.1 ∧ ∀ m ∈ p.2, MapR S m) (Typed.reduceFacet A V maps) (reduceFacet V maps) := by
  unfold Typed.reduceFacet reduceFacet
  have hs := extractEquations_sim L hV
  rw [e] at hs ⊢
  refine hs.bindOk fun hE => ?_
  simp only [Outcome.bind]
  split
  · exact Sim.ok ⟨hE, hmaps⟩
  · next h0 =>
    refine Sim.bind (P := fun ms => ∀ m ∈ ms, MapR S m) ?_ fun ms hms => Sim.ok ⟨hE, hms⟩
    match maps, F, hmaps with
    | [], _, _ => exact Sim.ok fun _ h => by simp at h
    | m :: maps, F, hmaps => exact normalizeMaps_sim L.zero (F (by simp) h0) hE hmaps

end

/-! ## more iterations change nothing -/

/-- a result that was reached stays the same with more iterations -/
def FuelMono {α : Type} (f : Nat → Run α) : Prop := ∀ k l x, k ≤ l → f k = some x → f l = some x

theorem FuelMono.const {α : Type} {x : Run α} : FuelMono fun _ => x := fun _ _ _ _ h => h

theorem FuelMono.bind {α β : Type} {f : Nat → Run α} {g : Nat → α → Run β} (hf : FuelMono f) (hg : ∀ v, FuelMono fun k => g k v) :
    FuelMono fun k => Run.bind (f k) (g k) := by
  intro k l x hkl h
  dsimp only at h ⊢
  match e : f k, h with
  | none, h => simp [Run.bind] at h
  | some .thrown, h => rw [hf k l _ hkl e]; exact h
  | some .ub, h => rw [hf k l _ hkl e]; exact h
  | some (.ok v), h => rw [hf k l _ hkl e]; exact hg v k l x hkl h

theorem Typed.getClassLoop_mono (A : Arith) (maps : Maps) (tag : Tag) : ∀ (k l : Nat) (rows stack : List Row) (x : Outcome (List Row)), k ≤ l →
    Typed.getClassLoop A maps tag k rows stack = some x → Typed.getClassLoop A maps tag l rows stack = some x
  | k, l, rows, [], x, _, h => by
    cases k <;> cases l <;> simpa [Typed.getClassLoop] using h
  | 0, l, rows, c :: stack, x, _, h => by simp [Typed.getClassLoop] at h
  | k + 1, 0, rows, c :: stack, x, hkl, h => by omega
  | k + 1, l + 1, rows, c :: stack, x, hkl, h => by
    rw [Typed.getClassLoop] at h ⊢
    match e : Typed.classInner A tag c maps rows stack, h with
    | .thrown, h => exact h
    | .ub, h => exact h
    | .ok v, h => exact Typed.getClassLoop_mono A maps tag k l _ _ x (by omega) h

theorem Typed.getClass_mono (A : Arith) (maps : Maps) (tag : Tag) (row : Row) : FuelMono fun k => Typed.getClass A k row maps tag :=
  fun k l x hkl h => Typed.getClassLoop_mono A maps tag k l _ _ x hkl h

theorem Typed.classRepresentative_mono (A : Arith) (maps : Maps) (tag : Tag) (row : Row) :
    FuelMono fun k => Typed.classRepresentative A k row maps tag :=
  (Typed.getClass_mono A maps tag row).bind fun _ => FuelMono.const

theorem Typed.representatives_mono (A : Arith) (maps : Maps) (tag : Tag) : ∀ m : Matrix, FuelMono fun k => Typed.representatives A k maps tag m
  | [] => fun _ _ _ _ h => h
  | r :: m => by
    unfold Typed.representatives
    exact (Typed.classRepresentative_mono A maps tag r).bind fun _ => (Typed.representatives_mono A maps tag m).bind fun _ => FuelMono.const

theorem Typed.initialRows_mono (A : Arith) (m : Matrix) (maps : Maps) (known E : Matrix) (tag : Tag) :
    FuelMono fun k => Typed.initialRows A k m maps known E tag := by
  unfold Typed.initialRows
  match known with
  | [] => exact FuelMono.const.bind fun _ => Typed.representatives_mono A maps tag _
  | k :: ks =>
    exact FuelMono.bind (FuelMono.bind FuelMono.const fun _ => Typed.classRepresentative_mono A maps tag _) fun _ => FuelMono.const

end Panda
