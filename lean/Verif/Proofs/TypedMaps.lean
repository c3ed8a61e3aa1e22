import Verif.Proofs.Typed
import Verif.Spec.Text

/-! # Maps and the two methods with a given integer type -/

namespace Panda

/-- as `Sim`, for computations that may not have finished -/
def RunSim (t u : Prop) {α : Type} (P : α → Prop) (x e : Run α) : Prop :=
  (x = e ∧ ∀ v, e = some (.ok v) → P v) ∨ (t ∧ x = some .thrown) ∨ (u ∧ x = some .ub)

section
variable {t u : Prop} {α β : Type} {P : α → Prop} {Q : β → Prop}

theorem RunSim.done {v : α} (h : P v) : RunSim t u P (some (.ok v)) (some (.ok v)) :=
  Or.inl ⟨rfl, fun w hw => by cases hw; exact h⟩

theorem RunSim.none : RunSim t u P Option.none Option.none := Or.inl ⟨rfl, fun w hw => by cases hw⟩

theorem Sim.lift {x e : Outcome α} (h : Sim t u P x e) : RunSim t u P (.lift x) (.lift e) := by
  rcases h with ⟨rfl, h⟩ | ⟨ht, rfl⟩ | ⟨hu, rfl⟩
  · exact Or.inl ⟨rfl, fun v hv => h v (by simpa [Run.lift] using hv)⟩
  · exact Or.inr (Or.inl ⟨ht, rfl⟩)
  · exact Or.inr (Or.inr ⟨hu, rfl⟩)

theorem RunSim.bind {x e : Run α} {f g : α → Run β} (h : RunSim t u P x e) (hf : ∀ v, P v → RunSim t u Q (f v) (g v)) :
    RunSim t u Q (Run.bind x f) (Run.bind e g) := by
  rcases h with ⟨rfl, h⟩ | ⟨ht, rfl⟩ | ⟨hu, rfl⟩
  · match x, h with
    | .none, _ => exact RunSim.none
    | some (.ok v), h => exact hf v (h v rfl)
    | some .thrown, _ => exact Or.inl ⟨rfl, fun w hw => by cases hw⟩
    | some .ub, _ => exact Or.inl ⟨rfl, fun w hw => by cases hw⟩
  · exact Or.inr (Or.inl ⟨ht, rfl⟩)
  · exact Or.inr (Or.inr ⟨hu, rfl⟩)

/-- as `RunSim.bind`, for a step that the exact computation does not have -/
theorem RunSim.bindOk {x : Run α} {v : α} {f : α → Run β} {e : Run β} (h : RunSim t u P x (some (.ok v)))
    (hf : P v → RunSim t u Q (f v) e) : RunSim t u Q (Run.bind x f) e := by
  rcases h with ⟨rfl, h⟩ | ⟨ht, rfl⟩ | ⟨hu, rfl⟩
  · exact hf (h v rfl)
  · exact Or.inr (Or.inl ⟨ht, rfl⟩)
  · exact Or.inr (Or.inr ⟨hu, rfl⟩)

theorem RunSim.mono {P' : α → Prop} {x e : Run α} (h : RunSim t u P x e) (hP : ∀ v, P v → P' v) : RunSim t u P' x e := by
  rcases h with ⟨h1, h⟩ | h | h
  · exact Or.inl ⟨h1, fun v hv => hP v (h v hv)⟩
  · exact Or.inr (Or.inl h)
  · exact Or.inr (Or.inr h)

end

/-- the factors of the map are in the range of `S` -/
def MapR (S : Int → Prop) (m : SymMap) : Prop := ∀ im ∈ m, ∀ x ∈ im, S x.2

section
variable {A : Arith} {R S : Int → Prop} {t u : Prop} (L : Law A R t u) (hof : ∀ a, S a → Sim t u R (A.ofInt a) (.ok a))
include L hof

theorem applyTerm_sim {tag : Tag} {input result : Row} {i : Nat} {x : Term} (hi : RowR R input) (hr : RowR R result) (hx : S x.2) :
    Sim t u (RowR R) (Typed.applyTerm A tag input i result x) (applyTerm tag input i result x) := by
  cases tag with
  | facet =>
    unfold Typed.applyTerm applyTerm
    dsimp only
    split
    · rename_i a b ha hb
      rw [ha, hb]
      refine (hof _ hx).bindOk fun h1 => (L.mul _ _ h1 (hi a (List.mem_of_getElem? ha))).bindOk fun h2 => ?_
      exact (L.add _ _ (hr b (List.mem_of_getElem? hb)) h2).bindOk fun h3 => Sim.ok (rowR_set hr h3 _)
    · rename_i hn
      split
      · rename_i a b ha hb
        exact (hn a b ha hb).elim
      · exact Sim.ub
  | vertex =>
    unfold Typed.applyTerm applyTerm
    dsimp only
    split
    · rename_i a b ha hb
      rw [ha, hb]
      refine (hof _ hx).bindOk fun h1 => (L.mul _ _ h1 (hi a (List.mem_of_getElem? ha))).bindOk fun h2 => ?_
      exact (L.add _ _ (hr b (List.mem_of_getElem? hb)) h2).bindOk fun h3 => Sim.ok (rowR_set hr h3 _)
    · rename_i hn
      split
      · rename_i a b ha hb
        exact (hn a b ha hb).elim
      · exact Sim.ub

theorem applyImage_sim {tag : Tag} {input : Row} {i : Nat} (hi : RowR R input) : ∀ {im : Image} {result : Row}, RowR R result →
    (∀ x ∈ im, S x.2) → Sim t u (RowR R) (Typed.applyImage A tag input i result im) (applyImage tag input i result im)
  | [], _, hr, _ => Sim.ok hr
  | x :: im, result, hr, hm => by
    unfold Typed.applyImage applyImage
    exact (applyTerm_sim L hof hi hr (hm x (by simp))).bind fun v hv => applyImage_sim hi hv fun y hy => hm y (by simp [hy])

theorem applyLoop_sim {tag : Tag} {input : Row} (hi : RowR R input) : ∀ {m : SymMap} {i : Nat} {result : Row}, RowR R result →
    MapR S m → Sim t u (RowR R) (Typed.applyLoop A tag input i result m) (applyLoop tag input i result m)
  | [], _, _, hr, _ => Sim.ok hr
  | im :: m, i, result, hr, hm => by
    unfold Typed.applyLoop applyLoop
    exact (applyImage_sim L hof hi hr (hm im (by simp))).bind fun v hv => applyLoop_sim hi hv fun y hy => hm y (by simp [hy])

theorem applyMap_sim {tag : Tag} {m : SymMap} {row : Row} (hr : RowR R row) (hm : MapR S m) :
    Sim t u (RowR R) (Typed.applyMap A m row tag) (applyMap m row tag) := by
  unfold Typed.applyMap applyMap
  exact (applyLoop_sim L hof hr (rowR_replicate L.zero _) hm).bind fun v hv => makePrimitive_sim L.toDivLaw hv

omit L hof in
theorem matR_setInsert {x : Row} (hx : RowR R x) : ∀ {s : List Row}, MatR R s → MatR R (setInsert x s).1
  | [], _ => by intro r hr; simp [setInsert] at hr; rw [hr]; exact hx
  | y :: s, hs => by
    have h1 : RowR R y := hs y (by simp)
    have h2 : MatR R s := fun r hr => hs r (by simp [hr])
    unfold setInsert
    split
    · intro r hr
      rcases List.mem_cons.mp hr with rfl | hr
      · exact hx
      · exact hs r hr
    · split
      · intro r hr
        rcases List.mem_cons.mp hr with rfl | hr
        · exact h1
        · exact matR_setInsert hx h2 r hr
      · exact hs

theorem classInner_sim {tag : Tag} {cur : Row} (hc : RowR R cur) : ∀ {ms : Maps} {rows stack : List Row}, (∀ m ∈ ms, MapR S m) →
    MatR R rows → MatR R stack →
    Sim t u (fun r => MatR R r.1 ∧ MatR R r.2) (Typed.classInner A tag cur ms rows stack) (classInner tag cur ms rows stack)
  | [], _, _, _, hr, hs => Sim.ok ⟨hr, hs⟩
  | m :: ms, rows, stack, hm, hr, hs => by
    unfold Typed.classInner classInner
    refine (applyMap_sim L hof hc (hm m (by simp))).bind fun v hv => ?_
    have h2 : ∀ m ∈ ms, MapR S m := fun y hy => hm y (by simp [hy])
    split
    · exact classInner_sim hc h2 (matR_setInsert hv hr) fun r h => by
        rcases List.mem_cons.mp h with rfl | h
        · exact hv
        · exact hs r h
    · exact classInner_sim hc h2 (matR_setInsert hv hr) hs

theorem getClassLoop_sim {tag : Tag} {ms : Maps} (hm : ∀ m ∈ ms, MapR S m) : ∀ {fuel : Nat} {rows stack : List Row},
    MatR R rows → MatR R stack →
    RunSim t u (MatR R) (Typed.getClassLoop A ms tag fuel rows stack) (getClassLoop ms tag fuel rows stack)
  | 0, rows, [], hr, _ => by simp only [Typed.getClassLoop, getClassLoop]; exact RunSim.done hr
  | _ + 1, rows, [], hr, _ => by simp only [Typed.getClassLoop, getClassLoop]; exact RunSim.done hr
  | 0, _, _ :: _, _, _ => RunSim.none
  | fuel + 1, rows, cur :: stack, hr, hs => by
    have e : getClassLoop ms tag (fuel + 1) rows (cur :: stack) =
        Run.bind (some (classInner tag cur ms rows stack)) fun r => getClassLoop ms tag fuel r.1 r.2 := by
      rw [getClassLoop]
      cases classInner tag cur ms rows stack with
      | ok v => rfl
      | thrown => rfl
      | ub => rfl
    rw [e]
    unfold Typed.getClassLoop
    exact (classInner_sim L hof (hs cur (by simp)) hm hr fun r h => hs r (by simp [h])).lift.bind fun v hv =>
      getClassLoop_sim hm hv.1 hv.2

theorem getClass_sim {tag : Tag} {ms : Maps} (hm : ∀ m ∈ ms, MapR S m) {fuel : Nat} {row : Row} (hr : RowR R row) :
    RunSim t u (MatR R) (Typed.getClass A fuel row ms tag) (getClass fuel row ms tag) :=
  getClassLoop_sim L hof hm (fun r h => by rw [List.mem_singleton.mp h]; exact hr)
    (fun r h => by rw [List.mem_singleton.mp h]; exact hr)

theorem classesLoop_sim {tag : Tag} {ms : Maps} (hm : ∀ m ∈ ms, MapR S m) {fuel : Nat} : ∀ {k : Nat} {s : List Row} {acc : Matrix},
    MatR R s → MatR R acc →
    RunSim t u (MatR R) (Typed.classesLoop A ms tag fuel k s acc) (classesLoop ms tag fuel k s acc)
  | 0, [], _, _, ha => RunSim.done ha
  | _ + 1, [], _, _, ha => RunSim.done ha
  | 0, _ :: _, _, _, _ => RunSim.none
  | k + 1, r :: rs, acc, hs, ha => by
    unfold Typed.classesLoop classesLoop
    refine (getClass_sim L hof hm (hs r (by simp))).bind fun cls hc => ?_
    refine classesLoop_sim hm (fun x hx => hs x (List.mem_of_mem_filter hx)) (matR_append ha fun x hx => ?_)
    rw [List.mem_singleton.mp hx]
    unfold setLast
    cases h : cls.getLast? with
    | none => rw [List.getLastD_eq_getLast?, h]; exact rowR_nil
    | some y => rw [List.getLastD_eq_getLast?, h]; exact hc y (List.mem_of_getLast? h)

omit L hof in
theorem matR_setOf {m : Matrix} (hm : MatR R m) : MatR R (setOf m) := by
  unfold setOf
  suffices h : ∀ (l : List Row) (s : List Row), MatR R l → MatR R s → MatR R (l.foldl (fun s r => (setInsert r s).1) s) from
    h m [] hm (by intro r hr; simp at hr)
  intro l
  induction l with
  | nil => exact fun s _ hs => hs
  | cons x l ih =>
    intro s hl hs
    exact ih _ (fun r hr => hl r (by simp [hr])) (matR_setInsert (hl x (by simp)) hs)

theorem classes_sim {tag : Tag} {ms : Maps} (hm : ∀ m ∈ ms, MapR S m) {fuel : Nat} {m : Matrix} (h : MatR R m) :
    RunSim t u (MatR R) (Typed.classes A fuel m ms tag) (classes fuel m ms tag) :=
  classesLoop_sim L hof hm (matR_setOf h) (by intro r hr; simp at hr)

end

/-! ## normalisation of maps -/

section
variable {A : Arith} {R S : Int → Prop} {t u : Prop} (h0 : R 0)
  (hfac : ∀ f e, S f → R e → Sim t u S (A.factor f e) (.ok (-f * e)))
include h0 hfac

theorem replaceTerm_sim {i : Nat} {eq : Row} {x : Term} (he : RowR R eq) (hx : S x.2) :
    Sim t u (fun im => ∀ y ∈ im, S y.2) (Typed.replaceTerm A i eq x) (.ok (replaceTerm i eq x)) := by
  unfold Typed.replaceTerm replaceTerm
  split
  · refine Sim.traverse fun j _ => ?_
    exact (hfac _ _ hx (rowR_getD h0 he j)).bindOk fun h => Sim.ok h
  · exact Sim.ok fun y hy => by rw [List.mem_singleton.mp hy]; exact hx

theorem subtractEquation_sim {i : Nat} {eq : Row} (he : RowR R eq) : ∀ {m : SymMap}, MapR S m →
    Sim t u (MapR S) (Typed.subtractEquation A i eq m) (subtractEquation i eq m)
  | [], _ => Sim.ok fun _ h => by simp at h
  | im :: m, hm => by
    have e : Typed.subtractEquation A i eq (im :: m) = (Typed.subtractEquationImage A i eq im).bind fun b =>
      (Typed.subtractEquation A i eq m).bind fun bs => .ok (b :: bs) := rfl
    rw [e]
    unfold subtractEquation
    have h1 : Sim t u (fun im => ∀ y ∈ im, S y.2) (Typed.subtractEquationImage A i eq im) (subtractEquationImage i eq im) := by
      match im, hm with
      | [], _ => exact Sim.ok fun y hy => by simp at hy
      | [x], hm => exact replaceTerm_sim h0 hfac he (hm [x] (by simp) x (by simp))
      | _ :: _ :: _, _ => exact Sim.ub
    refine h1.bind fun b hb => (subtractEquation_sim he fun y hy => hm y (by simp [hy])).bind fun bs hbs => Sim.ok ?_
    intro y hy
    rcases List.mem_cons.mp hy with rfl | hy
    · exact hb
    · exact hbs y hy

theorem subtractEquations_sim : ∀ {E : Matrix} {m : SymMap}, MatR R E → MapR S m →
    Sim t u (MapR S) (Typed.subtractEquations A m E) (subtractEquations m E)
  | [], _, _, hm => Sim.ok hm
  | e :: E, m, he, hm => by
    unfold Typed.subtractEquations subtractEquations
    exact (subtractEquation_sim h0 hfac (he e (by simp)) hm).bind fun v hv => subtractEquations_sim (fun r hr => he r (by simp [hr])) hv

omit h0 hfac in
theorem mapR_eliminate : ∀ {is : List Nat} {m : SymMap}, MapR S m →
    Sim t u (MapR S) (eliminateZeroCoefficients m is) (eliminateZeroCoefficients m is)
  | [], _, hm => Sim.ok hm
  | i :: is, m, hm => by
    unfold eliminateZeroCoefficients
    split
    · refine mapR_eliminate fun im him x hx => ?_
      rcases List.mem_or_eq_of_mem_set him with h | rfl
      · exact hm im h x hx
      · simp at hx
    · exact Sim.ub

end

section
variable {S : Int → Prop} {t u : Prop} (hadd : ∀ a b, S a → S b → Sim t u S (machineInt 32 (a + b)) (.ok (a + b)))
include hadd

theorem simplifyLoop_sim : ∀ {fuel : Nat} {done rest : Image}, (∀ x ∈ done, S x.2) → (∀ x ∈ rest, S x.2) →
    Sim t u (fun im => ∀ x ∈ im, S x.2) (Typed.simplifyLoop fuel done rest) (simplifyLoop fuel done rest)
  | 0, done, rest, hd, hr => Sim.ok fun x hx => by
      rcases List.mem_append.mp hx with h | h
      · exact hd x (List.mem_reverse.mp h)
      · exact hr x h
  | _ + 1, done, [], hd, _ => Sim.ok fun x hx => hd x (List.mem_reverse.mp hx)
  | _ + 1, done, [a], hd, hr => Sim.ok fun x hx => by
      rcases List.mem_append.mp hx with h | h
      · exact hd x (List.mem_reverse.mp h)
      · exact hr x h
  | fuel + 1, done, a :: b :: rest, hd, hr => by
    unfold Typed.simplifyLoop simplifyLoop
    have hrest : ∀ x ∈ rest, S x.2 := fun x hx => hr x (by simp [hx])
    by_cases hab : a.1 = b.1
    · rw [if_pos hab, if_pos hab]
      refine (hadd a.2 b.2 (hr a (by simp)) (hr b (by simp))).bindOk fun hs => ?_
      by_cases hz : a.2 + b.2 = 0
      · rw [if_pos hz, if_pos hz]
        match done, hd with
        | [], _ =>
          rw [if_pos rfl, if_pos rfl]
          split
          · exact Sim.ok fun x hx => by simp at hx
          · exact Sim.ub
        | c :: done, hd =>
          rw [if_neg (List.cons_ne_nil _ _), if_neg (List.cons_ne_nil _ _)]
          refine simplifyLoop_sim (fun x hx => hd x (List.mem_cons_of_mem _ hx)) fun x hx => ?_
          rcases List.mem_cons.mp hx with h | hx
          · rw [h]; exact hd c (.head _)
          · exact hrest x hx
      · rw [if_neg hz, if_neg hz]
        refine simplifyLoop_sim hd fun x hx => ?_
        rcases List.mem_cons.mp hx with rfl | hx
        · exact hs
        · exact hrest x hx
    · rw [if_neg hab, if_neg hab]
      refine simplifyLoop_sim (fun x hx => ?_) fun x hx => hr x (List.mem_cons_of_mem _ hx)
      rcases List.mem_cons.mp hx with rfl | hx
      · exact hr x (by simp)
      · exact hd x hx

omit hadd in
theorem mem_insertTerm {x y : Term} : ∀ {im : Image}, y ∈ insertTerm x im → y = x ∨ y ∈ im
  | [], h => by simpa [insertTerm] using h
  | z :: im, h => by
    unfold insertTerm at h
    split at h
    · simpa using h
    · rcases List.mem_cons.mp h with rfl | h
      · simp
      · rcases mem_insertTerm h with h | h
        · exact Or.inl h
        · exact Or.inr (List.mem_cons_of_mem _ h)

omit hadd in
theorem mem_sortImage {y : Term} : ∀ {im : Image}, y ∈ sortImage im → y ∈ im
  | [], h => h
  | z :: im, h => by
    rcases mem_insertTerm h with rfl | h
    · simp
    · exact List.mem_cons_of_mem _ (mem_sortImage h)

theorem simplifyMap_sim : ∀ {m : SymMap}, MapR S m → Sim t u (MapR S) (Typed.simplifyMap m) (simplifyMap m)
  | [], _ => Sim.ok fun _ h => by simp at h
  | im :: m, hm => by
    have e : Typed.simplifyMap (im :: m) = (Typed.simplifyLoop (2 * im.length) [] (sortImage im)).bind fun b =>
      (Typed.simplifyMap m).bind fun bs => .ok (b :: bs) := rfl
    rw [e]
    unfold simplifyMap simplifyImage
    refine (simplifyLoop_sim hadd (by simp) fun x hx => hm im (by simp) x (mem_sortImage hx)).bind fun b hb => ?_
    refine (simplifyMap_sim fun y hy => hm y (by simp [hy])).bind fun bs hbs => Sim.ok ?_
    intro y hy
    rcases List.mem_cons.mp hy with rfl | hy
    · exact hb
    · exact hbs y hy

end

/-- the operations on the factors of maps are exact or fail -/
structure FactorLaw (A : Arith) (R S : Int → Prop) (t u : Prop) : Prop where
  factor : ∀ f e, S f → R e → Sim t u S (A.factor f e) (.ok (-f * e))
  add : ∀ a b, S a → S b → Sim t u S (machineInt 32 (a + b)) (.ok (a + b))

theorem normalizeMaps_sim {A : Arith} {R S : Int → Prop} {t u : Prop} (h0 : R 0) (F : FactorLaw A R S t u) {E : Matrix} (hE : MatR R E) :
    ∀ {ms : Maps}, (∀ m ∈ ms, MapR S m) →
    Sim t u (fun ms => ∀ m ∈ ms, MapR S m) (Typed.normalizeMaps A ms E) (normalizeMaps ms E)
  | [], _ => Sim.ok fun _ h => by simp at h
  | m :: ms, hm => by
    have e : Typed.normalizeMaps A (m :: ms) E = (Typed.normalizeMap A m E).bind fun b =>
      (Typed.normalizeMaps A ms E).bind fun bs => .ok (b :: bs) := rfl
    rw [e]
    unfold normalizeMaps
    have h1 : Sim t u (MapR S) (Typed.normalizeMap A m E) (normalizeMap m E) := by
      unfold Typed.normalizeMap normalizeMap
      exact (mapR_eliminate (hm m (by simp))).bind fun m' hm' =>
        (subtractEquations_sim h0 F.factor hE hm').bind fun m2 hm2 => simplifyMap_sim F.add hm2
    refine h1.bind fun b hb => (normalizeMaps_sim h0 F hE fun y hy => hm y (by simp [hy])).bind fun bs hbs => Sim.ok ?_
    intro y hy
    rcases List.mem_cons.mp hy with rfl | hy
    · exact hb
    · exact hbs y hy

/-! ## the methods -/

/-- apply a function to each entry -/
def mapEntries (c : Int → Int) (m : Matrix) : Matrix := m.map fun r => r.map c

theorem mapEntries_id (m : Matrix) : mapEntries (fun x => x) m = m := by simp [mapEntries]

theorem traverse_conv {t u : Prop} {P Q : Int → Prop} {f : Int → Outcome Int} {c : Int → Int}
    (h : ∀ a, P a → Sim t u Q (f a) (.ok (c a))) {m : Matrix} (hm : MatR P m) :
    Sim t u (MatR Q) (Typed.traverse (Typed.traverse f) m) (.ok (mapEntries c m)) :=
  Sim.traverse (Q := RowR Q) fun r hr => Sim.traverse (Q := Q) fun x hx => h x (hm r hr x hx)

theorem traverse_cast {t u : Prop} {P Q : Int → Prop} {f : Int → Outcome Int} (h : ∀ a, P a → Sim t u Q (f a) (.ok a)) {m : Matrix} (hm : MatR P m) :
    Sim t u (MatR Q) (Typed.traverse (Typed.traverse f) m) (.ok m) := by
  have := traverse_conv (c := fun x => x) h hm
  rwa [mapEntries_id] at this

/-- apply a function to each entry of the output -/
def FacetOutput.mapEntries (c : Int → Int) (o : FacetOutput) : FacetOutput :=
  ⟨Panda.mapEntries c o.equations, o.reduced, Panda.mapEntries c o.inequalities⟩

/-- apply a function to each entry of the output -/
def VertexOutput.mapEntries (c : Int → Int) (o : VertexOutput) : VertexOutput :=
  ⟨o.reduced, Panda.mapEntries c o.vertices, Panda.mapEntries c o.rays⟩

/-- the double description method for facets, with a type whose operations are exact or fail -/
theorem facetDD_conv {A : Arith} {R Q : Int → Prop} {t u : Prop} {c : Int → Int} (L : Law A R t u)
    (hof : ∀ a, Spec.IsInt a → Sim t u R (A.ofInt a) (.ok a)) (hto : ∀ a, R a → Sim t u Q (A.toInt a) (.ok (c a)))
    {maps : Maps} (F : maps ≠ [] → FactorLaw A R Spec.IsInt t u) {V : Matrix} (hV : MatR Spec.IsInt V)
    (hm : ∀ m ∈ maps, MapR Spec.IsInt m) (fuel : Nat) :
    RunSim t u (fun o => MatR Q o.equations ∧ MatR Q o.inequalities)
      (Typed.facetEnumerationDD A fuel V maps) (Run.bind (facetEnumerationDD fuel V maps) fun o => some (.ok (o.mapEntries c))) := by
  have e : (Run.bind (facetEnumerationDD fuel V maps) fun o => some (.ok (o.mapEntries c))) =
      Run.bind (.lift (extractEquations V)) fun equations => Run.bind (.lift (normalizeMaps maps equations)) fun reducedMaps =>
      Run.bind (.lift (fourierMotzkinElimination V)) fun inequalities =>
      Run.bind (classes fuel inequalities reducedMaps .facet) fun inequalities =>
      some (.ok ⟨mapEntries c equations, decide (maps ≠ []), mapEntries c inequalities⟩) := by
    unfold facetEnumerationDD
    cases extractEquations V with
    | thrown => rfl
    | ub => rfl
    | ok E =>
      simp only [Run.lift, Run.bind]
      cases normalizeMaps maps E with
      | thrown => rfl
      | ub => rfl
      | ok M =>
        cases fourierMotzkinElimination V with
        | thrown => rfl
        | ub => rfl
        | ok I =>
          simp only [Run.bind]
          cases classes fuel I M .facet with
          | none => rfl
          | some x => cases x <;> rfl
  rw [e]
  unfold Typed.facetEnumerationDD
  refine RunSim.bindOk (traverse_cast hof hV).lift fun h1 => ?_
  refine (extractEquations_sim L h1).lift.bind fun E hE => ?_
  refine RunSim.bind (P := fun ms => ∀ m ∈ ms, MapR Spec.IsInt m) ?_ fun ms hms => ?_
  · match maps, F, hm with
    | [], _, _ => exact RunSim.done fun _ h => by simp at h
    | m :: maps, F, hm => exact (normalizeMaps_sim L.zero (F (by simp)) hE hm).lift
  refine RunSim.bindOk (traverse_conv hto hE).lift fun h2 => ?_
  refine (fourierMotzkin_sim L h1).lift.bind fun I hI => (classes_sim L hof hms hI).bind fun C hC => ?_
  exact RunSim.bindOk (traverse_conv hto hC).lift fun h3 => RunSim.done ⟨h2, h3⟩

/-- the double description method for vertices, with a type whose operations are exact or fail -/
theorem vertexDD_conv {A : Arith} {R Q : Int → Prop} {t u : Prop} {c : Int → Int} (L : Law A R t u)
    (hof : ∀ a, Spec.IsInt a → Sim t u R (A.ofInt a) (.ok a)) (hto : ∀ a, R a → Sim t u Q (A.toInt a) (.ok (c a)))
    {maps : Maps} {I : Matrix} (hI : MatR Spec.IsInt I) (hm : ∀ m ∈ maps, MapR Spec.IsInt m) (fuel : Nat) :
    RunSim t u (fun o => MatR Q o.vertices ∧ MatR Q o.rays)
      (Typed.vertexEnumerationDD A fuel I maps) (Run.bind (vertexEnumerationDD fuel I maps) fun o => some (.ok (o.mapEntries c))) := by
  have e : (Run.bind (vertexEnumerationDD fuel I maps) fun o => some (.ok (o.mapEntries c))) =
      Run.bind (.lift (fourierMotzkinElimination I)) fun matrix =>
      Run.bind (classes fuel matrix maps .vertex) fun matrix =>
      some (.ok ⟨decide (maps ≠ []), mapEntries c (splitVertices matrix).1, mapEntries c ((splitVertices matrix).2.map List.dropLast)⟩) := by
    unfold vertexEnumerationDD
    cases fourierMotzkinElimination I with
    | thrown => rfl
    | ub => rfl
    | ok M =>
      simp only [Run.lift, Run.bind]
      cases classes fuel M maps .vertex with
      | none => rfl
      | some x => cases x <;> rfl
  rw [e]
  unfold Typed.vertexEnumerationDD
  refine RunSim.bindOk (traverse_cast hof hI).lift fun h1 => ?_
  refine (fourierMotzkin_sim L h1).lift.bind fun V hV => (classes_sim L hof hm hV).bind fun C hC => ?_
  have c1 : MatR R (splitVertices C).1 := matR_sub hC fun r hr => List.mem_of_mem_filter hr
  have c2 : MatR R ((splitVertices C).2.map List.dropLast) := by
    intro r hr
    obtain ⟨r', h, rfl⟩ := List.mem_map.mp hr
    exact fun x hx => hC r' (List.mem_of_mem_filter h) x (List.mem_of_mem_dropLast hx)
  refine RunSim.bindOk (traverse_conv hto c1).lift fun h2 => RunSim.bindOk (traverse_conv hto c2).lift fun h3 => ?_
  exact RunSim.done ⟨h2, h3⟩

theorem mapEntries_run {x : Run FacetOutput} : (Run.bind x fun o => some (.ok (o.mapEntries fun z => z))) = x := by
  match x with
  | none => rfl
  | some (.ok o) => simp [Run.bind, FacetOutput.mapEntries, mapEntries_id]
  | some .thrown => rfl
  | some .ub => rfl

theorem mapEntries_runV {x : Run VertexOutput} : (Run.bind x fun o => some (.ok (o.mapEntries fun z => z))) = x := by
  match x with
  | none => rfl
  | some (.ok o) => simp [Run.bind, VertexOutput.mapEntries, mapEntries_id]
  | some .thrown => rfl
  | some .ub => rfl

end Panda
