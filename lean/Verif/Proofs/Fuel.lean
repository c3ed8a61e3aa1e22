import Verif.Proofs.MainAD

/-! # More iterations change nothing

The model gives loops whose number of iterations is not bounded in advance a number of iterations they may do (`fuel`).  The
result of the whole program does not depend on it: once there is a result, it is the same with more iterations. -/

namespace Panda

theorem FuelMono.of_succ {α : Type} {f : Nat → Run α} (h : ∀ n r, f n = some r → f (n + 1) = some r) : FuelMono f := by
  intro k l x hkl hk
  induction hkl with
  | refl => exact hk
  | step _ ih => exact h _ _ ih

theorem FuelMono.ite {α : Type} {f g : Nat → Run α} {c : Prop} [Decidable c] (hf : FuelMono f) (hg : FuelMono g) :
    FuelMono fun k => if c then f k else g k := by
  intro k l x hkl h
  dsimp only at h ⊢
  by_cases hc : c
  · rw [if_pos hc] at h ⊢; exact hf k l x hkl h
  · rw [if_neg hc] at h ⊢; exact hg k l x hkl h

theorem expandLoop_mono (A : Arith) (maps : Maps) (tag : Tag) : ∀ m : Matrix, FuelMono fun k => Typed.expandLoop A k maps tag m
  | [] => fun _ _ _ _ h => h
  | r :: m => by
    unfold Typed.expandLoop
    exact (Typed.getClass_mono A maps tag r).bind fun _ => (expandLoop_mono A maps tag m).bind fun _ => FuelMono.const

theorem expand_mono (A : Arith) (m : Matrix) (maps : Maps) (tag : Tag) : FuelMono fun k => Typed.expand A k m maps tag :=
  FuelMono.ite FuelMono.const (expandLoop_mono A maps tag m)

theorem readAllRows_mono {check : Bool} {maps : Maps} {f : Nat → Run (Stream × Matrix)} (h : FuelMono f) :
    FuelMono fun k => readAllRows check maps (f k) := h.bind fun _ => FuelMono.const

theorem readReducedRows_mono {maps : Maps} {f : Nat → Run (Stream × Matrix)} (h : FuelMono f) :
    FuelMono fun k => readReducedRows k maps (f k) := h.bind fun _ => (expand_mono _ _ _ _).bind fun _ => FuelMono.const

theorem vertexSection_mono (check : Bool) (token : List Char) (s : Stream) (d : VertexData) :
    FuelMono fun k => vertexSection check k token s d := by
  have h1 : FuelMono fun k => verticesConvex k s := .of_succ fun n r => verticesConvex_mono s n r
  have h2 : FuelMono fun k => verticesConical k s := .of_succ fun n r => verticesConical_mono s n r
  unfold vertexSection
  refine .ite .const (.ite .const (.ite (.bind (.of_succ fun n r => readMaps_mono _ s n r) fun _ => .const) (.ite ?_ (.ite ?_ (.ite ?_ (.ite ?_ .const))))))
  · exact (readAllRows_mono h1).bind fun _ => .const
  · exact (readReducedRows_mono h1).bind fun _ => .const
  · exact (readAllRows_mono h2).bind fun _ => .const
  · exact (readReducedRows_mono h2).bind fun _ => .const

theorem inequalitySection_mono (check : Bool) (token : List Char) (s : Stream) (d : InequalityData) :
    FuelMono fun k => inequalitySection check k token s d := by
  have h1 : ∀ e names, FuelMono fun k => constraints e names k s := fun e names => .of_succ fun n r => constraints_mono e names s n r
  unfold inequalitySection
  refine .ite .const (.ite .const (.ite (.bind (.of_succ fun n r => readMaps_mono _ s n r) fun _ => .const) (.ite ?_ (.ite ?_ (.ite ?_ .const)))))
  · exact (h1 _ _).bind fun _ => .const
  · exact (h1 _ _).bind fun _ => .const
  · exact (h1 _ _).bind fun _ => FuelMono.const.bind fun _ => (expand_mono _ _ _ _).bind fun _ => .const

theorem fileLoop_mono {D : Type} {sec : Nat → List Char → Stream → D → Run (Stream × D)} (h : ∀ token s d, FuelMono fun k => sec k token s d) :
    ∀ (k l : Nat) (s : Stream) (d : D) (x : Outcome D), k ≤ l → fileLoop sec k s d = some x → fileLoop sec l s d = some x
  | 0, _, _, _, _, _, h0 => by simp [fileLoop] at h0
  | k + 1, 0, _, _, _, hkl, _ => by omega
  | k + 1, l + 1, s, d, x, hkl, h0 => by
    rw [fileLoop] at h0 ⊢
    by_cases h1 : s.fail = true
    · rw [if_pos h1] at h0 ⊢; exact h0
    · rw [if_neg h1] at h0 ⊢
      by_cases h2 : (advanceToNextKeyword s).1.fail = true
      · rw [if_pos h2] at h0 ⊢; exact h0
      · rw [if_neg h2] at h0 ⊢
        match e : sec k (advanceToNextKeyword s).2 (advanceToNextKeyword s).1 d, h0 with
        | none, h0 => simp [Run.bind] at h0
        | some .thrown, h0 => rw [show sec l _ _ d = _ from h _ _ _ k l _ (by omega) e]; exact h0
        | some .ub, h0 => rw [show sec l _ _ d = _ from h _ _ _ k l _ (by omega) e]; exact h0
        | some (.ok v), h0 =>
          rw [show sec l _ _ d = _ from h _ _ _ k l _ (by omega) e]
          exact fileLoop_mono h k l _ _ x (by omega) h0

theorem knownFacets_mono (files : Files) (args : List Arg) (names : Names) : FuelMono fun k => knownFacets k files args names := by
  unfold knownFacets
  refine FuelMono.const.bind fun name => .ite .const ?_
  cases files name with
  | none => exact .const
  | some text => exact .ite (.bind (.of_succ fun n r => constraints_mono _ _ _ n r) fun _ => .const) .const

theorem knownSection_mono (token : List Char) (s : Stream) (d : Matrix × Matrix) : FuelMono fun k => knownSection k token s d := by
  unfold knownSection
  exact .ite (.bind (.of_succ fun n r => verticesConvex_mono s n r) fun _ => .const)
    (.ite (.bind (.of_succ fun n r => verticesConical_mono s n r) fun _ => .const) .const)

theorem knownVertices_mono (files : Files) (args : List Arg) : FuelMono fun k => knownVertices k files args := by
  unfold knownVertices
  refine FuelMono.const.bind fun name => .ite .const ?_
  cases files name with
  | none => exact .const
  | some text =>
    refine FuelMono.bind (fun k l x hkl h => ?_) fun _ => .const
    rw [show knownVerticesLoop _ _ _ _ = _ from knownVerticesLoop_eq _ _ ([], [])] at h ⊢
    exact fileLoop_mono knownSection_mono k l _ _ x hkl h

theorem inputVertices_mono (files : Files) (args : List Arg) : FuelMono fun k => inputVertices k files args := by
  unfold inputVertices
  refine FuelMono.const.bind fun name => ?_
  cases files name with
  | none => exact .const
  | some text =>
    refine .ite .const (.bind (fun k l x hkl h => ?_) fun _ => FuelMono.const.bind fun _ => (knownFacets_mono files args _).bind fun _ => .const)
    rw [vertexFileLoop_eq] at h ⊢
    exact fileLoop_mono (vertexSection_mono _) k l _ _ x hkl h

theorem inputInequalities_mono (files : Files) (args : List Arg) : FuelMono fun k => inputInequalities k files args := by
  unfold inputInequalities
  refine FuelMono.const.bind fun name => ?_
  cases files name with
  | none => exact .const
  | some text =>
    refine .ite .const (.bind (fun k l x hkl h => ?_) fun _ => FuelMono.const.bind fun _ => (knownVertices_mono files args).bind fun _ => .const)
    rw [inequalityFileLoop_eq] at h ⊢
    exact fileLoop_mono (inequalitySection_mono _) k l _ _ x hkl h

theorem Typed.classesLoop_mono (A : Arith) (maps : Maps) (tag : Tag) {fuel fuel' : Nat} (hf : fuel ≤ fuel') : ∀ (k l : Nat) (s : List Row) (acc : Matrix)
    (x : Outcome Matrix), k ≤ l → Typed.classesLoop A maps tag fuel k s acc = some x → Typed.classesLoop A maps tag fuel' l s acc = some x
  | k, l, [], acc, x, _, h => by cases k <;> cases l <;> simpa [Typed.classesLoop] using h
  | 0, l, r :: rs, acc, x, _, h => by simp [Typed.classesLoop] at h
  | k + 1, 0, r :: rs, acc, x, hkl, h => by omega
  | k + 1, l + 1, r :: rs, acc, x, hkl, h => by
    rw [Typed.classesLoop] at h ⊢
    match e : Typed.getClass A fuel r maps tag, h with
    | none, h => simp [Run.bind] at h
    | some .thrown, h => rw [show Typed.getClass A fuel' r maps tag = _ from Typed.getClass_mono A maps tag r _ _ _ hf e]; exact h
    | some .ub, h => rw [show Typed.getClass A fuel' r maps tag = _ from Typed.getClass_mono A maps tag r _ _ _ hf e]; exact h
    | some (.ok v), h =>
      rw [show Typed.getClass A fuel' r maps tag = _ from Typed.getClass_mono A maps tag r _ _ _ hf e]
      exact Typed.classesLoop_mono A maps tag hf k l _ _ x (by omega) h

theorem Typed.classes_mono (A : Arith) (input : Matrix) (maps : Maps) (tag : Tag) : FuelMono fun k => Typed.classes A k input maps tag :=
  fun k l x hkl h => Typed.classesLoop_mono A maps tag hkl k l _ _ x hkl h

theorem Typed.facetEnumerationDD_mono (A : Arith) (V : Matrix) (maps : Maps) : FuelMono fun k => Typed.facetEnumerationDD A k V maps := by
  unfold Typed.facetEnumerationDD
  exact FuelMono.const.bind fun _ => FuelMono.const.bind fun _ => FuelMono.const.bind fun _ => FuelMono.const.bind fun _ => FuelMono.const.bind fun _ =>
    (Typed.classes_mono A _ _ _).bind fun _ => .const

theorem Typed.vertexEnumerationDD_mono (A : Arith) (V : Matrix) (maps : Maps) : FuelMono fun k => Typed.vertexEnumerationDD A k V maps := by
  unfold Typed.vertexEnumerationDD
  exact FuelMono.const.bind fun _ => FuelMono.const.bind fun _ => (Typed.classes_mono A _ _ _).bind fun _ => .const

theorem facetsDD_mono (files : Files) (args : List Arg) : FuelMono fun k => facetsDD k files args := by
  unfold facetsDD
  exact FuelMono.const.bind fun _ => (inputVertices_mono files args).bind fun _ => (Typed.facetEnumerationDD_mono _ _ _).bind fun _ => .const

theorem verticesDD_mono (files : Files) (args : List Arg) : FuelMono fun k => verticesDD k files args := by
  unfold verticesDD
  exact FuelMono.const.bind fun _ => (inputInequalities_mono files args).bind fun _ => (Typed.vertexEnumerationDD_mono _ _ _).bind fun _ => .const

theorem Typed.knownRows_mono (A : Arith) (E : Matrix) (maps : Maps) (tag : Tag) {k l : Nat} (hkl : k ≤ l) : ∀ (m : Matrix) (x : Matrix × Outcome Unit),
    Typed.knownRows A k E maps tag m = some x → Typed.knownRows A l E maps tag m = some x
  | [], x, h => h
  | r :: m, x, h => by
    rw [Typed.knownRows] at h ⊢
    match e : Typed.knownRow A k E maps tag r, h with
    | none, h => simp at h
    | some .thrown, h => rw [show Typed.knownRow A l E maps tag r = _ from Typed.knownRow_mono A E maps tag r k l _ hkl e]; exact h
    | some .ub, h => rw [show Typed.knownRow A l E maps tag r = _ from Typed.knownRow_mono A E maps tag r k l _ hkl e]; exact h
    | some (.ok v), h =>
      rw [show Typed.knownRow A l E maps tag r = _ from Typed.knownRow_mono A E maps tag r k l _ hkl e]
      dsimp only at h ⊢
      match e' : Typed.knownRows A k E maps tag m, h with
      | none, h => simp at h
      | some p, h => rw [Typed.knownRows_mono A E maps tag hkl m p e']; exact h

theorem FuelMono.known {α : Type} {A : Arith} {E : Matrix} {maps : Maps} {tag : Tag} {m : Matrix} {g : Matrix × Outcome Unit → Run α} :
    FuelMono fun k => match Typed.knownRows A k E maps tag m with | none => none | some p => g p := by
  intro k l x hkl h
  dsimp only at h ⊢
  match e : Typed.knownRows A k E maps tag m, h with
  | none, h => simp at h
  | some p, h => rw [Typed.knownRows_mono A E maps tag hkl m p e]; exact h

theorem adProgramFacets_mono (hardware : Nat) (files : Files) (args : List Arg) : FuelMono fun k => adProgramFacets hardware k files args := by
  unfold adProgramFacets
  exact FuelMono.const.bind fun _ => (inputVertices_mono files args).bind fun _ => FuelMono.const.bind fun _ => FuelMono.const.bind fun _ =>
    FuelMono.const.bind fun _ => FuelMono.const.bind fun _ => FuelMono.const.bind fun _ => FuelMono.const.bind fun _ =>
    (Typed.initialRows_mono _ _ _ _ _ _).bind fun _ => .known

theorem adProgramVertices_mono (hardware : Nat) (files : Files) (args : List Arg) : FuelMono fun k => adProgramVertices hardware k files args := by
  unfold adProgramVertices
  exact FuelMono.const.bind fun _ => (inputInequalities_mono files args).bind fun _ => FuelMono.const.bind fun _ => FuelMono.const.bind fun _ =>
    FuelMono.const.bind fun _ => (Typed.initialRows_mono _ _ _ _ _ _).bind fun _ => .known

/-- the result of the program does not depend on the bound on the number of iterations -/
theorem program_mono (ad : Bool → Option ProgramResult) (help : Option ProgramResult) (files : Files) (args : List Arg) {k l : Nat} (hkl : k ≤ l)
    {r : ProgramResult} (h : program ad help k files args = some r) : program ad help l files args = some r := by
  have dd : ∀ facets : Bool, ∀ r, ProgramResult.ofRun (if facets then facetsDD k files args else verticesDD k files args) = some r →
      ProgramResult.ofRun (if facets then facetsDD l files args else verticesDD l files args) = some r := by
    intro facets r h
    have hm : FuelMono fun n => if facets = true then facetsDD n files args else verticesDD n files args :=
      .ite (facetsDD_mono files args) (verticesDD_mono files args)
    match e : (if facets = true then facetsDD k files args else verticesDD k files args), h with
    | none, h => simp [ProgramResult.ofRun] at h
    | some x, h => rw [show (if facets = true then facetsDD l files args else verticesDD l files args) = _ from hm k l x hkl e]; exact h
  have en : ∀ facets : Bool, ∀ r, enumeration ad facets k files args = some r → enumeration ad facets l files args = some r := by
    intro facets r h
    unfold enumeration at h ⊢
    match methodOption args, h with
    | .thrown, h => exact h
    | .ub, h => exact h
    | .ok .adjacencyDecomposition, h => exact h
    | .ok .doubleDescription, h => exact dd facets r h
  unfold program at h ⊢
  match detectOperationMode files args, h with
  | .thrown, h => exact h
  | .ub, h => exact h
  | .ok .facetEnumeration, h => exact en true r h
  | .ok .vertexEnumeration, h => exact en false r h
  | .ok .helpCommand, h => exact h
  | .ok .help, h => exact h
  | .ok .version, h => exact h
  | .ok .undecided, h => exact h
  | .ok .invalid, h => exact h

end Panda
