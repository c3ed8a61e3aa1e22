import Verif.Proofs.AdjacencyTyped
import Verif.Props.Adjacency
import Verif.Props.Main

/-! # The threads of the program: the pool with the operations of the selected type, and the text -/

namespace Panda

open Relation

/-- the type computes exactly or fails; conversion from and to `int` as well -/
structure Typing (A : Arith) (R : Int → Prop) (t u : Prop) : Prop where
  law : Law A R t u
  ofInt : ∀ a, Spec.IsInt a → Sim t u R (A.ofInt a) (.ok a)
  toInt : ∀ a, R a → Sim t u Spec.IsInt (A.toInt a) (.ok a)

/-- the selected type; with `x`, undefined behaviour is tolerated also for the checked type -/
theorem typing_selected {ty : IntegerType} (hty : ty = .safe ∨ ty = .default ∨ ty = .fixed32) (x : Prop) :
    ∃ R, Typing (selectArith ty) R (ty = .safe) (ty ≠ .safe ∨ x) ∧
      (x → FactorLaw (selectArith ty) R Spec.IsInt (ty = .safe) (ty ≠ .safe ∨ x)) := by
  rcases hty with rfl | hty
  · refine ⟨InInt64, ?_⟩
    rw [eq_true (rfl : IntegerType.safe = .safe)]
    refine ⟨⟨safe_law _, safe_ofInt, fun a _ => safe_toInt a⟩, fun hx => ?_⟩
    rw [eq_true hx, or_true]
    exact safe_factors
  · have hs : selectArith ty = fixedArith 32 := by rcases hty with rfl | rfl <;> rfl
    have hne : ty ≠ .safe := by rcases hty with rfl | rfl <;> decide
    refine ⟨Spec.IsInt, ?_⟩
    rw [eq_true hne, hs, true_or]
    exact ⟨⟨fixed32_law _, fixed32_ofInt, fixed32_ofInt⟩, fun _ => fixed32_factors _⟩

section
variable {ι : Type} [DecidableEq ι] {c c' : PoolConfig ι} {s s' : Pool ι}

theorem Progress.transfer (hrem : ∀ i, c.remote i → c'.remote i) (hrot : ∀ i r m, s.pc i = .working r → c.Rot r m → c'.Rot r m)
    (h : Progress c s s') : Progress c' s s' := by
  cases h with
  | rotate i row m h1 h2 => exact .rotate s i row m h1 (hrot i row m h1 h2)
  | start i h1 h2 => exact .start s i h1 (h2.imp_left (hrem i))
  | checkEmpty i h1 h2 h3 => exact .checkEmpty s i h1 h2 h3
  | checkBusy i h1 h2 => exact .checkBusy s i h1 h2
  | insertEmpty i h1 => exact .insertEmpty s i h1
  | pushEmpty i h1 => exact .pushEmpty s i h1
  | wait i h1 h2 => exact .wait s i h1 h2
  | take i row rest h1 h2 h3 => exact .take s i row rest h1 h2 h3
  | stop i rest h1 h2 => exact .stop s i rest h1 h2
  | put _ i row all r rest h1 h2 => exact .put s s' i row all r rest h1 h2
  | done i row all h1 => exact .done s i row all h1
  | masterPut _ r rest h1 h2 => exact .masterPut s s' r rest h1 h2
  | masterDone h1 => exact .masterDone s h1
  | asyncPut _ r rest h1 h2 h3 => exact .asyncPut s s' r rest h1 h2 h3

theorem PoolStep.transfer (hrem : ∀ i, c.remote i → c'.remote i) (hrot : ∀ i r m, s.pc i = .working r → c.Rot r m → c'.Rot r m)
    (h : PoolStep c s s') : PoolStep c' s s' := h.imp_left (Progress.transfer hrem hrot)

/-- a step prints at most one row; it leaves the asynchronous loop alone, or the row is the next one of that loop -/
theorem Progress.prints (h : Progress c s s') :
    (s'.async = s.async ∧ (s'.printed = s.printed ∨ ∃ r, s'.printed = s.printed ++ [r])) ∨
      ∃ r, s.async = r :: s'.async ∧ (s'.printed = s.printed ∨ s'.printed = s.printed ++ [r]) := by
  have key : ∀ {r : Row} {s0 : Pool ι}, s0.printed = s.printed → PutRow r s0 s' →
      s'.async = s0.async ∧ (s'.printed = s.printed ∨ s'.printed = s.printed ++ [r]) := by
    intro r s0 e1 hp
    have := hp.facts
    refine ⟨this.async, ?_⟩
    rcases this.cases with ⟨-, -, -, h, -⟩ | ⟨-, -, -, h⟩
    · left; rw [h, e1]
    · right; rw [h, e1]
  cases h with
  | put _ i row all r rest h1 h2 =>
    have := key (s0 := { s with pc := Function.update s.pc i (.putting row all rest) }) rfl h2
    exact Or.inl ⟨this.1, this.2.imp_right fun h => ⟨r, h⟩⟩
  | masterPut _ r rest h1 h2 =>
    have := key (s0 := { s with master := some rest }) rfl h2
    exact Or.inl ⟨this.1, this.2.imp_right fun h => ⟨r, h⟩⟩
  | asyncPut _ r rest h1 h2 h3 =>
    have := key (s0 := { s with async := rest }) rfl h3
    exact Or.inr ⟨r, by rw [this.1]; exact h2, this.2⟩
  | _ => exact Or.inl ⟨rfl, Or.inl rfl⟩

omit [DecidableEq ι] in
theorem spurious_printed [DecidableEq ι] (h : Spurious s s') : s'.printed = s.printed ∧ s'.async = s.async := by
  cases h with
  | wake i hi => exact ⟨rfl, rfl⟩

end

theorem prettyPrintMatrix_snoc {names : Names} {rel : List Char} {r : Row} {t : List Char} (hr : prettyPrint r names rel = .ok t) :
    ∀ {m : Matrix} {ts : List Char}, prettyPrintMatrix m names rel = .ok ts →
      prettyPrintMatrix (m ++ [r]) names rel = .ok (ts ++ (t ++ ['\n']))
  | [], ts, h => by
    simp only [prettyPrintMatrix, Outcome.ok.injEq] at h
    subst h
    simp [prettyPrintMatrix, hr, Outcome.bind]
  | x :: m, ts, h => by
    rw [prettyPrintMatrix] at h
    rw [List.cons_append, prettyPrintMatrix]
    match e : prettyPrint x names rel, h with
    | .thrown, h => simp [Outcome.bind] at h
    | .ub, h => simp [Outcome.bind] at h
    | .ok t1, h =>
      simp only [Outcome.bind] at h
      match e' : prettyPrintMatrix m names rel, h with
      | .thrown, h => simp at h
      | .ub, h => simp at h
      | .ok ts', h =>
        simp only [Outcome.ok.injEq] at h
        subst h
        rw [prettyPrintMatrix_snoc hr e']
        simp [Outcome.bind]

section
variable {A : Arith} {R : Int → Prop} {t u : Prop}

/-- the text of the rows: inequalities, or plain rows of vertices and rays -/
def rowsText (names : Names) : Tag → Matrix → Outcome (List Char)
  | .facet, m => prettyPrintMatrix m names "<=".toList
  | .vertex, m => .ok (m.flatMap fun r => printRow r ++ ['\n'])

theorem printLine_cases (L : Typing A R t u) {names : Names} {tag : Tag} {r : Row} (hr : RowR R r) :
    (∃ x, (∀ m ts, rowsText names tag m = .ok ts → rowsText names tag (m ++ [r]) = .ok (ts ++ x)) ∧
      printLine A names tag r = .ok x ∧ (tag = .facet → ∃ y, prettyPrint r names "<=".toList = .ok y ∧ x = y ++ ['\n'])) ∨
    (t ∧ printLine A names tag r = .thrown) ∨ ((u ∨ (tag = .facet ∧ names ≠ [])) ∧ printLine A names tag r = .ub) := by
  have h : Sim t u (RowR Spec.IsInt) (Typed.traverse A.toInt r) (.ok r) := by
    have := Sim.traverse (f := A.toInt) (g := id) (l := r) (Q := Spec.IsInt) (fun a ha => L.toInt a (hr a ha))
    rwa [List.map_id] at this
  unfold printLine
  rcases h with ⟨h, -⟩ | ⟨ht, h⟩ | ⟨hu, h⟩
  · rw [h]
    cases tag with
    | facet =>
      rcases prettyPrint_cases r names "<=".toList with ⟨x, hx⟩ | ⟨hn, hx⟩
      · exact Or.inl ⟨x ++ ['\n'], fun m ts hm => prettyPrintMatrix_snoc hx hm, by simp only [Outcome.bind, hx], fun _ => ⟨x, hx, rfl⟩⟩
      · exact Or.inr (Or.inr ⟨Or.inr ⟨rfl, hn⟩, by simp only [Outcome.bind, hx]⟩)
    | vertex =>
      refine Or.inl ⟨printRow r ++ ['\n'], fun m ts hm => ?_, rfl, by simp⟩
      simp only [rowsText, Outcome.ok.injEq] at hm ⊢
      rw [← hm, List.flatMap_append]
      simp
  · exact Or.inr (Or.inl ⟨ht, by rw [h]; rfl⟩)
  · exact Or.inr (Or.inr ⟨Or.inl hu, by rw [h]; rfl⟩)

/-- what the threads need to know about the rows: they satisfy `G`, are in the range of the type, and `rotation` with exact
numbers always returns such rows -/
structure ADCore (A : Arith) (R : Int → Prop) (t u : Prop) (a : ADProgram) (a0 : ADStart) (tag : Tag) (G : Row → Prop) : Prop where
  typing : Typing A R t u
  tag : a.tag = tag
  maps : a.maps = a0.maps
  mapsR : ∀ m ∈ a.maps, MapR Spec.IsInt m
  matrix : MatR R a.matrix
  initial : a.initial = a0.initial
  known : a.known = a0.known
  knownR : MatR R a.known
  knownEnd : a.knownEnd = .ub → u
  dangling : a.dangling = true → u
  loud : ∀ r ∈ a.known, printLine A a.names a.tag r ≠ .thrown
  threads : 0 < a.threads
  initialR : MatR R a.initial
  safe : (adConfig (fun _ : Fin a.threads => False) a.matrix a.tag a0).Safe G
  total : ∀ r, G r → ∃ m, (adConfig (fun _ : Fin a.threads => False) a.matrix a.tag a0).Rot r m
  finite : {r | G r}.Finite

variable {a : ADProgram} {a0 : ADStart} {tag : Tag} {G : Row → Prop}

theorem ADCore.rot (h : ADCore A R t u a a0 tag G) {r : Row} (hr : RowR R r) {m : Matrix} {fuel : Nat}
    (e : Typed.rotation A fuel a.matrix r a.maps a.tag = some (.ok m)) :
    rotation fuel a.matrix r a0.maps a.tag = some (.ok m) ∧ MatR R m := by
  have := rotation_sim h.typing.law (S := Spec.IsInt) h.typing.ofInt (fuel := fuel) (tag := a.tag) h.matrix hr h.mapsR
  rw [e] at this
  rcases this with ⟨h1, h2⟩ | ⟨-, h1⟩ | ⟨-, h1⟩
  · rw [h.maps] at h1
    exact ⟨h1.symm, h2 m (by rw [h.maps]; exact h1.symm)⟩
  · simp at h1
  · simp at h1

theorem ADCore.typedSafe (h : ADCore A R t u a a0 tag G) : (adProgramConfig A a).Safe (fun r => G r ∧ RowR R r) :=
  { nonempty := fun hh => h.safe.nonempty hh.1
    initial := fun r hr => ⟨h.safe.initial r (by rw [show (adConfig _ a.matrix a.tag a0).initial = a0.initial from rfl, ← h.initial]; exact hr),
      h.initialR r hr⟩
    known := by
      intro r hr
      refine ⟨h.safe.known r ?_, h.knownR r hr⟩
      rw [show (adConfig _ a.matrix a.tag a0).known = a0.known from rfl, ← h.known]
      exact hr
    rot := by
      rintro r m ⟨hg, hr⟩ ⟨fuel, e⟩ x hx
      obtain ⟨e1, e2⟩ := h.rot hr e
      exact ⟨h.safe.rot r m hg ⟨fuel, e1⟩ x hx, e2 x hx⟩ }

/-- the threads of the program do what the threads with exact numbers may do -/
theorem ADCore.reach (h : ADCore A R t u a a0 tag G) {s : Pool (Fin a.threads)} (hs : PoolReach (adProgramConfig A a) s) :
    PoolReach (adConfig (fun _ => False) a.matrix a.tag a0) s := by
  refine PoolReach.induct (P := fun s => PoolReach (adConfig (fun _ => False) a.matrix a.tag a0) s) ?_ ?_ hs
  · have : Pool.init (adProgramConfig A a) = Pool.init (adConfig (fun _ : Fin a.threads => False) a.matrix a.tag a0) := by
      unfold Pool.init adProgramConfig adConfig
      simp only [h.initial, h.known]
    rw [this]; exact .refl
  · intro s s' h1 h2 h3
    refine h2.tail (h3.transfer (c := adProgramConfig A a) (fun i hi => hi) ?_)
    rintro i r m hi ⟨fuel, e⟩
    exact ⟨fuel, (h.rot ((invG _ h.typedSafe h1).working i r hi).2 e).1⟩

/-- every moment of the run: the asynchronous loop works on known rows; the text is the head and the rows printed so far -/
structure ADMoment (A : Arith) (a : ADProgram) (s : Pool (Fin a.threads)) (out : List Char) : Prop where
  reach : PoolReach (adProgramConfig A a) s
  async : ∀ r ∈ s.async, r ∈ a.known
  text : ∃ t, rowsText a.names a.tag s.printed = .ok t ∧ out = a.head ++ t

theorem ADCore.printedR (h : ADCore A R t u a a0 tag G) {s : Pool (Fin a.threads)} (hs : PoolReach (adProgramConfig A a) s) {r : Row}
    (hr : r ∈ s.printed) : G r ∧ RowR R r := C26_nothing_else h.typedSafe hs r hr

/-- what a step leads to -/
theorem ADCore.step (h : ADCore A R t u a a0 tag G) {s : Pool (Fin a.threads)} {out : List Char} (hm : ADMoment A a s out)
    {σ : ADState (Fin a.threads)} (hst : ADStep A a (.running s out) σ) :
    (∃ s' out', σ = .running s' out' ∧ ADMoment A a s' out' ∧ PoolStep (adProgramConfig A a) s s') ∨
      (σ = .failed ∧ t) ∨ (σ = .undefined ∧ (u ∨ (a.tag = .facet ∧ a.names ≠ []))) := by
  have hasync : ∀ {s'}, PoolStep (adProgramConfig A a) s s' → ∀ r ∈ s'.async, r ∈ a.known := by
    intro s' hp
    rcases hp with hp | hp
    · rcases hp.prints with ⟨e, -⟩ | ⟨x, e, -⟩
      · rw [e]; exact hm.async
      · intro r hr; exact hm.async r (by rw [e]; simp [hr])
    · rw [(spurious_printed hp).2]; exact hm.async
  have hmem : ∀ {s' : Pool (Fin a.threads)} {r : Row}, PoolStep (adProgramConfig A a) s s' → s'.printed = s.printed ++ [r] → RowR R r := by
    intro s' r h1 h2
    exact (h.printedR (hm.reach.tail h1) (by rw [h2]; simp)).2
  cases hst with
  | quiet _ s' _ h1 h2 => exact Or.inl ⟨s', out, rfl, ⟨hm.reach.tail h1, hasync h1, by rw [h2]; exact hm.text⟩, h1⟩
  | print _ s' _ r x h1 h2 h3 =>
    refine Or.inl ⟨s', out ++ x, rfl, ⟨hm.reach.tail h1, hasync h1, ?_⟩, h1⟩
    obtain ⟨t0, h4, h5⟩ := hm.text
    rcases printLine_cases h.typing (names := a.names) (tag := a.tag) (hmem h1 h2) with ⟨y, h6, h7, -⟩ | ⟨-, h7⟩ | ⟨-, h7⟩
    · rw [h3] at h7
      simp only [Outcome.ok.injEq] at h7
      subst h7
      exact ⟨_, by rw [h2]; exact h6 _ _ h4, by rw [h5]; simp⟩
    · rw [h3] at h7; simp at h7
    · rw [h3] at h7; simp at h7
  | printThrows _ s' _ r h1 _ h2 h3 =>
    rcases printLine_cases h.typing (names := a.names) (tag := a.tag) (hmem h1 h2) with ⟨y, h6, h7, -⟩ | ⟨ht, h7⟩ | ⟨-, h7⟩
    · rw [h3] at h7; simp at h7
    · exact Or.inr (Or.inl ⟨rfl, ht⟩)
    · rw [h3] at h7; simp at h7
  | printThrowsAsync _ s' _ r rest h1 h2 h3 h4 h5 => exact absurd h5 (h.loud r (hm.async r (by rw [h2]; simp)))
  | printUndefined _ s' _ r h1 h2 h3 =>
    rcases printLine_cases h.typing (names := a.names) (tag := a.tag) (hmem h1 h2) with ⟨y, h6, h7, -⟩ | ⟨ht, h7⟩ | ⟨hu, h7⟩
    · rw [h3] at h7; simp at h7
    · rw [h3] at h7; simp at h7
    · exact Or.inr (Or.inr ⟨rfl, hu⟩)
  | rotationThrows _ _ i row fuel h1 h2 =>
    have := rotation_sim h.typing.law (S := Spec.IsInt) h.typing.ofInt (fuel := fuel) (tag := a.tag) h.matrix
      ((invG _ h.typedSafe hm.reach).working i row h1).2 h.mapsR
    rw [h2] at this
    rcases this with ⟨h3, -⟩ | ⟨ht, -⟩ | ⟨-, h3⟩
    · obtain ⟨m, fuel', e⟩ := h.total row ((invG _ h.typedSafe hm.reach).working i row h1).1
      rw [h.maps] at h3
      have := rotation_unique e h3.symm
      simp at this
    · exact Or.inr (Or.inl ⟨rfl, ht⟩)
    · simp at h3
  | rotationUndefined _ _ i row fuel h1 h2 =>
    have hg := (invG _ h.typedSafe hm.reach).working i row h1
    have := rotation_sim h.typing.law (S := Spec.IsInt) h.typing.ofInt (fuel := fuel) (tag := a.tag) h.matrix hg.2 h.mapsR
    rw [h2] at this
    rcases this with ⟨h3, -⟩ | ⟨-, h3⟩ | ⟨hu, -⟩
    · obtain ⟨m, fuel', e⟩ := h.total row hg.1
      rw [h.maps] at h3
      have := rotation_unique e h3.symm
      simp at this
    · simp at h3
    · exact Or.inr (Or.inr ⟨rfl, Or.inl hu⟩)
  | knownUndefined _ _ h1 => exact Or.inr (Or.inr ⟨rfl, Or.inl (h.knownEnd h1)⟩)
  | knownDangling _ _ h1 => exact Or.inr (Or.inr ⟨rfl, Or.inl (h.dangling h1)⟩)

/-- the states of the run -/
theorem ADCore.states (h : ADCore A R t u a a0 tag G) {σ : ADState (Fin a.threads)} (hr : ADReach A a σ) :
    (∃ s out, σ = .running s out ∧ ADMoment A a s out) ∨ (σ = .failed ∧ t) ∨ (σ = .undefined ∧ (u ∨ (a.tag = .facet ∧ a.names ≠ []))) := by
  induction hr with
  | refl =>
    refine Or.inl ⟨_, _, rfl, .refl, fun r hr => hr, [], ?_, by simp⟩
    show rowsText a.names a.tag [] = _
    cases a.tag <;> rfl
  | tail _ h2 ih =>
    rcases ih with ⟨s, out, rfl, hm⟩ | ⟨rfl, _⟩ | ⟨rfl, _⟩
    · rcases h.step hm h2 with ⟨s', out', h3, h4, -⟩ | h3 | h3
      · exact Or.inl ⟨s', out', h3, h4⟩
      · exact Or.inr (Or.inl h3)
      · exact Or.inr (Or.inr h3)
    · cases h2
    · cases h2

/-- the program is never stuck -/
theorem ADCore.no_deadlock (h : ADCore A R t u a a0 tag G) {s : Pool (Fin a.threads)} {out : List Char} (hr : ADReach A a (.running s out))
    (hf : ¬ s.Finished) : ∃ σ, ADStep A a (.running s out) σ ∧ ∀ s' out', σ = .running s' out' → Progress (adProgramConfig A a) s s' := by
  rcases h.states hr with ⟨_, _, e, hm⟩ | ⟨e, _⟩ | ⟨e, _⟩
  · cases e
    obtain ⟨s', hs'⟩ := C28_no_deadlock h.safe ⟨⟨0, h.threads⟩, id⟩ h.total (h.reach hm.reach) hf
    have typed : Progress (adProgramConfig A a) s s' →
        ∃ σ, ADStep A a (.running s out) σ ∧ ∀ s' out', σ = .running s' out' → Progress (adProgramConfig A a) s s' := by
      intro hp
      have hq : s'.printed = s.printed ∨ ∃ r, s'.printed = s.printed ++ [r] ∧ (s'.async = s.async ∨ r ∈ s.async) := by
        rcases hp.prints with ⟨e, e' | ⟨r, e'⟩⟩ | ⟨r, e, e' | e'⟩
        · exact Or.inl e'
        · exact Or.inr ⟨r, e', Or.inl e⟩
        · exact Or.inl e'
        · exact Or.inr ⟨r, e', Or.inr (by rw [e]; simp)⟩
      rcases hq with e | ⟨r, e, ea⟩
      · exact ⟨_, .quiet s s' out (.inl hp) e, fun s1 o1 h1 => by cases h1; exact hp⟩
      · have hr := (h.printedR (hm.reach.tail (.inl hp)) (r := r) (by rw [e]; simp)).2
        rcases printLine_cases h.typing (names := a.names) (tag := a.tag) hr with ⟨y, -, h7, -⟩ | ⟨-, h7⟩ | ⟨-, h7⟩
        · exact ⟨_, .print s s' out r _ (.inl hp) e h7, fun s1 o1 h1 => by cases h1; exact hp⟩
        · rcases ea with ea | ea
          · exact ⟨_, .printThrows s s' out r (.inl hp) ea e h7, fun s1 o1 h1 => by cases h1⟩
          · exact absurd h7 (h.loud r (hm.async r ea))
        · exact ⟨_, .printUndefined s s' out r (.inl hp) e h7, fun s1 o1 h1 => by cases h1⟩
    by_cases hw : ∃ i row, s.pc i = .working row ∧ ∃ fuel, Typed.rotation A fuel a.matrix row a.maps a.tag = some .thrown ∨
        Typed.rotation A fuel a.matrix row a.maps a.tag = some .ub
    · obtain ⟨i, row, h1, fuel, h2 | h2⟩ := hw
      · exact ⟨_, .rotationThrows s out i row fuel h1 h2, fun s1 o1 h1 => by cases h1⟩
      · exact ⟨_, .rotationUndefined s out i row fuel h1 h2, fun s1 o1 h1 => by cases h1⟩
    · refine typed (hs'.transfer (c := adConfig (fun _ => False) a.matrix a.tag a0) (fun i hi => hi) ?_)
      rintro i r m hi ⟨fuel, e⟩
      have := rotation_sim h.typing.law (S := Spec.IsInt) h.typing.ofInt (fuel := fuel) (tag := a.tag) h.matrix
        ((invG _ h.typedSafe hm.reach).working i r hi).2 h.mapsR
      rcases this with ⟨h3, -⟩ | ⟨-, h3⟩ | ⟨-, h3⟩
      · exact ⟨fuel, by rw [h3, h.maps]; exact e⟩
      · exact absurd ⟨i, r, hi, fuel, Or.inl h3⟩ hw
      · exact absurd ⟨i, r, hi, fuel, Or.inr h3⟩ hw
  · cases e
  · cases e

/-- the run can always be brought to an end -/
theorem ADCore.can_end (h : ADCore A R t u a a0 tag G) {s : Pool (Fin a.threads)} {out : List Char} (hr : ADReach A a (.running s out)) :
    ∃ σ, ADReach A a σ ∧ (σ = .failed ∨ σ = .undefined ∨ ∃ s' out', σ = .running s' out' ∧ s'.Finished) := by
  have key : ∀ x : {s : Pool (Fin a.threads) // PoolReach (adProgramConfig A a) s}, ∀ out, ADReach A a (.running x.1 out) →
      ∃ σ, ADReach A a σ ∧ (σ = .failed ∨ σ = .undefined ∨ ∃ s' out', σ = .running s' out' ∧ s'.Finished) := by
    intro x
    induction x using (progress_wf h.typedSafe (h.finite.subset fun r hr => hr.1)).induction with
    | _ x ih =>
    intro out hx
    by_cases hf : x.1.Finished
    · exact ⟨_, hx, Or.inr (Or.inr ⟨_, _, rfl, hf⟩)⟩
    · obtain ⟨σ, h1, h2⟩ := h.no_deadlock hx hf
      match σ, h1, h2 with
      | .failed, h1, _ => exact ⟨_, hx.tail h1, Or.inl rfl⟩
      | .undefined, h1, _ => exact ⟨_, hx.tail h1, Or.inr (Or.inl rfl)⟩
      | .running s' out', h1, h2 =>
        exact ih ⟨s', x.2.tail (.inl (h2 _ _ rfl))⟩ (h2 _ _ rfl) out' (hx.tail h1)
  rcases h.states hr with ⟨_, _, e, hm⟩ | ⟨e, _⟩ | ⟨e, _⟩
  · cases e
    exact key ⟨s, hm.reach⟩ out hr
  · cases e
  · cases e

/-- there is no infinite run without spurious wake-ups -/
theorem ADCore.terminates (h : ADCore A R t u a a0 tag G) (f : Nat → ADState (Fin a.threads)) (h0 : f 0 = ADState.init A a)
    (hstep : ∀ n, ADStep A a (f n) (f (n + 1)))
    (hsp : ∀ n s s' out out', f n = .running s out → f (n + 1) = .running s' out' → ¬ Spurious s s') : False := by
  have hrun : ∀ n, ∃ s out, f n = .running s out ∧ ADMoment A a s out := by
    intro n
    have hr : ADReach A a (f n) := by
      induction n with
      | zero => rw [h0]; exact .refl
      | succ n ih => exact ih.tail (hstep n)
    have hn := hstep n
    rcases h.states hr with h1 | ⟨e, _⟩ | ⟨e, _⟩
    · exact h1
    · rw [e] at hn; cases hn
    · rw [e] at hn; cases hn
  choose s out hs hm using hrun
  refine C28_terminates h.typedSafe (h.finite.subset fun r hr => hr.1) s ?_ fun n => ?_
  · have := hs 0
    rw [h0] at this
    unfold ADState.init at this
    injection this with e1 e2
    exact e1.symm
  · have hn := hstep n
    rw [hs n, hs (n + 1)] at hn
    rcases h.step (hm n) hn with ⟨s', out', e, -, hp⟩ | ⟨e, -⟩ | ⟨e, -⟩
    · cases e
      exact hp.resolve_right (hsp n _ _ _ _ (hs n) (hs (n + 1)))
    · cases e
    · cases e

/-! ## the rows known before -/

theorem Typed.knownRow_mono (A : Arith) (E : Matrix) (maps : Maps) (tag : Tag) (k : Row) :
    FuelMono fun fuel => Typed.knownRow A fuel E maps tag k :=
  FuelMono.bind FuelMono.const fun _ => Typed.classRepresentative_mono A maps tag _

theorem knownRows_cons {fuel : Nat} {E : Matrix} {maps : Maps} {tag : Tag} {k : Row} {ks l : Matrix}
    (h : knownRows fuel E maps tag (k :: ks) = some (.ok l)) :
    ∃ r l', (Run.bind (some (normalize k E)) fun k0 => classRepresentative fuel k0 maps tag) = some (.ok r) ∧
      knownRows fuel E maps tag ks = some (.ok l') ∧ l = r :: l' := by
  rw [knownRows] at h
  match e : normalize k E, h with
  | .thrown, h => simp [Run.bind] at h
  | .ub, h => simp [Run.bind] at h
  | .ok k0, h =>
    simp only [Run.bind] at h ⊢
    match e' : classRepresentative fuel k0 maps tag, h with
    | none, h => simp at h
    | some .thrown, h => simp at h
    | some .ub, h => simp at h
    | some (.ok r), h =>
      simp only at h
      match e'' : knownRows fuel E maps tag ks, h with
      | none, h => simp at h
      | some .thrown, h => simp at h
      | some .ub, h => simp at h
      | some (.ok l'), h =>
        simp only [Option.some.injEq, Outcome.ok.injEq] at h
        exact ⟨r, l', rfl, rfl, h.symm⟩

/-- the asynchronous loop computes the first of the known rows -/
theorem knownRows_prefix (L : Typing A R t u) {F : Nat} {E : Matrix} {maps : Maps} {tag : Tag} (hE : MatR R E)
    (hmaps : ∀ m ∈ maps, MapR Spec.IsInt m) : ∀ {known l : Matrix}, MatR R known →
      (∀ fuel ≥ F, knownRows fuel E maps tag known = some (.ok l)) →
      ∃ known' l' e, known' <+: known ∧ (∀ fuel ≥ F, knownRows fuel E maps tag known' = some (.ok l')) ∧
        (∀ fuel ≥ F, Typed.knownRows A fuel E maps tag known = some (l', e)) ∧ (e = .ub → u) ∧ MatR R l' ∧
        (∀ k ks, known = k :: ks → (∃ r, Typed.knownRow A F E maps tag k = some (.ok r)) → ∃ ks', known' = k :: ks')
  | [], l, _, h => ⟨[], [], .ok (), List.prefix_rfl, fun _ _ => rfl, fun _ _ => rfl, by simp, by intro r hr; simp at hr, by simp⟩
  | k :: ks, l, hK, h => by
    obtain ⟨r, l1, h1, h2, rfl⟩ := knownRows_cons (h F le_rfl)
    have h3 : ∀ fuel ≥ F, (Run.bind (some (normalize k E)) fun k0 => classRepresentative fuel k0 maps tag) = some (.ok r) ∧
        knownRows fuel E maps tag ks = some (.ok l1) := by
      intro fuel hf
      obtain ⟨r', l1', h1', h2', e⟩ := knownRows_cons (h fuel hf)
      simp only [List.cons.injEq] at e
      rw [e.1, e.2]
      exact ⟨h1', h2'⟩
    have hsim := knownRow_sim L.law (S := Spec.IsInt) L.ofInt (fuel := F) (tag := tag) hE (hK k (by simp)) hmaps
    rw [h1] at hsim
    rcases hsim with ⟨e1, r1⟩ | ⟨ht, e1⟩ | ⟨hu, e1⟩
    · obtain ⟨known', l', e, g1, g2, g3, g4, g5, -⟩ := knownRows_prefix L hE hmaps (fun x hx => hK x (by simp [hx])) (fun fuel hf => (h3 fuel hf).2)
      refine ⟨k :: known', r :: l', e, List.cons_prefix_cons.2 ⟨rfl, g1⟩, fun fuel hf => ?_, fun fuel hf => ?_, g4, ?_, ?_⟩
      · have h4 := (h3 fuel hf).1
        rw [knownRows]
        match e' : normalize k E, h4 with
        | .thrown, h4 => simp [Run.bind] at h4
        | .ub, h4 => simp [Run.bind] at h4
        | .ok k0, h4 =>
          simp only [Run.bind] at h4 ⊢
          rw [h4]
          simp only [g2 fuel hf]
      · rw [Typed.knownRows, show Typed.knownRow A fuel E maps tag k = _ from Typed.knownRow_mono A E maps tag k F fuel _ hf e1]
        simp only [g3 fuel hf]
      · intro x hx
        rcases List.mem_cons.1 hx with rfl | hx
        · exact r1 _ rfl
        · exact g5 x hx
      · rintro _ _ ⟨rfl, rfl⟩ _
        exact ⟨known', rfl⟩
    · refine ⟨[], [], .thrown, List.nil_prefix, fun _ _ => rfl, fun fuel hf => ?_, by simp, by intro r hr; simp at hr, ?_⟩
      · rw [Typed.knownRows, show Typed.knownRow A fuel E maps tag k = _ from Typed.knownRow_mono A E maps tag k F fuel _ hf e1]
      · rintro _ _ ⟨rfl, rfl⟩ ⟨r', h4⟩
        rw [e1] at h4; simp at h4
    · refine ⟨[], [], .ub, List.nil_prefix, fun _ _ => rfl, fun fuel hf => ?_, fun _ => hu, by intro r hr; simp at hr, ?_⟩
      · rw [Typed.knownRows, show Typed.knownRow A fuel E maps tag k = _ from Typed.knownRow_mono A E maps tag k F fuel _ hf e1]
      · rintro _ _ ⟨rfl, rfl⟩ ⟨r', h4⟩
        rw [e1] at h4; simp at h4

theorem initializePool_ok {fuel : Nat} {V E known : Matrix} {maps : Maps} {tag : Tag} {a : ADStart}
    (h : initializePool fuel V E maps known tag = some (.ok a)) :
    initialRows fuel V maps known E tag = some (.ok a.initial) ∧ knownRows fuel E maps tag known = some (.ok a.known) ∧
      a.equations = E ∧ a.maps = maps := by
  unfold initializePool at h
  match e : initialRows fuel V maps known E tag, h with
  | none, h => simp [Run.bind] at h
  | some .thrown, h => simp [Run.bind] at h
  | some .ub, h => simp [Run.bind] at h
  | some (.ok l), h =>
    simp only [Run.bind] at h
    match e' : knownRows fuel E maps tag known, h with
    | none, h => simp at h
    | some .thrown, h => simp at h
    | some .ub, h => simp at h
    | some (.ok l'), h =>
      simp only [Option.some.injEq, Outcome.ok.injEq] at h
      subst h
      exact ⟨rfl, rfl, rfl, rfl⟩

theorem initialRows_prefix {fuel : Nat} {V E known known' : Matrix} {maps : Maps} {tag : Tag} (h : known = [] ∨ ∃ k ks ks', known = k :: ks ∧ known' = k :: ks')
    (hp : known' <+: known) : initialRows fuel V maps known' E tag = initialRows fuel V maps known E tag := by
  rcases h with rfl | ⟨k, ks, ks', rfl, rfl⟩
  · rw [List.prefix_nil.1 hp]
  · rfl

/-- what the typed initialisation of the pool leads to: a failure, or what the exact one leads to with the first of the known rows -/
theorem pool_cases (L : Typing A R t u) {F : Nat} {V E known : Matrix} {maps : Maps} {tag : Tag} (hV : MatR R V) (hE : MatR R E)
    (hmaps : ∀ m ∈ maps, MapR Spec.IsInt m) (hK : MatR R known)
    (hex : ∀ known', known' <+: known → ∃ a, ∀ fuel ≥ F, initializePool fuel V E maps known' tag = some (.ok a)) :
    (t ∧ ∀ fuel ≥ F, Typed.initialRows A fuel V maps known E tag = some .thrown) ∨
    (u ∧ ∀ fuel ≥ F, Typed.initialRows A fuel V maps known E tag = some .ub) ∨
    ∃ known' a0 e, known' <+: known ∧ (∀ fuel ≥ F, initializePool fuel V E maps known' tag = some (.ok a0)) ∧
      (∀ fuel ≥ F, Typed.initialRows A fuel V maps known E tag = some (.ok a0.initial)) ∧
      (∀ fuel ≥ F, Typed.knownRows A fuel E maps tag known = some (a0.known, e)) ∧ (e = .ub → u) ∧ MatR R a0.initial ∧ MatR R a0.known := by
  obtain ⟨a, ha⟩ := hex known List.prefix_rfl
  have h0 := initializePool_ok (ha F le_rfl)
  have hsim := initialRows_sim L.law (S := Spec.IsInt) L.ofInt (fuel := F) (tag := tag) hV hK hE hmaps
  rw [h0.1] at hsim
  have mono := Typed.initialRows_mono A V maps known E tag
  rcases hsim with ⟨e1, r1⟩ | ⟨ht, e1⟩ | ⟨hu, e1⟩
  · right; right
    obtain ⟨known', l', e, g1, g2, g3, g4, g5, g6⟩ := knownRows_prefix L hE hmaps hK (fun fuel hf => (initializePool_ok (ha fuel hf)).2.1)
    obtain ⟨a0, ha0⟩ := hex known' g1
    have h1 := initializePool_ok (ha0 F le_rfl)
    have hl : a0.known = l' := by
      have := h1.2.1
      rw [g2 F le_rfl] at this
      simpa using this.symm
    have hi : a0.initial = a.initial := by
      have := h1.1
      rw [initialRows_prefix ?_ g1, h0.1] at this
      · simpa using this.symm
      · match known, g6, e1 with
        | [], _, _ => exact Or.inl rfl
        | k :: ks, g6, e1 =>
          right
          obtain ⟨ks', h2⟩ := g6 k ks rfl (by
            rw [show Typed.initialRows A F V maps (k :: ks) E tag = Run.bind (Typed.knownRow A F E maps tag k) fun r => some (.ok [r]) from rfl] at e1
            match e2 : Typed.knownRow A F E maps tag k, e1 with
            | none, e1 => simp [Run.bind] at e1
            | some .thrown, e1 => simp [Run.bind] at e1
            | some .ub, e1 => simp [Run.bind] at e1
            | some (.ok r), e1 => exact ⟨r, rfl⟩)
          exact ⟨k, ks, ks', rfl, h2⟩
    refine ⟨known', a0, e, g1, ha0, fun fuel hf => ?_, fun fuel hf => ?_, g4, ?_, ?_⟩
    · rw [hi]; exact mono F fuel _ hf e1
    · rw [hl]; exact g3 fuel hf
    · rw [hi]; exact r1 _ rfl
    · rw [hl]; exact g5
  · exact Or.inl ⟨ht, fun fuel hf => mono F fuel _ hf e1⟩
  · exact Or.inr (Or.inl ⟨hu, fun fuel hf => mono F fuel _ hf e1⟩)

end

/-! ## the ends of the program -/

section
variable {hardware : Nat} {help : Option ProgramResult} {args : List Arg} {files : Files} {ty : IntegerType} {N : Nat} {u w : Prop} {facets : Bool}
  {Q : ADProgram → ADStart → Prop} {tag : Tag} {G : Row → Prop}

/-- the program up to the start of the threads -/
def adProgram (hardware : Nat) (files : Files) (args : List Arg) (facets : Bool) (fuel : Nat) : Run ADProgram :=
  if facets then adProgramFacets hardware fuel files args else adProgramVertices hardware fuel files args

theorem programEnds_iff (e1 : ∀ ad fuel, program ad help fuel files args = ad facets) (r : ProgramResult) :
    ProgramEnds hardware help files args r ↔ ADResult hardware files args facets r := by
  constructor
  · rintro ⟨fuel, ad, h8, h9⟩
    rw [e1] at h9
    exact h8 _ _ h9
  · intro h8
    refine ⟨0, fun b => if b = facets then some r else none, fun b x hx => ?_, by rw [e1]; simp⟩
    by_cases hb : b = facets
    · simp only [hb, if_true, Option.some.injEq] at hx
      rw [hb, ← hx]
      exact h8
    · simp [hb] at hx

/-- the ends of the program, and what a finished run of the threads has printed -/
theorem ad_ends (e1 : ∀ ad fuel, program ad help fuel files args = ad facets) (t1 : integerType args = .ok ty)
    (q0 : ∀ fuel ≥ N, adProgram hardware files args facets fuel = adProgram hardware files args facets N)
    (q : ∀ fuel ≥ N, (adProgram hardware files args facets fuel = some .thrown ∧ ty = .safe) ∨
      (adProgram hardware files args facets fuel = some .ub ∧ w) ∨
      ∃ a R a0, adProgram hardware files args facets fuel = some (.ok a) ∧ Q a a0 ∧ ADCore (selectArith ty) R (ty = .safe) u a a0 tag G) :
    (∃ r, ProgramEnds hardware help files args r) ∧ ∀ r, ProgramEnds hardware help files args r →
      (r = .failed ∧ ty = .safe) ∨ (r = .undefined ∧ (w ∨ u ∨ ∃ a a0, Q a a0 ∧ tag = .facet ∧ a.names ≠ [])) ∨
        ∃ (a : ADProgram) (a0 : ADStart) (R : Int → Prop) (out : List Char) (s : Pool (Fin a.threads)) (ti : List Char), r = .finished 0 out ∧ Q a a0 ∧
          ADCore (selectArith ty) R (ty = .safe) u a a0 tag G ∧ PoolReach (adProgramConfig (selectArith ty) a) s ∧
          s.Finished ∧ rowsText a.names tag s.printed = .ok ti ∧ out = a.head ++ ti := by
  have ends := programEnds_iff (hardware := hardware) e1
  have un : ∀ r, ADResult hardware files args facets r ↔ ∃ N, ∀ fuel ≥ N, match adProgram hardware files args facets fuel with
      | none => False
      | some .thrown => r = .failed
      | some .ub => r = .undefined
      | some (.ok a) => ∃ ty, integerType args = .ok ty ∧ ADEnd (selectArith ty) a r := fun r => Iff.rfl
  refine ⟨?_, fun r hr => ?_⟩
  · simp only [ends, un]
    rcases q N le_rfl with ⟨e, -⟩ | ⟨e, -⟩ | ⟨a, R, a0, e, -, hcore⟩
    · exact ⟨.failed, N, fun fuel hf => by rw [q0 fuel hf, e]⟩
    · exact ⟨.undefined, N, fun fuel hf => by rw [q0 fuel hf, e]⟩
    · obtain ⟨σ, h1, h2⟩ := hcore.can_end (s := Pool.init (adProgramConfig (selectArith ty) a)) (out := a.head) .refl
      have : ∃ r, ADEnd (selectArith ty) a r := by
        rcases h2 with rfl | rfl | ⟨s', out', rfl, h3⟩
        · exact ⟨.failed, h1⟩
        · exact ⟨.undefined, h1⟩
        · exact ⟨.finished 0 out', rfl, s', h3, h1⟩
      obtain ⟨r, hr⟩ := this
      exact ⟨r, N, fun fuel hf => by rw [q0 fuel hf, e]; exact ⟨ty, t1, hr⟩⟩
  · rw [ends, un] at hr
    obtain ⟨N', hr⟩ := hr
    have hr := hr (max N N') (le_max_right _ _)
    rcases q (max N N') (le_max_left _ _) with ⟨e, ht⟩ | ⟨e, hu⟩ | ⟨a, R, a0, e, hQ, hcore⟩
    · rw [e] at hr
      exact Or.inl ⟨hr, ht⟩
    · rw [e] at hr
      exact Or.inr (Or.inl ⟨hr, Or.inl hu⟩)
    · rw [e] at hr
      obtain ⟨ty', ht', hend⟩ := hr
      rw [t1] at ht'
      simp only [Outcome.ok.injEq] at ht'
      subst ht'
      match r, hend with
      | .failed, hend =>
        rcases hcore.states hend with ⟨s, out, h1, -⟩ | ⟨-, h1⟩ | ⟨h1, -⟩
        · cases h1
        · exact Or.inl ⟨rfl, h1⟩
        · cases h1
      | .undefined, hend =>
        rcases hcore.states hend with ⟨s, out, h1, -⟩ | ⟨h1, -⟩ | ⟨-, h1⟩
        · cases h1
        · cases h1
        · exact Or.inr (Or.inl ⟨rfl, Or.inr (h1.imp_right fun h0 => ⟨a, a0, hQ, by rw [← hcore.tag]; exact h0⟩)⟩)
      | .finished code out, hend =>
        obtain ⟨rfl, s, hfin, hreach⟩ := hend
        rcases hcore.states hreach with ⟨s1, out1, h1, hm⟩ | ⟨h1, -⟩ | ⟨h1, -⟩
        case inr.inl => cases h1
        case inr.inr => cases h1
        cases h1
        obtain ⟨ti, h2, h3⟩ := hm.text
        rw [hcore.tag] at h2
        exact Or.inr (Or.inr ⟨a, a0, R, out, s, ti, rfl, hQ, hcore, hm.reach, hfin, h2, h3⟩)

/-- the threads are never stuck, and without spurious wake-ups there is no infinite run -/
theorem ad_terminates (t1 : integerType args = .ok ty)
    (q : ∀ fuel ≥ N, (adProgram hardware files args facets fuel = some .thrown ∧ ty = .safe) ∨
      (adProgram hardware files args facets fuel = some .ub ∧ w) ∨
      ∃ a R a0, adProgram hardware files args facets fuel = some (.ok a) ∧ Q a a0 ∧ ADCore (selectArith ty) R (ty = .safe) u a a0 tag G) :
    ∀ fuel ≥ N, adProgram hardware files args facets fuel ≠ none ∧
      ∀ a ty, adProgram hardware files args facets fuel = some (.ok a) → integerType args = .ok ty →
        (∀ s out, ADReach (selectArith ty) a (.running s out) → ¬ s.Finished → ∃ σ, ADStep (selectArith ty) a (.running s out) σ ∧
          ∀ s' out', σ = .running s' out' → Progress (adProgramConfig (selectArith ty) a) s s') ∧
        ∀ f : Nat → ADState (Fin a.threads), f 0 = ADState.init (selectArith ty) a → (∀ n, ADStep (selectArith ty) a (f n) (f (n + 1))) →
          ∃ n s s' out out', f n = .running s out ∧ f (n + 1) = .running s' out' ∧ Spurious s s' := by
  intro fuel hfuel
  rcases q fuel hfuel with ⟨e, -⟩ | ⟨e, -⟩ | ⟨a, R, a0, e, -, hcore⟩
  · rw [e]; exact ⟨by simp, fun a ty h1 => by simp at h1⟩
  · rw [e]; exact ⟨by simp, fun a ty h1 => by simp at h1⟩
  · rw [e]
    refine ⟨by simp, fun a' ty' h1 h2 => ?_⟩
    rw [t1] at h2
    simp only [Option.some.injEq, Outcome.ok.injEq] at h1 h2
    subst h1; subst h2
    refine ⟨fun s out hr hf => hcore.no_deadlock hr hf, fun f h0 hstep => ?_⟩
    by_contra hno
    exact hcore.terminates f h0 hstep fun n s s' out out' h1 h2 h3 => hno ⟨n, s, s', out, out', h1, h2, h3⟩

end

end Panda
