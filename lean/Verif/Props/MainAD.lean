import Verif.Proofs.MainAD

/-! # C62: the program with adjacency decomposition, from the file to the printed answer -/

namespace Panda

open Relation

namespace Spec

/-- the command line asks for adjacency decomposition, or for no method (it is the default) -/
def UsesAD (args : List (List Char)) : Prop :=
  Absent 'm' args ∨ ∃ p ∈ ["ad".toList, "adjacency-decomposition".toList], Given 'm' "--method=".toList args p

/-- the command line asks for a positive number of threads, or for none -/
def ThreadsOk (args : List (List Char)) : Prop :=
  Absent 't' args ∨ ∃ p z, Given 't' "--threads=".toList args p ∧ IntegerText p z ∧ 0 < z ∧ z ≤ 2147483647

/-- the set contains three points that are not on a line -/
def Plane {d : Nat} (S : (Fin d → ℚ) → Prop) : Prop :=
  ∃ p q r, S p ∧ S q ∧ S r ∧ ∀ a b : ℚ, a • (q - p) + b • (r - p) = 0 → a = 0 ∧ b = 0

/-- the set contains a line -/
def Line {d : Nat} (S : (Fin d → ℚ) → Prop) : Prop := ∃ p q, q ≠ 0 ∧ ∀ t : ℚ, S (p + t • q)

end Spec

theorem usesAD_method {args : List Arg} (h : Spec.UsesAD args) : methodOption args = .ok .adjacencyDecomposition := by
  rcases h with h | ⟨p, hp, h⟩
  · exact (C54_method args).1 h
  · exact ((C54_method args).2 p h).2.1 hp

theorem threadsOk {hardware : Nat} {args : List Arg} (h : Spec.ThreadsOk args) : ∃ T, numberOfThreads hardware args = .ok T ∧ 0 < T := by
  have : ∃ T, numberOfThreads hardware args = .ok T := by
    rcases h with h | ⟨p, z, h1, h2, h3, h4⟩
    · exact ⟨_, (C49_threads hardware args).2.2.1 h⟩
    · exact ⟨z, (C49_threads hardware args).1 p z h1 h2 h3 h4⟩
  obtain ⟨T, hT⟩ := this
  exact ⟨T, hT, C49_positive hT⟩

/-! ## the rows known before -/

theorem intRow_primitive {r : Row} (h : ∀ x ∈ r, Spec.IsInt x) : ∀ x ∈ makePrimitive r, Spec.IsInt x := by
  unfold makePrimitive
  dsimp only
  split
  · rename_i hg
    intro x hx
    unfold rowQuot at hx
    rw [if_pos (by omega)] at hx
    obtain ⟨y, hy, rfl⟩ := List.mem_map.1 hx
    have h1 := h y hy
    unfold Spec.IsInt at h1 ⊢
    have h2 : (y.tdiv (rowGcd r)).natAbs ≤ y.natAbs := by rw [Int.natAbs_tdiv]; exact Nat.div_le_self _ _
    by_cases h3 : y = -2147483648
    · have h4 : (y.tdiv (rowGcd r)) ≤ 0 := by
        rw [h3]
        rw [show (-2147483648 : Int) = -(2147483648) from rfl, Int.neg_tdiv]
        have := Int.tdiv_nonneg (a := 2147483648) (b := rowGcd r) (by norm_num) (by omega)
        omega
      omega
    · omega
  · exact h

theorem knownRows_int {fuel : Nat} {tag : Tag} : ∀ {known l : Matrix}, IntMatrix known → knownRows fuel [] [] tag known = some (.ok l) → IntMatrix l
  | [], l, _, h => by
    simp only [knownRows, Option.some.injEq, Outcome.ok.injEq] at h
    subst h; intro r hr; simp at hr
  | k :: ks, l, hk, h => by
    obtain ⟨r, l', h1, h2, rfl⟩ := knownRows_cons h
    have h3 := knownRows_int (fun x hx => hk x (by simp [hx])) h2
    have h4 : r = makePrimitive k := by
      simp only [normalize, normalizeLoop, Outcome.bind, Run.bind, classRepresentative, getClass] at h1
      cases fuel with
      | zero => simp [getClassLoop] at h1
      | succ fuel =>
        cases fuel <;> simpa [getClassLoop, classInner, setLast, Run.bind, eq_comm] using h1
    intro x hx
    rcases List.mem_cons.1 hx with rfl | hx
    · rw [h4]; exact intRow_primitive (hk k (by simp))
    · exact h3 x hx

theorem safe_loud {names : Names} {tag : Tag} {r : Row} (h : ∀ x ∈ r, Spec.IsInt x) : printLine safeArith names tag r ≠ .thrown := by
  have h1 : ∀ {r : Row}, (∀ x ∈ r, Spec.IsInt x) → Typed.traverse safeArith.toInt r = .ok r := by
    intro r
    induction r with
    | nil => intro _; rfl
    | cons x r ih =>
      intro h
      have h2 : safeArith.toInt x = .ok x := by
        show Safe.toInt x = .ok x
        rw [C30_to_int]; exact if_pos (h x (by simp))
      simp only [Typed.traverse, h2, ih fun y hy => h y (by simp [hy]), Outcome.bind]
  unfold printLine
  rw [h1 h]
  simp only [Outcome.bind]
  cases tag with
  | vertex => simp
  | facet =>
    rcases prettyPrint_cases r names "<=".toList with ⟨x, hx⟩ | ⟨-, hx⟩
    · simp only [hx]; simp
    · simp only [hx]; simp

theorem unchecked_loud {A : Arith} {R : Int → Prop} {t u : Prop} (L : Typing A R t u) (ht : ¬ t) {names : Names} {tag : Tag} {r : Row} (hr : RowR R r) :
    printLine A names tag r ≠ .thrown := by
  rcases printLine_cases L (names := names) (tag := tag) hr with ⟨x, -, h, -⟩ | ⟨h, -⟩ | ⟨-, h⟩
  · rw [h]; simp
  · exact absurd h ht
  · rw [h]; simp

theorem ADInput.prefix {n : Nat} {V E known known' : Matrix} {maps maps' : Maps} (h : ADInput n V E maps maps' known) (hp : known' <+: known) :
    ADInput n V E maps maps' known' :=
  { h with known := fun k hk => h.known k (hp.subset hk) }

/-- the program up to the start of the threads; the known rows of the threads are the first of those in the file, as exact numbers -/
theorem adProgramFacets_known {hardware : Nat} {files : Files} {args : List Arg} {ty : IntegerType} {V E known : Matrix} {names : Names} {T : Int}
    {maps maps' : Maps} {n N1 : Nat}
    (h1 : integerType args = .ok ty) (hty : ty = .safe ∨ ty = .default ∨ ty = .fixed32)
    (h2 : ∀ fuel ≥ N1, inputVertices fuel files args = some (.ok (V, names, maps, known))) (hV : IntMatrix V) (hK : IntMatrix known)
    (h3 : numberOfThreads hardware args = .ok T) (hT : 0 < T) (hin : ADInput n V E maps maps' known)
    (hmaps : IntMaps maps) (hloud : known ≠ [] → ty = .safe → E = [] ∧ maps = []) :
    ∃ N, (∀ fuel ≥ N, adProgramFacets hardware fuel files args = adProgramFacets hardware N files args) ∧ ∀ fuel ≥ N,
      (adProgramFacets hardware fuel files args = some .thrown ∧ ty = .safe) ∨
      (adProgramFacets hardware fuel files args = some .ub ∧ ((ty ≠ .safe ∨ (maps ≠ [] ∧ E ≠ [])) ∨ names ≠ [])) ∨
      ∃ a R te known' a0, adProgramFacets hardware fuel files args = some (.ok a) ∧ prettyPrintMatrix E names "=".toList = .ok te ∧
        a.names = names ∧ a.matrix = V ∧ a.head = (if E ≠ [] then "Equations:\n".toList ++ te ++ ['\n'] else []) ++
          (if maps' ≠ [] then "Reduced ".toList else []) ++ "Inequalities:\n".toList ∧
        known' <+: known ∧ (∀ fuel ≥ N, adStartFacets fuel V maps known' = some (.ok a0)) ∧
        ADCore (selectArith ty) R (ty = .safe) (ty ≠ .safe ∨ (maps ≠ [] ∧ E ≠ [])) a a0 .facet (ADGood (n + 1) V E maps' .facet) := by
  obtain ⟨F0, RR, TT, -, hsp, hel, -, -, -, hacts, -, -⟩ := hin.core
  have hVr := (IsVInput.rect hin.input).1
  obtain ⟨R, L, hF⟩ := typing_selected hty (maps ≠ [] ∧ E ≠ [])
  have hofV : Sim (ty = .safe) (ty ≠ .safe ∨ (maps ≠ [] ∧ E ≠ [])) (MatR R) (Typed.traverse (Typed.traverse (selectArith ty).ofInt) V) (.ok V) :=
    traverse_cast L.ofInt hV
  have hofK : Sim (ty = .safe) (ty ≠ .safe ∨ (maps ≠ [] ∧ E ≠ [])) (MatR R) (Typed.traverse (Typed.traverse (selectArith ty).ofInt) known) (.ok known) :=
    traverse_cast L.ofInt hK
  -- the exact initialisation with the first of the known rows
  obtain ⟨M, hex⟩ : ∃ M, ∀ known', known' <+: known → ∃ a, ∀ fuel ≥ M, initializePool fuel V E maps' known' .facet = some (.ok a) := by
    have each : ∀ known', known' <+: known → ∃ N a, ∀ fuel ≥ N, initializePool fuel V E maps' known' .facet = some (.ok a) := by
      intro known' hp
      obtain ⟨F1, -, -, a, -, -, h, -⟩ := (hin.prefix hp).core
      refine ⟨F1.length, a, fun fuel hf => ?_⟩
      have := h fuel hf
      unfold adStartFacets at this
      rw [hin.reduced] at this
      exact this
    have upto : ∀ k, ∃ M, ∀ i ≤ k, ∃ a, ∀ fuel ≥ M, initializePool fuel V E maps' (known.take i) .facet = some (.ok a) := by
      intro k
      induction k with
      | zero =>
        obtain ⟨N, a, h⟩ := each (known.take 0) (List.take_prefix _ _)
        exact ⟨N, fun i hi => by obtain rfl : i = 0 := by omega
                                 exact ⟨a, h⟩⟩
      | succ k ih =>
        obtain ⟨M, hM⟩ := ih
        obtain ⟨N, a, h⟩ := each (known.take (k + 1)) (List.take_prefix _ _)
        refine ⟨max M N, fun i hi => ?_⟩
        rcases Nat.lt_or_ge k i with h' | h'
        · obtain rfl : i = k + 1 := by omega
          exact ⟨a, fun fuel hf => h fuel (le_trans (le_max_right _ _) hf)⟩
        · obtain ⟨a', h2⟩ := hM i h'
          exact ⟨a', fun fuel hf => h2 fuel (le_trans (le_max_left _ _) hf)⟩
    obtain ⟨M, hM⟩ := upto known.length
    refine ⟨M, fun known' hp => ?_⟩
    rw [List.prefix_iff_eq_take.1 hp]
    exact hM _ hp.length_le
  have hun : ∀ fuel ≥ max N1 M, ∀ x, (Run.bind (.lift (Typed.traverse (Typed.traverse (selectArith ty).ofInt) V)) fun matrix =>
      Run.bind (.lift (Typed.traverse (Typed.traverse (selectArith ty).ofInt) known)) fun known =>
      Run.bind (.lift (Typed.reduceFacet (selectArith ty) matrix maps)) fun p =>
      Run.bind (.lift (Typed.traverse (Typed.traverse (selectArith ty).toInt) p.1)) fun equations =>
      Run.bind (.lift (prettyPrintMatrix equations names "=".toList)) fun te =>
      Run.bind (Typed.initialRows (selectArith ty) fuel matrix p.2 known p.1 .facet) fun initial =>
      match Typed.knownRows (selectArith ty) fuel p.1 p.2 .facet known with
      | none => none
      | some k => some (.ok
          ({ matrix := matrix, names := names, tag := .facet, threads := T.toNat
             head := (if p.1 ≠ [] then "Equations:\n".toList ++ te ++ ['\n'] else []) ++ (if p.2 ≠ [] then "Reduced ".toList else []) ++
               "Inequalities:\n".toList
             maps := p.2, initial := initial, known := k.1, knownEnd := k.2, dangling := false } : ADProgram))) = x → adProgramFacets hardware fuel files args = x := by
    intro fuel hf x hx
    rw [← hx]
    unfold adProgramFacets
    rw [h1]
    simp only [Run.lift, Run.bind]
    rw [h2 fuel (le_trans (le_max_left _ _) hf)]
    simp only [h3]
    rfl
  have fin : ∀ x, (∀ fuel ≥ max N1 M, adProgramFacets hardware fuel files args = x) →
      ∀ fuel ≥ max N1 M, adProgramFacets hardware fuel files args = adProgramFacets hardware (max N1 M) files args :=
    fun x h fuel hf => by rw [h fuel hf, h _ le_rfl]
  suffices hs : (ty = .safe ∧ ∀ fuel ≥ max N1 M, adProgramFacets hardware fuel files args = some .thrown) ∨
      (((ty ≠ .safe ∨ (maps ≠ [] ∧ E ≠ [])) ∨ names ≠ []) ∧ ∀ fuel ≥ max N1 M, adProgramFacets hardware fuel files args = some .ub) ∨
      ∃ a R te known' a0, (∀ fuel ≥ max N1 M, adProgramFacets hardware fuel files args = some (.ok a)) ∧
        prettyPrintMatrix E names "=".toList = .ok te ∧
        a.names = names ∧ a.matrix = V ∧ a.head = (if E ≠ [] then "Equations:\n".toList ++ te ++ ['\n'] else []) ++
          (if maps' ≠ [] then "Reduced ".toList else []) ++ "Inequalities:\n".toList ∧
        known' <+: known ∧ (∀ fuel ≥ max N1 M, adStartFacets fuel V maps known' = some (.ok a0)) ∧
        ADCore (selectArith ty) R (ty = .safe) (ty ≠ .safe ∨ (maps ≠ [] ∧ E ≠ [])) a a0 .facet (ADGood (n + 1) V E maps' .facet) by
    refine ⟨max N1 M, ?_⟩
    rcases hs with ⟨ht, h⟩ | ⟨hu, h⟩ | ⟨a, R, te, known', a0, h, h'⟩
    · exact ⟨fin _ h, fun fuel hf => Or.inl ⟨h fuel hf, ht⟩⟩
    · exact ⟨fin _ h, fun fuel hf => Or.inr (Or.inl ⟨h fuel hf, hu⟩)⟩
    · exact ⟨fin _ h, fun fuel hf => Or.inr (Or.inr ⟨a, R, te, known', a0, h fuel hf, h'⟩)⟩
  rcases hofV with ⟨e1, r1⟩ | ⟨ht, e1⟩ | ⟨hu, e1⟩
  case inr.inl => exact Or.inl ⟨ht, fun fuel hf => hun fuel hf _ (by rw [e1]; rfl)⟩
  case inr.inr => exact Or.inr (Or.inl ⟨(Or.inl hu), fun fuel hf => hun fuel hf _ (by rw [e1]; rfl)⟩)
  have r1 := r1 V rfl
  rcases hofK with ⟨k1, s1⟩ | ⟨ht, k1⟩ | ⟨hu, k1⟩
  case inr.inl => exact Or.inl ⟨ht, fun fuel hf => hun fuel hf _ (by rw [e1, k1]; rfl)⟩
  case inr.inr => exact Or.inr (Or.inl ⟨(Or.inl hu), fun fuel hf => hun fuel hf _ (by rw [e1, k1]; rfl)⟩)
  have s1 := s1 known rfl
  have hred := reduceFacet_sim L.law (S := Spec.IsInt) r1 hin.equations (maps := maps) (fun h3 h4 => hF ⟨h3, h4⟩) hmaps
  rw [hin.reduced] at hred
  rcases hred with ⟨e2, r2⟩ | ⟨ht, e2⟩ | ⟨hu, e2⟩
  case inr.inl => exact Or.inl ⟨ht, fun fuel hf => hun fuel hf _ (by rw [e1, k1]; simp only [Run.lift, Run.bind, e2])⟩
  case inr.inr => exact Or.inr (Or.inl ⟨(Or.inl hu), fun fuel hf => hun fuel hf _ (by rw [e1, k1]; simp only [Run.lift, Run.bind, e2])⟩)
  have r2 := r2 _ rfl
  dsimp only at r2
  rcases traverse_cast L.toInt r2.1 with ⟨e3, -⟩ | ⟨ht, e3⟩ | ⟨hu, e3⟩
  case inr.inl => exact Or.inl ⟨ht, fun fuel hf => hun fuel hf _ (by rw [e1, k1]; simp only [Run.lift, Run.bind, e2, e3])⟩
  case inr.inr => exact Or.inr (Or.inl ⟨(Or.inl hu), fun fuel hf => hun fuel hf _ (by rw [e1, k1]; simp only [Run.lift, Run.bind, e2, e3])⟩)
  rcases prettyPrintMatrix_cases E names "=".toList with ⟨te, e4⟩ | ⟨hn, e4⟩
  case inr => exact Or.inr (Or.inl ⟨(Or.inr hn), fun fuel hf => hun fuel hf _ (by rw [e1, k1]; simp only [Run.lift, Run.bind, e2, e3, e4])⟩)
  rcases pool_cases L (tag := .facet) r1 r2.1 r2.2 s1 hex with ⟨ht, p1⟩ | ⟨hu, p1⟩ | ⟨known', a0, e, p1, p2, p3, p4, p5, p6, p7⟩
  · refine Or.inl ⟨ht, fun fuel hf => hun fuel hf _ ?_⟩
    rw [e1, k1]; simp only [Run.lift, Run.bind, e2, e3, e4, p1 fuel (le_trans (le_max_right _ _) hf)]
  · refine Or.inr (Or.inl ⟨Or.inl hu, fun fuel hf => hun fuel hf _ ?_⟩)
    rw [e1, k1]; simp only [Run.lift, Run.bind, e2, e3, e4, p1 fuel (le_trans (le_max_right _ _) hf)]
  · have hp : ∀ fuel ≥ max N1 M, adProgramFacets hardware fuel files args = some (.ok
          ({ matrix := V, names := names, tag := .facet, threads := T.toNat
             head := (if E ≠ [] then "Equations:\n".toList ++ te ++ ['\n'] else []) ++ (if maps' ≠ [] then "Reduced ".toList else []) ++
               "Inequalities:\n".toList
             maps := maps', initial := a0.initial, known := a0.known, knownEnd := e, dangling := false } : ADProgram)) := by
      intro fuel hf
      refine hun fuel hf _ ?_
      rw [e1, k1]
      simp only [Run.lift, Run.bind, e2, e3, e4, p3 fuel (le_trans (le_max_right _ _) hf), p4 fuel (le_trans (le_max_right _ _) hf)]
    have hstart : ∀ fuel ≥ max N1 M, adStartFacets fuel V maps known' = some (.ok a0) := by
      intro fuel hf
      simp only [adStartFacets, hin.reduced, Run.bind, p2 fuel (le_trans (le_max_right _ _) hf)]
    refine Or.inr (Or.inr ⟨_, R, te, known', a0, hp, e4, rfl, rfl, rfl, p1, hstart, ?_⟩)
    obtain ⟨F1, -, -, a1, hsp1, hel1, g1, g2, g3, hacts1, -, g4, g5, g6, -⟩ := (hin.prefix p1).core
    obtain rfl : a1 = a0 := by
      have e1 := g1 (max F1.length (max N1 M)) (le_max_left _ _)
      rw [hstart _ (le_max_right _ _)] at e1
      simpa using e1.symm
    exact
      { typing := L, tag := rfl, maps := g3.symm, mapsR := r2.2, matrix := r1, initial := rfl, known := rfl, knownR := p7, knownEnd := p5, dangling := by simp
        loud := by
          intro r hr
          by_cases ht : ty = .safe
          · have hne : known ≠ [] := by
              rintro rfl
              have h0 : known' = [] := List.prefix_nil.1 p1
              have h5 := (initializePool_ok (p2 M le_rfl)).2.1
              rw [h0] at h5
              simp only [knownRows, Option.some.injEq, Outcome.ok.injEq] at h5
              rw [show a1.known = [] from h5.symm] at hr
              simp at hr
            obtain ⟨hE, hmp⟩ := hloud hne ht
            have hmp' : maps' = [] := by
              have := hin.reduced
              unfold reduceFacet at this
              rw [hin.equations, hE] at this
              simp only [Outcome.bind, if_true, Outcome.ok.injEq, Prod.mk.injEq] at this
              rw [← this.2, hmp]
            have h5 := (initializePool_ok (p2 M le_rfl)).2.1
            rw [hE, hmp'] at h5
            subst ht
            exact safe_loud (knownRows_int (fun x hx => hK x (p1.subset hx)) h5 r hr)
          · exact unchecked_loud L ht (p7 r hr)
        threads := by simpa using hT
        initialR := p6
        safe := adSafe hsp hVr hel hacts hin.rank g3 g4 g5 _
        total := adTotal hsp hVr hel hacts hin.rank g3 _
        finite := adFinite hel }

/-- without known rows -/
theorem adProgramFacets_cases {hardware : Nat} {files : Files} {args : List Arg} {ty : IntegerType} {V E : Matrix} {names : Names} {T : Int}
    {maps maps' : Maps} {n N1 : Nat}
    (h1 : integerType args = .ok ty) (hty : ty = .safe ∨ ty = .default ∨ ty = .fixed32)
    (h2 : ∀ fuel ≥ N1, inputVertices fuel files args = some (.ok (V, names, maps, []))) (hV : IntMatrix V)
    (h3 : numberOfThreads hardware args = .ok T) (hT : 0 < T) (hin : ADInput n V E maps maps' [])
    (hmaps : IntMaps maps) :
    ∃ N a0, (∀ fuel ≥ N, adStartFacets fuel V maps [] = some (.ok a0)) ∧
      (∀ fuel ≥ N, adProgramFacets hardware fuel files args = adProgramFacets hardware N files args) ∧ ∀ fuel ≥ N,
      (adProgramFacets hardware fuel files args = some .thrown ∧ ty = .safe) ∨
      (adProgramFacets hardware fuel files args = some .ub ∧ ((ty ≠ .safe ∨ (maps ≠ [] ∧ E ≠ [])) ∨ names ≠ [])) ∨
      ∃ a R te, adProgramFacets hardware fuel files args = some (.ok a) ∧ prettyPrintMatrix E names "=".toList = .ok te ∧
        a.names = names ∧ a.matrix = V ∧ a.head = (if E ≠ [] then "Equations:\n".toList ++ te ++ ['\n'] else []) ++
          (if maps' ≠ [] then "Reduced ".toList else []) ++ "Inequalities:\n".toList ∧
        ADCore (selectArith ty) R (ty = .safe) (ty ≠ .safe ∨ (maps ≠ [] ∧ E ≠ [])) a a0 .facet (ADGood (n + 1) V E maps' .facet) := by
  obtain ⟨N, q0, q⟩ := adProgramFacets_known h1 hty h2 hV (by intro r hr; simp at hr) h3 hT hin hmaps (by simp)
  obtain ⟨F0, -, -, a0, -, -, g1, -⟩ := hin.core
  refine ⟨max N F0.length, a0, fun fuel hf => g1 fuel (le_trans (le_max_right _ _) hf),
    fun fuel hf => by rw [q0 fuel (le_trans (le_max_left _ _) hf), q0 (max N F0.length) (le_max_left _ _)], fun fuel hf => ?_⟩
  rcases q fuel (le_trans (le_max_left _ _) hf) with h | h | ⟨a, R, te, known', a1, q1, q2, q3, q4, q5, q6, q7, q8⟩
  · exact Or.inl h
  · exact Or.inr (Or.inl h)
  · obtain rfl : known' = [] := List.prefix_nil.1 q6
    obtain rfl : a1 = a0 := by
      have e1 := q7 fuel (le_trans (le_max_left _ _) hf)
      rw [g1 fuel (le_trans (le_max_right _ _) hf)] at e1
      simpa using e1.symm
    exact Or.inr (Or.inr ⟨a, R, te, q1, q2, q3, q4, q5, q8⟩)

/-! ## the hull -/

theorem hom_mem_span {n : Nat} {V : Matrix} (hlast : ∀ v ∈ V, 0 ≤ v.getD n 0) {p : Fin n → ℚ} (hp : Spec.InPolyhedron n V p) :
    hom n p ∈ Spec.span (n + 1) V := by
  obtain ⟨c, -, h⟩ := (inPolyhedron_iff hlast p).1 hp
  rw [h]
  exact Submodule.sum_mem _ fun j _ => Submodule.smul_mem _ _ (Submodule.subset_span ⟨_, List.getElem_mem _, rfl⟩)

theorem rank_of_plane {n : Nat} {V : Matrix} (hlast : ∀ v ∈ V, 0 ≤ v.getD n 0) (h : Spec.Plane (Spec.InPolyhedron n V)) :
    3 ≤ Spec.rank (n + 1) V := by
  obtain ⟨p, q, r, hp, hq, hr, hind⟩ := h
  have hli : LinearIndependent ℚ (fun i : Fin 3 => (![⟨hom n p, hom_mem_span hlast hp⟩, ⟨hom n q, hom_mem_span hlast hq⟩,
      ⟨hom n r, hom_mem_span hlast hr⟩] i : Spec.span (n + 1) V)) := by
    rw [Fintype.linearIndependent_iff]
    intro g hg
    have hg' := congrArg Subtype.val hg
    simp only [Fin.sum_univ_three, Matrix.cons_val_zero, Matrix.cons_val_one, Matrix.cons_val_two, Matrix.head_cons, Matrix.tail_cons,
      Submodule.coe_add, Submodule.coe_smul, Submodule.coe_zero] at hg'
    have h0 := congrFun hg' (Fin.last n)
    simp only [Pi.add_apply, Pi.smul_apply, hom_last, smul_eq_mul, mul_one, Pi.zero_apply] at h0
    have h1 : g 1 • (q - p) + g 2 • (r - p) = 0 := by
      funext i
      have := congrFun hg' i.castSucc
      simp only [Pi.add_apply, Pi.smul_apply, hom_castSucc, smul_eq_mul, Pi.zero_apply, Pi.sub_apply] at this ⊢
      linear_combination this - p i * h0
    obtain ⟨h2, h3⟩ := hind _ _ h1
    intro i
    fin_cases i
    · show g 0 = 0
      rw [h2, h3] at h0; simpa using h0
    · exact h2
    · exact h3
  have := hli.fintype_card_le_finrank
  rw [Fintype.card_fin] at this
  exact this

/-! ## C62 -/

theorem holds_trivial {names : Names} (hn : names = [] ∨ Spec.AdmissibleNames names) {n : Nat} (hl : names ≠ [] → names.length = n)
    (p : Fin n → ℚ) : (constraintOf false names (List.replicate n 0 ++ [-1])).HoldsAt false names p := by
  refine (constraintOf_holds (equation := false) hn hl (by simp) p).2 ?_
  rw [value_trivial]; norm_num

/-- what is known about the run before and after the threads start, with known facets -/
theorem ad_setup {hardware : Nat} {args : List Arg} {files : Files} {n N1 : Nat} {V known : Matrix} {names : Names} {S : (Fin n → ℚ) → Prop}
    (hi : Spec.UsesChecked args ∨ Spec.UsesInt args) (ht : Spec.ThreadsOk args)
    (hI : Spec.IsVInput n V) (hint : IntMatrix V) (hS : ∀ p, Spec.InPolyhedron n V p ↔ S p) (hK : IntMatrix known)
    (hfacet : ∀ k ∈ known, Spec.IsFacet (n + 1) V k) (hloud : known ≠ [] → Spec.UsesChecked args → extractEquations V = .ok [])
    (h7 : ∀ fuel ≥ N1, inputVertices fuel files args = some (.ok (V, names, [], known)))
    (hplane : Spec.Plane S) (hline : ¬ Spec.Line S) :
    ∃ (ty : IntegerType) (E F : Matrix) (N : Nat), integerType args = .ok ty ∧ (Spec.UsesChecked args ↔ ty = .safe) ∧
      (∀ e ∈ E, e.length = n + 1) ∧ (∀ a ∈ F, a.length = n + 1) ∧
      (∀ p, S p ↔ Spec.Satisfies n E F p) ∧
      (∀ a ∈ F, ∃ p : Fin n → ℚ, Spec.Satisfies n E (F.filter fun b => decide (b ≠ a)) p ∧ ¬ S p) ∧
      (∃ N2, ∀ fuel ≥ N2, facetEnumerationDD fuel V [] = some (.ok ⟨E, false, F⟩)) ∧
      (∀ fuel ≥ N, adProgram hardware files args true fuel = adProgram hardware files args true N) ∧
      ∀ fuel ≥ N,
        (adProgram hardware files args true fuel = some .thrown ∧ ty = .safe) ∨
        (adProgram hardware files args true fuel = some .ub ∧ (ty ≠ .safe ∨ names ≠ [])) ∨
        ∃ a R a0, adProgram hardware files args true fuel = some (.ok a) ∧ 
          ((∃ te, prettyPrintMatrix E names "=".toList = .ok te ∧
            a.names = names ∧ a.matrix = V ∧ a.head = (if E ≠ [] then "Equations:\n".toList ++ te ++ ['\n'] else []) ++
              "Inequalities:\n".toList) ∧
            ∀ (ι : Type) [DecidableEq ι] [Fintype ι] (remote : ι → Prop) (s : Pool ι), PoolReach (adConfig remote V .facet a0) s →
              (∃ i, s.pc i = .stopped) → ∀ r, (r ∈ s.printed ∧ r ≠ List.replicate n 0 ++ [-1]) ↔ r ∈ F) ∧
          ADCore (selectArith ty) R (ty = .safe) (ty ≠ .safe) a a0 .facet (ADGood (n + 1) V E [] .facet) := by
  have hIH : Spec.InPolyhedron n V = S := funext fun p => propext (hS p)
  have hrank : 3 ≤ Spec.rank (n + 1) V := rank_of_plane hI.last (by rw [hIH]; exact hplane)
  have hnl : ¬ Spec.ContainsLine n V := by unfold Spec.ContainsLine; rw [hIH]; exact hline
  obtain ⟨E, F, N2, g1, g2, g3, g4, g5, g6⟩ := facetDD_exact hI
  obtain ⟨ty, t1, t2, t3, t4⟩ := uses_type hi
  obtain ⟨T, hT, hT0⟩ := threadsOk (hardware := hardware) ht
  obtain ⟨E', hE'⟩ : ∃ E', extractEquations V = .ok E' := by
    obtain ⟨E', F0, e1, -⟩ := dd_ok hI
    exact ⟨E', e1⟩
  have hin : ADInput n V E' [] [] known := ADInput.of_no_maps hI (by omega) hE' hfacet
  obtain rfl : E' = E := by
    obtain ⟨a1, b, F', N3, -, k2, -, -⟩ := C19_same_as_dd_partial hin (Or.inr ⟨hrank, hnl⟩) ⟨[], rfl⟩
    have e1 := k2 (max N2 N3) (le_max_right _ _)
    rw [g1 (max N2 N3) (le_max_left _ _)] at e1
    simp only [Option.some.injEq, Outcome.ok.injEq, FacetOutput.mk.injEq] at e1
    exact e1.1.symm
  obtain ⟨N4, q0, q2⟩ := adProgramFacets_known (hardware := hardware) t1 t2 h7 hint hK hT hT0 hin (by intro m hm; simp at hm)
    (fun h1 h2 => ⟨by have := hloud h1 (t4 h2); rw [hE'] at this; simpa using this, rfl⟩)
  refine ⟨ty, E', F, N4, t1, ⟨t3, t4⟩, g2, g3, fun p => by rw [← hS p, g5 p], fun a ha => ?_, ⟨N2, g1⟩, q0, fun fuel hfuel => ?_⟩
  · rw [← hIH]; exact g6 a ha
  · have hu : (ty ≠ .safe ∨ (([] : Maps) ≠ [] ∧ E' ≠ [])) = (ty ≠ .safe) := by simp
    rcases q2 fuel hfuel with h | ⟨h, h'⟩ | ⟨a, R, te, known', a0, h, h1, h2, h3, h4, h5, h6, h8⟩
    · exact Or.inl h
    · exact Or.inr (Or.inl ⟨h, by rwa [hu] at h'⟩)
    · obtain ⟨a1, b, F', N3, k1, k2, -, k4⟩ := C19_same_as_dd_partial (hin.prefix h5) (Or.inr ⟨hrank, hnl⟩) ⟨[], rfl⟩
      obtain rfl : F' = F := by
        have e1 := k2 (max N2 N3) (le_max_right _ _)
        rw [g1 (max N2 N3) (le_max_left _ _)] at e1
        simp only [Option.some.injEq, Outcome.ok.injEq, FacetOutput.mk.injEq] at e1
        exact e1.2.2.symm
      obtain rfl : a1 = a0 := by
        have e1 := h6 (max N3 N4) (le_max_right _ _)
        rw [k1 (max N3 N4) (le_max_left _ _)] at e1
        simpa using e1
      refine Or.inr (Or.inr ⟨a, R, a1, h, ⟨⟨te, h1, h2, h3, ?_⟩, k4⟩, by rwa [hu] at h8⟩)
      rw [h4, if_neg (show ¬ (([] : Maps) ≠ []) from fun h => h rfl), List.append_nil]

/-- the rows of the finished run as text, equations and inequalities -/
theorem ad_printed {n : Nat} {names : Names} {S : (Fin n → ℚ) → Prop} {E F P : Matrix} {te ti out : List Char}
    (hn : names = [] ∨ Spec.AdmissibleNames names) (hl : names ≠ [] → names.length = n)
    (g2 : ∀ e ∈ E, e.length = n + 1) (g3 : ∀ a ∈ F, a.length = n + 1) (g5 : ∀ p, S p ↔ Spec.Satisfies n E F p)
    (g6 : ∀ a ∈ F, ∃ p : Fin n → ℚ, Spec.Satisfies n E (F.filter fun b => decide (b ≠ a)) p ∧ ¬ S p)
    (hpr : ∀ r, (r ∈ P ∧ r ≠ List.replicate n 0 ++ [-1]) ↔ r ∈ F) (hlen : ∀ r ∈ P, r.length = n + 1) (hnodup : P.Nodup)
    (e1 : prettyPrintMatrix E names "=".toList = .ok te) (h2 : prettyPrintMatrix P names "<=".toList = .ok ti)
    (hout : out = ((if E ≠ [] then "Equations:\n".toList ++ te ++ ['\n'] else []) ++ "Inequalities:\n".toList) ++ ti) :
    Spec.PrintedSystem names out (E.map (constraintOf true names)) (P.map (constraintOf false names)) ∧
      (P.map (constraintOf false names)).Nodup ∧
      (∀ p : Fin n → ℚ, S p ↔ (∀ a ∈ E.map (constraintOf true names), a.HoldsAt true names p) ∧
        ∀ a ∈ P.map (constraintOf false names), a.HoldsAt false names p) ∧
      ∀ a ∈ P.map (constraintOf false names), a ≠ constraintOf false names (List.replicate n 0 ++ [-1]) → ∃ p : Fin n → ℚ,
        (∀ b ∈ E.map (constraintOf true names), b.HoldsAt true names p) ∧
        (∀ b ∈ P.map (constraintOf false names), b ≠ a → b.HoldsAt false names p) ∧ ¬ a.HoldsAt false names p := by
  refine ⟨?_, ?_, ?_, ?_⟩
  · refine ⟨te, ti, prettyPrintMatrix_printed (equation := true) hn (fun r hr h0 => by have := g2 r hr; rw [h0] at this; simp at this) e1,
      prettyPrintMatrix_printed (equation := false) hn (fun r hr h0 => by have := hlen r hr; rw [h0] at this; simp at this) h2, ?_⟩
    rw [hout]
    by_cases h0 : E = [] <;> simp [h0]
  · exact List.Nodup.map_on (fun x hx y hy e => constraintOf_injective hn hl (hlen x hx) (hlen y hy) e) hnodup
  · intro p
    rw [g5 p]
    unfold Spec.Satisfies
    simp only [List.mem_map, forall_exists_index, and_imp, forall_apply_eq_imp_iff₂]
    constructor
    · rintro ⟨k1, k2⟩
      refine ⟨fun e he => (constraintOf_holds (equation := true) hn hl (g2 e he) p).2 (k1 e he), fun r hr => ?_⟩
      by_cases h0 : r = List.replicate n 0 ++ [-1]
      · rw [h0]; exact holds_trivial hn hl p
      · exact (constraintOf_holds (equation := false) hn hl (hlen r hr) p).2 (k2 r ((hpr r).1 ⟨hr, h0⟩))
    · rintro ⟨k1, k2⟩
      exact ⟨fun e he => (constraintOf_holds (equation := true) hn hl (g2 e he) p).1 (k1 e he),
        fun r hr => (constraintOf_holds (equation := false) hn hl (g3 r hr) p).1 (k2 r ((hpr r).2 hr).1)⟩
  · intro a ha hat
    obtain ⟨a, haP, rfl⟩ := List.mem_map.1 ha
    have haF := (hpr a).1 ⟨haP, fun h0 => hat (by rw [h0])⟩
    obtain ⟨p, ⟨k1, k2⟩, k3⟩ := g6 a haF
    refine ⟨p, ?_, ?_, ?_⟩
    · intro b hb
      obtain ⟨b, hbE, rfl⟩ := List.mem_map.1 hb
      exact (constraintOf_holds (equation := true) hn hl (g2 b hbE) p).2 (k1 b hbE)
    · intro b hb hba
      obtain ⟨b, hbP, rfl⟩ := List.mem_map.1 hb
      by_cases h0 : b = List.replicate n 0 ++ [-1]
      · rw [h0]; exact holds_trivial hn hl p
      · have hbF := (hpr b).1 ⟨hbP, h0⟩
        refine (constraintOf_holds (equation := false) hn hl (g3 b hbF) p).2 (k2 b ?_)
        rw [List.mem_filter]
        exact ⟨hbF, by simpa using fun e : b = a => hba (by rw [e])⟩
    · intro k4
      have k4 := (constraintOf_holds (equation := false) hn hl (g3 a haF) p).1 k4
      refine k3 ((g5 p).2 ⟨k1, fun b hb => ?_⟩)
      by_cases e : b = a
      · rw [e]; exact k4
      · exact k2 b (List.mem_filter.2 ⟨hb, by simpa using e⟩)

/-- facet enumeration with adjacency decomposition, once the input is read -/
theorem ad_facets_general {hardware : Nat} {help : Option ProgramResult} {args : List Arg} {files : Files} {n N1 : Nat} {V known : Matrix}
    {names : Names} {S : (Fin n → ℚ) → Prop} (e0 : ∀ ad fuel, program ad help fuel files args = ad true)
    (hi : Spec.UsesChecked args ∨ Spec.UsesInt args) (ht : Spec.ThreadsOk args)
    (hI : Spec.IsVInput n V) (hint : IntMatrix V) (hS : ∀ p, Spec.InPolyhedron n V p ↔ S p) (hK : IntMatrix known)
    (hfacet : ∀ k ∈ known, Spec.IsFacet (n + 1) V k) (hloud : known ≠ [] → Spec.UsesChecked args → extractEquations V = .ok [])
    (h7 : ∀ fuel ≥ N1, inputVertices fuel files args = some (.ok (V, names, [], known)))
    (hn : names = [] ∨ Spec.AdmissibleNames names) (hl : names ≠ [] → names.length = n)
    (hplane : Spec.Plane S) (hline : ¬ Spec.Line S) :
    (∃ r, ProgramEnds hardware help files args r) ∧ ∃ E F : Matrix, (∃ N2, ∀ fuel ≥ N2, facetEnumerationDD fuel V [] = some (.ok ⟨E, false, F⟩)) ∧
      ∀ r, ProgramEnds hardware help files args r →
      (r = .failed ∧ Spec.UsesChecked args) ∨ (r = .undefined ∧ (¬ Spec.UsesChecked args ∨ names ≠ [])) ∨
        ∃ (out : List Char) (P : Matrix), r = .finished 0 out ∧
          (∀ r, (r ∈ P ∧ r ≠ List.replicate n 0 ++ [-1]) ↔ r ∈ F) ∧ 
          Spec.PrintedSystem names out (E.map (constraintOf true names)) (P.map (constraintOf false names)) ∧
          (P.map (constraintOf false names)).Nodup ∧
          (∀ p : Fin n → ℚ, S p ↔ (∀ a ∈ E.map (constraintOf true names), a.HoldsAt true names p) ∧
            ∀ a ∈ P.map (constraintOf false names), a.HoldsAt false names p) ∧
          ∀ a ∈ P.map (constraintOf false names), a ≠ constraintOf false names (List.replicate n 0 ++ [-1]) → ∃ p : Fin n → ℚ,
            (∀ b ∈ E.map (constraintOf true names), b.HoldsAt true names p) ∧
            (∀ b ∈ P.map (constraintOf false names), b ≠ a → b.HoldsAt false names p) ∧ ¬ a.HoldsAt false names p := by
  obtain ⟨ty, E, F, N, t1, t2, g2, g3, g5, g6, g7, q0, q⟩ := ad_setup (hardware := hardware) hi ht hI hint hS hK hfacet hloud h7 hplane hline
  obtain ⟨f1, f2⟩ := ad_ends e0 t1 q0 q
  refine ⟨f1, E, F, g7, fun r hr => ?_⟩
  rcases f2 r hr with ⟨rfl, h1⟩ | ⟨rfl, h1⟩ | ⟨a, a0, R', out, s, ti, rfl, ⟨⟨te, a0', a1, a2, a3⟩, k4⟩, hcore, hreach, hfin, h2, h3⟩
  · exact Or.inl ⟨rfl, t2.2 h1⟩
  · refine Or.inr (Or.inl ⟨rfl, ?_⟩)
    rcases h1 with (h1 | h1) | h1 | ⟨a, a0, ⟨⟨-, -, h1, -⟩, -⟩, -, h2⟩
    · exact Or.inl fun h0 => h1 (t2.1 h0)
    · exact Or.inr h1
    · exact Or.inl fun h0 => h1 (t2.1 h0)
    · exact Or.inr (h1 ▸ h2)
  · rw [a1] at h2
    have hpr := fun r => k4 _ _ _ (by rw [← a2, ← hcore.tag]; exact hcore.reach hreach) ⟨⟨0, hcore.threads⟩, hfin.2.2 _⟩ r
    have hlen : ∀ r ∈ s.printed, r.length = n + 1 := fun r hr => (hcore.printedR hreach hr).1.1.1
    exact Or.inr (Or.inr ⟨out, s.printed, rfl, hpr,
      ad_printed hn hl g2 g3 g5 g6 hpr hlen (C26_once hcore.typedSafe hreach).1 a0' h2 (by rw [h3, a3])⟩)

/-- **C62** Running the facet enumeration with adjacency decomposition (the default method, with any number of threads, with
checked or 32-bit integers) on a file of the documented format with points and rays, without maps, whose hull contains three
points that are not on a line, but no line: whatever the threads do, if the program finishes, it prints equations and
inequalities that describe exactly the hull.  No inequality is printed twice; each is irredundant, apart from at most one which
holds everywhere.  Other ends are the reported overflow of checked integers and undefined behaviour, the latter only with
unchecked integers or with names of variables. -/
theorem C62_facets {hardware : Nat} {help : Option ProgramResult} {args : List Arg} {f text : List Char}
    {files : Files} {order : InputOrder} {c : Spec.VertexContent} {n : Nat}
    (ha : Spec.PlainCommand args f) (hf : files f = some text) (ho : getInputOrder args = .ok order)
    (hd : Spec.UsesAD args) (hi : Spec.UsesChecked args ∨ Spec.UsesInt args) (ht : Spec.ThreadsOk args) (hh : Spec.NoHelp args)
    (hw : ¬ Spec.HasWordLine Spec.inequalityWords text)
    (h20 : Spec.EarlyHeader 20 text) (h : Spec.VertexFile {} text c) (hc : c.Consistent n) (hp : c.points ≠ []) (hm : c.maps = [])
    (hn : c.names = [] ∨ Spec.AdmissibleNames c.names)
    (hplane : Spec.Plane (Spec.InHull n c.points c.rays)) (hline : ¬ Spec.Line (Spec.InHull n c.points c.rays)) :
    (∃ r, ProgramEnds hardware help files args r) ∧ ∀ r, ProgramEnds hardware help files args r →
      (r = .failed ∧ Spec.UsesChecked args) ∨ (r = .undefined ∧ (¬ Spec.UsesChecked args ∨ c.names ≠ [])) ∨
        ∃ (out : List Char) (eqs ineqs : List Spec.Constraint), r = .finished 0 out ∧ Spec.PrintedSystem c.names out eqs ineqs ∧
          ineqs.Nodup ∧
          (∀ p : Fin n → ℚ, Spec.InHull n c.points c.rays p ↔
            (∀ a ∈ eqs, a.HoldsAt true c.names p) ∧ ∀ a ∈ ineqs, a.HoldsAt false c.names p) ∧
          ∃ always, (∀ p : Fin n → ℚ, always.HoldsAt false c.names p) ∧ ∀ a ∈ ineqs, a ≠ always → ∃ p : Fin n → ℚ,
            (∀ b ∈ eqs, b.HoldsAt true c.names p) ∧ (∀ b ∈ ineqs, b ≠ a → b.HoldsAt false c.names p) ∧ ¬ a.HoldsAt false c.names p := by
  obtain ⟨V, maps, h1, h2, h3, h4, -, h5, h6, N1, h7⟩ := C57_hull ha hf ho h20 h hc
  have hmaps : maps = [] := by rw [hm] at h1; exact List.forall₂_nil_left_iff.1 h1
  subst hmaps
  have hl : c.names ≠ [] → c.names.length = n := fun h0 => hc.2.2.2.1 (Or.inl h0)
  have e0 : ∀ ad fuel, program ad help fuel files args = ad true := by
    intro ad fuel
    unfold program
    rw [detect_facets ha.1 hf hh hw]
    simp only [enumeration, usesAD_method hd]
  obtain ⟨f1, E, F, -, f2⟩ := ad_facets_general (hardware := hardware) e0 hi ht (h6 hp) h3 h5 (by intro r hr; simp at hr) (by simp) (by simp) h7 hn hl hplane hline
  refine ⟨f1, fun r hr => ?_⟩
  rcases f2 r hr with h | h | ⟨out, P, rfl, -, p1, p2, p3, p4⟩
  · exact Or.inl h
  · exact Or.inr (Or.inl h)
  · exact Or.inr (Or.inr ⟨out, _, _, rfl, p1, p2, p3, _, fun p => holds_trivial hn hl p, p4⟩)

/-- **C62** (termination) In the situation of `C62_facets`: the threads start or the program ends before; the threads are never
stuck, and there is no infinite run, if `std::condition_variable` wakes no thread without reason. -/
theorem C62_terminates {hardware : Nat} {args : List Arg} {f text : List Char}
    {files : Files} {order : InputOrder} {c : Spec.VertexContent} {n : Nat}
    (ha : Spec.PlainCommand args f) (hf : files f = some text) (ho : getInputOrder args = .ok order)
    (hi : Spec.UsesChecked args ∨ Spec.UsesInt args) (ht : Spec.ThreadsOk args)
    (h20 : Spec.EarlyHeader 20 text) (h : Spec.VertexFile {} text c) (hc : c.Consistent n) (hp : c.points ≠ []) (hm : c.maps = [])
    (hplane : Spec.Plane (Spec.InHull n c.points c.rays)) (hline : ¬ Spec.Line (Spec.InHull n c.points c.rays)) :
    ∃ N, ∀ fuel ≥ N, adProgramFacets hardware fuel files args ≠ none ∧
      ∀ a ty, adProgramFacets hardware fuel files args = some (.ok a) → integerType args = .ok ty →
        (∀ s out, ADReach (selectArith ty) a (.running s out) → ¬ s.Finished → ∃ σ, ADStep (selectArith ty) a (.running s out) σ ∧
          ∀ s' out', σ = .running s' out' → Progress (adProgramConfig (selectArith ty) a) s s') ∧
        ∀ f : Nat → ADState (Fin a.threads), f 0 = ADState.init (selectArith ty) a → (∀ n, ADStep (selectArith ty) a (f n) (f (n + 1))) →
          ∃ n s s' out out', f n = .running s out ∧ f (n + 1) = .running s' out' ∧ Spurious s s' := by
  obtain ⟨V, maps, h1, h2, h3, h4, -, h5, h6, N1, h7⟩ := C57_hull ha hf ho h20 h hc
  have hmaps : maps = [] := by rw [hm] at h1; exact List.forall₂_nil_left_iff.1 h1
  subst hmaps
  obtain ⟨ty, E, F, N, t1, -, -, -, -, -, -, -, q⟩ := ad_setup (hardware := hardware) hi ht (h6 hp) h3 h5 (known := [])
    (by intro r hr; simp at hr) (by simp) (by simp) h7 hplane hline
  exact ⟨N, ad_terminates t1 q⟩

/-! ## an example: a triangle, two threads, the default method and integer type -/

def triangleText : List Char := "Vertices:\n0 0\n3 0\n1 2\n".toList

def triangleContent : Spec.VertexContent := { points := [[(0, 1), (0, 1)], [(3, 1), (0, 1)], [(1, 1), (2, 1)]] }

def triangleArgs : List Arg := ["-t".toList, "2".toList, "file".toList]

theorem triangleFile : Spec.VertexFile {} triangleText triangleContent := by
  obtain ⟨b0, b1⟩ := blanks_example
  have num : ∀ (c : Char) (z : Int), c ∈ ['0', '1', '2', '3'] → (z = (c.toNat : Int) - 48) → Spec.Fraction [c] z 1 := by
    intro c z hc hz
    refine Spec.Fraction.whole ?_
    have := Spec.Numeral.plain [c] (by simp) (by
      intro x hx
      rw [List.mem_singleton.1 hx]
      simp only [List.mem_cons, List.not_mem_nil, or_false] at hc
      rcases hc with rfl | rfl | rfl | rfl <;> unfold Spec.Digit <;> decide)
    simp only [List.mem_cons, List.not_mem_nil, or_false] at hc
    rcases hc with rfl | rfl | rfl | rfl <;> (subst hz; exact this)
  refine Spec.VertexFile.points (k := "Vertices:".toList) (t := "0 0\n3 0\n1 2\n".toList) (w := [])
    (vs := [[(0, 1), (0, 1)], [(3, 1), (0, 1)], [(1, 1), (2, 1)]]) (by decide +kernel) (header_example _ "Vertices:" (by decide +kernel))
    ⟨?_, ?_⟩ (Or.inl rfl) .nil
  · have line : ∀ (a b : Char) (x y : Int), a ∈ ['0', '1', '2', '3'] → b ∈ ['0', '1', '2', '3'] → x = (a.toNat : Int) - 48 → y = (b.toNat : Int) - 48 →
        Spec.Coordinates [a, ' ', b] [(x, 1), (y, 1)] := by
      intro a b x y ha hb hx hy
      exact Spec.Coordinates.cons (t := [a]) (b := " ".toList) (ts := [b]) (num a x ha hx) b1 (by decide)
        (Spec.Coordinates.last (t := [b]) (b := []) (num b y hb hy) b0)
    refine Spec.VertexLines.vertex (l := "0 0".toList) (t := "3 0\n1 2\n".toList) ⟨[], "0 0".toList, .none b0, line '0' '0' 0 0 (by decide) (by decide) rfl rfl, rfl⟩ ?_
    refine Spec.VertexLines.vertex (l := "3 0".toList) (t := "1 2\n".toList) ⟨[], "3 0".toList, .none b0, line '3' '0' 3 0 (by decide) (by decide) rfl rfl, rfl⟩ ?_
    exact Spec.VertexLines.vertex (l := "1 2".toList) (t := []) ⟨[], "1 2".toList, .none b0, line '1' '2' 1 2 (by decide) (by decide) rfl rfl, rfl⟩ .nil
  · intro cs hcs
    simp only [List.mem_cons, List.not_mem_nil, or_false] at hcs
    rcases hcs with rfl | rfl | rfl <;>
    · refine ⟨⟨?_, 1, ⟨by decide, by decide, fun m hm => by omega⟩, by unfold Spec.IsInt; decide, ?_⟩, by decide⟩ <;>
      · unfold Spec.IsInt; decide

theorem triangle_hull {p : Fin 2 → ℚ} (h : Spec.InHull 2 triangleContent.points triangleContent.rays p) : 0 ≤ p 0 ∧ p 0 ≤ 3 ∧ 0 ≤ p 1 ∧ p 1 ≤ 2 := by
  obtain ⟨a, b, ha, -, hsum, rfl⟩ := h
  obtain ⟨c, hc⟩ : ∃ c : Fin 3 → ℚ, c = a := ⟨a, rfl⟩
  have h0 : 0 ≤ c 0 := by rw [hc]; exact ha _
  have h1 : 0 ≤ c 1 := by rw [hc]; exact ha _
  have h2 : 0 ≤ c 2 := by rw [hc]; exact ha _
  have hs : c 0 + c 1 + c 2 = 1 := by rw [← Fin.sum_univ_three, hc]; exact hsum
  have e : ∀ i : Fin 2, (∑ j : Fin triangleContent.points.length, a j • Spec.point 2 triangleContent.points[j] +
      ∑ j : Fin triangleContent.rays.length, b j • Spec.point 2 triangleContent.rays[j]) i =
      c 0 * Spec.point 2 [(0, 1), (0, 1)] i + c 1 * Spec.point 2 [(3, 1), (0, 1)] i + c 2 * Spec.point 2 [(1, 1), (2, 1)] i := by
    intro i
    have e2 : (∑ j : Fin triangleContent.rays.length, b j • Spec.point 2 triangleContent.rays[j]) = 0 :=
      Finset.sum_eq_zero fun j _ => absurd j.2 (by simp [triangleContent])
    have e1 : (∑ j : Fin triangleContent.points.length, a j • Spec.point 2 triangleContent.points[j]) =
        c 0 • Spec.point 2 [(0, 1), (0, 1)] + c 1 • Spec.point 2 [(3, 1), (0, 1)] + c 2 • Spec.point 2 [(1, 1), (2, 1)] := by
      subst hc
      exact Fin.sum_univ_three (fun j : Fin 3 => c j • Spec.point 2 (triangleContent.points.get j))
    rw [e1, e2]
    simp
  rw [e, e]
  simp only [Spec.point, List.getD_cons_zero, List.getD_cons_succ, Fin.val_zero, Fin.val_one]
  norm_num
  refine ⟨by linarith, by linarith, by linarith, by linarith⟩

theorem triangle_point (i : Fin triangleContent.points.length) : Spec.InHull 2 triangleContent.points triangleContent.rays
    (Spec.point 2 (triangleContent.points.get i)) := by
  refine ⟨fun j => if j = i then 1 else 0, fun _ => 0, fun j => by dsimp only; split <;> norm_num, by simp, ?_, ?_⟩
  · rw [Finset.sum_ite_eq' Finset.univ i]; simp
  · simp

/-- the hypotheses of C62 can be met -/
theorem triangle_case : Spec.PlainCommand triangleArgs "file".toList ∧ getInputOrder triangleArgs = .ok .noSorting ∧ Spec.UsesAD triangleArgs ∧
    Spec.UsesInt triangleArgs ∧ Spec.ThreadsOk triangleArgs ∧ Spec.NoHelp triangleArgs ∧ ¬ Spec.HasWordLine Spec.inequalityWords triangleText ∧
    Spec.EarlyHeader 20 triangleText ∧ Spec.VertexFile {} triangleText triangleContent ∧ triangleContent.Consistent 2 ∧
    triangleContent.points ≠ [] ∧ triangleContent.maps = [] ∧ triangleContent.names = [] ∧
    Spec.Plane (Spec.InHull 2 triangleContent.points triangleContent.rays) ∧
    ¬ Spec.Line (Spec.InHull 2 triangleContent.points triangleContent.rays) := by
  refine ⟨?_, by decide +kernel, Or.inl ?_, Or.inl ?_, Or.inr ⟨"2".toList, 2, ?_, ?_, by decide, by decide⟩, ?_, ?_,
    containsKeywords_early.2 (by decide +kernel), triangleFile, ?_, by decide, rfl, rfl, ?_, ?_⟩
  · refine ⟨?_, by decide +kernel, by decide +kernel, ?_⟩
    · exact .short (a := "-t".toList) (p := "2".toList) (by decide +kernel) (by decide +kernel) (by decide +kernel) (by decide +kernel)
        (.file (by decide +kernel) (by decide +kernel) .nil)
    · intro a ha
      unfold Spec.LooksLike
      revert a
      decide +kernel
  · unfold Spec.Absent Spec.LooksLike; decide +kernel
  · unfold Spec.Absent Spec.LooksLike; decide +kernel
  · exact ⟨[], ["file".toList], by simp, Or.inl rfl⟩
  · exact ⟨[], "2".toList, [], by simp, Spec.Numeral.plain "2".toList (by decide) (by simp [Spec.Digit]), by simp, rfl⟩
  · unfold Spec.NoHelp Spec.ModeArgument Spec.HelpAbout Spec.HelpWord Spec.VersionWord; decide +kernel
  · rw [← hasInequalitiesKeyword_iff]; decide +kernel
  · refine ⟨Or.inl (by decide), ?_, ?_, fun h => ?_, ?_⟩ <;> simp [triangleContent] at *
  · refine ⟨_, _, _, triangle_point ⟨0, by decide⟩, triangle_point ⟨1, by decide⟩, triangle_point ⟨2, by decide⟩, fun a b h => ?_⟩
    have h0 := congrFun h 0
    have h1 := congrFun h 1
    simp [Spec.point, triangleContent] at h0 h1
    subst h1
    simpa using h0
  · rintro ⟨p, q, hq, h⟩
    apply hq
    funext i
    fin_cases i
    · exact slope_zero (u := p 0) (w := q 0) (b := 3) fun t => (triangle_hull (h t)).2.1
    · exact slope_zero (u := p 1) (w := q 1) (b := 2) fun t => (triangle_hull (h t)).2.2.2

/-- the program up to the start of the threads on that file -/
example : adProgramFacets 8 20 (fun _ => some triangleText) triangleArgs =
    some (.ok { matrix := [[0, 0, 1], [3, 0, 1], [1, 2, 1]], names := [], tag := .facet, threads := 2, head := "Inequalities:\n".toList
                maps := [], initial := [[-2, 1, 0], [0, -1, 0], [1, 1, -3]], known := [], knownEnd := .ok (), dangling := false }) := by decide +kernel

end Panda
