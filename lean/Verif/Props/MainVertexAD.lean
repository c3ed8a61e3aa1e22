import Verif.Props.MainAD
import Verif.Props.VertexAD
import Verif.Proofs.OneThread
import Verif.Proofs.Fuel

/-! # C65: vertex enumeration with adjacency decomposition, from the file to the printed answer -/

namespace Panda

open _root_.Relation

namespace Spec

/-- the output of vertex enumeration by adjacency decomposition: one line of integers for every vertex and every direction; the
last number of a line is the denominator of the coordinates, or 0 for a direction -/
def PrintedRows (text : List Char) (rows : List (List Int)) : Prop :=
  ∃ t, Lines RawLine t rows ∧ text = "Vertices / Rays:\n".toList ++ t

/-- the row represents a vertex or an extreme direction of the set, in lowest terms -/
def VertexRow {d : Nat} (S : (Fin d → ℚ) → Prop) (r : List Int) : Prop :=
  r.length = d + 1 ∧ PrimitiveRow r ∧
    ((0 < r.getD d 0 ∧ Vertex S (coord d r)) ∨ (r.getD d 0 = 0 ∧ ExtremeDirection S (coord d r)))

end Spec

/-- the program up to the start of the threads, without known rows -/
theorem adProgramVertices_cases {hardware : Nat} {files : Files} {args : List Arg} {ty : IntegerType} {A : Matrix} {names : Names} {T : Int}
    {maps : Maps} {d N1 : Nat}
    (h1 : integerType args = .ok ty) (hty : ty = .safe ∨ ty = .default ∨ ty = .fixed32)
    (h2 : ∀ fuel ≥ N1, inputInequalities fuel files args = some (.ok (A, names, maps, []))) (hI : IntMatrix A)
    (h3 : numberOfThreads hardware args = .ok T) (hT : 0 < T)
    (hA : ∀ a ∈ A, a.length = d + 1) (htriv : List.replicate d 0 ++ [-1] ∈ A)
    (hsat : ∃ p, Spec.Solves d A p) (hline : ¬ Spec.HasLine d A) (hd : 0 < d)
    (hmaps : ∀ m ∈ maps, Spec.IsSolutionSymmetry (d+1) A m) (hint : IntMaps maps) :
    ∃ N a0, (∀ fuel ≥ N, adStartVertices fuel A maps [] = some (.ok a0)) ∧
      (∀ fuel ≥ N, adProgram hardware files args false fuel = adProgram hardware files args false N) ∧ ∀ fuel ≥ N,
      (adProgram hardware files args false fuel = some .thrown ∧ ty = .safe) ∨
      (adProgram hardware files args false fuel = some .ub ∧ ty ≠ .safe) ∨
      ∃ a R, adProgram hardware files args false fuel = some (.ok a) ∧
        (a.names = names ∧ a.matrix = A ∧ a.head = (if maps ≠ [] then "Reduced ".toList else []) ++ "Vertices / Rays:\n".toList) ∧
        ADCore (selectArith ty) R (ty = .safe) (ty ≠ .safe) a a0 .vertex (ADGood (d + 1) A [] maps .vertex) := by
  obtain ⟨W, heq, hel, hnoE, hE, hlastW⟩ := ve_elim hA htriv hsat hline
  have hrect : Rect A A.length (d+1) := ⟨rfl, hA⟩
  have hm : 0 < A.length := List.length_pos_of_mem htriv
  have hsp := gaussSplit_spec hrect hm (Nat.succ_pos d)
  rw [hnoE] at hsp
  have hr : 2 ≤ Spec.rank (d+1) A := by rw [rank_of_no_annihilator hE]; omega
  have hnz := exists_nonzero_of_rank hA (lt_of_lt_of_le Nat.zero_lt_two hr)
  obtain ⟨hact, hacts⟩ := vertex_actsOn hmaps
  obtain ⟨a0, a1, a2, a3, a4, a5, a6, a7, a8⟩ := initializePool_good (known := []) hsp hnoE.symm hrect hel hacts hm hnz (by simp)
  obtain ⟨R, L, -⟩ := typing_selected hty False
  have hu : (ty ≠ .safe ∨ False) = (ty ≠ .safe) := by simp
  rw [hu] at L
  have hofV : Sim (ty = .safe) (ty ≠ .safe) (MatR R) (Typed.traverse (Typed.traverse (selectArith ty).ofInt) A) (.ok A) :=
    traverse_cast L.ofInt hI
  have hun : ∀ fuel ≥ max N1 W.length, ∀ x, (Run.bind (.lift (Typed.traverse (Typed.traverse (selectArith ty).ofInt) A)) fun matrix =>
      Run.bind (Typed.initialRows (selectArith ty) fuel matrix maps [] [] .vertex) fun initial =>
      match Typed.knownRows (selectArith ty) fuel [] maps .vertex [] with
      | none => none
      | some k => some (.ok
          ({ matrix := matrix, names := names, tag := .vertex, threads := T.toNat
             head := (if maps ≠ [] then "Reduced ".toList else []) ++ "Vertices / Rays:\n".toList
             maps := maps, initial := initial, known := k.1, knownEnd := k.2, dangling := false } : ADProgram))) = x →
      adProgram hardware files args false fuel = x := by
    intro fuel hf x hx
    rw [← hx]
    unfold adProgram
    rw [if_neg (by decide)]
    unfold adProgramVertices
    rw [h1]
    simp only [Run.lift, Run.bind]
    rw [h2 fuel (le_trans (le_max_left _ _) hf)]
    simp only [h3]
    rfl
  have fin : ∀ x, (∀ fuel ≥ max N1 W.length, adProgram hardware files args false fuel = x) →
      ∀ fuel ≥ max N1 W.length, adProgram hardware files args false fuel = adProgram hardware files args false (max N1 W.length) :=
    fun x h fuel hf => by rw [h fuel hf, h _ le_rfl]
  refine ⟨max N1 W.length, a0, fun fuel hf => a1 fuel (le_trans (le_max_right _ _) hf), ?_⟩
  suffices hs : (ty = .safe ∧ ∀ fuel ≥ max N1 W.length, adProgram hardware files args false fuel = some .thrown) ∨
      (ty ≠ .safe ∧ ∀ fuel ≥ max N1 W.length, adProgram hardware files args false fuel = some .ub) ∨
      ∃ a R, (∀ fuel ≥ max N1 W.length, adProgram hardware files args false fuel = some (.ok a)) ∧
        (a.names = names ∧ a.matrix = A ∧ a.head = (if maps ≠ [] then "Reduced ".toList else []) ++ "Vertices / Rays:\n".toList) ∧
        ADCore (selectArith ty) R (ty = .safe) (ty ≠ .safe) a a0 .vertex (ADGood (d + 1) A [] maps .vertex) by
    rcases hs with ⟨ht, h⟩ | ⟨hu, h⟩ | ⟨a, R, h, h'⟩
    · exact ⟨fin _ h, fun fuel hf => Or.inl ⟨h fuel hf, ht⟩⟩
    · exact ⟨fin _ h, fun fuel hf => Or.inr (Or.inl ⟨h fuel hf, hu⟩)⟩
    · exact ⟨fin _ h, fun fuel hf => Or.inr (Or.inr ⟨a, R, h fuel hf, h'⟩)⟩
  rcases hofV with ⟨e1, r1⟩ | ⟨ht, e1⟩ | ⟨hu, e1⟩
  case inr.inl => exact Or.inl ⟨ht, fun fuel hf => hun fuel hf _ (by rw [e1]; rfl)⟩
  case inr.inr => exact Or.inr (Or.inl ⟨hu, fun fuel hf => hun fuel hf _ (by rw [e1]; rfl)⟩)
  have r1 := r1 A rfl
  rcases pool_cases L (tag := .vertex) (F := W.length) (E := []) (known := []) r1 (by intro r hr; simp at hr) hint (by intro r hr; simp at hr)
    (fun known' hp => ⟨a0, fun fuel hf => by rw [List.prefix_nil.1 hp]; exact a1 fuel hf⟩)
    with ⟨ht, p1⟩ | ⟨hu, p1⟩ | ⟨known', a0', e, p1, p2, p3, p4, p5, p6, p7⟩
  · refine Or.inl ⟨ht, fun fuel hf => hun fuel hf _ ?_⟩
    rw [e1]; simp only [Run.lift, Run.bind, p1 fuel (le_trans (le_max_right _ _) hf)]
  · refine Or.inr (Or.inl ⟨hu, fun fuel hf => hun fuel hf _ ?_⟩)
    rw [e1]; simp only [Run.lift, Run.bind, p1 fuel (le_trans (le_max_right _ _) hf)]
  · obtain rfl : known' = [] := List.prefix_nil.1 p1
    obtain rfl : a0' = a0 := by
      have e1 := p2 _ le_rfl
      rw [a1 _ le_rfl] at e1
      simpa using e1.symm
    have hp : ∀ fuel ≥ max N1 W.length, adProgram hardware files args false fuel = some (.ok
          ({ matrix := A, names := names, tag := .vertex, threads := T.toNat
             head := (if maps ≠ [] then "Reduced ".toList else []) ++ "Vertices / Rays:\n".toList
             maps := maps, initial := a0'.initial, known := a0'.known, knownEnd := e, dangling := false } : ADProgram)) := by
      intro fuel hf
      refine hun fuel hf _ ?_
      rw [e1]
      simp only [Run.lift, Run.bind, p3 fuel (le_trans (le_max_right _ _) hf), p4 fuel (le_trans (le_max_right _ _) hf)]
    refine Or.inr (Or.inr ⟨_, R, hp, ⟨rfl, rfl, rfl⟩, ?_⟩)
    exact
      { typing := L, tag := rfl, maps := a3.symm, mapsR := hint, matrix := r1, initial := rfl, known := rfl, knownR := p7, knownEnd := p5,
        dangling := by simp
        loud := by
          intro r hr
          rw [show a0'.known = [] from a7 rfl] at hr
          simp at hr
        threads := by simpa using hT
        initialR := p6
        safe := adSafe hsp hrect hel hacts hr a3 a4 a5 _
        total := adTotal hsp hrect hel hacts hr a3 _
        finite := adFinite hel }

theorem printRows_printed : ∀ {m : Matrix}, (∀ r ∈ m, r ≠ []) → Spec.Lines Spec.RawLine (m.flatMap fun r => printRow r ++ ['\n']) m
  | [], _ => .nil
  | r :: m, h => by
    have e : ((r :: m).flatMap fun r => printRow r ++ ['\n']) = printRow r ++ '\n' :: (m.flatMap fun r => printRow r ++ ['\n']) := by simp
    rw [e]
    obtain ⟨b, s, n, xs, z, h1, h2, h3, h4, h5, h6⟩ := printRow_numbers r (h r (by simp))
    exact .line ⟨b, s, n, [], xs, z, .none h1, h3, h4, blanks_nil, by rw [h5]; simp, h6⟩ (fun hc => (printRow_chars r _ hc).1 rfl)
      (fun hc => (printRow_chars r _ (List.mem_of_mem_head? hc)).2 rfl) (printRows_printed fun r hr => h r (by simp [hr]))

/-- vertex enumeration with adjacency decomposition, once the input is read -/
theorem ad_vertices_general {hardware : Nat} {help : Option ProgramResult} {args : List Arg} {files : Files} {d N1 : Nat} {A : Matrix}
    {names : Names} (e0 : ∀ ad fuel, program ad help fuel files args = ad false)
    (hi : Spec.UsesChecked args ∨ Spec.UsesInt args) (ht : Spec.ThreadsOk args) (hI : IntMatrix A)
    (h7 : ∀ fuel ≥ N1, inputInequalities fuel files args = some (.ok (A, names, [], [])))
    (hA : ∀ a ∈ A, a.length = d + 1) (htriv : List.replicate d 0 ++ [-1] ∈ A)
    (hsat : ∃ p, Spec.Solves d A p) (hline : ¬ Spec.HasLine d A) (hd : 0 < d) :
    (∃ r, ProgramEnds hardware help files args r) ∧ ∀ r, ProgramEnds hardware help files args r →
      (r = .failed ∧ Spec.UsesChecked args) ∨ (r = .undefined ∧ ¬ Spec.UsesChecked args) ∨
        ∃ (out : List Char) (P : Matrix), r = .finished 0 out ∧ Spec.PrintedRows out P ∧ P.Nodup ∧
          (∀ r ∈ P, Spec.VertexRow (Spec.Solves d A) r) ∧
          (∃ (a0 : ADStart) (N k : Nat) (s : Pool (Fin k)), (∀ fuel ≥ N, adStartVertices fuel A [] [] = some (.ok a0)) ∧
            PoolReach (adConfig (fun _ => False) A .vertex a0) s ∧ P = s.printed) ∧
          ((∀ v, Spec.Vertex (Spec.Solves d A) v → ∀ t : ℚ, 0 < t → ¬ Spec.Edge (Spec.Solves d A) v (t • Spec.outward v)) →
            (∀ p, Spec.Vertex (Spec.Solves d A) p → ∃ r ∈ P, 0 < r.getD d 0 ∧ Spec.coord d r = p) ∧
            ∀ q, Spec.ExtremeDirection (Spec.Solves d A) q → ∃ r ∈ P, r.getD d 0 = 0 ∧ ∃ c : ℚ, 0 < c ∧ Spec.coord d r = c • q) := by
  obtain ⟨ty, t1, t2, t3, t4⟩ := uses_type hi
  obtain ⟨T, hT, hT0⟩ := threadsOk (hardware := hardware) ht
  obtain ⟨N, a0, b1, q0, q⟩ := adProgramVertices_cases (hardware := hardware) t1 t2 h7 hI hT hT0 hA htriv hsat hline hd (by simp)
    (by intro m hm; simp at hm)
  obtain ⟨f1, f2⟩ := ad_ends (Q := fun a a0' => (a.names = names ∧ a.matrix = A ∧ a.head = (if ([] : Maps) ≠ [] then "Reduced ".toList else []) ++
      "Vertices / Rays:\n".toList) ∧ a0' = a0) (w := ty ≠ .safe) e0 t1 q0 (fun fuel hf => by
    rcases q fuel hf with h | h | ⟨a, R, k1, k2, k3⟩
    · exact Or.inl h
    · exact Or.inr (Or.inl h)
    · exact Or.inr (Or.inr ⟨a, R, a0, k1, ⟨k2, rfl⟩, k3⟩))
  refine ⟨f1, fun r hr => ?_⟩
  rcases f2 r hr with ⟨rfl, h1⟩ | ⟨rfl, h1⟩ | ⟨a, a0', R', out, s, ti, rfl, ⟨⟨a1, a2, a3⟩, rfl⟩, hcore, hreach, hfin, h2, h3⟩
  · exact Or.inl ⟨rfl, t4 h1⟩
  · refine Or.inr (Or.inl ⟨rfl, fun h0 => ?_⟩)
    rcases h1 with h1 | h1 | ⟨-, -, -, h1, -⟩
    · exact h1 (t3 h0)
    · exact h1 (t3 h0)
    · cases h1
  · have hre : PoolReach (adConfig (fun _ : Fin a.threads => False) A .vertex a0') s := by rw [← a2, ← hcore.tag]; exact hcore.reach hreach
    have hstop : ∃ i, s.pc i = .stopped := ⟨⟨0, hcore.threads⟩, hfin.2.2 _⟩
    obtain ⟨W, -, -, -, hE, -⟩ := ve_elim hA htriv hsat hline
    have hrk : 2 ≤ Spec.rank (d+1) A := by rw [rank_of_no_annihilator hE]; omega
    obtain ⟨a', N', c1, c2⟩ := C20_sound_partial (known := []) hA htriv hsat hline hrk (maps := []) (by simp) (by simp)
    obtain rfl : a' = a0' := by
      have e1 := c1 (max N N') (le_max_right _ _)
      rw [b1 (max N N') (le_max_left _ _)] at e1
      simpa using e1.symm
    obtain ⟨g1, g2, -⟩ := (c2 _ (fun _ => False)).1 s hre
    refine Or.inr (Or.inr ⟨out, s.printed, rfl, ⟨_, printRows_printed (m := s.printed) ?_, ?_⟩, g1, ?_, ⟨_, N, _, s, b1, hre, rfl⟩, fun hedge => ?_⟩)
    · intro r hr h0
      have := (g2 r hr).1
      rw [h0] at this; simp at this
    · simp only [rowsText, Outcome.ok.injEq] at h2
      rw [h3, a3, ← h2]; rfl
    · intro r hr
      obtain ⟨l1, l2, l3, l4⟩ := g2 r hr
      exact ⟨l1, l3, kind_of_extreme l2 hA hsat hline l4⟩
    · obtain ⟨a'', P, R, N'', k1, -, k2⟩ := C20_vertices_partial (known := []) hA htriv hsat hline hd (by simp) hedge
      obtain rfl : a'' = a' := by
        have e1 := k1 (max N N'') (le_max_right _ _)
        rw [b1 (max N N'') (le_max_left _ _)] at e1
        simpa using e1.symm
      exact (k2 _ (fun _ => False) s hre hstop).2.2.2

/-- **C65** Running the vertex enumeration with adjacency decomposition (any number of threads, checked or 32-bit integers) on a
file of the documented format with inequalities and equations, without maps, whose solution set is not empty and contains no line:
whatever the threads do, if the program finishes, it prints one line for each of some vertices and extreme directions of the solution set,
in lowest terms, and none twice.  If moreover no edge of the solution set leads straight away from the origin (from the origin: in
direction of decreasing last coordinate), it prints them all.  Other ends are the reported overflow of checked integers, and
undefined behaviour with unchecked integers. -/
theorem C65_vertices {hardware : Nat} {help : Option ProgramResult} {args : List Arg} {f text : List Char}
    {files : Files} {order : InputOrder} {c : Spec.InequalityContent} {n : Nat}
    (ha : Spec.PlainCommand args f) (hf : files f = some text) (ho : getInputOrder args = .ok order)
    (hd : Spec.UsesAD args) (hi : Spec.UsesChecked args ∨ Spec.UsesInt args) (ht : Spec.ThreadsOk args) (hh : Spec.NoHelp args)
    (hw : Spec.HasWordLine Spec.inequalityWords text) (hw' : ¬ Spec.HasWordLine Spec.hullWords text)
    (h20 : Spec.EarlyHeader 20 text) (h : Spec.InequalityFile {} text c) (hc : c.Consistent n) (hn : 0 < n) (hm : c.maps = [])
    (hsat : ∃ p : Fin n → ℚ, c.Solution p) (hline : ¬ Spec.Line (d := n) c.Solution) :
    (∃ r, ProgramEnds hardware help files args r) ∧ ∀ r, ProgramEnds hardware help files args r →
      (r = .failed ∧ Spec.UsesChecked args) ∨ (r = .undefined ∧ ¬ Spec.UsesChecked args) ∨
        ∃ (out : List Char) (rows : List (List Int)), r = .finished 0 out ∧ Spec.PrintedRows out rows ∧ rows.Nodup ∧
          (∀ r ∈ rows, Spec.VertexRow (d := n) c.Solution r) ∧
          ((∀ v : Fin n → ℚ, Spec.Vertex c.Solution v → ∀ t : ℚ, 0 < t → ¬ Spec.Edge c.Solution v (t • Spec.outward v)) →
            (∀ p : Fin n → ℚ, Spec.Vertex c.Solution p → ∃ r ∈ rows, 0 < r.getD n 0 ∧ Spec.coord n r = p) ∧
            ∀ q : Fin n → ℚ, Spec.ExtremeDirection c.Solution q → ∃ r ∈ rows, r.getD n 0 = 0 ∧ ∃ c : ℚ, 0 < c ∧ Spec.coord n r = c • q) := by
  obtain ⟨A, maps, h1, h2, h3, h4, h5, N1, h6⟩ := C57_inequalities ha hf ho h20 h hc
  have hmaps : maps = [] := by rw [hm] at h5; exact List.forall₂_nil_left_iff.1 h5
  subst hmaps
  have hS : Spec.Solves n A = c.Solution := funext fun p => propext (h4 p)
  have e0 : ∀ ad fuel, program ad help fuel files args = ad false := by
    intro ad fuel
    unfold program
    rw [detect_vertices ha.1 hf hh hw hw']
    simp only [enumeration, usesAD_method hd]
  obtain ⟨f1, f2⟩ := ad_vertices_general (hardware := hardware) e0 hi ht h2 h6 h1 h3 (by rw [hS]; exact hsat)
    (by unfold Spec.HasLine; rw [hS]; exact hline) hn
  rw [hS] at f2
  refine ⟨f1, fun r hr => ?_⟩
  rcases f2 r hr with h | h | ⟨out, P, p1, p2, p3, p4, -, p5⟩
  · exact Or.inl h
  · exact Or.inr (Or.inl h)
  · exact Or.inr (Or.inr ⟨out, P, p1, p2, p3, p4, p5⟩)

/-- **C65** (termination) In the situation of `C65_vertices`: the threads start or the program ends before; the threads are never
stuck, and there is no infinite run, if `std::condition_variable` wakes no thread without reason. -/
theorem C65_terminates {hardware : Nat} {args : List Arg} {f text : List Char}
    {files : Files} {order : InputOrder} {c : Spec.InequalityContent} {n : Nat}
    (ha : Spec.PlainCommand args f) (hf : files f = some text) (ho : getInputOrder args = .ok order)
    (hi : Spec.UsesChecked args ∨ Spec.UsesInt args) (ht : Spec.ThreadsOk args)
    (h20 : Spec.EarlyHeader 20 text) (h : Spec.InequalityFile {} text c) (hc : c.Consistent n) (hn : 0 < n) (hm : c.maps = [])
    (hsat : ∃ p : Fin n → ℚ, c.Solution p) (hline : ¬ Spec.Line (d := n) c.Solution) :
    ∃ N, ∀ fuel ≥ N, adProgramVertices hardware fuel files args ≠ none ∧
      ∀ a ty, adProgramVertices hardware fuel files args = some (.ok a) → integerType args = .ok ty →
        (∀ s out, ADReach (selectArith ty) a (.running s out) → ¬ s.Finished → ∃ σ, ADStep (selectArith ty) a (.running s out) σ ∧
          ∀ s' out', σ = .running s' out' → Progress (adProgramConfig (selectArith ty) a) s s') ∧
        ∀ f : Nat → ADState (Fin a.threads), f 0 = ADState.init (selectArith ty) a → (∀ n, ADStep (selectArith ty) a (f n) (f (n + 1))) →
          ∃ n s s' out out', f n = .running s out ∧ f (n + 1) = .running s' out' ∧ Spurious s s' := by
  obtain ⟨A, maps, h1, h2, h3, h4, h5, N1, h6⟩ := C57_inequalities ha hf ho h20 h hc
  have hmaps : maps = [] := by rw [hm] at h5; exact List.forall₂_nil_left_iff.1 h5
  subst hmaps
  have hS : Spec.Solves n A = c.Solution := funext fun p => propext (h4 p)
  obtain ⟨ty, t1, t2, t3, t4⟩ := uses_type hi
  obtain ⟨T, hT, hT0⟩ := threadsOk (hardware := hardware) ht
  obtain ⟨N, a0, b1, q0, q⟩ := adProgramVertices_cases (hardware := hardware) t1 t2 h6 h2 hT hT0 h1 h3 (by rw [hS]; exact hsat)
    (by unfold Spec.HasLine; rw [hS]; exact hline) hn (by simp) (by intro m hm; simp at hm)
  refine ⟨N, ad_terminates (facets := false) (u := ty ≠ .safe) (w := ty ≠ .safe) (tag := .vertex) (G := ADGood (n + 1) A [] [] .vertex)
    (Q := fun _ _ => True) t1 fun fuel hf => ?_⟩
  rcases q fuel hf with h | h | ⟨a, R, k1, k2, k3⟩
  · exact Or.inl h
  · exact Or.inr (Or.inl h)
  · exact Or.inr (Or.inr ⟨a, R, a0, k1, trivial, k3⟩)

/-! ## examples -/

/-- a file with one section of inequalities without names -/
def rowsFile (rows : Matrix) : List Char := "Inequalities:\n".toList ++ rows.flatMap fun r => printRow r ++ ['\n']

theorem rowsFile_inequalities {rows : Matrix} (h : ∀ r ∈ rows, r ≠ [] ∧ ∀ x ∈ r, Spec.IsInt x) :
    Spec.InequalityFile {} (rowsFile rows) { inequalities := rows.map .raw } := by
  have e : rowsFile rows = "Inequalities:".toList ++ '\n' :: ((rows.flatMap fun r => printRow r ++ ['\n']) ++ []) := by
    unfold rowsFile
    rw [show "Inequalities:\n".toList = "Inequalities:".toList ++ ['\n'] by decide +kernel, List.append_nil]
    simp only [List.append_assoc, List.singleton_append]
  rw [e]
  refine Spec.InequalityFile.inequalities (by decide +kernel) (header_example _ "Inequalities:" (by decide +kernel)) ?_ (Or.inl rfl) .nil
  clear e
  induction rows with
  | nil => exact .nil
  | cons r m ih =>
    have e : ((r :: m).flatMap fun r => printRow r ++ ['\n']) = printRow r ++ '\n' :: (m.flatMap fun r => printRow r ++ ['\n']) := by simp
    rw [e]
    obtain ⟨b, s, n, xs, z, h1, h2, h3, h4, h5, h6⟩ := printRow_numbers r (h r (by simp)).1
    exact .line ⟨rfl, ⟨b, s, n, [], xs, z, .none h1, h3, h4, blanks_nil, by rw [h5]; simp, h6⟩, (h r (by simp)).2⟩
      (fun hc => (printRow_chars r _ hc).1 rfl)
      (fun hc => (printRow_chars r _ (List.mem_of_mem_head? hc)).2 rfl) (ih fun r hr => h r (by simp [hr]))

theorem rows_solution {n : Nat} {rows : Matrix} (p : Fin n → ℚ) :
    ({ inequalities := rows.map .raw } : Spec.InequalityContent).Solution p ↔ Spec.Solves n rows p := by
  unfold Spec.InequalityContent.Solution Spec.Solves
  simp [Spec.Constraint.HoldsAt]

theorem rows_consistent {n : Nat} {rows : Matrix} (h0 : rows ≠ []) (h : ∀ r ∈ rows, r.length = n + 1) :
    ({ inequalities := rows.map .raw } : Spec.InequalityContent).Consistent n := by
  refine ⟨by simpa using h0, ?_, by simp, by simp, by simp, by simp⟩
  intro a ha
  obtain ⟨r, hr, rfl⟩ := List.mem_map.1 ha
  exact h r hr

def oneArgs : List Arg := ["-t".toList, "1".toList, "file".toList]

theorem oneArgs_ok : Spec.PlainCommand oneArgs "file".toList ∧ getInputOrder oneArgs = .ok .noSorting ∧ Spec.UsesAD oneArgs ∧
    Spec.UsesInt oneArgs ∧ Spec.ThreadsOk oneArgs ∧ Spec.NoHelp oneArgs := by
  refine ⟨⟨?_, by decide +kernel, by decide +kernel, ?_⟩, by decide +kernel, Or.inl ?_, Or.inl ?_, Or.inr ⟨"1".toList, 1, ?_, ?_, by decide, by decide⟩, ?_⟩
  · exact .short (a := "-t".toList) (p := "1".toList) (by decide +kernel) (by decide +kernel) (by decide +kernel) (by decide +kernel)
        (.file (by decide +kernel) (by decide +kernel) .nil)
  · intro a ha
    unfold Spec.LooksLike
    revert a
    decide +kernel
  · unfold Spec.Absent Spec.LooksLike; decide +kernel
  · unfold Spec.Absent Spec.LooksLike; decide +kernel
  · exact ⟨[], ["file".toList], by simp, Or.inl rfl⟩
  · exact ⟨[], "1".toList, [], by simp, Spec.Numeral.plain "1".toList (by decide) (by simp [Spec.Digit]), by simp, rfl⟩
  · unfold Spec.NoHelp Spec.ModeArgument Spec.HelpAbout Spec.HelpWord Spec.VersionWord; decide +kernel

/-- the rows of the triangle `x, y ≥ 0`, `x + y ≤ 2` -/
def triangleRows : Matrix := [[-1, 0, 0], [0, -1, 0], [1, 1, -2]]

theorem triangleRows_solution (p : Fin 2 → ℚ) : ({ inequalities := triangleRows.map .raw } : Spec.InequalityContent).Solution p ↔
    Spec.Solves 2 triangle p := by
  rw [rows_solution]
  unfold Spec.Solves triangle triangleRows
  constructor
  · intro h a ha
    by_cases h0 : a = [0, 0, -1]
    · subst h0; simp [Spec.value]
    · refine h a ?_
      simp only [List.mem_cons, List.not_mem_nil, or_false] at ha ⊢
      tauto
  · intro h a ha
    refine h a ?_
    simp only [List.mem_cons, List.not_mem_nil, or_false] at ha ⊢
    tauto

/-- the hypotheses of C65 can be met, including that for completeness -/
example : (Spec.PlainCommand oneArgs "file".toList ∧ getInputOrder oneArgs = .ok .noSorting ∧ Spec.UsesAD oneArgs ∧
      Spec.UsesInt oneArgs ∧ Spec.ThreadsOk oneArgs ∧ Spec.NoHelp oneArgs) ∧
    Spec.HasWordLine Spec.inequalityWords (rowsFile triangleRows) ∧ ¬ Spec.HasWordLine Spec.hullWords (rowsFile triangleRows) ∧
    Spec.EarlyHeader 20 (rowsFile triangleRows) ∧ Spec.InequalityFile {} (rowsFile triangleRows) { inequalities := triangleRows.map .raw } ∧
    ({ inequalities := triangleRows.map .raw } : Spec.InequalityContent).Consistent 2 ∧
    (∃ p : Fin 2 → ℚ, ({ inequalities := triangleRows.map .raw } : Spec.InequalityContent).Solution p) ∧
    ¬ Spec.Line (d := 2) ({ inequalities := triangleRows.map .raw } : Spec.InequalityContent).Solution ∧
    ∀ v : Fin 2 → ℚ, Spec.Vertex ({ inequalities := triangleRows.map .raw } : Spec.InequalityContent).Solution v → ∀ t : ℚ, 0 < t →
      ¬ Spec.Edge ({ inequalities := triangleRows.map .raw } : Spec.InequalityContent).Solution v (t • Spec.outward v) := by
  have hS : ({ inequalities := triangleRows.map .raw } : Spec.InequalityContent).Solution = Spec.Solves 2 triangle :=
    funext fun p => propext (triangleRows_solution p)
  rw [hS]
  refine ⟨oneArgs_ok, ?_, ?_, containsKeywords_early.2 (by decide +kernel), rowsFile_inequalities ?_, rows_consistent (by decide) (by decide),
    ⟨0, (triangle_iff 0).2 (by norm_num)⟩, triangle_no_line, triangle_no_edge⟩
  · rw [← hasInequalitiesKeyword_iff]; decide +kernel
  · rw [← hasHullKeyword_iff]; decide +kernel
  · unfold Spec.IsInt; decide

/-- the program up to the start of the threads on that file -/
example : adProgramVertices 8 20 (fun _ => some (rowsFile triangleRows)) oneArgs =
    some (.ok { matrix := [[-1, 0, 0], [0, -1, 0], [1, 1, -2], [0, 0, -1]], names := [], tag := .vertex, threads := 1
                head := "Vertices / Rays:\n".toList, maps := [], initial := [[2, 0, 1], [0, 2, 1], [0, 0, 1]], known := []
                knownEnd := .ok (), dangling := false }) := by decide +kernel

/-! ## vertices that are never found -/

/-- the quadrilateral `x ≥ 1`, `-x ≤ y ≤ x`, `x ≤ 2` -/
def quadRows : Matrix := [[-1, 0, 1], [-1, 1, 0], [-1, -1, 0], [1, 0, -2]]

def quadFiles : Files := fun _ => some (rowsFile quadRows)

def quadProgram : ADProgram :=
  { matrix := [[-1, 0, 1], [-1, 1, 0], [-1, -1, 0], [1, 0, -2], [0, 0, -1]], names := [], tag := .vertex, threads := 1
    head := "Vertices / Rays:\n".toList, maps := [], initial := [[1, -1, 1], [1, 1, 1]], known := [], knownEnd := .ok (), dangling := false }

instance : Subsingleton (Fin quadProgram.threads) := inferInstanceAs (Subsingleton (Fin 1))

theorem oneArgs_threads (hardware : Nat) : numberOfThreads hardware oneArgs = .ok 1 := by
  refine (C49_threads hardware oneArgs).1 "1".toList 1 ⟨[], ["file".toList], by simp, Or.inl rfl⟩ ?_ (by decide) (by decide)
  exact ⟨[], "1".toList, [], by simp, Spec.Numeral.plain "1".toList (by decide) (by simp [Spec.Digit]), by simp, rfl⟩

theorem quad_setup (hardware : Nat) : ∀ fuel ≥ 20, adProgramVertices hardware fuel quadFiles oneArgs = some (.ok quadProgram) := by
  intro fuel hf
  refine adProgramVertices_mono hardware quadFiles oneArgs 20 fuel _ hf ?_
  have e : adProgramVertices hardware 20 quadFiles oneArgs = adProgramVertices 8 20 quadFiles oneArgs := by
    unfold adProgramVertices
    rw [oneArgs_threads hardware, oneArgs_threads 8]
  show adProgramVertices hardware 20 quadFiles oneArgs = _
  rw [e]
  decide +kernel

instance : DecidableEq (Matrix × Names × Maps × Matrix) := @instDecidableEqProd _ _ inferInstance (@instDecidableEqProd _ _ inferInstance
  (@instDecidableEqProd _ _ (inferInstanceAs (DecidableEq (List (List (List (Nat × Int)))))) inferInstance))

theorem quad_input : inputInequalities 20 quadFiles oneArgs = some (.ok (quadProgram.matrix, [], [], [])) := by decide +kernel

theorem quad_run : ADEnd (fixedArith 32) quadProgram (.finished 0 "Vertices / Rays:\n  1 -1  1\n  1  1  1\n".toList) := by
  have i : Fin quadProgram.threads := (0 : Fin 1)
  have h1 := ((OneThread.init (A := fixedArith 32) (a := quadProgram)).masterPut (r := [1, -1, 1]) (rest := [[1, 1, 1]]) (by simp)
    (rows' := [[1, -1, 1]]) (by decide +kernel) (t := "  1 -1  1\n".toList) (by decide +kernel)).masterPut (r := [1, 1, 1]) (rest := []) (by simp)
    (rows' := [[1, -1, 1], [1, 1, 1]]) (by decide +kernel) (t := "  1  1  1\n".toList) (by decide +kernel)
  have h2 := (((h1.masterDone.start i).checkBusy i (by decide)).take i (row := [1, -1, 1]) (rest := [[1, 1, 1]]) (by simp)).rotate i (fuel := 20)
    (m := [[1, 1, 1]]) (by decide +kernel)
  have h3 := (h2.putDup i (by decide +kernel)).done i
  have h4 := ((h3.checkBusy i (by decide)).take i (row := [1, 1, 1]) (rest := []) (by simp)).rotate i (fuel := 20)
    (m := [[1, -1, 1]]) (by decide +kernel)
  have h5 := (h4.putDup i (by decide +kernel)).done i
  have h7 := ((((OneThread.checkEmpty i h5).insertEmpty i).pushEmpty i).stop i (rest := [])).finished
  have e : quadProgram.head ++ "  1 -1  1\n".toList ++ "  1  1  1\n".toList = "Vertices / Rays:\n  1 -1  1\n  1  1  1\n".toList := by decide +kernel
  rwa [e] at h7

theorem quad_iff (p : Fin 2 → ℚ) : Spec.Solves 2 quadRows p ↔ 1 ≤ p 0 ∧ p 1 ≤ p 0 ∧ -p 0 ≤ p 1 ∧ p 0 ≤ 2 := by
  unfold Spec.Solves quadRows Spec.value
  simp [Fin.sum_univ_two]

/-- **C65** fails without the condition on edges (all other hypotheses are met): the quadrilateral `x ≥ 1`, `-x ≤ y ≤ x`, `x ≤ 2` has the
vertex (2, 2), but no finishing run prints it, and there are finishing runs. -/
theorem C65_incomplete_false :
    ((Spec.PlainCommand oneArgs "file".toList ∧ getInputOrder oneArgs = .ok .noSorting ∧ Spec.UsesAD oneArgs ∧
      Spec.UsesInt oneArgs ∧ Spec.ThreadsOk oneArgs ∧ Spec.NoHelp oneArgs) ∧
    quadFiles "file".toList = some (rowsFile quadRows) ∧
    Spec.HasWordLine Spec.inequalityWords (rowsFile quadRows) ∧ ¬ Spec.HasWordLine Spec.hullWords (rowsFile quadRows) ∧
    Spec.EarlyHeader 20 (rowsFile quadRows) ∧ Spec.InequalityFile {} (rowsFile quadRows) { inequalities := quadRows.map .raw } ∧
    ({ inequalities := quadRows.map .raw } : Spec.InequalityContent).Consistent 2 ∧
    (∃ p : Fin 2 → ℚ, ({ inequalities := quadRows.map .raw } : Spec.InequalityContent).Solution p) ∧
    ¬ Spec.Line (d := 2) ({ inequalities := quadRows.map .raw } : Spec.InequalityContent).Solution) ∧
    Spec.Vertex ({ inequalities := quadRows.map .raw } : Spec.InequalityContent).Solution ![2, 2] ∧
    ∀ hardware help, ProgramEnds hardware help quadFiles oneArgs (.finished 0 "Vertices / Rays:\n  1 -1  1\n  1  1  1\n".toList) ∧
      ∀ out, ProgramEnds hardware help quadFiles oneArgs (.finished 0 out) →
        ∃ rows : List (List Int), Spec.PrintedRows out rows ∧ ∀ r ∈ rows, Spec.coord 2 r ≠ ![2, 2] := by
  have hS : ({ inequalities := quadRows.map .raw } : Spec.InequalityContent).Solution = Spec.Solves 2 quadRows :=
    funext fun p => propext (rows_solution p)
  rw [hS]
  have hhull : Spec.HasWordLine Spec.inequalityWords (rowsFile quadRows) := by rw [← hasInequalitiesKeyword_iff]; decide +kernel
  have hhull' : ¬ Spec.HasWordLine Spec.hullWords (rowsFile quadRows) := by rw [← hasHullKeyword_iff]; decide +kernel
  have hsat : ∃ p : Fin 2 → ℚ, Spec.Solves 2 quadRows p := ⟨![1, 0], (quad_iff _).2 (by norm_num)⟩
  have hline : ¬ Spec.Line (d := 2) (Spec.Solves 2 quadRows) := by
    rintro ⟨p, q, hq, h⟩
    simp only [quad_iff, Pi.add_apply, Pi.smul_apply, smul_eq_mul] at h
    have h0 := slope_zero (u := p 0) (w := q 0) (b := 2) fun t => (h t).2.2.2
    have h1 := slope_zero (u := p 1) (w := q 1) (b := p 0) fun t => by have := (h t).2.1; rw [h0] at this; simpa using this
    apply hq
    funext i
    fin_cases i
    · exact h0
    · exact h1
  have hA : Spec.Solves 2 quadProgram.matrix = Spec.Solves 2 quadRows := by
    funext p
    rw [eq_iff_iff]
    unfold Spec.Solves quadProgram quadRows
    simp only [List.mem_cons, List.not_mem_nil, or_false, forall_eq_or_imp, forall_eq]
    have : Spec.value 2 [0, 0, -1] p ≤ 0 := by simp [Spec.value]
    tauto
  have e0 : ∀ help ad fuel, program ad help fuel quadFiles oneArgs = ad false := by
    intro help ad fuel
    unfold program
    rw [detect_vertices oneArgs_ok.1.1 (show quadFiles "file".toList = some (rowsFile quadRows) from rfl) oneArgs_ok.2.2.2.2.2 hhull hhull']
    simp only [enumeration, usesAD_method oneArgs_ok.2.2.1]
  refine ⟨⟨oneArgs_ok, rfl, hhull, hhull', containsKeywords_early.2 (by decide +kernel), rowsFile_inequalities ?_,
    rows_consistent (by decide) (by decide), hsat, hline⟩, ⟨(quad_iff _).2 (by norm_num), ?_⟩, fun hardware help => ⟨?_, fun out hout => ?_⟩⟩
  · unfold Spec.IsInt; decide
  · intro x y t hx hy h0 h1 e
    obtain ⟨-, x2, -, x4⟩ := (quad_iff x).1 hx
    obtain ⟨-, y2, -, y4⟩ := (quad_iff y).1 hy
    have e1 := congrFun e 0
    have e2 := congrFun e 1
    simp at e1 e2
    have a1 : x 0 = 2 := by nlinarith
    have a2 : y 0 = 2 := by nlinarith
    have a3 : x 1 = 2 := by nlinarith
    have a4 : y 1 = 2 := by nlinarith
    constructor <;> funext i <;> fin_cases i <;> simp [a1, a2, a3, a4]
  · rw [programEnds_iff (e0 help)]
    refine ⟨20, fun fuel hf => ?_⟩
    rw [if_neg (by decide), quad_setup hardware fuel hf]
    exact ⟨.default, (C54_integer_type oneArgs).1 (by unfold Spec.Absent Spec.LooksLike; decide +kernel), quad_run⟩
  · have h7 : ∀ fuel ≥ 20, inputInequalities fuel quadFiles oneArgs = some (.ok (quadProgram.matrix, [], [], [])) := by
      intro fuel hf
      exact inputInequalities_mono quadFiles oneArgs 20 fuel _ hf quad_input
    obtain ⟨-, f⟩ := ad_vertices_general (hardware := hardware) (d := 2) (e0 help) (Or.inr oneArgs_ok.2.2.2.1) oneArgs_ok.2.2.2.2.1
      (by unfold IntMatrix Spec.IsInt; decide +kernel) h7 (by decide) (by decide) (by rw [hA]; exact hsat)
      (by unfold Spec.HasLine; rw [hA]; exact hline) (by decide)
    rcases f _ hout with ⟨h, -⟩ | ⟨h, -⟩ | ⟨out', P, h, hp, -, -, ⟨a0, N, k, s, hs, hre, rfl⟩, -⟩
    · cases h
    · cases h
    · cases h
      refine ⟨_, hp, fun r hr hc => ?_⟩
      obtain rfl : a0 = ⟨[], [], [[1, -1, 1], [1, 1, 1]], []⟩ := by
        have e := hs (N + 10) (by omega)
        rw [show adStartVertices (N + 10) quadProgram.matrix [] [] = some (.ok ⟨[], [], [[1, -1, 1], [1, 1, 1]], []⟩) from rfl] at e
        simpa using e.symm
      have hsafe : (adConfig (fun _ : Fin k => False) quadProgram.matrix .vertex
          ⟨[], [], [[1, -1, 1], [1, 1, 1]], []⟩).Safe fun r => r ∈ [[1, -1, 1], [1, 1, 1]] :=
        { nonempty := by simp, initial := by simp [adConfig], known := by simp [adConfig]
          rot := by
            rintro r m hr ⟨fuel, hf⟩
            simp only [List.mem_cons, List.not_mem_nil, or_false] at hr
            rcases hr with rfl | rfl
            · have := rotation_unique (by decide +kernel : rotation 10 quadProgram.matrix [1, -1, 1] [] .vertex = some (.ok [[1, 1, 1]])) hf
              cases this; simp
            · have := rotation_unique (by decide +kernel : rotation 10 quadProgram.matrix [1, 1, 1] [] .vertex = some (.ok [[1, -1, 1]])) hf
              cases this; simp }
      have h2 := congrFun hc 0
      have := C26_nothing_else hsafe hre _ hr
      simp only [List.mem_cons, List.not_mem_nil, or_false] at this
      rcases this with rfl | rfl <;> norm_num [Spec.coord] at h2

/-! ## known vertices -/

def danglingArgs : List Arg := ["-i".toList, "safe".toList, "-t".toList, "1".toList, "-k".toList, "known".toList, "file".toList]

def danglingFiles : Files := fun f => if f = "file".toList then some (rowsFile triangleRows) else if f = "known".toList then some "Vertices:\n2 0\n".toList else none

def danglingProgram : ADProgram :=
  { matrix := [[-1, 0, 0], [0, -1, 0], [1, 1, -2], [0, 0, -1]], names := [], tag := .vertex, threads := 1
    head := "Vertices / Rays:\n".toList, maps := [], initial := [[2, 0, 1]], known := [[2, 0, 1]], knownEnd := .ok (), dangling := true }

theorem dangling_setup (hardware : Nat) : ∀ fuel ≥ 20, adProgramVertices hardware fuel danglingFiles danglingArgs = some (.ok danglingProgram) := by
  intro fuel hf
  refine adProgramVertices_mono hardware danglingFiles danglingArgs 20 fuel _ hf ?_
  have ht : ∀ hardware, numberOfThreads hardware danglingArgs = .ok 1 := by
    intro hardware
    refine (C49_threads hardware danglingArgs).1 "1".toList 1 ⟨["-i".toList, "safe".toList], ["-k".toList, "known".toList, "file".toList], ?_, Or.inl rfl⟩ ?_ (by decide) (by decide)
    · unfold Spec.LooksLike; decide +kernel
    · exact ⟨[], "1".toList, [], by simp, Spec.Numeral.plain "1".toList (by decide) (by simp [Spec.Digit]), by simp, rfl⟩
  have e : adProgramVertices hardware 20 danglingFiles danglingArgs = adProgramVertices 8 20 danglingFiles danglingArgs := by
    unfold adProgramVertices
    rw [ht hardware, ht 8]
  show adProgramVertices hardware 20 danglingFiles danglingArgs = _
  rw [e]
  decide +kernel

theorem dangling_run : ADEnd safeArith danglingProgram .undefined := by
  obtain ⟨s, h, -, -, -, -, h1, h2, -⟩ := ((OneThread.init (A := safeArith) (a := danglingProgram)).masterPut (r := [2, 0, 1]) (rest := []) (by simp)
    (rows' := [[2, 0, 1]]) (by decide +kernel) (t := "  2  0  1\n".toList) (by decide +kernel)).masterDone
  exact h.tail (.knownDangling s _ rfl h1 (Or.inl (by rw [h2]; decide)))

/-- the known vertices of the example in the documented format -/
theorem danglingKnown : Spec.KnownVertexFile ([], []) "Vertices:\n2 0\n".toList ([[(2, 1), (0, 1)]], []) := by
  obtain ⟨b0, b1⟩ := blanks_example
  have h2 : Spec.Numeral "2".toList 2 := Spec.Numeral.plain "2".toList (by decide) (by simp [Spec.Digit])
  have h0 : Spec.Numeral "0".toList 0 := Spec.Numeral.plain "0".toList (by decide) (by simp [Spec.Digit])
  refine Spec.KnownVertexFile.points (k := "Vertices:".toList) (t := "2 0\n".toList) (w := [])
    (vs := [[(2, 1), (0, 1)]]) (by decide +kernel) (header_example _ "Vertices:" (by decide +kernel)) ⟨?_, ?_⟩ (Or.inl rfl) .nil
  · refine Spec.VertexLines.vertex (l := "2 0".toList) (t := []) ⟨[], "2 0".toList, .none b0, ?_, rfl⟩ .nil
    exact Spec.Coordinates.cons (t := "2".toList) (b := " ".toList) (ts := "0".toList) (Spec.Fraction.whole h2) b1 (by decide)
        (Spec.Coordinates.last (t := "0".toList) (b := []) (Spec.Fraction.whole h0) b0)
  · intro cs hcs
    rw [List.mem_singleton.1 hcs]
    refine ⟨⟨?_, 1, ⟨by decide, by decide, fun m hm => by omega⟩, by unfold Spec.IsInt; decide, ?_⟩, by decide⟩ <;>
    · unfold Spec.IsInt; decide

/-- **C65** does not extend to known vertices: with the vertex (2, 0) of the triangle `x, y ≥ 0`, `x + y ≤ 2` given as known, the
program reads an object that no longer exists, even with one thread and checked integers. -/
theorem C65_known_undefined_false :
    (Spec.CommandLine danglingArgs ["file".toList] ∧ Spec.KnownGiven "--known-vertices=".toList danglingArgs "known".toList ∧
      Spec.UsesAD danglingArgs ∧ Spec.UsesChecked danglingArgs ∧ Spec.NoHelp danglingArgs) ∧
    danglingFiles "file".toList = some (rowsFile triangleRows) ∧ danglingFiles "known".toList = some "Vertices:\n2 0\n".toList ∧
    Spec.HasWordLine Spec.inequalityWords (rowsFile triangleRows) ∧ ¬ Spec.HasWordLine Spec.hullWords (rowsFile triangleRows) ∧
    Spec.InequalityFile {} (rowsFile triangleRows) { inequalities := triangleRows.map .raw } ∧
    Spec.KnownVertexFile ([], []) "Vertices:\n2 0\n".toList ([[(2, 1), (0, 1)]], []) ∧
    Spec.Vertex ({ inequalities := triangleRows.map .raw } : Spec.InequalityContent).Solution (Spec.point 2 [(2, 1), (0, 1)]) ∧
    ∀ hardware help, ProgramEnds hardware help danglingFiles danglingArgs .undefined := by
  have hS : ({ inequalities := triangleRows.map .raw } : Spec.InequalityContent).Solution = Spec.Solves 2 triangle :=
    funext fun p => propext (triangleRows_solution p)
  have hcmd : Spec.CommandLine danglingArgs ["file".toList] :=
    .short (a := "-i".toList) (p := "safe".toList) (by decide +kernel) (by decide +kernel) (by decide +kernel) (by decide +kernel)
      (.short (a := "-t".toList) (p := "1".toList) (by decide +kernel) (by decide +kernel) (by decide +kernel) (by decide +kernel)
      (.short (a := "-k".toList) (p := "known".toList) (by decide +kernel) (by decide +kernel) (by decide +kernel) (by decide +kernel)
        (.file (by decide +kernel) (by decide +kernel) .nil)))
  have hAD : Spec.UsesAD danglingArgs := Or.inl (by unfold Spec.Absent Spec.LooksLike; decide +kernel)
  have hhelp : Spec.NoHelp danglingArgs := by
    unfold Spec.NoHelp Spec.ModeArgument Spec.HelpAbout Spec.HelpWord Spec.VersionWord; decide +kernel
  have hchecked : Spec.UsesChecked danglingArgs :=
    ⟨[], ["-t".toList, "1".toList, "-k".toList, "known".toList, "file".toList], by simp, Or.inl rfl⟩
  have hw : Spec.HasWordLine Spec.inequalityWords (rowsFile triangleRows) := by rw [← hasInequalitiesKeyword_iff]; decide +kernel
  have hw' : ¬ Spec.HasWordLine Spec.hullWords (rowsFile triangleRows) := by rw [← hasHullKeyword_iff]; decide +kernel
  have hfile : danglingFiles "file".toList = some (rowsFile triangleRows) := by decide +kernel
  refine ⟨⟨hcmd, ⟨["-i".toList, "safe".toList, "-t".toList, "1".toList], ["file".toList], ?_, Or.inl rfl⟩, hAD, hchecked, hhelp⟩, hfile,
    by decide +kernel, hw, hw', rowsFile_inequalities ?_, danglingKnown, ?_, fun hardware help => ?_⟩
  · unfold Spec.LooksLike; decide +kernel
  · unfold Spec.IsInt; decide
  · rw [hS]
    refine ⟨(triangle_iff _).2 (by norm_num [Spec.point]), ?_⟩
    intro x y t hx hy h0 h1 e
    obtain ⟨x1, x2, x3⟩ := (triangle_iff x).1 hx
    obtain ⟨y1, y2, y3⟩ := (triangle_iff y).1 hy
    have e1 := congrFun e 0
    have e2 := congrFun e 1
    simp [Spec.point] at e1 e2
    have a1 : x 0 = 2 := by nlinarith
    have a2 : y 0 = 2 := by nlinarith
    have a3 : x 1 = 0 := by nlinarith
    have a4 : y 1 = 0 := by nlinarith
    constructor <;> funext i <;> fin_cases i <;> simp [Spec.point, a1, a2, a3, a4]
  · have e0 : ∀ ad fuel, program ad help fuel danglingFiles danglingArgs = ad false := by
      intro ad fuel
      unfold program
      rw [detect_vertices hcmd hfile hhelp hw hw']
      simp only [enumeration, usesAD_method hAD]
    rw [programEnds_iff e0]
    refine ⟨20, fun fuel hf => ?_⟩
    rw [if_neg (by decide), dangling_setup hardware fuel hf]
    refine ⟨.safe, by decide +kernel, dangling_run⟩

end Panda
