import Verif.Model.Gauss
import Verif.Model.Bitset

/-! # Fourier–Motzkin elimination

Model of `/repo/src/algorithm_fourier_motzkin_elimination.cpp`. -/

namespace Panda

/-! ## Zero columns and order of the input -/

/-- loop of `eliminateZeroColumns` (algorithm_fourier_motzkin_elimination.cpp:463-488) from the last
column down to column 0: (reduced matrix, reduced vertices, zero columns in descending order) -/
def eliminateZeroColumnsLoop : Nat → Matrix → Matrix → List Nat → Matrix × Matrix × List Nat
  | 0, m, vs, zs => (m, vs, zs)
  | col + 1, m, vs, zs =>
    if m.all fun r => r.getD col 0 == 0 then
      eliminateZeroColumnsLoop col (m.map fun r => r.eraseIdx col) (vs.map fun v => v.eraseIdx col)
        (zs ++ [col])
    else eliminateZeroColumnsLoop col m vs zs

/-- `eliminateZeroColumns` (algorithm_fourier_motzkin_elimination.cpp:462-488) -/
def eliminateZeroColumns (m vs : Matrix) : Matrix × Matrix × List Nat :=
  eliminateZeroColumnsLoop (colSize m) m vs []

/-- `reinsertZeroColumns` (algorithm_fourier_motzkin_elimination.cpp:490-501): ascending order -/
def reinsertZeroColumns (m : Matrix) (zs : List Nat) : Matrix :=
  zs.reverse.foldl (fun m col => m.map fun r => r.insertIdx col 0) m

/-- move the used rows to the front (algorithm_fourier_motzkin_elimination.cpp:90-97, 120-127): from
the largest used index to the smallest; `used` collects the rows already removed -/
def reorderLoop : List Nat → Matrix → Matrix → Matrix
  | [], used, input => used ++ input
  | i :: is, used, input => reorderLoop is (used ++ [input.getD i []]) (input.eraseIdx i)

def reorder (input : Matrix) (T : List Nat) : Matrix := reorderLoop T.reverse [] input

/-! ## Phase two -/

section
variable {B : Type} (ops : BitsetOps B)

/-- `initializeR` (algorithm_fourier_motzkin_elimination.cpp:503-526) -/
def initializeR (m vs : Matrix) : List B :=
  m.map fun row => (List.range m.length).foldl
    (fun b j => if dot row (vs.getD j []) < 0 then ops.set b j else b) (ops.new vs.length)

/-- `getIndicesNZP(s)` (algorithm_fourier_motzkin_elimination.cpp:373-396): negative, zero, positive -/
def indicesNeg (s : Row) : List Nat := (List.range s.length).filter fun j => decide (s.getD j 0 < 0)
def indicesZero (s : Row) : List Nat := (List.range s.length).filter fun j => decide (s.getD j 0 = 0)
def indicesPos (s : Row) : List Nat := (List.range s.length).filter fun j => decide (s.getD j 0 > 0)

/-- insertion by ascending count: stands for `std::sort` with the comparator of
algorithm_fourier_motzkin_elimination.cpp:403.  `std::sort` may order equal counts differently; the
order of the zero rows only influences the order of the rows of the result. -/
def insertByCount (cnt : Nat → Nat) (x : Nat) : List Nat → List Nat
  | [] => [x]
  | y :: ys => if cnt x ≤ cnt y then x :: y :: ys else y :: insertByCount cnt x ys

def sortByCount (cnt : Nat → Nat) : List Nat → List Nat
  | [] => []
  | x :: xs => insertByCount cnt x (sortByCount cnt xs)

/-- an entry of the list `pnrs`: index of the negative row, of the positive row, and the union -/
abbrev Pnr (B : Type) := Nat × Nat × B

/-- `countCheck` (algorithm_fourier_motzkin_elimination.cpp:241-245) -/
def countCheck (Rn Rp : B) (maxCount max : Nat) : Bool := decide (ops.unionCount Rn Rp max ≤ maxCount)

/-- `containmentCheck` (algorithm_fourier_motzkin_elimination.cpp:247-254) -/
def containmentCheck (Rn Rp : B) (max : Nat) (R : List B) (dflt : B) (zeros : List Nat) : Bool :=
  zeros.all fun z => !(ops.unionContains Rn Rp (R.getD z dflt) max)

/-- `pnrIteration` (algorithm_fourier_motzkin_elimination.cpp:256-282): dropped if some present union
is contained in `u`; otherwise present unions containing `u` are removed and the pair goes to the
front. -/
def pnrIteration (pnrs : List (Pnr B)) (n p : Nat) (u : B) (max : Nat) : List (Pnr B) :=
  if pnrs.any fun q => ops.contains u q.2.2 max then pnrs
  else (n, p, u) :: pnrs.filter fun q => !(ops.contains q.2.2 u max)

/-- body of the double loop of `projection` (algorithm_fourier_motzkin_elimination.cpp:298-313) -/
def pairStep (R : List B) (dflt : B) (zeros : List Nat) (maxCount index : Nat)
    (pnrs : List (Pnr B)) (np : Nat × Nat) : List (Pnr B) :=
  let Rn := R.getD np.1 dflt
  let Rp := R.getD np.2 dflt
  if countCheck ops Rn Rp maxCount index then
    if containmentCheck ops Rn Rp index R dflt zeros then
      pnrIteration ops pnrs np.1 np.2 (ops.merge Rn Rp index) index
    else pnrs
  else pnrs

/-- all pairs in loop order: negatives outside, positives inside -/
def pairs (neg pos : List Nat) : List (Nat × Nat) := neg.flatMap fun n => pos.map fun p => (n, p)

/-- the new row of a pair (algorithm_fourier_motzkin_elimination.cpp:437-442) -/
def combineRows (m : Matrix) (s : Row) (n p : Nat) : Row :=
  makePrimitive (rowSub (rowScale (m.getD n []) (s.getD p 0)) (rowScale (m.getD p []) (s.getD n 0)))

/-- `updateSystem` (algorithm_fourier_motzkin_elimination.cpp:407-446) -/
def updateSystem (m : Matrix) (R : List B) (dflt : B) (i : Nat) (neg zeros : List Nat) (s : Row)
    (pnrs : List (Pnr B)) : Matrix × List B :=
  (zeros.map (fun z => m.getD z []) ++ neg.map (fun n => m.getD n []) ++
      pnrs.map (fun q => combineRows m s q.1 q.2.1),
   zeros.map (fun z => R.getD z dflt) ++ neg.map (fun n => ops.set (R.getD n dflt) i) ++
      pnrs.map (fun q => q.2.2))

/-- `projection` (algorithm_fourier_motzkin_elimination.cpp:284-315) -/
def projection (mR : Matrix × List B) (dflt : B) (vertex : Row) (index : Nat) : Matrix × List B :=
  let m := mR.1
  let R := mR.2
  let maxCount := index + 2 - vertex.length
  let s := matVec m vertex
  let neg := indicesNeg s
  let zeros := sortByCount (fun z => ops.count (R.getD z dflt) index) (indicesZero s)
  let pos := indicesPos s
  let pnrs := (pairs neg pos).foldl (pairStep ops R dflt zeros maxCount index) []
  updateSystem ops m R dflt index neg zeros s pnrs

/-- is the row `(0,...,0,-1)` (algorithm_fourier_motzkin_elimination.cpp:322-328) -/
def isBadRow (r : Row) : Bool := r.dropLast.all (· == 0) && r.getLastD 0 == -1

/-- loop of `detectBadRow` (algorithm_fourier_motzkin_elimination.cpp:320-332): after erasing row `j`
the loop continues with `j + 1`, so the row following an erased one is not looked at -/
def detectBadRow : Matrix → Matrix
  | [] => []
  | r :: rest =>
    if isBadRow r then
      match rest with
      | [] => []
      | r' :: rest' => r' :: detectBadRow rest'
    else r :: detectBadRow rest

/-- loop of `phaseTwo` (algorithm_fourier_motzkin_elimination.cpp:342-350) over the remaining vertices -/
def phaseTwoLoop (dflt : B) : Nat → Matrix → Matrix × List B → Matrix × List B
  | _, [], mR => mR
  | i, v :: vs, mR => phaseTwoLoop dflt (i + 1) vs (projection ops mR dflt v i)

/-- `phaseTwo` (algorithm_fourier_motzkin_elimination.cpp:335-352) -/
def phaseTwo (m vs : Matrix) : Matrix :=
  let d := colSize m
  let dflt := ops.new vs.length
  detectBadRow (phaseTwoLoop ops dflt d (vs.drop d) (m, initializeR ops m vs)).1

/-- `extractFacets` (algorithm_fourier_motzkin_elimination.cpp:226-239); `vs` is the part of the
vertices from `start` on -/
def extractFacets (m vs : Matrix) : Matrix := m.filter fun r => vs.all fun v => decide (dot r v ≤ 0)

/-- loop of `phaseTwoHeuristic` (algorithm_fourier_motzkin_elimination.cpp:360-370) -/
def heuristicLoop (dflt : B) : Nat → Matrix → Matrix × List B → Matrix
  | _, [], mR => mR.1
  | i, v :: vs, mR =>
    let facets := detectBadRow (extractFacets mR.1 (v :: vs))
    if facets ≠ [] then facets
    else heuristicLoop dflt (i + 1) vs (projection ops mR dflt v i)

/-- `phaseTwoHeuristic` (algorithm_fourier_motzkin_elimination.cpp:354-371) -/
def phaseTwoHeuristic (m vs : Matrix) : Matrix :=
  let d := m.length
  let dflt := ops.new vs.length
  heuristicLoop ops dflt d (vs.drop d) (m, initializeR ops m vs)

end

/-- `phaseTwoDispatch` (algorithm_fourier_motzkin_elimination.cpp:146-224): the bit set type by the
number of 32-bit words needed -/
def dispatchOps (nVertices : Nat) : BitsetOps Words :=
  let size := 1 + (nVertices - 1) / 32
  if size ≤ 1 then fixedOps 1
  else if size ≤ 2 then fixedOps 2
  else if size ≤ 3 then fixedOps 3
  else if size ≤ 4 then fixedOps 4
  else if size ≤ 6 then fixedOps 6
  else if size ≤ 8 then fixedOps 8
  else if size ≤ 10 then fixedOps 10
  else if size ≤ 12 then fixedOps 12
  else if size ≤ 16 then fixedOps 16
  else if size ≤ 20 then fixedOps 20
  else if size ≤ 30 then fixedOps 30
  else if size ≤ 40 then fixedOps 40
  else if size ≤ 50 then fixedOps 50
  else if size ≤ 75 then fixedOps 75
  else if size ≤ 100 then fixedOps 100
  else if size ≤ 150 then fixedOps 150
  else if size ≤ 200 then fixedOps 200
  else variableOps

/-- The inputs for which the functions below are defined: at least one row, equal row sizes, and not
all entries zero.  Otherwise `back()` is taken of an empty vector: for an empty matrix in
`appendNegativeIdentityMatrix` (algorithm_matrix_operations.cpp:165), for an all-zero matrix in
`eliminateZeroColumns` (algorithm_fourier_motzkin_elimination.cpp:466) because every row becomes an
equation. -/
def validInput (input : Matrix) : Bool :=
  input.all (fun r => r.length == colSize input) && input.any (fun r => r.any (· != 0))

/-- `fourierMotzkinElimination` (algorithm_fourier_motzkin_elimination.cpp:73-101) -/
def fourierMotzkinElimination (input : Matrix) : Outcome Matrix :=
  if validInput input then
    let gs := gaussSplit input
    let ez := eliminateZeroColumns gs.2.1 input
    let vs := reorder ez.2.1 gs.2.2
    .ok (reinsertZeroColumns (phaseTwo (dispatchOps vs.length) ez.1 vs) ez.2.2)
  else .ub

/-- `fourierMotzkinEliminationHeuristic` (algorithm_fourier_motzkin_elimination.cpp:103-131) -/
def fourierMotzkinEliminationHeuristic (input : Matrix) : Outcome Matrix :=
  if validInput input then
    let gs := gaussSplit input
    let ez := eliminateZeroColumns gs.2.1 input
    let vs := reorder ez.2.1 gs.2.2
    .ok (reinsertZeroColumns (phaseTwoHeuristic variableOps ez.1 vs) ez.2.2)
  else .ub

end Panda
