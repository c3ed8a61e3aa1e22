import Verif.Model.SafeInteger
import Verif.Model.BigInteger
import Verif.Model.Cast
import Verif.Model.Method
import Verif.Model.Options
import Verif.Spec.BigInteger

/-! # The double description method for a given integer type

All algorithms of the program are templates over the type `Integer`.  The other files model them with exact integers; here
the same functions are modelled with the operations of the type that `IntegerTypeSelector` chooses (`-i`): every addition,
multiplication, … may fail.

Many of the functions are `noexcept` (`gcd`, `lcm`, `row += row`, `row -= row`, `row *= factor`, `row * row`): an exception
thrown by a `SafeInteger` inside them ends the program by `std::terminate` instead of reaching the handler in `call`.
`.thrown` stands for both: no result is produced. -/

namespace Panda

/-- the operations of an integer type that the algorithms use; comparisons and the constants 0, 1, -1 never fail -/
structure Arith where
  add : Int → Int → Outcome Int
  sub : Int → Int → Outcome Int
  mul : Int → Int → Outcome Int
  div : Int → Int → Outcome Int
  mod : Int → Int → Outcome Int
  neg : Int → Outcome Int
  abs : Int → Outcome Int
  /-- conversion from `int` -/
  ofInt : Int → Outcome Int
  /-- conversion to `int` -/
  toInt : Int → Outcome Int
  /-- `-factor * entry` with a factor of type `int`, converted to `int` (algorithm_map_operations.cpp:137) -/
  factor : Int → Int → Outcome Int

/-- result of an operation of a signed type with `n` bits: undefined if the exact result does not fit -/
def machineInt (n : Nat) (x : Int) : Outcome Int := if -2 ^ (n - 1) ≤ x ∧ x ≤ 2 ^ (n - 1) - 1 then .ok x else .ub

/-- `int32_t` and `int64_t`.  Conversions between `int` and these types are those of `Verif.Model.Cast`. -/
def fixedArith (n : Nat) : Arith where
  add a b := machineInt n (a + b)
  sub a b := machineInt n (a - b)
  mul a b := machineInt n (a * b)
  div a b := if b = 0 then .ub else machineInt n (a.tdiv b)
  mod a b := if b = 0 then .ub else (machineInt n (a.tdiv b)).bind fun _ => machineInt n (a.tmod b)
  neg a := machineInt n (-a)
  abs a := if a < 0 then machineInt n (-a) else .ok a
  ofInt a := .ok (narrow n a)
  toInt a := .ok (narrow 32 a)
  factor f e := (machineInt 32 (-f)).bind fun g => (machineInt (max n 32) (g * e)).bind fun p => .ok (narrow 32 p)

/-- `int16_t`: the operations are done with type `int`, where they do not overflow, and the result is converted back, which
does not fail but may change the value -/
def int16Arith : Arith where
  add a b := .ok (narrow 16 (a + b))
  sub a b := .ok (narrow 16 (a - b))
  mul a b := .ok (narrow 16 (a * b))
  div a b := if b = 0 then .ub else .ok (narrow 16 (a.tdiv b))
  mod a b := if b = 0 then .ub else .ok (narrow 16 (a.tmod b))
  neg a := .ok (narrow 16 (-a))
  abs a := .ok (narrow 16 a.natAbs)
  ofInt a := .ok (narrow 16 a)
  toInt a := .ok (narrow 32 a)
  factor f e := (machineInt 32 (-f)).bind fun g => machineInt 32 (g * e)

/-- `SafeInteger` (`Verif.Model.SafeInteger`).  There is no product of an `int` and a `SafeInteger`: in
algorithm_map_operations.cpp:137 the entry is converted to `int` (as for `BigInteger`). -/
def safeArith : Arith where
  add := Safe.add
  sub := Safe.sub
  mul := Safe.mul
  div := Safe.div
  mod := Safe.mod
  neg := Safe.neg
  abs := Safe.abs
  ofInt := Safe.ofSigned
  toInt := Safe.toInt
  factor f e := (machineInt 32 (-f)).bind fun g => (Safe.toInt e).bind fun e' => machineInt 32 (g * e')

/-- the blocks of a natural number, least significant first; `fuel` larger than the number suffices -/
def bigBlocks (w : Nat) : Nat → Nat → List Nat
  | 0, n => [n]
  | fuel + 1, n => if n < 2 ^ w then [n] else n % 2 ^ w :: bigBlocks w fuel (n / 2 ^ w)

/-- the `BigInteger` with the given value; there is exactly one (`C32_representation`) -/
def bigOf (z : Int) : Big := { neg := decide (z < 0), data := bigBlocks 64 z.natAbs z.natAbs }

/-- value of the result of an operation of `BigInteger` -/
def bigResult (x : Outcome Big) : Outcome Int := x.bind fun b => .ok (Big.value 64 b)

/-- `BigInteger` (`Verif.Model.BigInteger`) with 64-bit blocks, where conversions to `int` wrap around -/
def bigArith : Arith where
  add a b := bigResult (Big.add 64 true (bigOf a) (bigOf b))
  sub a b := bigResult (Big.sub 64 true (bigOf a) (bigOf b))
  mul a b := bigResult (Big.mul 64 true (bigOf a) (bigOf b))
  div a b := bigResult (Big.div 64 true (bigOf a) (bigOf b))
  mod a b := bigResult (Big.mod 64 true (bigOf a) (bigOf b))
  neg a := .ok (Big.value 64 (Big.negate (bigOf a)))
  abs a := .ok (Big.value 64 (Big.abs (bigOf a)))
  ofInt a := .ok (Big.value 64 (Big.ofSigned 64 a))
  toInt a := Big.toInt 64 true (bigOf a)
  factor f e := (machineInt 32 (-f)).bind fun g => (Big.toInt 64 true (bigOf e)).bind fun e' => machineInt 32 (g * e')

/-- `IntegerTypeSelector::select` (integer_type_selection.tpp:34-67): the type of the computation; the default is `int` -/
def selectArith : IntegerType → Arith
  | .fixed16 => int16Arith
  | .fixed32 => fixedArith 32
  | .fixed64 => fixedArith 64
  | .safe => safeArith
  | .variable => bigArith
  | .default => fixedArith 32

namespace Typed

/-- a loop over a list that collects results -/
def traverse {α β : Type} (f : α → Outcome β) : List α → Outcome (List β)
  | [] => .ok []
  | a :: as => (f a).bind fun b => (traverse f as).bind fun bs => .ok (b :: bs)

/-- a loop over a list that updates a state -/
def foldM {α β : Type} (f : β → α → Outcome β) : β → List α → Outcome β
  | b, [] => .ok b
  | b, a :: as => (f b a).bind fun b' => foldM f b' as

/-- `std::transform` of two ranges -/
def zipRow (f : Int → Int → Outcome Int) : Row → Row → Outcome Row
  | a :: as, b :: bs => (f a b).bind fun c => (zipRow f as bs).bind fun cs => .ok (c :: cs)
  | _, _ => .ok []

variable (A : Arith)

/-! ## algorithm_integer_operations.cpp, algorithm_row_operations.cpp -/

/-- the loop of `unsigned_gcd` (algorithm_integer_operations.cpp:50-60); `fuel` as in `Panda.gcdLoop`.  For operands that are
not negative it suffices; with a negative operand (`abs(-32768)` of type `int16_t`) the loop may never end, for which
`.ub` stands. -/
def gcdLoop : Nat → Int → Int → Outcome Int
  | 0, a, b => if a ≠ 0 ∧ b ≠ 0 then .ub else .ok (if a = 0 then b else a)
  | fuel + 1, a, b =>
    if a ≠ 0 ∧ b ≠ 0 then
      if a > b then (A.mod a b).bind fun r => gcdLoop fuel r b else (A.mod b a).bind fun r => gcdLoop fuel a r
    else .ok (if a = 0 then b else a)

/-- `algorithm::gcd(a, b)` (algorithm_integer_operations.cpp:24-29) -/
def gcd (a b : Int) : Outcome Int :=
  (A.abs a).bind fun x => (A.abs b).bind fun y => gcdLoop A (x.natAbs + y.natAbs) x y

/-- `row += row` (algorithm_row_operations.cpp:133-139) -/
def rowAdd (a b : Row) : Outcome Row := zipRow A.add a b

/-- `row -= row` (algorithm_row_operations.cpp:149-155) -/
def rowSub (a b : Row) : Outcome Row := zipRow A.sub a b

/-- `row *= factor` (algorithm_row_operations.cpp:165-176) -/
def rowScale (r : Row) (f : Int) : Outcome Row := if f ≠ 1 then traverse (fun x => A.mul x f) r else .ok r

/-- `row /= divisor` for a divisor different from zero (algorithm_row_operations.cpp:198-206) -/
def rowQuot (r : Row) (d : Int) : Outcome Row := if d ≠ 1 then traverse (fun x => A.div x d) r else .ok r

/-- `std::inner_product` (algorithm_row_operations.cpp:215-220) -/
def dotLoop : Int → Row → Row → Outcome Int
  | acc, x :: xs, y :: ys => (A.mul x y).bind fun p => (A.add acc p).bind fun s => dotLoop s xs ys
  | acc, _, _ => .ok acc

/-- `row * row` (algorithm_row_operations.cpp:215-220) -/
def dot (a b : Row) : Outcome Int := dotLoop A 0 a b

/-- second loop of `gcd(row)` (algorithm_row_operations.cpp:260-263) -/
def rowGcdLoop : Int → Row → Outcome Int
  | v, [] => .ok v
  | v, x :: xs => if v > 1 then (gcd A x v).bind fun g => rowGcdLoop g xs else .ok v

/-- `algorithm::gcd(row)` (algorithm_row_operations.cpp:245-265) -/
def rowGcd : Row → Outcome Int
  | [] => .ok 0
  | x :: xs => if x = 0 then rowGcd xs else (A.abs x).bind fun v => rowGcdLoop A v xs

/-- `g = gcd(row); if (g > 1) row /= g;` (e.g. algorithm_fourier_motzkin_elimination.cpp:438-442) -/
def makePrimitive (r : Row) : Outcome Row :=
  (rowGcd A r).bind fun g => if g > 1 then rowQuot A r g else .ok r

/-! ## algorithm_matrix_operations.cpp -/

/-- `matrix * vector` (algorithm_matrix_operations.cpp:40-50) -/
def matVec (m : Matrix) (v : Row) : Outcome Row := traverse (fun r => dot A r v) m

/-- `normalizeColumn` (algorithm_matrix_operations.cpp:206-222) -/
def normalizeColumn (m : Matrix) (column : Nat) : Outcome Matrix :=
  (foldM (gcd A) 0 (m.map fun r => r.getD column 0)).bind fun g =>
    if g > 1 then traverse (fun r : Row => (A.div (r.getD column 0) g).bind fun q => .ok (r.set column q)) m else .ok m

/-- `eliminateColumn` (algorithm_matrix_operations.cpp:224-235) -/
def eliminateColumn (m : Matrix) (row col ecol : Nat) : Outcome Matrix :=
  (A.neg (entry m row col)).bind fun a =>
    let b := entry m row ecol
    traverse (fun r : Row => (A.mul (r.getD ecol 0) a).bind fun p => (A.mul (r.getD col 0) b).bind fun q =>
      (A.add p q).bind fun s => .ok (r.set ecol s)) m

/-- one iteration of the loop of `eliminateColumns` (algorithm_matrix_operations.cpp:247-253) -/
def eliminateColumnsStep (row col : Nat) (m : Matrix) (i : Nat) : Outcome Matrix :=
  if i ≠ col ∧ entry m row i ≠ 0 then (eliminateColumn A m row col i).bind fun m' => normalizeColumn A m' i else .ok m

/-- `eliminateColumns` (algorithm_matrix_operations.cpp:238-254) -/
def eliminateColumns (m : Matrix) (row col : Nat) : Outcome Matrix :=
  foldM (eliminateColumnsStep A row col) m (List.range (colSize m))

/-- the loop of `gaussianElimination` (algorithm_matrix_operations.cpp:127-145), as `Panda.gaussLoop` -/
def gaussLoop (t : Nat) : Nat → Nat → GaussState → Outcome GaussState
  | 0, _, s => .ok s
  | fuel + 1, row, s =>
    if row < s.m.length then
      let pc := pivot s.m row s.used
      if pc.1 = s.m.length then .ok s
      else
        (eliminateColumns A s.m pc.1 pc.2).bind fun m' =>
        gaussLoop t fuel (pc.1 + 1)
          { m := m'
            used := s.used ++ [pc.2]
            L := if pc.1 ≥ t then s.L ++ [pc.2] else s.L
            T := if pc.1 ≥ t then s.T else s.T ++ [pc.1] }
    else .ok s

/-- sign fix of one column (algorithm_matrix_operations.cpp:146-158) -/
def fixSign (m : Matrix) (col : Nat) : Outcome Matrix :=
  match m.find? fun r => decide (r.getD col 0 ≠ 0) with
  | some r =>
    if r.getD col 0 < 0 then traverse (fun r : Row => (A.mul (r.getD col 0) (-1)).bind fun x => .ok (r.set col x)) m else .ok m
  | none => .ok m

/-- `gaussianElimination` (algorithm_matrix_operations.cpp:116-160) -/
def gaussianElimination (m : Matrix) : Outcome (Matrix × List Nat × List Nat) :=
  (gaussLoop A (m.length - colSize m) m.length 0 { m := m, used := [], L := [], T := [] }).bind fun s =>
  (foldM (fixSign A) s.m (List.range (colSize m))).bind fun m' => .ok (m', s.L, s.T)

/-- as `Panda.gaussSplit` (algorithm_matrix_operations.cpp:177-187, algorithm_fourier_motzkin_elimination.cpp:76-87) -/
def gaussSplit (input : Matrix) : Outcome (Matrix × Matrix × List Nat) :=
  (gaussianElimination A (appendNegativeIdentityMatrix input)).bind fun res =>
    let bottom := res.1.drop input.length
    let sp := splitEquations (transpose bottom) (sortDesc res.2.1)
    .ok (sp.1, sp.2, res.2.2)

/-- `algorithm::extractEquations(matrix)` (algorithm_matrix_operations.cpp:174-188) -/
def extractEquations (input : Matrix) : Outcome Matrix :=
  if input = [] ∨ colSize input = 0 then .ub else (gaussSplit A input).bind fun gs => .ok gs.1

/-! ## algorithm_fourier_motzkin_elimination.cpp -/

section
variable {B : Type} (ops : BitsetOps B)

/-- `initializeR` (algorithm_fourier_motzkin_elimination.cpp:503-526) -/
def initializeR (m vs : Matrix) : Outcome (List B) :=
  traverse (fun row => foldM (fun b j => (dot A row (vs.getD j [])).bind fun s => .ok (if s < 0 then ops.set b j else b))
    (ops.new vs.length) (List.range m.length)) m

/-- the new row of a pair (algorithm_fourier_motzkin_elimination.cpp:437-442) -/
def combineRows (m : Matrix) (s : Row) (n p : Nat) : Outcome Row :=
  (rowScale A (m.getD n []) (s.getD p 0)).bind fun x => (rowScale A (m.getD p []) (s.getD n 0)).bind fun y =>
    (rowSub A x y).bind fun d => makePrimitive A d

/-- `updateSystem` (algorithm_fourier_motzkin_elimination.cpp:407-446) -/
def updateSystem (m : Matrix) (R : List B) (dflt : B) (i : Nat) (neg zeros : List Nat) (s : Row)
    (pnrs : List (Pnr B)) : Outcome (Matrix × List B) :=
  (traverse (fun q : Pnr B => combineRows A m s q.1 q.2.1) pnrs).bind fun new =>
  .ok (zeros.map (fun z => m.getD z []) ++ neg.map (fun n => m.getD n []) ++ new,
   zeros.map (fun z => R.getD z dflt) ++ neg.map (fun n => ops.set (R.getD n dflt) i) ++ pnrs.map (fun q => q.2.2))

/-- `projection` (algorithm_fourier_motzkin_elimination.cpp:284-315) -/
def projection (mR : Matrix × List B) (dflt : B) (vertex : Row) (index : Nat) : Outcome (Matrix × List B) :=
  let m := mR.1
  let R := mR.2
  let maxCount := index + 2 - vertex.length
  (matVec A m vertex).bind fun s =>
  let neg := indicesNeg s
  let zeros := sortByCount (fun z => ops.count (R.getD z dflt) index) (indicesZero s)
  let pos := indicesPos s
  let pnrs := (pairs neg pos).foldl (pairStep ops R dflt zeros maxCount index) []
  updateSystem A ops m R dflt index neg zeros s pnrs

/-- loop of `phaseTwo` (algorithm_fourier_motzkin_elimination.cpp:342-350) -/
def phaseTwoLoop (dflt : B) : Nat → Matrix → Matrix × List B → Outcome (Matrix × List B)
  | _, [], mR => .ok mR
  | i, v :: vs, mR => (projection A ops mR dflt v i).bind fun mR' => phaseTwoLoop dflt (i + 1) vs mR'

/-- `phaseTwo` (algorithm_fourier_motzkin_elimination.cpp:335-352) -/
def phaseTwo (m vs : Matrix) : Outcome Matrix :=
  let d := colSize m
  let dflt := ops.new vs.length
  (initializeR A ops m vs).bind fun R =>
  (phaseTwoLoop A ops dflt d (vs.drop d) (m, R)).bind fun mR => .ok (detectBadRow mR.1)

end

/-- `fourierMotzkinElimination` (algorithm_fourier_motzkin_elimination.cpp:73-101) -/
def fourierMotzkinElimination (input : Matrix) : Outcome Matrix :=
  if validInput input then
    (gaussSplit A input).bind fun gs =>
    let ez := eliminateZeroColumns gs.2.1 input
    let vs := reorder ez.2.1 gs.2.2
    (phaseTwo A (dispatchOps vs.length) ez.1 vs).bind fun m => .ok (reinsertZeroColumns m ez.2.2)
  else .ub

/-! ## algorithm_map_operations.cpp, algorithm_classes.cpp -/

/-- `applyTerm` (algorithm_map_operations.cpp:42-56) -/
def applyTerm (tag : Tag) (input : Row) (index : Nat) (result : Row) (term : Term) : Outcome Row :=
  match tag with
  | .facet =>
    match input[index]?, result[term.1]? with
    | some x, some y => (A.ofInt term.2).bind fun f => (A.mul f x).bind fun p => (A.add y p).bind fun s => .ok (result.set term.1 s)
    | _, _ => .ub
  | .vertex =>
    match input[term.1]?, result[index]? with
    | some x, some y => (A.ofInt term.2).bind fun f => (A.mul f x).bind fun p => (A.add y p).bind fun s => .ok (result.set index s)
    | _, _ => .ub

/-- inner loop of `apply` (algorithm_map_operations.cpp:67-70) -/
def applyImage (tag : Tag) (input : Row) (index : Nat) : Row → Image → Outcome Row
  | result, [] => .ok result
  | result, t :: ts => (applyTerm A tag input index result t).bind fun r => applyImage tag input index r ts

/-- outer loop of `apply` (algorithm_map_operations.cpp:64-71) -/
def applyLoop (tag : Tag) (input : Row) : Nat → Row → SymMap → Outcome Row
  | _, result, [] => .ok result
  | i, result, im :: ims => (applyImage A tag input i result im).bind fun r => applyLoop tag input (i + 1) r ims

/-- `algorithm::apply` (algorithm_map_operations.cpp:59-78) -/
def applyMap (map : SymMap) (row : Row) (tag : Tag) : Outcome Row :=
  (applyLoop A tag row 0 (List.replicate row.length 0) map).bind fun r => makePrimitive A r

/-- inner loop of `getClass` (algorithm_classes.cpp:45-55) -/
def classInner (tag : Tag) (current : Row) : Maps → List Row → List Row → Outcome (List Row × List Row)
  | [], rows, stack => .ok (rows, stack)
  | m :: ms, rows, stack =>
    (applyMap A m current tag).bind fun new =>
      if (setInsert new rows).2 then classInner tag current ms (setInsert new rows).1 (new :: stack)
      else classInner tag current ms (setInsert new rows).1 stack

/-- outer loop of `getClass` (algorithm_classes.cpp:41-56) -/
def getClassLoop (maps : Maps) (tag : Tag) : Nat → List Row → List Row → Run (List Row)
  | _, rows, [] => some (.ok rows)
  | 0, _, _ :: _ => none
  | fuel + 1, rows, cur :: stack =>
    Run.bind (some (classInner A tag cur maps rows stack)) fun r => getClassLoop maps tag fuel r.1 r.2

/-- `algorithm::getClass` (algorithm_classes.cpp:32-58) -/
def getClass (fuel : Nat) (row : Row) (maps : Maps) (tag : Tag) : Run (List Row) := getClassLoop A maps tag fuel [row] [row]

/-- loop of `classes(set)` (algorithm_classes.cpp:70-84) -/
def classesLoop (maps : Maps) (tag : Tag) (fuel : Nat) : Nat → List Row → Matrix → Run Matrix
  | _, [], acc => some (.ok acc)
  | 0, _ :: _, _ => none
  | k + 1, r :: rs, acc =>
    Run.bind (getClass A fuel r maps tag) fun cls =>
      classesLoop maps tag fuel k ((r :: rs).filter fun x => !(cls.elem x)) (acc ++ [setLast cls])

/-- `algorithm::classes(matrix)` (algorithm_classes.cpp:60-86) -/
def classes (fuel : Nat) (input : Matrix) (maps : Maps) (tag : Tag) : Run Matrix :=
  classesLoop A maps tag fuel fuel (setOf input) []

/-- loop of `expandInequalities` / `expandVertices` (input.cpp:443-448, 459-464) -/
def expandLoop (fuel : Nat) (maps : Maps) (tag : Tag) : Matrix → Run Matrix
  | [] => some (.ok [])
  | r :: rs =>
    Run.bind (getClass A fuel r maps tag) fun cls =>
      Run.bind (expandLoop fuel maps tag rs) fun rest => some (.ok (cls ++ rest))

/-- `expandInequalities` (tag facet, input.cpp:436-450) and `expandVertices` (tag vertex, input.cpp:452-466) -/
def expand (fuel : Nat) (matrix : Matrix) (maps : Maps) (tag : Tag) : Run Matrix :=
  if maps = [] then some .thrown else expandLoop A fuel maps tag matrix

/-- the replacement of one term by the equation (algorithm_map_operations.cpp:130-144) -/
def replaceTerm (index : Nat) (equation : Row) (term : Term) : Outcome Image :=
  if term.1 = index then
    traverse (fun j => (A.factor term.2 (equation.getD j 0)).bind fun f => .ok (j, f))
      ((List.range equation.length).filter fun j => decide (index < j) && decide (equation.getD j 0 ≠ 0))
  else .ok [term]

/-- body of the loop of `subtractEquation` for one image (algorithm_map_operations.cpp:126-146), see
`Panda.subtractEquationImage` -/
def subtractEquationImage (index : Nat) (equation : Row) : Image → Outcome Image
  | [] => .ok []
  | [t] => replaceTerm A index equation t
  | _ :: _ :: _ => .ub

/-- `subtractEquation` (algorithm_map_operations.cpp:122-148) -/
def subtractEquation (index : Nat) (equation : Row) (map : SymMap) : Outcome SymMap :=
  traverse (subtractEquationImage A index equation) map

/-- `subtractEquations` (algorithm_map_operations.cpp:151-161) -/
def subtractEquations : SymMap → List Row → Outcome SymMap
  | map, [] => .ok map
  | map, e :: es => (subtractEquation A (firstNonzero e) e map).bind fun m => subtractEquations m es

/-- the loop of `simplify` on one image (algorithm_map_operations.cpp:170-183), see `Panda.simplifyLoop`; the factors are of
type `int` -/
def simplifyLoop : Nat → List Term → Image → Outcome Image
  | 0, done, rest => .ok (done.reverse ++ rest)
  | _ + 1, done, [] => .ok done.reverse
  | _ + 1, done, [a] => .ok (done.reverse ++ [a])
  | fuel + 1, done, a :: b :: rest =>
    if a.1 = b.1 then
      (machineInt 32 (a.2 + b.2)).bind fun s =>
      if s = 0 then
        if done = [] then (if rest = [] then .ok [] else .ub)
        else simplifyLoop fuel done.tail (done.headD (0, 0) :: rest)
      else simplifyLoop fuel done ((a.1, s) :: rest)
    else simplifyLoop fuel (a :: done) (b :: rest)

/-- `simplify` (algorithm_map_operations.cpp:165-185) -/
def simplifyMap (map : SymMap) : Outcome SymMap := traverse (fun im => simplifyLoop (2 * im.length) [] (sortImage im)) map

/-- `normalizeMap` (algorithm_map_operations.cpp:190-197) -/
def normalizeMap (map : SymMap) (equations : Matrix) : Outcome SymMap :=
  (eliminateZeroCoefficients map (eliminatedIndices equations)).bind fun m =>
    (subtractEquations A m equations).bind simplifyMap

/-- `algorithm::normalize(maps, equations)` (algorithm_map_operations.cpp:30-38) -/
def normalizeMaps (maps : Maps) (equations : Matrix) : Outcome Maps := traverse (fun m => normalizeMap A m equations) maps

/-! ## method_double_description.cpp -/

/-- `FacetEnumerationDoubleDescription::call` (method_double_description.cpp:128-152) on the data read from the input.  All rows
are converted to `int` when they are printed.  The equations are printed before the elimination starts: when it fails they
have already appeared; the model gives the output of complete runs only. -/
def facetEnumerationDD (fuel : Nat) (vertices : Matrix) (maps : Maps) : Run FacetOutput :=
  Run.bind (.lift (traverse (traverse A.ofInt) vertices)) fun vertices =>
  Run.bind (.lift (extractEquations A vertices)) fun equations =>
  Run.bind (.lift (normalizeMaps A maps equations)) fun reducedMaps =>
  Run.bind (.lift (traverse (traverse A.toInt) equations)) fun equations =>
  Run.bind (.lift (fourierMotzkinElimination A vertices)) fun inequalities =>
  Run.bind (classes A fuel inequalities reducedMaps .facet) fun inequalities =>
  Run.bind (.lift (traverse (traverse A.toInt) inequalities)) fun inequalities =>
  some (.ok ⟨equations, decide (maps ≠ []), inequalities⟩)

/-- `VertexEnumerationDoubleDescription::call` and `print` (method_double_description.cpp:82-113, 166-181) on the data read
from the input -/
def vertexEnumerationDD (fuel : Nat) (inequalities : Matrix) (maps : Maps) : Run VertexOutput :=
  Run.bind (.lift (traverse (traverse A.ofInt) inequalities)) fun inequalities =>
  Run.bind (.lift (fourierMotzkinElimination A inequalities)) fun matrix =>
  Run.bind (classes A fuel matrix maps .vertex) fun matrix =>
  Run.bind (.lift (traverse (traverse A.toInt) (splitVertices matrix).1)) fun conv =>
  Run.bind (.lift (traverse (traverse A.toInt) ((splitVertices matrix).2.map List.dropLast))) fun cone =>
  some (.ok ⟨decide (maps ≠ []), conv, cone⟩)

end Typed

end Panda
