import Verif.Model.Maps
import Verif.Model.FME

/-! # Distances, rotation

Model of `/repo/src/algorithm_inequality_operations.cpp` and `/repo/src/algorithm_rotation.cpp`. -/

namespace Panda

/-! ## algorithm_inequality_operations.cpp -/

/-- `algorithm::rhs` (algorithm_inequality_operations.cpp:25-30); an empty row is undefined behaviour -/
def rhs (inequality : Row) : Outcome Int := if inequality = [] then .ub else .ok (-(inequality.getLastD 0))

/-- `algorithm::distance` and `scalarProduct` (algorithm_inequality_operations.cpp:32-36, 71-79); the sizes agree
(asserted there) -/
def distance (inequality vertex : Row) : Int := -(dot vertex inequality)

/-- loop of `extremalVertex` (algorithm_inequality_operations.cpp:46-55); `better d extremum` is the comparator -/
def extremalLoop (better : Int → Int → Bool) (inequality : Row) : Matrix → Int → Row → Row
  | [], _, best => best
  | v :: vs, extremum, best =>
    if better (distance inequality v) extremum then extremalLoop better inequality vs (distance inequality v) v
    else extremalLoop better inequality vs extremum best

/-- `extremalVertex` (algorithm_inequality_operations.cpp:40-57); no vertices is undefined behaviour -/
def extremalVertex (better : Int → Int → Bool) (vertices : Matrix) (inequality : Row) : Outcome Row :=
  match vertices with
  | [] => .ub
  | v :: vs => .ok (extremalLoop better inequality vs (distance inequality v) v)

/-- `algorithm::furthestVertex` (algorithm_inequality_operations.cpp:59-63) -/
def furthestVertex (vertices : Matrix) (inequality : Row) : Outcome Row :=
  extremalVertex (fun a b => decide (a > b)) vertices inequality

/-- `algorithm::nearestVertex` (algorithm_inequality_operations.cpp:65-69) -/
def nearestVertex (vertices : Matrix) (inequality : Row) : Outcome Row :=
  extremalVertex (fun a b => decide (a < b)) vertices inequality

/-! ## algorithm_rotation.cpp -/

/-- the update of the row in the loop of `rotate` (algorithm_rotation.cpp:64-76): divide the two distances by
their gcd, `ridge = d_f * ridge - d_r * facet`, divide by the gcd of the row -/
def rotateRow (facet ridge : Row) (d_f d_r : Int) : Row :=
  let g := gcd d_f d_r
  let d_f' := if g > 1 then d_f.tdiv g else d_f
  let d_r' := if g > 1 then d_r.tdiv g else d_r
  makePrimitive (rowSub (rowScale ridge d_f') (rowScale facet d_r'))

/-- the loop of `rotate` (algorithm_rotation.cpp:62-81), run for at most `fuel` iterations -/
def rotateLoop (vertices : Matrix) (facet : Row) : Nat → Row → Int → Int → Run Row
  | 0, _, _, _ => none
  | fuel + 1, ridge, d_f, d_r =>
    Run.bind (some (nearestVertex vertices (rotateRow facet ridge d_f d_r))) fun v =>
      if distance (rotateRow facet ridge d_f d_r) v = 0 then some (.ok (rotateRow facet ridge d_f d_r))
      else rotateLoop vertices facet fuel (rotateRow facet ridge d_f d_r) (distance facet v)
        (distance (rotateRow facet ridge d_f d_r) v)

/-- `rotate` (algorithm_rotation.cpp:56-83) -/
def rotate (fuel : Nat) (vertices : Matrix) (vertex facet ridge : Row) : Run Row :=
  rotateLoop vertices facet fuel ridge (distance facet vertex) (distance ridge vertex)

/-- `verticesWithZeroDistance` (algorithm_rotation.cpp:93-102) -/
def verticesWithZeroDistance (vertices : Matrix) (facet : Row) : Matrix :=
  vertices.filter fun v => decide (distance facet v = 0)

/-- `getRidges` (algorithm_rotation.cpp:85-91) -/
def getRidges (vertices : Matrix) (facet : Row) : Outcome Matrix :=
  fourierMotzkinElimination (verticesWithZeroDistance vertices facet)

/-- the loop of `rotation` over the ridges (algorithm_rotation.cpp:46-50): the rows inserted into the set, in order -/
def rotateAll (fuel : Nat) (vertices : Matrix) (vertex facet : Row) : Matrix → Run Matrix
  | [] => some (.ok [])
  | ridge :: ridges =>
    Run.bind (rotate fuel vertices vertex facet ridge) fun row =>
      Run.bind (rotateAll fuel vertices vertex facet ridges) fun rows => some (.ok (row :: rows))

/-- `algorithm::rotation` (algorithm_rotation.cpp:35-52); `classes` starts by building the set of the rows -/
def rotation (fuel : Nat) (matrix : Matrix) (input : Row) (maps : Maps) (tag : Tag) : Run Matrix :=
  Run.bind (some (furthestVertex matrix input)) fun vertex =>
  Run.bind (some (getRidges matrix input)) fun ridges =>
  Run.bind (rotateAll fuel matrix vertex input ridges) fun rows =>
  classes fuel rows maps tag

end Panda
