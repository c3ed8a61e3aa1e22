import Verif.Model.Text
import Verif.Model.Maps

/-! # Reading vertices and rays

Model of `/repo/src/input_vertex.cpp`. -/

namespace Panda

/-- an `int` computation: overflow is undefined behaviour -/
def fitInt (z : Int) : Outcome Int := if intMin ≤ z ∧ z ≤ intMax then .ok z else .ub

/-- the loop of `vertex` (input_vertex.cpp:120-143).  `tmp` is the variable of that name (a failed extraction leaves
it unchanged or sets it).  `fuel` bounds the iterations: every iteration consumes a character. -/
def vertexLoop : Nat → Int → Stream → Row → Row → Outcome (Stream × Row × Row)
  | 0, _, s, num, den => .ok (s, num, den)
  | fuel + 1, tmp, s, num, den =>
    let r1 := readInt tmp s
    if r1.1.fail then .ok (r1.1, num, den)
    else
      let s2 := (skipWhitespace r1.1).peek
      if s2.2 = some '/' then
        let r2 := readInt r1.2 s2.1.get.1
        if r2.2 = 0 then .thrown
        else
          let s3 := (skipWhitespace r2.1).peek
          if s3.2 = some '\n' then .ok (s3.1, num ++ [r1.2], den ++ [r2.2])
          else vertexLoop fuel r2.2 s3.1 (num ++ [r1.2]) (den ++ [r2.2])
      else
        let s3 := (skipWhitespace s2.1).peek
        if s3.2 = some '\n' then .ok (s3.1, num ++ [r1.2], den ++ [1])
        else vertexLoop fuel r1.2 s3.1 (num ++ [r1.2]) (den ++ [1])

/-- `numerator[i] *= lcm_value / denominator[i]` (input_vertex.cpp:152-155) -/
def scaleNumerators (l : Int) : Row → Row → Outcome Row
  | x :: xs, d :: ds => (fitInt (x * l.tdiv d)).bind fun y => (scaleNumerators l xs ds).bind fun ys => .ok (y :: ys)
  | _, _ => .ok []

/-- `algorithm::lcm(denominator)` on `int` (input_vertex.cpp:149): the absolute value of `INT_MIN` overflows, and so
does a product exceeding the largest `int`; since the intermediate results divide the final one, this happens iff the
final result is too large -/
def lcmInts (den : Row) : Outcome Int := if intMin ∈ den then .ub else (rowLcm den).bind fitInt

/-- `vertex` (input_vertex.cpp:113-159) -/
def vertex (s : Stream) : Outcome (Stream × Row) :=
  (optionalIdentifier (skipWhitespace s)).bind fun s1 =>
    let s2 := skipWhitespace s1
    (vertexLoop (s2.rest.length + 1) 0 s2 [] []).bind fun r =>
      if r.2.1 = [] then .ok (r.1, [])
      else (lcmInts r.2.2).bind fun l => (scaleNumerators l r.2.1 r.2.2).bind fun row => .ok (r.1, row ++ [l])

/-- the loop of `verticesConvex` (input_vertex.cpp:76-88); `none`: still running after `fuel` iterations -/
def convexLoop : Nat → Stream → Matrix → Run (Stream × Matrix)
  | 0, _, _ => none
  | fuel + 1, s, conv =>
    if s.fail then some (.ok (s, conv))
    else
      let p := peekLine s
      if isKeyword (trimWhitespace p.2) then some (.ok (p.1, conv))
      else if trimWhitespace (peekLine p.1).2 = [] then convexLoop fuel (getLine (peekLine p.1).1).1 conv
      else
        match vertex (peekLine p.1).1 with
        | .ok (s', v) => convexLoop fuel s' (if v = [] then conv else conv ++ [v])
        | .thrown => some .thrown
        | .ub => some .ub

/-- the loop of `verticesConical` (input_vertex.cpp:38-55) -/
def conicalLoop : Nat → Stream → Matrix → Run (Stream × Matrix)
  | 0, _, _ => none
  | fuel + 1, s, cone =>
    if s.fail then some (.ok (s, cone))
    else
      let p := peekLine s
      if isKeyword (trimWhitespace p.2) then some (.ok (p.1, cone))
      else if trimWhitespace (peekLine p.1).2 = [] then conicalLoop fuel (getLine (peekLine p.1).1).1 cone
      else
        match vertex (peekLine p.1).1 with
        | .ok (s', v) => if v = [] then conicalLoop fuel s'.clear cone else conicalLoop fuel s' (cone ++ [v.dropLast ++ [0]])
        | .thrown => some .thrown
        | .ub => some .ub

/-- the end of a section (input_vertex.cpp:56-59, 89-92; input_constraint.cpp:52-55; input_map.cpp:56-59) -/
def skipEnd (s : Stream) : Stream :=
  if s.fail then s
  else if isKeywordEnd (firstWord (peekLine s).2) then (getLine (peekLine s).1).1 else (peekLine s).1

/-- `verticesConvex` (input_vertex.cpp:63-94) -/
def verticesConvex (fuel : Nat) (s : Stream) : Run (Stream × Matrix) :=
  let g := getLine s
  if g.1.fail then some .thrown
  else
    let token := trimWhitespace (g.2.getD [])
    if isKeywordConvexHull token || isKeywordReducedConvexHull token then
      Run.bind (convexLoop fuel g.1 []) fun r => some (.ok (skipEnd r.1, r.2))
    else some .thrown

/-- `verticesConical` (input_vertex.cpp:25-61) -/
def verticesConical (fuel : Nat) (s : Stream) : Run (Stream × Matrix) :=
  let g := getLine s
  if g.1.fail then some .thrown
  else
    let token := trimWhitespace (g.2.getD [])
    if isKeywordConicalHull token || isKeywordReducedConicalHull token then
      Run.bind (conicalLoop fuel g.1 []) fun r => some (.ok (skipEnd r.1, r.2))
    else some .thrown

end Panda
