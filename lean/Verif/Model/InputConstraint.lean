import Verif.Model.InputVertex
import Verif.Model.Print

/-! # Reading inequalities and equations

Model of `/repo/src/input_constraint.cpp`, `/repo/src/input_constraint_named_variables.cpp` and
`/repo/src/input_constraint_unnamed_variables.cpp`. -/

namespace Panda

/-- the loop of `containsNames` (input_common.cpp:207-222): `word` is the partial match, `counter` the number of
characters read.  At the end of the file `get` returns -1, which is appended as the character 255. -/
def containsLoop (names : Names) : List Char → List Char → Nat → Bool
  | [], word, counter =>
    if word = [] ∧ 2000 ≤ counter then false
    else
      match names.find? fun n => (word ++ [Char.ofNat 255]).isPrefixOf n with
      | some n => decide (n = word ++ [Char.ofNat 255])
      | none => false
  | c :: cs, word, counter =>
    if word = [] ∧ 2000 ≤ counter then false
    else
      match names.find? fun n => (word ++ [c]).isPrefixOf n with
      | some n => if n = word ++ [c] then true else containsLoop names cs (word ++ [c]) (counter + 1)
      | none => containsLoop names cs [] (counter + 1)

/-- `containsNames` (input_common.cpp:197-225) for a good stream; the position is restored -/
def containsNames (names : Names) (s : Stream) : Bool := containsLoop names s.rest [] 0

/-- the characters of a factor (input_constraint_named_variables.cpp:50) -/
def isFactorChar (c : Char) : Bool := c = '+' || c = '-' || isDigitChar c

/-- `term` (input_constraint_named_variables.cpp:47-65): index of the variable (or number of variables for a constant)
and coefficient (negated for a constant) -/
def term (token : List Char) (names : Names) : Outcome (Nat × Int) :=
  if token = [] then .ub
  else
    (toInt (token.takeWhile isFactorChar)).bind fun factor =>
      if token.dropWhile isFactorChar = [] then (negInt factor).bind fun f => .ok (names.length, f)
      else if token.dropWhile isFactorChar ∈ names then .ok (names.idxOf (token.dropWhile isFactorChar), factor)
      else .thrown

/-- the condition of the loops over a line (input_constraint_named_variables.cpp:80,
input_constraint_unnamed_variables.cpp:47); the two tests clear the state bits -/
def lineContinues (s : Stream) : Bool := !s.fail && !(isEndOfLine s).2 && !(isEndOfFile (isEndOfLine s).1).2

/-- reading a relation operator and checking it against the kind of constraint
(input_constraint_named_variables.cpp:84-96, input_constraint_unnamed_variables.cpp:51-63) -/
def readRelation (equation : Bool) (relation : Relation) (s : Stream) : Outcome (Stream × Relation) :=
  if relation ≠ .undecided then .thrown
  else (relationOperator s).bind fun r =>
    if equation = true ∧ r.2 ≠ .equal then .thrown
    else if equation = false ∧ r.2 = .equal then .thrown
    else .ok r

/-- reading a token with its sign (input_constraint_named_variables.cpp:99-120) -/
def signedTerm (s : Stream) (names : Names) : Outcome (Stream × Nat × Int) :=
  let r := readWord s
  let token := r.2.getD []
  if token = ['+'] ∨ token = ['-'] then
    let r2 := readWord r.1
    (term (r2.2.getD token) names).bind fun t =>
      if t.2 < 0 then .thrown
      else .ok (r2.1, t.1, if token = ['+'] then t.2 else -t.2)
  else (term token names).bind fun t => .ok (r.1, t.1, t.2)

/-- the loop over a line with named variables (input_constraint_named_variables.cpp:80-141); every iteration consumes
a character or makes the stream fail -/
def namedLoop (names : Names) (equation : Bool) :
    Nat → Stream → Row → Relation → Bool → Outcome (Stream × Row × Relation × Bool)
  | 0, s, ieq, relation, hasRhs => .ok (s, ieq, relation, hasRhs)
  | fuel + 1, s, ieq, relation, hasRhs =>
    if lineContinues s = false then .ok (if s.fail then s else s.clear, ieq, relation, hasRhs)
    else if isRelation s.clear then
      (readRelation equation relation s.clear).bind fun r =>
        namedLoop names equation fuel (skipWhitespace r.1) ieq r.2 hasRhs
    else
      (signedTerm s.clear names).bind fun t =>
        if ieq.getD t.2.1 0 ≠ 0 ∧ t.2.1 + 1 < ieq.length then .thrown
        else if hasRhs = true then .thrown
        else if t.2.1 + 1 = ieq.length ∧ relation = .undecided then .thrown
        else namedLoop names equation fuel (skipWhitespace t.1) (ieq.set t.2.1 t.2.2) relation
          (hasRhs || decide (t.2.1 + 1 = ieq.length))

/-- `constraint` with names (input_constraint_named_variables.cpp:67-147) -/
def constraintNamed (equation : Bool) (names : Names) (s : Stream) : Outcome (Stream × Row) :=
  (optionalIdentifier (skipWhitespace s)).bind fun s1 =>
    let p := peekLine (skipWhitespace s1)
    if p.2 = [] then .ok (p.1, [])
    else
      (namedLoop names equation (p.1.rest.length + 1) p.1 (List.replicate (names.length + 1) 0) .undecided false).bind fun r =>
        if r.2.2.2 = false then .thrown
        else (normalizeRelation r.2.1 r.2.2.1).bind fun row => .ok (r.1, row)

/-- the loop over a line without names (input_constraint_unnamed_variables.cpp:47-83) -/
def unnamedLoop (equation : Bool) : Nat → Stream → Row → Relation → Bool → Outcome (Stream × Row × Relation × Bool)
  | 0, s, ieq, relation, hasRhs => .ok (s, ieq, relation, hasRhs)
  | fuel + 1, s, ieq, relation, hasRhs =>
    if lineContinues s = false then .ok (if s.fail then s else s.clear, ieq, relation, hasRhs)
    else if isRelation s.clear then
      (readRelation equation relation s.clear).bind fun r =>
        unnamedLoop equation fuel (skipWhitespace r.1) ieq r.2 hasRhs
    else
      let r := readInt 0 s.clear
      if r.1.fail then .thrown
      else if hasRhs = true then .thrown
      else unnamedLoop equation fuel (skipWhitespace r.1) (ieq ++ [r.2]) relation (hasRhs || decide (relation ≠ .undecided))

/-- `constraint` without names (input_constraint_unnamed_variables.cpp:38-97) -/
def constraintUnnamed (equation : Bool) (s : Stream) : Outcome (Stream × Row) :=
  (optionalIdentifier (skipWhitespace s)).bind fun s1 =>
    let s2 := skipWhitespace s1
    (unnamedLoop equation (s2.rest.length + 1) s2 [] .undecided false).bind fun r =>
      if r.2.2.1 ≠ .undecided ∧ r.2.2.2 = false then .thrown
      else if r.2.1 = [] then .ok (r.1, [])
      else if r.2.2.1 ≠ .undecided then
        (negInt (r.2.1.getLastD 0)).bind fun b =>
          (normalizeRelation (r.2.1.dropLast ++ [b]) r.2.2.1).bind fun row => .ok (r.1, row)
      else (normalizeRelation r.2.1 r.2.2.1).bind fun row => .ok (r.1, row)

/-- `potentiallyNamedConstraint` (input_constraint.cpp:95-106) -/
def potentiallyNamedConstraint (equation : Bool) (names : Names) (s : Stream) : Outcome (Stream × Row) :=
  if names = [] ∨ containsNames names s = false then constraintUnnamed equation s else constraintNamed equation names s

/-- the loop of `constraints` (input_constraint.cpp:37-51); `none`: still running after `fuel` iterations -/
def constraintsLoop (equation : Bool) (names : Names) : Nat → Stream → Matrix → Run (Stream × Matrix)
  | 0, _, _ => none
  | fuel + 1, s, rows =>
    if s.fail then some (.ok (s, rows))
    else
      let p := peekLine s
      if isKeyword (trimWhitespace p.2) then some (.ok (p.1, rows))
      else if trimWhitespace (peekLine p.1).2 = [] then constraintsLoop equation names fuel (getLine (peekLine p.1).1).1 rows
      else
        match potentiallyNamedConstraint equation names (peekLine p.1).1 with
        | .ok (s', row) =>
          constraintsLoop equation names fuel (skipEndOfLine (skipWhitespace s')) (if row = [] then rows else rows ++ [row])
        | .thrown => some .thrown
        | .ub => some .ub

/-- `constraints` (input_constraint.cpp:31-57) with `keyword_condition` (61-93) -/
def constraints (equation : Bool) (names : Names) (fuel : Nat) (s : Stream) : Run (Stream × Matrix) :=
  let g := getLine s
  if g.1.fail then some .thrown
  else
    let token := trimWhitespace (g.2.getD [])
    if (if equation then isKeywordEquations token else isKeywordInequalities token || isKeywordReducedInequalities token) then
      Run.bind (constraintsLoop equation names fuel g.1 []) fun r => some (.ok (skipEnd r.1, r.2))
    else some .thrown

end Panda
