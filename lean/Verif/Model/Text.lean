import Verif.Model.Basic

/-! # Input streams and lexical helpers

Model of the `std::istream` operations used by the parser and of `/repo/src/input_common.cpp`,
`/repo/src/istream_peek_line.cpp` and `/repo/src/input_keywords.cpp`.

A stream is the list of characters not yet read and the two state bits `eofbit` and `failbit` (`badbit`, i.e. I/O
errors, is not modelled).  The operations follow the C++11 standard: every input operation first constructs a sentry,
which sets `failbit` if the stream is not good. -/

namespace Panda

/-- a `std::istream` -/
structure Stream where
  /-- characters not yet read -/
  rest : List Char
  /-- `eofbit` -/
  eof : Bool := false
  /-- `failbit`; the stream converts to `false` iff it is set -/
  fail : Bool := false
  deriving DecidableEq, Repr

namespace Stream

/-- `good()` -/
def good (s : Stream) : Bool := !s.eof && !s.fail

/-- `clear()` -/
def clear (s : Stream) : Stream := ⟨s.rest, false, false⟩

/-- `peek()` -/
def peek (s : Stream) : Stream × Option Char :=
  if s.good then
    match s.rest with
    | [] => (⟨[], true, false⟩, none)
    | c :: _ => (s, some c)
  else (⟨s.rest, s.eof, true⟩, none)

/-- `get()` -/
def get (s : Stream) : Stream × Option Char :=
  if s.good then
    match s.rest with
    | [] => (⟨[], true, true⟩, none)
    | c :: r => (⟨r, false, false⟩, some c)
  else (⟨s.rest, s.eof, true⟩, none)

end Stream

/-- `std::isspace` in the C locale -/
def isSpace (c : Char) : Bool :=
  c = ' ' || c = '\t' || c = '\n' || c = Char.ofNat 11 || c = Char.ofNat 12 || c = '\r'

/-- the characters of `isWhitespace` (input_common.cpp:162) -/
def isBlank (c : Char) : Bool := c = ' ' || c = '\t' || c = '\r'

/-- `std::getline` with delimiter `'\n'`; the second component is the line that is stored (`none`: the string keeps
its old value) -/
def getLine (s : Stream) : Stream × Option (List Char) :=
  if s.good then
    match s.rest.dropWhile (· ≠ '\n') with
    | _ :: r => (⟨r, false, false⟩, some (s.rest.takeWhile (· ≠ '\n')))
    | [] => (⟨[], true, s.rest.isEmpty⟩, some s.rest)
  else (⟨s.rest, s.eof, true⟩, none)

/-- `stream >> token` for a `std::string` (`none`: the string keeps its old value) -/
def readWord (s : Stream) : Stream × Option (List Char) :=
  if s.good then
    match s.rest.dropWhile isSpace with
    | [] => (⟨[], true, true⟩, none)
    | c :: r =>
      match (c :: r).dropWhile (fun c => !isSpace c) with
      | [] => (⟨[], true, false⟩, some (c :: r))
      | r' => (⟨r', false, false⟩, some ((c :: r).takeWhile fun c => !isSpace c))
  else (⟨s.rest, s.eof, true⟩, none)

/-- largest `int` -/
def intMax : Int := 2147483647
/-- smallest `int` -/
def intMin : Int := -2147483648

/-- value of a string of decimal digits -/
def digitsValue (ds : List Char) : Nat := ds.foldl (fun n c => 10 * n + (c.toNat - 48)) 0

/-- decimal digit -/
def isDigitChar (c : Char) : Bool := '0' ≤ c && c ≤ '9'

/-- sign of a number: `std::num_get` accepts one leading `+` or `-` -/
def splitSign : List Char → Bool × List Char
  | '-' :: r => (true, r)
  | '+' :: r => (false, r)
  | r => (false, r)

/-- the number read by `std::num_get` from a sign and digits (at least one), and whether the conversion fails:
overflow stores the largest or smallest `int` and fails -/
def convertInt (negative : Bool) (n : Nat) : Int × Bool :=
  let z : Int := if negative then -(n : Int) else n
  if z > intMax then (intMax, true) else if z < intMin then (intMin, true) else (z, false)

/-- `stream >> value` for an `int` (C locale, decimal): skips white space, reads an optional sign and digits.
The second component is the new value of the variable: unchanged if the sentry fails, `0` if there are no digits -/
def readInt (value : Int) (s : Stream) : Stream × Int :=
  if s.good then
    match s.rest.dropWhile isSpace with
    | [] => (⟨[], true, true⟩, value)
    | c :: r =>
      let sg := splitSign (c :: r)
      let ds := sg.2.takeWhile isDigitChar
      let rest := sg.2.dropWhile isDigitChar
      if ds = [] then (⟨rest, rest.isEmpty, true⟩, 0)
      else
        let cv := convertInt sg.1 (digitsValue ds)
        (⟨rest, rest.isEmpty, cv.2⟩, cv.1)
  else (⟨s.rest, s.eof, true⟩, value)

/-! ## input_common.cpp -/

/-- `isIdentifier` (input_common.cpp:20-27); the scope guard clears the state bits in every case -/
def isIdentifier (s : Stream) : Stream × Bool :=
  if s.fail then (s.clear, false) else (s.peek.1.clear, decide (s.peek.2 = some '('))

/-- `isEndOfFile` (input_common.cpp:124-135) -/
def isEndOfFile (s : Stream) : Stream × Bool :=
  if s.fail then (s.clear, false) else (s.peek.1.clear, decide (s.peek.2 = none))

/-- `isEndOfLine` (input_common.cpp:137-149) -/
def isEndOfLine (s : Stream) : Stream × Bool :=
  if s.fail then (s.clear, false) else (s.peek.1.clear, decide (s.peek.2 = some '\r' ∨ s.peek.2 = some '\n'))

/-- `isWhitespace` (input_common.cpp:151-163) -/
def isWhitespace (s : Stream) : Stream × Bool :=
  if s.fail then (s.clear, false) else (s.peek.1.clear, (s.peek.2.map isBlank).getD false)

/-- `skipWhitespace` (input_common.cpp:182-188): `isWhitespace` clears the state bits, so that the loop removes all
leading blanks of a stream that has not failed (and is not at the end of the file) -/
def skipWhitespace (s : Stream) : Stream :=
  if s.fail then s else if s.eof then s.clear else ⟨s.rest.dropWhile isBlank, false, false⟩

/-- `skipEndOfLine` (input_common.cpp:165-180) -/
def skipEndOfLine (s : Stream) : Stream :=
  if s.fail then s else if s.eof then s.clear else ⟨s.rest.dropWhile (fun c => c = '\r' || c = '\n'), false, false⟩

/-- `identifier` (input_common.cpp:29-54), after `isIdentifier` returned true; the identifier itself is only used in
error messages -/
def identifier (s : Stream) : Outcome Stream :=
  match s.rest with
  | '(' :: r =>
    match (r.dropWhile isBlank).dropWhile (fun c => c ≠ '\r' && c ≠ '\n' && c ≠ ')') with
    | ')' :: r' => .ok ⟨r', false, false⟩
    | _ => .thrown
  | _ => .thrown

/-- `isIdentifier(stream) ? identifier(stream) : ""` (input_vertex.cpp:116, input_constraint_named_variables.cpp:73,
input_constraint_unnamed_variables.cpp:45) -/
def optionalIdentifier (s : Stream) : Outcome Stream :=
  if (isIdentifier s).2 then identifier (isIdentifier s).1 else .ok (isIdentifier s).1

/-- `trimWhitespace` (input_common.cpp:190-195).  (`find_first_not_of` returning `npos` erases everything.) -/
def trimWhitespace (l : List Char) : List Char :=
  (((l.dropWhile isBlank).reverse).dropWhile isBlank).reverse

/-- `firstWord` (input_common.cpp:270-279) -/
def firstWord (l : List Char) : List Char := (trimWhitespace l).takeWhile fun c => c ≠ ' ' && c ≠ '\t'

/-- restoring the position with `clear()` and `seekg(position)` (istream_peek_line.cpp:16-20,
input_common.cpp:58-63, 199-204, 283-288): if `tellg()` failed (stream not good), the position is -1 and `seekg`
fails -/
def restore (saved : Stream) (now : Stream) : Stream :=
  if saved.good then ⟨saved.rest, false, false⟩ else ⟨now.rest, false, true⟩

/-- `peekLine` (istream_peek_line.cpp:11-26) -/
def peekLine (s : Stream) : Stream × List Char :=
  if s.fail then (s, []) else (restore s (getLine s).1, if s.good then (getLine s).2.getD [] else [])

/-- `input::toInt` (input_common.cpp:236-253) -/
def toInt (str : List Char) : Outcome Int :=
  if str = [] ∨ str = ['+'] then .ok 1
  else if str = ['-'] then .ok (-1)
  else if (readInt 0 ⟨str, false, false⟩).1.fail then .thrown
  else .ok (readInt 0 ⟨str, false, false⟩).2

/-- `input::RelationOperator` (input_common.h) -/
inductive Relation where
  | undecided
  | lessEqual
  | equal
  | greaterEqual
  deriving DecidableEq, Repr

/-- `isRelation` (input_common.cpp:56-78), for a good stream; the position is restored -/
def isRelation (s : Stream) : Bool :=
  match s.rest with
  | c :: c2 :: _ => (c = '<' || c = '=' || c = '>') && (c2 = '=' || isBlank c2)
  | _ => false

/-- `relationOperator` (input_common.cpp:80-122), for a good stream.  At the end of the file after a single `=` the
code finds neither `'='` nor white space and throws. -/
def relationOperator (s : Stream) : Outcome (Stream × Relation) :=
  match s.rest with
  | '<' :: '=' :: r => .ok (⟨r, false, false⟩, .lessEqual)
  | '=' :: '=' :: r => .ok (⟨r, false, false⟩, .equal)
  | '=' :: c :: r => if isBlank c then .ok (⟨c :: r, false, false⟩, .equal) else .thrown
  | '>' :: '=' :: r => .ok (⟨r, false, false⟩, .greaterEqual)
  | _ => .thrown

/-- negating an `int`: `INT_MIN` overflows -/
def negInt (z : Int) : Outcome Int := if z = intMin then .ub else .ok (-z)

/-- `row *= -1` on `int` -/
def negRow : Row → Outcome Row
  | [] => .ok []
  | x :: xs => (negInt x).bind fun y => (negRow xs).bind fun ys => .ok (y :: ys)

/-- `input::normalize` (input_common.cpp:227-234) -/
def normalizeRelation (row : Row) (r : Relation) : Outcome Row :=
  if r = .greaterEqual then negRow row else .ok row

/-! ## input_keywords.cpp -/

/-- `isKeywordEnd` (input_keywords.cpp:49-53) -/
def isKeywordEnd (s : List Char) : Bool := ["END", "End"].any fun k => k.toList = s
/-- `isKeywordConicalHull` (input_keywords.cpp:55-65) -/
def isKeywordConicalHull (s : List Char) : Bool :=
  ["CONE_SECTION", "CONE_SECTION:", "CONICAL_HULL", "CONICAL_HULL:", "CONICAL_HULL_SECTION", "CONICAL_HULL_SECTION:",
    "Rays", "Rays:"].any fun k => k.toList = s
/-- `isKeywordReducedSomething` (input_keywords.cpp:67-70) -/
def isKeywordReducedSomething (s : List Char) : Bool := ["Reduced"].any fun k => k.toList = s
/-- `isKeywordReducedConicalHull` (input_keywords.cpp:72-82) -/
def isKeywordReducedConicalHull (s : List Char) : Bool :=
  ["REDUCED_CONE_SECTION", "REDUCED_CONE_SECTION:", "REDUCED_CONICAL_HULL", "REDUCED_CONICAL_HULL:",
    "REDUCED_CONICAL_HULL_SECTION", "REDUCED_CONICAL_HULL_SECTION:", "Reduced Rays", "Reduced Rays:"].any
    fun k => k.toList = s
/-- `isKeywordConvexHull` (input_keywords.cpp:84-94) -/
def isKeywordConvexHull (s : List Char) : Bool :=
  ["CONVEX_HULL", "CONVEX_HULL:", "CONVEX_HULL_SECTION", "CONVEX_HULL_SECTION:", "CONV_SECTION", "CONV_SECTION:",
    "Vertices", "Vertices:"].any fun k => k.toList = s
/-- `isKeywordReducedConvexHull` (input_keywords.cpp:96-106) -/
def isKeywordReducedConvexHull (s : List Char) : Bool :=
  ["REDUCED_CONVEX_HULL", "REDUCED_CONVEX_HULL:", "REDUCED_CONVEX_HULL_SECTION", "REDUCED_CONVEX_HULL_SECTION:",
    "REDUCED_CONV_SECTION", "REDUCED_CONV_SECTION:", "Reduced Vertices", "Reduced Vertices:"].any fun k => k.toList = s
/-- `isKeywordDimension` (input_keywords.cpp:108-118) -/
def isKeywordDimension (s : List Char) : Bool :=
  ["DIM", "DIM=", "DIMENSION", "DIMENSION=", "Dim", "Dim=", "Dimension", "Dimension="].any fun k => k.toList = s
/-- `isKeywordEquations` (input_keywords.cpp:120-130) -/
def isKeywordEquations (s : List Char) : Bool :=
  ["EQUATIONS", "EQUATIONS:", "EQUATION_SECTION", "EQUATION_SECTION:", "EQUATIONS_SECTION", "EQUATIONS_SECTION:",
    "Equations", "Equations:"].any fun k => k.toList = s
/-- `isKeywordInequalities` (input_keywords.cpp:132-142) -/
def isKeywordInequalities (s : List Char) : Bool :=
  ["INEQUALITIES", "INEQUALITIES:", "INEQUALITY_SECTION", "INEQUALITY_SECTION:", "INEQUALITIES_SECTION",
    "INEQUALITIES_SECTION:", "Inequalities", "Inequalities:"].any fun k => k.toList = s
/-- `isKeywordReducedInequalities` (input_keywords.cpp:144-154) -/
def isKeywordReducedInequalities (s : List Char) : Bool :=
  ["REDUCED_INEQUALITIES", "REDUCED_INEQUALITIES:", "REDUCED_INEQUALITY_SECTION", "REDUCED_INEQUALITY_SECTION:",
    "REDUCED_INEQUALITIES_SECTION", "REDUCED_INEQUALITIES_SECTION:", "Reduced Inequalities",
    "Reduced Inequalities:"].any fun k => k.toList = s
/-- `isKeywordMaps` (input_keywords.cpp:156-166) -/
def isKeywordMaps (s : List Char) : Bool :=
  ["MAPS", "MAPS:", "MAP_SECTION", "MAP_SECTION:", "MAPS_SECTION", "MAPS_SECTION:", "Maps", "Maps:"].any
    fun k => k.toList = s
/-- `isKeywordNames` (input_keywords.cpp:168-188) -/
def isKeywordNames (s : List Char) : Bool :=
  ["INDEX", "INDEX:", "INDICES", "INDICES:", "INDEX_SECTION", "INDEX_SECTION:", "INDICES_SECTION", "INDICES_SECTION:",
    "NAMES", "NAMES:", "NAME_SECTION", "NAME_SECTION:", "NAMES_SECTION", "NAMES_SECTION:", "Indices", "Indices:",
    "Names", "Names:"].any fun k => k.toList = s
/-- `isKeyword` (input_keywords.cpp:33-47) -/
def isKeyword (s : List Char) : Bool :=
  isKeywordConicalHull s || isKeywordReducedSomething s || isKeywordReducedConicalHull s || isKeywordConvexHull s ||
  isKeywordReducedConvexHull s || isKeywordDimension s || isKeywordEquations s || isKeywordInequalities s ||
  isKeywordReducedInequalities s || isKeywordMaps s || isKeywordNames s || isKeywordEnd s

end Panda
