import Verif.Model.InputSections

/-! # Streams with a position, and looking ahead

A finer model of the functions that look ahead in a stream, following `tellg`, `clear` and `seekg`: `peekLine`
(`/repo/src/istream_peek_line.cpp`), `isRelation`, `containsNames`, `peekWord` (`/repo/src/input_common.cpp`), `PositionGuardedFile`
(`/repo/src/position_guarded_file.cpp`), `containsKeywords` (`/repo/src/input_keywords.cpp`) and `keywords` (`/repo/src/input_detection.cpp`).
The coarser models of `Model/Text`, `Model/InputConstraint` and `Model/InputSections` only know the characters not yet read; they are related
to these in `Props/LookAhead`. -/

namespace Panda

/-- a `std::istream` over a text: the position of the next character and the bits `eofbit`, `failbit` -/
structure FileStream where
  text : List Char
  pos : Nat
  eof : Bool := false
  fail : Bool := false
  deriving DecidableEq, Repr

namespace FileStream

/-- what the coarser model knows of a stream -/
def view (s : FileStream) : Stream := ⟨s.text.drop s.pos, s.eof, s.fail⟩

/-- `good()` -/
def good (s : FileStream) : Bool := !s.eof && !s.fail

/-- the stream after an operation that reads characters and leaves `t` -/
def reads (s : FileStream) (t : Stream) : FileStream := ⟨s.text, s.text.length - t.rest.length, t.eof, t.fail⟩

/-- `tellg()`: the sentry sets `failbit` if the stream is not good; a failed stream has the position -1 (`none`) -/
def tellg (s : FileStream) : FileStream × Option Nat := if s.good then (s, some s.pos) else ({ s with fail := true }, none)

/-- `clear()` -/
def clear (s : FileStream) : FileStream := { s with eof := false, fail := false }

/-- `seekg(position)`: clears `eofbit` (C++11), then fails for a failed stream and for the position -1 -/
def seekg (p : Option Nat) (s : FileStream) : FileStream :=
  match p with
  | some p => if s.fail then { s with eof := false } else { s with pos := p, eof := false }
  | none => { s with eof := false, fail := true }

/-- the scope guards `clear(); seekg(position)` (istream_peek_line.cpp:18-22, input_common.cpp:59-63, 200-204, 284-288) and the destructor of
`PositionGuardedFile` (position_guarded_file.cpp:19-24, without the assertion) -/
def back (p : Option Nat) (s : FileStream) : FileStream := s.clear.seekg p

/-- constructor and destructor of `PositionGuardedFile` around a function that uses the file (position_guarded_file.cpp:13-24) -/
def guarded {α : Type} (body : FileStream → FileStream × α) (s : FileStream) : FileStream × α :=
  let p := s.tellg
  ((body p.1).1.back p.2, (body p.1).2)

/-- `peekLine` (istream_peek_line.cpp:11-26) -/
def peekLine (s : FileStream) : FileStream × List Char :=
  if s.fail then (s, [])
  else
    let p := s.tellg
    let g := getLine p.1.view
    ((p.1.reads g.1).back p.2, g.2.getD [])

/-- `peekWord` (input_common.cpp:281-295): the guard is dismissed if no word can be read -/
def peekWord (s : FileStream) : FileStream × List Char :=
  let p := s.tellg
  let w := readWord p.1.view
  if w.1.fail then (p.1.reads w.1, w.2.getD []) else ((p.1.reads w.1).back p.2, w.2.getD [])

/-- `isRelation` (input_common.cpp:56-78), the tests between `tellg` and the end of the scope: the stream before the guard runs, and the answer -/
def relationTest (s : FileStream) : FileStream × Bool :=
  if s.fail then (s, false)
  else
    let c := s.view.peek
    let s1 := s.reads c.1
    if c.2 = some '<' ∨ c.2 = some '=' ∨ c.2 = some '>' then
      let s2 := s1.reads s1.view.get.1
      if s2.fail then (s2, true)
      else
        let d := s2.view.peek
        let s3 := s2.reads d.1
        if d.2 = some '=' then (s3, true)
        else if s3.fail then (s3, true)
        else (s3.reads (isWhitespace s3.view).1, (isWhitespace s3.view).2)
    else (s1, false)

/-- `isRelation` (input_common.cpp:56-78) -/
def isRelation (s : FileStream) : FileStream × Bool := guarded relationTest s

/-- the loops of `containsNames` (input_common.cpp:207-222) for a non-empty list of names: `word = ""` is the head of the outer loop.  `get` at the
end of the file returns -1, which is appended as the character 255. -/
def containsFrom (names : Names) : Nat → FileStream → List Char → Nat → FileStream × Bool
  | 0, s, _, _ => (s, false)
  | fuel + 1, s, word, counter =>
    if s.fail ∨ (word = [] ∧ 2000 ≤ counter) then (s, false)
    else
      let g := s.view.get
      let s1 := s.reads g.1
      let word1 := word ++ [g.2.getD (Char.ofNat 255)]
      match names.find? fun n => word1.isPrefixOf n with
      | some n => if n = word1 then (s1, true) else containsFrom names fuel s1 word1 (counter + 1)
      | none => containsFrom names fuel s1 [] (counter + 1)

/-- `containsNames` (input_common.cpp:197-225); every iteration reads a character, so that the loops end -/
def containsNames (names : Names) (s : FileStream) : FileStream × Bool :=
  guarded (fun s => containsFrom names (s.text.length - s.pos + 2) s [] 0) s

/-- the loop of `containsKeywords` (input_keywords.cpp:21-29), `n` more lines being allowed -/
def keywordLoop : Nat → FileStream → FileStream × Bool
  | 0, s => (s, false)
  | n + 1, s =>
    let g := getLine s.view
    if g.1.fail then (s.reads g.1, false)
    else if isKeyword (trimWhitespace (g.2.getD [])) then (s.reads g.1, true)
    else keywordLoop n (s.reads g.1)

/-- `containsKeywords` (input_keywords.cpp:14-30), with the conversion of the file into a `PositionGuardedFile` (input.cpp:128, 196) -/
def containsKeywords (s : FileStream) : FileStream × Bool := guarded (keywordLoop 20) s

/-- `for ( std::string line; std::getline(file, line); )` (input_detection.cpp:136): the lines; every iteration reads a character -/
def linesLoop : Nat → FileStream → FileStream × List (List Char)
  | 0, s => (s, [])
  | fuel + 1, s =>
    let g := getLine s.view
    if g.1.fail then (s.reads g.1, [])
    else ((linesLoop fuel (s.reads g.1)).1, g.2.getD [] :: (linesLoop fuel (s.reads g.1)).2)

/-- the loop of `keywords` (input_detection.cpp:133-166) on a file just opened: is there a keyword of a hull, of inequalities -/
def keywords (s : FileStream) : FileStream × (Bool × Bool) :=
  guarded (fun s =>
    let l := linesLoop (s.text.length - s.pos + 2) s
    (l.1, (l.2.any fun l => isKeywordConicalHull (trimWhitespace l) || isKeywordReducedConicalHull (trimWhitespace l) ||
        isKeywordConvexHull (trimWhitespace l) || isKeywordReducedConvexHull (trimWhitespace l)),
      l.2.any fun l => isKeywordInequalities (trimWhitespace l) || isKeywordReducedInequalities (trimWhitespace l))) s

end FileStream

end Panda
