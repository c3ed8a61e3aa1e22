import Verif.Model.InputConstraint
import Verif.Model.Assemble
import Verif.Model.ValidityTyped
import Verif.Model.Typed

/-! # Reading names, the dimension, maps and whole files

Model of `/repo/src/input_names.cpp`, `/repo/src/input_dimension.cpp`, `/repo/src/input_map.cpp`,
`advanceToNextKeyword` and `peekWord` in `/repo/src/input_common.cpp`, `containsKeywords` in
`/repo/src/input_keywords.cpp`, and the functions of `/repo/src/input.cpp`. -/

namespace Panda

/-! ## names -/

/-- `peekWord` (input_common.cpp:281-295): the position is restored unless no word could be read (`tellg` on a stream that
is not good makes it fail, and so does the extraction) -/
def peekWord (s : Stream) : Stream × List Char :=
  if s.good then (if (readWord s).1.fail then ((readWord s).1, []) else (s, (readWord s).2.getD []))
  else (⟨s.rest, s.eof, true⟩, [])

/-- the loop of `names` (input_names.cpp:25-29); every iteration consumes a character -/
def namesLoop : Nat → Stream → Names → Stream × Names
  | 0, s, ns => (s, ns)
  | fuel + 1, s, ns =>
    let p := peekWord s
    if p.1.fail || isKeyword p.2 then (p.1, ns)
    else namesLoop fuel (readWord p.1).1 (ns ++ [(readWord p.1).2.getD p.2])

/-- `names` (input_names.cpp:17-31) -/
def readNames (s : Stream) : Outcome (Stream × Names) :=
  let g := getLine s
  if g.1.fail || !isKeywordNames (trimWhitespace (g.2.getD [])) then .thrown
  else .ok (namesLoop (g.1.rest.length + 1) g.1 [])

/-! ## dimension -/

/-- `stream >> dim` for a `std::size_t` (64 bits): `std::num_get` accepts a sign and negates modulo `2^64` -/
def readSize (s : Stream) : Stream × Nat :=
  if s.good then
    match s.rest.dropWhile isSpace with
    | [] => (⟨[], true, true⟩, 0)
    | c :: r =>
      let sg := splitSign (c :: r)
      let ds := sg.2.takeWhile isDigitChar
      let rest := sg.2.dropWhile isDigitChar
      if ds = [] then (⟨rest, rest.isEmpty, true⟩, 0)
      else if digitsValue ds ≥ 2 ^ 64 then (⟨rest, rest.isEmpty, true⟩, 2 ^ 64 - 1)
      else (⟨rest, rest.isEmpty, false⟩, if sg.1 then (2 ^ 64 - digitsValue ds) % 2 ^ 64 else digitsValue ds)
  else (⟨s.rest, s.eof, true⟩, 0)

/-- `dimension` (input_dimension.cpp:13-26), for a good stream: everything up to the next `=` (wherever it is) is skipped.
Without one the stream fails. -/
def readDimension (s : Stream) : Outcome (Stream × Nat) :=
  match s.rest.dropWhile (· ≠ '=') with
  | [] => .thrown
  | _ :: r => if (readSize ⟨r, false, false⟩).1.fail then .thrown else .ok (readSize ⟨r, false, false⟩)

/-! ## maps -/

/-- `extractFactor` (input_map.cpp:65-77): text of the factor and the characters after it.  The position `npos` corresponds to
no characters left. -/
def splitFactor : List Char → List Char × List Char
  | [] => ([], [])
  | c :: r =>
    if c = '+' ∨ c = '-' then (c :: r.takeWhile isDigitChar, r.dropWhile isDigitChar)
    else if isDigitChar c then ((c :: r).takeWhile isDigitChar, (c :: r).dropWhile isDigitChar)
    else ([], c :: r)

/-- `extractName` (input_map.cpp:79-94) -/
def splitName : List Char → List Char × List Char
  | [] => ([], [])
  | c :: r =>
    if isFactorChar c then ([], c :: r)
    else ((c :: r).takeWhile (fun c => c ≠ '+' && c ≠ '-'), (c :: r).dropWhile (fun c => c ≠ '+' && c ≠ '-'))

/-- the loop of `image` (input_map.cpp:105-124); every iteration consumes a character -/
def imageLoop (names : Names) : Nat → List Char → Image → Outcome Image
  | 0, _, result => .ok result
  | fuel + 1, t, result =>
    if t = [] then .ok result
    else (toInt (splitFactor t).1).bind fun factor =>
      let n := splitName (splitFactor t).2
      if n.1 = [] then imageLoop names fuel n.2 (result ++ [(names.length, factor)])
      else if n.1 ∈ names then imageLoop names fuel n.2 (result ++ [(names.idxOf n.1, factor)])
      else .thrown

/-- `image` (input_map.cpp:97-126) -/
def image (token : List Char) (names : Names) : Outcome Image :=
  if token = [] then .thrown else imageLoop names token.length token []

/-- the loop of `map` (input_map.cpp:135-141) with `k` images still to be read; the tests clear the state bits -/
def mapLoop (names : Names) : Nat → Stream → SymMap → Outcome (Stream × SymMap)
  | 0, s, m => .ok (if s.fail then s else s.clear, m)
  | k + 1, s, m =>
    if lineContinues s = false then .ok (if s.fail then s else s.clear, m ++ List.replicate (k + 1) [])
    else (image ((readWord s.clear).2.getD []) names).bind fun im => mapLoop names k (readWord s.clear).1 (m ++ [im])

/-- `map` (input_map.cpp:128-143) -/
def readMap (names : Names) (s : Stream) : Outcome (Stream × SymMap) := mapLoop names names.length (skipWhitespace s) []

/-- the loop of `maps` (input_map.cpp:33-55); `none`: still running after `fuel` iterations -/
def mapsLoop (names : Names) : Nat → Stream → Maps → Run (Stream × Maps)
  | 0, _, _ => none
  | fuel + 1, s, maps =>
    if s.fail then some (.ok (s, maps))
    else
      let p := peekLine s
      if isKeyword (trimWhitespace p.2) then some (.ok (p.1, maps))
      else if trimWhitespace (peekLine p.1).2 = [] then mapsLoop names fuel (getLine (peekLine p.1).1).1 maps
      else
        match readMap names (peekLine p.1).1 with
        | .ok (s', m) =>
          mapsLoop names fuel (skipEndOfLine (skipWhitespace s'))
            (if m.all (fun im => im = []) then maps else maps ++ [m ++ [[(names.length, 1)]]])
        | .thrown => some .thrown
        | .ub => some .ub

/-- `maps` (input_map.cpp:25-61) -/
def readMaps (names : Names) (fuel : Nat) (s : Stream) : Run (Stream × Maps) :=
  let g := getLine s
  if g.1.fail || !isKeywordMaps (trimWhitespace (g.2.getD [])) then some .thrown
  else Run.bind (mapsLoop names fuel g.1 []) fun r => some (.ok (skipEnd r.1, r.2))

/-! ## whole files -/

/-- `advanceToNextKeyword` (input_common.cpp:255-268); the second component is the keyword (of no use if the stream failed).
Every iteration reads a line or makes the stream fail. -/
def advanceLoop : Nat → Stream → Stream × List Char
  | 0, s => (s, [])
  | fuel + 1, s =>
    if s.fail then (s, [])
    else
      let p := peekLine s
      if isKeyword (trimWhitespace p.2) then (p.1, trimWhitespace p.2) else advanceLoop fuel (getLine p.1).1

/-- `advanceToNextKeyword` (input_common.cpp:255-268) -/
def advanceToNextKeyword (s : Stream) : Stream × List Char := advanceLoop (s.rest.length + 2) s

/-- `containsKeywords` (input_keywords.cpp:14-30): only the first twenty lines are examined, the position is restored -/
def containsKeywords (text : List Char) : Bool := ((textLines text).take 20).any fun l => isKeyword (trimWhitespace l)

/-- the data collected by `vertices` (input.cpp:123-127) -/
structure VertexData where
  conv : Matrix := []
  cone : Matrix := []
  dimension : Option Nat := none
  names : Names := []
  maps : Maps := []
  deriving DecidableEq, Repr

/-- `readVerticesConvex` (input.cpp:50-58), `readVerticesConical` (69-77): sections that list all rows; `check` is
`checkValidity(argc, argv)` -/
def readAllRows (check : Bool) (maps : Maps) (read : Run (Stream × Matrix)) : Run (Stream × Matrix) :=
  Run.bind read fun r =>
    if check then Run.bind (some (Typed.checkValidityOfClasses (fixedArith 32) r.2 maps .vertex)) fun _ => some (.ok r) else some (.ok r)

/-- `readVerticesReducedConvex` (input.cpp:59-68), `readVerticesReducedConical` (78-87): sections that list one row per class.  The classes are computed with `int`,
whatever the selected type -/
def readReducedRows (fuel : Nat) (maps : Maps) (read : Run (Stream × Matrix)) : Run (Stream × Matrix) :=
  Run.bind read fun r => Run.bind (Typed.expand (fixedArith 32) fuel r.2 maps .vertex) fun rows => some (.ok (r.1, rows))

/-- one round of the loop in `vertices` (input.cpp:134-165): the section with the keyword `token` -/
def vertexSection (check : Bool) (fuel : Nat) (token : List Char) (s : Stream) (data : VertexData) : Run (Stream × VertexData) :=
  if isKeywordDimension token then
    Run.bind (some (readDimension s)) fun r => some (.ok (r.1, { data with dimension := some r.2 }))
  else if isKeywordNames token then
    Run.bind (some (readNames s)) fun r => some (.ok (r.1, { data with names := r.2 }))
  else if isKeywordMaps token then
    Run.bind (readMaps data.names fuel s) fun r => some (.ok (r.1, { data with maps := r.2 }))
  else if isKeywordConvexHull token then
    Run.bind (readAllRows check data.maps (verticesConvex fuel s)) fun r => some (.ok (r.1, { data with conv := r.2 }))
  else if isKeywordReducedConvexHull token then
    Run.bind (readReducedRows fuel data.maps (verticesConvex fuel s)) fun r => some (.ok (r.1, { data with conv := r.2 }))
  else if isKeywordConicalHull token then
    Run.bind (readAllRows check data.maps (verticesConical fuel s)) fun r => some (.ok (r.1, { data with cone := r.2 }))
  else if isKeywordReducedConicalHull token then
    Run.bind (readReducedRows fuel data.maps (verticesConical fuel s)) fun r => some (.ok (r.1, { data with cone := r.2 }))
  else some (.ok ((getLine s).1, data))

/-- the loop in `vertices` (input.cpp:132-166) -/
def vertexFileLoop (check : Bool) : Nat → Stream → VertexData → Run VertexData
  | 0, _, _ => none
  | fuel + 1, s, data =>
    if s.fail then some (.ok data)
    else
      let a := advanceToNextKeyword s
      if a.1.fail then some (.ok data)
      else Run.bind (vertexSection check fuel a.2 a.1 data) fun r => vertexFileLoop check fuel r.1 r.2

/-- the data collected by `inequalities` (input.cpp:191-195) -/
structure InequalityData where
  equations : Matrix := []
  inequalities : Matrix := []
  dimension : Option Nat := none
  names : Names := []
  maps : Maps := []
  deriving DecidableEq, Repr

/-- one round of the loop in `inequalities` (input.cpp:202-229), with `readInequalities` (88-96) and
`readReducedInequalities` (97-111) -/
def inequalitySection (check : Bool) (fuel : Nat) (token : List Char) (s : Stream) (data : InequalityData) :
    Run (Stream × InequalityData) :=
  if isKeywordDimension token then
    Run.bind (some (readDimension s)) fun r => some (.ok (r.1, { data with dimension := some r.2 }))
  else if isKeywordNames token then
    Run.bind (some (readNames s)) fun r => some (.ok (r.1, { data with names := r.2 }))
  else if isKeywordMaps token then
    Run.bind (readMaps data.names fuel s) fun r => some (.ok (r.1, { data with maps := r.2 }))
  else if isKeywordEquations token then
    Run.bind (constraints true data.names fuel s) fun r => some (.ok (r.1, { data with equations := r.2 }))
  else if isKeywordInequalities token then
    Run.bind (constraints false data.names fuel s) fun r =>
      if check then Run.bind (some (Typed.checkValidityOfClasses (fixedArith 32) r.2 data.maps .facet)) fun _ =>
        some (.ok (r.1, { data with inequalities := r.2 }))
      else some (.ok (r.1, { data with inequalities := r.2 }))
  else if isKeywordReducedInequalities token then
    Run.bind (constraints false data.names fuel s) fun r =>
      Run.bind (some (Typed.normalizeMaps (fixedArith 32) data.maps data.equations)) fun maps =>
        Run.bind (Typed.expand (fixedArith 32) fuel r.2 maps .facet) fun rows => some (.ok (r.1, { data with inequalities := rows }))
  else some (.ok ((getLine s).1, data))

/-- the loop in `inequalities` (input.cpp:200-230) -/
def inequalityFileLoop (check : Bool) : Nat → Stream → InequalityData → Run InequalityData
  | 0, _, _ => none
  | fuel + 1, s, data =>
    if s.fail then some (.ok data)
    else
      let a := advanceToNextKeyword s
      if a.1.fail then some (.ok data)
      else Run.bind (inequalitySection check fuel a.2 a.1 data) fun r => inequalityFileLoop check fuel r.1 r.2

/-- the file system: the text of a file, `none` if it cannot be opened -/
abbrev Files := Arg → Option (List Char)

/-- `knownFacets` (input.cpp:323-342) -/
def knownFacets (fuel : Nat) (files : Files) (args : List Arg) (names : Names) : Run Matrix :=
  Run.bind (some (knownFilename true args)) fun name =>
    if name = [] then some (.ok [])
    else
      match files name with
      | none => some .thrown
      | some text =>
        let a := advanceToNextKeyword ⟨text, false, false⟩
        if isKeywordInequalities a.2 then Run.bind (constraints false names fuel a.1) fun r => some (.ok r.2)
        else some .thrown

/-- the loop of `knownVertices` (input.cpp:358-372) -/
def knownVerticesLoop : Nat → Stream → Matrix → Matrix → Run (Matrix × Matrix)
  | 0, _, _, _ => none
  | fuel + 1, s, conv, cone =>
    let a := advanceToNextKeyword s
    if a.1.fail then some (.ok (conv, cone))
    else if isKeywordConvexHull a.2 then Run.bind (verticesConvex fuel a.1) fun r => knownVerticesLoop fuel r.1 r.2 cone
    else if isKeywordConicalHull a.2 then Run.bind (verticesConical fuel a.1) fun r => knownVerticesLoop fuel r.1 conv r.2
    else knownVerticesLoop fuel (getLine a.1).1 conv cone

/-- `knownVertices` (input.cpp:344-376) -/
def knownVertices (fuel : Nat) (files : Files) (args : List Arg) : Run Matrix :=
  Run.bind (some (knownFilename false args)) fun name =>
    if name = [] then some (.ok [])
    else
      match files name with
      | none => some .thrown
      | some text => Run.bind (knownVerticesLoop fuel ⟨text, false, false⟩ [] []) fun r => some (.ok (r.1 ++ r.2))

/-- `input::vertices<int>` (input.cpp:115-180) -/
def inputVertices (fuel : Nat) (files : Files) (args : List Arg) : Run (Matrix × Names × Maps × Matrix) :=
  Run.bind (some (getFilename args)) fun name =>
    match files name with
    | none => some .thrown
    | some text =>
      if containsKeywords text = false then some .thrown
      else Run.bind (vertexFileLoop (checkOption args) fuel ⟨text, false, false⟩ {}) fun data =>
        Run.bind (some (assembleVertices args data.conv data.cone data.names data.maps data.dimension)) fun vertices =>
          Run.bind (knownFacets fuel files args data.names) fun known =>
            Run.bind (some (if checkOption args then Typed.checkValidityOfInequalities (fixedArith 32) vertices known else .ok ())) fun _ =>
              some (.ok (vertices, data.names, data.maps, known))

/-- `input::inequalities<int>` (input.cpp:183-247) -/
def inputInequalities (fuel : Nat) (files : Files) (args : List Arg) : Run (Matrix × Names × Maps × Matrix) :=
  Run.bind (some (getFilename args)) fun name =>
    match files name with
    | none => some .thrown
    | some text =>
      if containsKeywords text = false then some .thrown
      else Run.bind (inequalityFileLoop (checkOption args) fuel ⟨text, false, false⟩ {}) fun data =>
        Run.bind (some (assembleInequalities args data.inequalities data.equations data.names data.dimension)) fun rows =>
          Run.bind (knownVertices fuel files args) fun known =>
            Run.bind (some (if checkOption args then Typed.checkValidityOfVertices (fixedArith 32) rows known else .ok ())) fun _ =>
              some (.ok (rows, data.names, data.maps, known))

end Panda
