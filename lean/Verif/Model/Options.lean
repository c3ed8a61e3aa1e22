import Verif.Model.Text

/-! # Command line options

Model of `/repo/src/concurrency.cpp`, `/repo/src/input_detection.cpp`, `/repo/src/input_method.cpp`,
`/repo/src/integer_type_detection.cpp` and of the option parts of `/repo/src/input.cpp` and
`/repo/src/input_validity.cpp`.

`args` are the arguments `argv[1]`, …, `argv[argc - 1]`; an argument is the list of its characters without the
terminating zero. -/

namespace Panda

/-- a command line argument -/
abbrev Arg := List Char

/-- the search for an option with a parameter, shared by `numberOfThreads` (concurrency.cpp:28-50), `getInputOrder`
(input_detection.cpp:67-89), `input::method` (input_method.cpp:21-43) and `integerType`
(integer_type_detection.cpp:25-49): `short` is e.g. `-t`, `long` is `--threads=` and `start` is `--t`; `-t=` has three
characters.  `none`: the option is not given. -/
def findOption (short long start : Arg) : List Arg → Outcome (Option Arg)
  | [] => .ok none
  | a :: rest =>
    if a = short then (if rest = [] then .thrown else .ok (some (rest.headD [])))
    else if (short ++ ['=']).isPrefixOf a then .ok (some (a.drop 3))
    else if long.isPrefixOf a then .ok (some (a.drop long.length))
    else if short.isPrefixOf a || start.isPrefixOf a then .thrown
    else findOption short long start rest

/-- `interpretParameter` (concurrency.cpp:57-83): the number must be followed by nothing but white space.  At the end of
the characters `stream >> rest` fails and `rest` stays empty. -/
def interpretParameter (p : Arg) : Outcome Int :=
  let r := readInt 0 ⟨p, false, false⟩
  if r.1.fail then .thrown
  else if (readWord r.1).2.getD [] ≠ [] then .thrown
  else if r.2 ≤ 0 then .thrown
  else .ok r.2

/-- `numberOfThreads` (concurrency.cpp:25-53); `hardware` is `std::thread::hardware_concurrency()`, at most the largest
`int` -/
def numberOfThreads (hardware : Nat) (args : List Arg) : Outcome Int :=
  (findOption "-t".toList "--threads=".toList "--t".toList args).bind fun o =>
    match o with
    | some p => interpretParameter p
    | none => .ok (if hardware > 0 then hardware else 1)

/-- `InputOrder` (input_order.h) -/
inductive InputOrder where
  | lexAsc
  | lexDesc
  | nonZeroAsc
  | nonZeroDesc
  | reverse
  | noSorting
  deriving DecidableEq, Repr

/-- `ascending` (input_detection.cpp:168-173) -/
def ascendingOption (a : Arg) : Bool :=
  !("desc".toList.isPrefixOf a) && !("down".toList.isPrefixOf a) && !("dec".toList.isPrefixOf a)

/-- `inputOrderLexicographic` (input_detection.cpp:175-190).  `argument + 14` points behind the terminating zero if the
argument has fewer than 14 characters; reading there is undefined. -/
def inputOrderLex (a : Arg) : Outcome InputOrder :=
  if a = "lex".toList ∨ a = "lexicographic".toList then .ok .lexAsc
  else
    let offset := if "lex_".toList.isPrefixOf a then 4 else 14
    if a.length < offset then .ub else .ok (if ascendingOption (a.drop offset) then .lexAsc else .lexDesc)

/-- `inputOrderNonZeroEntries` (input_detection.cpp:192-207) -/
def inputOrderNonZero (a : Arg) : Outcome InputOrder :=
  if a = "nz".toList ∨ a = "nonzero".toList then .ok .nonZeroAsc
  else
    let offset := if "nz_".toList.isPrefixOf a then 3 else 8
    if a.length < offset then .ub else .ok (if ascendingOption (a.drop offset) then .nonZeroAsc else .nonZeroDesc)

/-- `inputOrder` (input_detection.cpp:209-224) -/
def inputOrder (a : Arg) : Outcome InputOrder :=
  if "lex".toList.isPrefixOf a then inputOrderLex a
  else if "n".toList.isPrefixOf a then inputOrderNonZero a
  else if a = "rev".toList ∨ a = "reverse".toList then .ok .reverse
  else .thrown

/-- `getInputOrder` (input_detection.cpp:65-91) -/
def getInputOrder (args : List Arg) : Outcome InputOrder :=
  (findOption "-s".toList "--sorting=".toList "--s".toList args).bind fun o =>
    match o with
    | some p => inputOrder p
    | none => .ok .noSorting

/-- `Method` (method.h) -/
inductive MethodOption where
  | adjacencyDecomposition
  | doubleDescription
  deriving DecidableEq, Repr

/-- `detectMethod` (input_method.cpp:49-64) -/
def detectMethod (a : Arg) : Outcome MethodOption :=
  if a = "dd".toList ∨ a = "double-description".toList ∨ a = "double_description".toList then .ok .doubleDescription
  else if a = "ad".toList ∨ a = "adjacency-decomposition".toList ∨ a = "adjacency_decomposition".toList then
    .ok .adjacencyDecomposition
  else .thrown

/-- `input::method` (input_method.cpp:19-45) -/
def methodOption (args : List Arg) : Outcome MethodOption :=
  (findOption "-m".toList "--method=".toList "--m".toList args).bind fun o =>
    match o with
    | some p => detectMethod p
    | none => .ok .adjacencyDecomposition

/-- `IntegerType` (integer_type.h) -/
inductive IntegerType where
  | fixed16
  | fixed32
  | fixed64
  | safe
  | variable
  | default
  deriving DecidableEq, Repr

/-- `integerTypeFromString` (integer_type_detection.cpp:55-92) on a system with all fixed width types -/
def integerTypeFromString (a : Arg) : Outcome IntegerType :=
  if a = "16".toList then .ok .fixed16
  else if a = "32".toList then .ok .fixed32
  else if a = "64".toList then .ok .fixed64
  else if a = "safe".toList then .ok .safe
  else if a = "inf".toList then .ok .variable
  else .thrown

/-- `integerType` (integer_type_detection.cpp:22-51) -/
def integerType (args : List Arg) : Outcome IntegerType :=
  (findOption "-i".toList "--integer-type=".toList "--i".toList args).bind fun o =>
    match o with
    | some p => integerTypeFromString p
    | none => .ok .default

/-- `requiresParameter` (input_detection.cpp:127-131) -/
def requiresParameter (a : Arg) : Bool := !(a = "-c".toList) && !(a = "-f".toList)

/-- the loop of `getFilename` (input_detection.cpp:41-61); `name` is the name found so far -/
def filenameLoop : List Arg → Arg → Outcome Arg
  | [], name => .ok name
  | a :: rest, name =>
    if "--".toList.isPrefixOf a then filenameLoop rest name
    else if "-".toList.isPrefixOf a then
      if requiresParameter a then filenameLoop (rest.drop 1) name else filenameLoop rest name
    else if name ≠ [] then .thrown
    else filenameLoop rest a
  termination_by l => l.length
  decreasing_by all_goals simp only [List.length_drop, List.length_cons]; omega

/-- `getFilename` (input_detection.cpp:38-63) -/
def getFilename (args : List Arg) : Outcome Arg := filenameLoop args []

/-- `getFilenameKnownFacets` (input.cpp:251-285) for `facets = true` and `getFilenameKnownVertices` (input.cpp:287-321)
for `facets = false`; the empty name means that no file is given -/
def knownFilename (facets : Bool) : List Arg → Outcome Arg
  | [] => .ok []
  | a :: rest =>
    if a = "-k".toList then (if rest = [] then .thrown else .ok (rest.headD []))
    else if "-k=".toList.isPrefixOf a then .ok (a.drop 3)
    else if "--known-data=".toList.isPrefixOf a then .ok (a.drop 13)
    else if "--known-facets=".toList.isPrefixOf a then (if facets then .ok (a.drop 15) else .thrown)
    else if "--known-vertices=".toList.isPrefixOf a then (if facets then .thrown else .ok (a.drop 17))
    else if "-k".toList.isPrefixOf a || "--k".toList.isPrefixOf a then .thrown
    else knownFilename facets rest

/-- `input::checkValidity` (input_validity.cpp:105-115) -/
def checkOption (args : List Arg) : Bool := args.any fun a => a = "-c".toList || a = "--check".toList

/-- `OperationMode` (operation_mode.h) -/
inductive OperationMode where
  | facetEnumeration
  | vertexEnumeration
  | helpCommand
  | help
  | version
  | undecided
  | invalid
  deriving DecidableEq, Repr

/-- the loop of `commandLineModeOption` (input_detection.cpp:232-257) -/
def modeLoop : List Arg → OperationMode
  | [] => .undecided
  | a :: rest =>
    if (a = "-h".toList ∧ rest ≠ []) ∨ "-h=".toList.isPrefixOf a = true ∨ "--help=".toList.isPrefixOf a = true ∨
        "--help-command=".toList.isPrefixOf a = true then .helpCommand
    else if a = "?".toList ∨ a = "-h".toList ∨ a = "--h".toList ∨ a = "-help".toList ∨ a = "--help".toList then .help
    else if a = "-v".toList ∨ a = "--v".toList ∨ a = "-version".toList ∨ a = "--version".toList then .version
    else modeLoop rest

/-- `commandLineModeOption` (input_detection.cpp:226-258) -/
def commandLineModeOption (args : List Arg) : OperationMode := if args = [] then .help else modeLoop args

/-- reading lines with `std::getline` until the end of the file; `cur` are the characters of the current line, in
reverse.  A last line without end is delivered if it is not empty. -/
def linesFrom : List Char → List Char → List (List Char)
  | cur, [] => if cur = [] then [] else [cur.reverse]
  | cur, c :: t => if c = '\n' then cur.reverse :: linesFrom [] t else linesFrom (c :: cur) t

/-- the lines of a text as delivered by repeated `std::getline` (input_detection.cpp:136) -/
def textLines (text : List Char) : List (List Char) := linesFrom [] text

/-- the three sets of keywords collected by `keywords` (input_detection.cpp:133-166) -/
def hasHullKeyword (text : List Char) : Bool := (textLines text).any fun l =>
  isKeywordConicalHull (trimWhitespace l) || isKeywordReducedConicalHull (trimWhitespace l) ||
    isKeywordConvexHull (trimWhitespace l) || isKeywordReducedConvexHull (trimWhitespace l)

/-- inequalities among the keywords (input_detection.cpp:156-163) -/
def hasInequalitiesKeyword (text : List Char) : Bool := (textLines text).any fun l =>
  isKeywordInequalities (trimWhitespace l) || isKeywordReducedInequalities (trimWhitespace l)

/-- `detectOperationMode` (input_detection.cpp:93-123); `read` is the file system: the text of a file, `none` if it cannot
be opened (then no line can be read) -/
def detectOperationMode (read : Arg → Option (List Char)) (args : List Arg) : Outcome OperationMode :=
  if commandLineModeOption args ≠ .undecided then .ok (commandLineModeOption args)
  else (getFilename args).bind fun name =>
    let text := (read name).getD []
    if hasHullKeyword text = true ∧ hasInequalitiesKeyword text = true then .ok .invalid
    else if hasInequalitiesKeyword text then .ok .vertexEnumeration
    else .ok .facetEnumeration

end Panda
