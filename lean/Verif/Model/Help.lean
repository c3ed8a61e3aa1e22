import Verif.Model.Main

/-! # Help about an option

Model of `/repo/src/help.cpp`. -/

namespace Panda

/-- the texts of help.cpp:62-184 (their wording is not modelled) -/
inductive HelpTopic where
  | check
  | help
  | integerType
  | knownData
  | method
  | sorting
  | threads
  | version
  deriving DecidableEq, Repr

/-- the loop of `help::command` (help.cpp:26-34): the arguments from the first one on that asks for help about something -/
def skipToHelp : List Arg → List Arg
  | [] => []
  | a :: rest =>
    if a ≠ "-h".toList ∧ "-h=".toList.isPrefixOf a = false ∧ "--help=".toList.isPrefixOf a = false ∧
        "--help-command=".toList.isPrefixOf a = false then skipToHelp rest
    else a :: rest

/-- what help is asked about (help.cpp:35-56); `none`: there is no parameter -/
def helpParameter (args : List Arg) : Option Arg :=
  match skipToHelp args with
  | [] => none
  | a :: rest =>
    if a = "-h".toList then rest.head?
    else if "-h=".toList.isPrefixOf a then some (a.drop 3)
    else if "--help=".toList.isPrefixOf a then some (a.drop 7)
    else if "--help-command=".toList.isPrefixOf a then some (a.drop 15)
    else some []

/-- the chain of comparisons in `printHelpCommand` (help.cpp:186-226) -/
def helpTopic (p : Arg) : Option HelpTopic :=
  if p = "c".toList ∨ p = "-c".toList ∨ p = "check".toList ∨ p = "--check".toList then some .check
  else if p = "h".toList ∨ p = "-h".toList ∨ p = "--h".toList ∨ p = "help".toList ∨ p = "-help".toList ∨ p = "--help".toList ∨ p = "?".toList then
    some .help
  else if p = "i".toList ∨ p = "-i".toList ∨ p = "integer-type".toList ∨ p = "--integer-type".toList then some .integerType
  else if p = "k".toList ∨ p = "-k".toList ∨ p = "known_facets".toList ∨ p = "--known_facets".toList ∨ p = "known_vertices".toList ∨
      p = "--known_vertices".toList ∨ p = "known_data".toList ∨ p = "--known_data".toList then some .knownData
  else if p = "m".toList ∨ p = "-m".toList ∨ p = "method".toList ∨ p = "--method".toList then some .method
  else if p = "s".toList ∨ p = "-s".toList ∨ p = "sorting".toList ∨ p = "--sorting".toList then some .sorting
  else if p = "t".toList ∨ p = "-t".toList ∨ p = "threads".toList ∨ p = "--threads".toList then some .threads
  else if p = "v".toList ∨ p = "-v".toList ∨ p = "version".toList ∨ p = "-version".toList ∨ p = "--version".toList then some .version
  else none

/-- `help::command` (help.cpp:23-58); `text` are the texts on the standard output, the messages of the failures go to the standard
error -/
def helpCommand (text : HelpTopic → List Char) (args : List Arg) : ProgramResult :=
  match helpParameter args with
  | none => .finished 1 []
  | some p =>
    match helpTopic p with
    | some t => .finished 0 (text t)
    | none => .finished 1 []

/-- the whole program with `help::command` -/
def programWithHelp (text : HelpTopic → List Char) (ad : Bool → Option ProgramResult) (fuel : Nat) (files : Files) (args : List Arg) : Option ProgramResult :=
  program ad (some (helpCommand text args)) fuel files args

end Panda
