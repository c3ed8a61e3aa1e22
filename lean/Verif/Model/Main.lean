import Verif.Model.Typed
import Verif.Model.Print
import Verif.Model.InputSections

/-! # The whole program

Model of `/repo/src/main.cpp`, `/repo/src/method_facet_enumeration.cpp`, `/repo/src/method_vertex_enumeration.cpp`,
`/repo/src/integer_type_selection.tpp` and the `call` functions of `/repo/src/method_double_description.cpp`: from the command
line and the files to the text on the standard output. -/

namespace Panda

/-- how a run ends.  `failed`: an exception was thrown; it ends the program with exit code 1 (caught by `call`,
method_double_description.cpp:154-163, 182-191) or by `std::terminate` (thrown elsewhere, or through a function declared
`noexcept`).  Simplification: what had been printed before (the equations) is not part of the result then. -/
inductive ProgramResult where
  | finished (code : Nat) (stdout : List Char)
  | failed
  | undefined
  deriving DecidableEq

/-- the end of a computation of the text on the standard output -/
def ProgramResult.ofRun : Run (List Char) → Option ProgramResult
  | none => none
  | some (.ok t) => some (.finished 0 t)
  | some .thrown => some .failed
  | some .ub => some .undefined

/-- `doubleDescription<FacetEnumeration>` with `IntegerTypeSelector::select` (method_double_description.cpp:41-47,
integer_type_selection.tpp:34-67) and `FacetEnumerationDoubleDescription::call` (method_double_description.cpp:128-153) -/
def facetsDD (fuel : Nat) (files : Files) (args : List Arg) : Run (List Char) :=
  Run.bind (.lift (integerType args)) fun ty =>
  Run.bind (inputVertices fuel files args) fun data =>
  Run.bind (Typed.facetEnumerationDD (selectArith ty) fuel data.1 data.2.2.1) fun o =>
  .lift (printFacetOutput o data.2.1)

/-- `doubleDescription<VertexEnumeration>` (method_double_description.cpp:49-55), `VertexEnumerationDoubleDescription::call`
(method_double_description.cpp:166-181) -/
def verticesDD (fuel : Nat) (files : Files) (args : List Arg) : Run (List Char) :=
  Run.bind (.lift (integerType args)) fun ty =>
  Run.bind (inputInequalities fuel files args) fun data =>
  Run.bind (Typed.vertexEnumerationDD (selectArith ty) fuel data.1 data.2.2.1) fun o =>
  .lift (printVertexOutput o)

/-- `facetEnumeration` (method_facet_enumeration.cpp:17-34) for `facets = true`, `vertexEnumeration`
(method_vertex_enumeration.cpp:17-34) for `facets = false`; `ad` stands for the runs of the adjacency decomposition
(`Verif.Model.Adjacency`, there as a relation between states) -/
def enumeration (ad : Bool → Option ProgramResult) (facets : Bool) (fuel : Nat) (files : Files) (args : List Arg) : Option ProgramResult :=
  match methodOption args with
  | .thrown => some .failed
  | .ub => some .undefined
  | .ok .adjacencyDecomposition => ad facets
  | .ok .doubleDescription => ProgramResult.ofRun (if facets then facetsDD fuel files args else verticesDD fuel files args)

/-- `main` (main.cpp:24-58); `help` stands for `help::command` (help.cpp:23-58).  The help and version texts and the message
for undecided or contradicting modes go to the standard error (main.cpp:41-56, 60-105). -/
def program (ad : Bool → Option ProgramResult) (help : Option ProgramResult) (fuel : Nat) (files : Files) (args : List Arg) :
    Option ProgramResult :=
  match detectOperationMode files args with
  | .thrown => some .failed
  | .ub => some .undefined
  | .ok .facetEnumeration => enumeration ad true fuel files args
  | .ok .vertexEnumeration => enumeration ad false fuel files args
  | .ok .helpCommand => help
  | .ok .help => some (.finished 0 [])
  | .ok .version => some (.finished 0 [])
  | .ok .undecided => some (.finished 1 [])
  | .ok .invalid => some (.finished 1 [])

end Panda
