import Verif.Model.Maps
import Verif.Model.FME

/-! # The two double description methods

Model of `/repo/src/method_double_description.cpp`; input reading and the formatting of the output are
modelled separately, so the functions take the rows and maps and return what is printed. -/

namespace Panda

/-- lift a terminating computation -/
def Run.lift {α : Type} (x : Outcome α) : Run α := some x

/-- what facet enumeration prints: equations, whether the output is called "Reduced", inequalities -/
structure FacetOutput where
  equations : Matrix
  reduced : Bool
  inequalities : Matrix
  deriving DecidableEq, Repr

/-- `FacetEnumerationDoubleDescription::call` (method_double_description.cpp:128-152) on the data read
from the input. -/
def facetEnumerationDD (fuel : Nat) (vertices : Matrix) (maps : Maps) : Run FacetOutput :=
  Run.bind (.lift (extractEquations vertices)) fun equations =>
  Run.bind (.lift (normalizeMaps maps equations)) fun reducedMaps =>
  Run.bind (.lift (fourierMotzkinElimination vertices)) fun inequalities =>
  Run.bind (classes fuel inequalities reducedMaps .facet) fun inequalities =>
  some (.ok ⟨equations, decide (maps ≠ []), inequalities⟩)

/-- `split` (method_double_description.cpp:60-80): rows with last entry different from zero are vertices,
the others rays; calling `back()` on an empty row is undefined, the rows here are never empty. -/
def splitVertices (m : Matrix) : Matrix × Matrix :=
  (m.filter fun r => decide (r.getLastD 0 ≠ 0), m.filter fun r => decide (r.getLastD 0 = 0))

/-- what vertex enumeration prints: whether the output is called "Reduced", vertices (still with the
denominator in the last entry), rays (without the last entry) -/
structure VertexOutput where
  reduced : Bool
  vertices : Matrix
  rays : Matrix
  deriving DecidableEq, Repr

/-- `VertexEnumerationDoubleDescription::call` and `print` (method_double_description.cpp:82-113,166-181)
on the data read from the input. -/
def vertexEnumerationDD (fuel : Nat) (inequalities : Matrix) (maps : Maps) : Run VertexOutput :=
  Run.bind (.lift (fourierMotzkinElimination inequalities)) fun matrix =>
  Run.bind (classes fuel matrix maps .vertex) fun matrix =>
  some (.ok ⟨decide (maps ≠ []), (splitVertices matrix).1, (splitVertices matrix).2.map List.dropLast⟩)

end Panda
