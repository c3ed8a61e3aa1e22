import Verif.Model.Basic
import Verif.Model.Bitset
import Verif.Model.Gauss
import Verif.Model.FME
import Verif.Proofs.Cone
import Verif.Proofs.Basic
import Verif.Proofs.Bitset
import Verif.Proofs.PhaseTwo
import Verif.Proofs.Gauss
import Verif.Proofs.Columns
import Verif.Proofs.Split
import Verif.Proofs.Normalize
import Verif.Proofs.ConeFacet
import Verif.Proofs.FME
import Verif.Proofs.Output
import Verif.Proofs.Elim
import Verif.Proofs.Equations
import Verif.Spec.Polyhedron
import Verif.Spec.Rows
import Verif.Proofs.SpecBridge
import Verif.Proofs.RowsBridge
import Verif.Proofs.Rank
import Verif.Proofs.FacetFacts
import Verif.Proofs.Stage
import Verif.Props.Arith
import Verif.Props.Facets
import Verif.Props.Vertices
import Verif.Model.Maps
import Verif.Model.Method
import Verif.Spec.Maps
import Verif.Proofs.Classes
import Verif.Proofs.Maps
import Verif.Proofs.MapNorm
import Verif.Proofs.MapNormExact
import Verif.Proofs.MapNormDefined
import Verif.Props.Symmetry
import Verif.Props.Reduced
import Verif.Model.Rotation
import Verif.Proofs.Rotation
import Verif.Proofs.Neighbours
import Verif.Proofs.Search
import Verif.Proofs.RotationRows
import Verif.Proofs.SubClasses
import Verif.Proofs.Closure
import Verif.Proofs.ThreeDim
import Verif.Props.Rotation
import Verif.Model.Pool
import Verif.Proofs.Pool
import Verif.Proofs.PoolLive
import Verif.Props.Pool
import Verif.Model.Adjacency
import Verif.Proofs.Adjacency
import Verif.Props.Adjacency
import Verif.Props.AdjacencyMaps
import Verif.Model.SafeInteger
import Verif.Props.SafeInteger
import Verif.Model.BigInteger
import Verif.Model.Cast
import Verif.Spec.BigInteger
import Verif.Proofs.BigInteger
import Verif.Proofs.BigArith
import Verif.Proofs.BigMul
import Verif.Proofs.BigDiv
import Verif.Props.BigInteger
import Verif.Props.Bitset
import Verif.Model.Validity
import Verif.Model.ValidityTyped
import Verif.Proofs.ValidityTyped
import Verif.Proofs.Validity
import Verif.Props.Validity
import Verif.Model.Text
import Verif.Model.InputVertex
import Verif.Spec.Text
import Verif.Proofs.Text
import Verif.Proofs.InputVertex
import Verif.Props.InputVertex
import Verif.Model.Print
import Verif.Proofs.Print
import Verif.Props.Print
import Verif.Model.InputConstraint
import Verif.Spec.Constraint
import Verif.Proofs.InputConstraint
import Verif.Props.InputConstraint
import Verif.Props.PrintConstraint
import Verif.Model.Options
import Verif.Spec.Options
import Verif.Props.Options
import Verif.Model.Assemble
import Verif.Spec.Assemble
import Verif.Props.Assemble
import Verif.Model.InputSections
import Verif.Spec.MapText
import Verif.Props.InputMap
import Verif.Spec.File
import Verif.Proofs.InputFile
import Verif.Props.InputFile
import Verif.Props.Known
import Verif.Proofs.Hull
import Verif.Props.FileExamples
import Verif.Model.Typed
import Verif.Proofs.Typed
import Verif.Proofs.TypedMaps
import Verif.Props.Typed
import Verif.Model.Main
import Verif.Spec.Output
import Verif.Props.Main
import Verif.Model.Communication
import Verif.Props.Communication
import Verif.Model.AdjacencyTyped
import Verif.Proofs.AdjacencyTyped
import Verif.Proofs.MainAD
import Verif.Props.MainAD
import Verif.Spec.Symmetric
import Verif.Proofs.MainMaps
import Verif.Props.MainMaps
import Verif.Spec.Known
import Verif.Proofs.FacetOf
import Verif.Proofs.Fuel
import Verif.Proofs.OneThread
import Verif.Props.MainKnown
import Verif.Spec.Extreme
import Verif.Proofs.ClosureAll
import Verif.Proofs.Extreme
import Verif.Proofs.LostEdge
import Verif.Props.VertexAD
import Verif.Props.MainVertexAD
import Verif.Proofs.Acts
import Verif.Proofs.VertexOrbits
import Verif.Props.MainVertexMaps
import Verif.Props.VertexMapsExamples
import Verif.Proofs.Expand
import Verif.Proofs.SignedMaps
import Verif.Proofs.ClosedMaps
import Verif.Props.ReducedFile
import Verif.Props.ReducedFileExamples
import Verif.Proofs.ExpandFacets
import Verif.Props.ReducedSystem
import Verif.Props.ReducedSystemExamples
import Verif.Spec.Checked
import Verif.Props.Checked
import Verif.Props.CheckedMain
import Verif.Props.CheckedSystem
import Verif.Props.CheckedExamples
import Verif.Props.CheckedKnown
import Verif.Props.CheckedKnownExamples
import Verif.Model.Cluster
import Verif.Proofs.ClusterSim
import Verif.Proofs.Cluster
import Verif.Proofs.ClusterLive
import Verif.Proofs.ClusterFair
import Verif.Proofs.RotationNonempty
import Verif.Props.Cluster
import Verif.Props.ClusterVertices
import Verif.Model.Help
import Verif.Props.Help
import Verif.Props.Sharp
import Verif.Model.Progress
import Verif.Proofs.Progress
import Verif.Props.Progress
import Verif.Model.Guard
import Verif.Props.Guard
import Verif.Props.RoundTrip
import Verif.Spec.Facet
import Verif.Proofs.HullExtreme
import Verif.Proofs.FacetExact
import Verif.Props.Exact
import Verif.Model.FileStream
import Verif.Props.LookAhead
import Verif.Model.Joining
import Verif.Props.Joining
import Verif.Props.ExactAD
import Verif.Spec.FacetOrbits
import Verif.Proofs.FacetOrbits
import Verif.Props.ExactMaps
import Verif.Props.Canonical
import Verif.Props.CanonicalFlat
import Verif.Props.CanonicalVertices
import Verif.Props.CanonicalVertexMaps
