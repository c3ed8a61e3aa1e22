# Formal model of PANDA in Lean 4

The code under `/repo/src` is read as text and modelled by executable Lean functions.

| directory | content |
|---|---|
| `lean/Verif/Model/` | the model; every definition cites the file and lines it models |
| `lean/Verif/Spec/`  | what the properties are stated with: polyhedra, ranks, orbits, text formats, files, printed systems; no definition of `Model/` is used for the *meaning* of a statement |
| `lean/Verif/Proofs/` | helper lemmas |
| `lean/Verif/Props/` | the property theorems (`C07_…`), each followed by an `example` that its hypotheses are met; `…_partial` = part of a property, `…_false` = proved negation with a witness |
| `MANIFEST.json`, `properties.jsonl` | property ↔ theorems |
| `seeded/LOG.jsonl` | wrong programs tried against the theorems |
| `tools/` | generators of the manifest and of the log |

## 1. Modelling conventions

* `Row<Integer>` is `List Int`, `Matrix<Integer>` is `List (List Int)`; `std::set<Row>` is a strictly
  sorted duplicate-free list; `Map` is a list of images, an image a list of (coefficient, index).
* `Outcome α = ok a | thrown | ub`: a C++ exception and undefined behaviour are outcomes of their own.
  `noexcept` functions in which an exception would escape end the program (`std::terminate`); in the
  typed model this is `thrown` as well: the program prints nothing more and does not exit with 0.
* Loops are structural recursions, or recursions on fuel with a theorem that the fuel given suffices;
  where the C++ loop may run forever (class computation with an infinite orbit, the adjacency
  decomposition with infinitely many images) the model is a relation or the fuel is a parameter and
  non-termination is a theorem (`C23_infinite_orbit`, `C19_nontermination_false`).
* *Two models of the arithmetic.*  (a) The exact model: `Int`.  (b) The typed model
  (`Model/Typed`, `Model/AdjacencyTyped`): the same functions, operation for operation, over a record
  `Arith` with one field per C++ operator; instances are the checked type (`SafeInteger`, 64 bit), `int`
  (overflow is `ub`), `int64_t`, `int16_t` (wrapping where the code converts) and `BigInteger`.
  Simulation lemmas (`Proofs/Typed…`) relate (b) to (a) for the types that compute exactly or fail.
  BigInteger itself is modelled at word level for an arbitrary block width.
* *Threads.*  An interleaving semantics.  A step is one critical section (lock held), the wake-up of a
  waiting thread (spurious ones included), the sequential computation between two critical sections, or
  an unlocked access.  Theorems quantify over every reachable state or every (fair) run, for every number
  of local threads and every number of remote requests.
* *Messages.*  `Model/Communication`: the sequence of `MPI_Isend`/`MPI_Recv`/wait calls of
  `communication.cpp` per thread, over channels that preserve the order per (sender, receiver, tag).
* *Text.*  A file is a list of lines of characters, `std::istream` extraction is a function on the rest
  of the text with `eof`/`fail` flags; `operator>>` for `int` saturates and sets `fail` as the C++11
  standard requires.  Whole program: command line + file text ↦ output text, error or exit code
  (`Model/Main`, `Model/AdjacencyTyped`).

## 2. Trusted base

* Lean 4.33.0's kernel, and the axioms `propext`, `Classical.choice`, `Quot.sound`, on which the property
  theorems depend (Mathlib's linear algebra uses all three; the purely computational witnesses proved by
  `decide +kernel` or `rfl` use fewer).  No axiom is added; no compiled evaluation is used.
* The reading of the C++: nothing ties the model to the code but the citations.
* The C++ standard's meaning of the library calls used: containers, `std::sort` (only: sorted
  permutation), `std::condition_variable`, `std::istream`/`std::ostream` for `int` and `char`,
  `std::stoi`-like conversions, MPI's ordering guarantee.

### Which code is modelled

| code (`/repo/src`) | model |
|---|---|
| `algorithm_integer_operations`, `algorithm_row_operations`, `algorithm_inequality_operations` | `Basic`, `Gauss`, `Rotation`, `Print` |
| `algorithm_matrix_operations` (rank, equations, column elimination) | `Gauss` |
| `algorithm_fourier_motzkin_elimination` | `FME` |
| `algorithm_map_operations`, `algorithm_classes`, `maps.h` | `Maps` |
| `algorithm_rotation` | `Rotation` |
| `method_double_description`, `method_facet_enumeration`, `method_vertex_enumeration` | `Method`, `Typed`, `Main` |
| `method_adjacency_decomposition(_implementation)` | `Adjacency`, `AdjacencyTyped` |
| `list`, `job_manager`, `job_manager_proxy` | `Pool`, `Cluster`, `Progress` |
| `communication` | `Communication` |
| `safe_integer*`, `big_integer*`, `cast` | `SafeInteger`, `BigInteger`, `Cast` |
| `bitset_fixed_size`, `bitset_variable_size`, `popcount` | `Bitset` |
| `input_validity` | `Validity` (exact), `ValidityTyped` (on `int`, as run by `-c`) |
| `input_common`, `input_keywords`, `istream_peek_line`, `input_names`, `input_dimension`, `input_vertex`, `input_constraint*`, `input_map` | `Text`, `InputVertex`, `InputConstraint`, `InputSections` |
| `input`, `input_consistency` | `Assemble`, `InputSections` |
| `input_method`, `input_detection`, `integer_type_detection`, `integer_type_selection`, `concurrency`, options of `input` | `Options`, `Main` |
| `main`, `help` | `Main`, `Help` |
| `scope_guard`, `delayed_action` | `Guard` |
| `joining_thread` | `Joining` |
| `position_guarded_file`, looking ahead with `tellg`/`seekg` | `FileStream` |

Not modelled: the wording of `--help`, `--help=<option>` and `--version`, the
progress messages of the double description method (which depend on the clock), `range` (used
through its effect: iterate in reverse order), start-up and shut-down of MPI,
the file system, iostream formatting flags, memory exhaustion, hardware memory model (only the
data-race condition of C29), the template machinery (`.eti`/`.beti`), the tests.

## 3. Properties: what is modelled, how it is proved, what was found

Arithmetic on rows and matrices
* **C01, C02** Euclid's loop with fuel = `Int.gcd`/`lcm`; the row versions by induction over the row.
* **C03** invariant of the loop over equations: positive multiple of the row minus a combination.
* **C04** each column elimination preserves the row span and splits off one dimension; `finrank`.
* **C05, C06** loop invariants of the Gauss elimination; span/annihilator duality over ℚ.

Facet and vertex enumeration (double description)
* **C07–C12, C14** a theory of pointed cones given by functionals (`Proofs/Cone`: extreme = minimal
  support), one elimination step keeps "exactly the extreme rays", induction over the steps; the start
  from the Gauss elimination; translation to hulls and solution sets in ℚⁿ (`Spec/Polyhedron`).
  **C10, C13 are false of the code** (cone with a facet at infinity only; lines of the solution set).  Both are characterised exactly
  (`C10_exact`: which facet is lost; `C13_exact`: the output generates the solution set iff it contains no line).
* **C15** the abortable elimination: every surviving row of an aborted elimination is a facet or 0 ≤ 1.

Adjacency decomposition
* **C16, C17** rotation: measure = number of strictly positive steps of the ratio; C16 for every ridge.
* **C18–C20** soundness by an invariant over all interleavings; completeness via an argument in the polar
  cone: a set of facets closed under rotation about all ridges is the set of all facets in dimension ≥ 2
  (`Proofs/Closure`, `Proofs/Search`).  **C19 is false in dimension 0 and 1 and may not terminate with
  maps when equations exist; C20 is false**: a ridge that looks like the trivial inequality after the deletion
  of zero columns is discarded; `Proofs/LostEdge` shows that these are exactly the edges that lead straight away
  from the origin, and without such edges the method is complete (`C20_complete_partial`).
  With maps that are not adaptable to the equations soundness fails as well (`C18_maps_false`).

Symmetry
* **C21–C24, C47** breadth-first closure = orbit; representatives are maxima; duality of the action.
* **C25, C52** map normalisation by equations: **false** (undefined behaviour while iterating, missing
  division by the leading coefficient); true for full-dimensional input and for leading coefficient one.
  `C25_defined`: exactly which maps are processed without undefined behaviour (each image of a kept coordinate has at
  most one term, and an eliminated coordinate is replaced by at most one term before the last equation). `C25_exact`: exactly which of
  those are normalised correctly, the *adaptable* ones (`Spec.Adaptable`: whenever a kept coordinate's image mentions an
  eliminated one, its equation has leading coefficient one or says that it is zero); C18, C19 and C52 are stated for all
  adaptable maps (`Proofs/MapNormExact`, `Proofs/MapNormDefined`).

Concurrency and messages
* **C26–C29** invariants of the pool over all interleavings; progress measure for termination;
  **C29 is false** (`list.cpp:88` reads without the lock).
* **C50** invariant over all interleavings of senders and receivers; **false** because the buffers of two
  `MPI_Isend`s are dead before they are waited for.

Integer types
* **C30, C31** 64-bit model; simulation of the exact run by the checked run, operation by operation.
* **C32–C36, C51** word-level model; **C32, C33, C34, C36, C51 are false at the values named in the
  manifest** (−2^31, negative dividends with large quotient, `x *= x`, `-i 64`).
* **C60** simulation for `int` (overflow = `ub`); **false** for `-i 16`, `-i 64`, `-i inf`.
* **C37, C38** bit sets against `Finset`; popcount via bit arithmetic.

Input and output
* **C39, C40** validation against the specification of a facet/extreme ray/permutation; **C40 false** for
  duplicate or non-primitive rows.
* **C41–C44, C53** parsers against grammars of the documented format given as relations in `Spec/`;
  printing followed by reading.  `_false` theorems record what happens outside the format.
* **C45–C48** sorting, assembling, checks.  **C46, C48 false** (INT_MIN; sizes of equations and a declared dimension of 2^64−1 unchecked).
* **C49, C54–C56, C59** options: for all command lines or all of the documented form.
* **C57** whole files, sections in any order.

Whole program (composition of everything above)
* **C58** facets, double description; **C61** vertices, double description; **C62** facets, adjacency
  decomposition with any number of threads, all schedules; **C63** facets with maps, both methods.
* **C64** the same with known facets, and independence of method, threads, schedule, integer type and known
  facets (`C64_same`); **false** for known facets of a flat hull with checked integers (`C64_swallowed_false`).
* **C65** vertices, adjacency decomposition, all schedules; **false** because of the discarded edges, and undefined
  with known vertices (a dangling temporary); sound always, complete without outward edges.
* **C66** vertices with maps, both methods: `Spec/Symmetric` says what one row per orbit means (points moved by
  compositions of the maps of the file); `Proofs/VertexOrbits` proves it of the rows kept by the code.  The
  completeness half for adjacency decomposition inherits the gap of C65.  The symmetry hypotheses of
  C18–C20, C24, C25/C52, C63, C66 are geometric (each map sends the hull / solution set onto itself,
  `Proofs/Acts`), not statements about the given rows.
* **C67** files with reduced sections: the content is a set of points closed under the maps, not a list
  (`Spec/ReducedFile`); the expansion runs on `int`, so it is proved equal to the exact expansion or undefined
  (`Proofs/Expand`), and never undefined for signed permutations of the coordinates (`Proofs/SignedMaps`).
  `Proofs/ClosedMaps`: an invertible map of a finite set into itself is onto, so the hull is symmetric.
* **C68** the same for inequalities: a listed inequality stands for what it says about all images of a point
  (`Spec/ReducedFile`, `Proofs/ExpandFacets`); vertices of both methods from the theorems of C66
  (`ReadsSystem` in `Props/MainVertexMaps`).  Scoped to files without equations before the section: with
  equations the maps are simplified first, and the result is wrong (`C68_equations_false`).
* **C69** option `-c`: the checks are run on `int` (`ValidityTyped`), so they are the exact ones of C40 or undefined
  (`Proofs/ValidityTyped`, a simulation); what the exact checks accept is translated to points, rays and inequalities
  (`Spec/Checked`), and a map that permutes them is a symmetry of the hull / solution set, so the theorems of C63 and C66
  apply with no assumption on the maps. The loop over the file is followed with and without checks at once
  (`orderedVertexFile_reads`, `orderedInequalityFile_reads`); maps after the points and equations are never checked
  (`C69_late_maps_false`, `C69_equations_false`).
* **C70** `-c -k`: `checked_read` of C69 is stated with a known-facets file; `facet_geometric` turns the rank test of the
  check into 'facet of the hull, or strict on it'; the output then follows from C58/C64. `C70_infinity_false`: `0 <= 1` passes.
* **C71** distributed run: `Model/Cluster` adds to the pool the request threads' phases, the messages under way and the threads of the
  other nodes. Proof: every state is, up to exchanging request threads of the same node, a state of the pool in which the request
  threads compute the results themselves (`clusterInv`: a permutation of the threads and an equation between the rows waited for and the
  rows under way); C26–C28 are carried over; liveness by counting stop signals against threads, termination by a
  lexicographic measure. `rot_nonempty`: in dimension two and above `rotation` never returns an empty matrix.
* **C72** help about an option: the parsing of `help.cpp` for all command lines; comparison with the list of options in `main.cpp`.
* **C73** progress messages: `Model/Progress` adds the counter, the thread-local index and the lines on `stderr` to the steps of the
  pool; invariants over all interleavings (`Proofs/Progress`).  **The announced number of classes is false with known rows.**
* **C74, C75** scope guards and delayed actions: `Model/Guard` is a machine over histories of make/move/dismiss/destroy; `Spec.inCharge` says
  which object is in charge of which function; counting invariant over all histories. **C75 is false for moved delayed actions.**
* **C58_exact, C61_exact, C76_exact, C77_exact, C62_exact, C64_exact** say what is printed without reference to redundancy: the facets (`Spec.DefinesFacet`), the affine
  hull, the vertices and the extreme directions (`Spec.Vertex`, `Spec.ExtremeDirection`). `Proofs/HullExtreme`: an irredundant generator of a
  pointed cone is extreme, an extreme element is a multiple of a generator, finitely generated cones are closed (by the elimination
  theorem itself); `Proofs/FacetExact`: a point of the relative interior of a facet is tight for one inequality only.
* **C63_exact_dd, C63_exact_ad** (and `C67_…`, `C69_…`): with maps, every facet of the hull is an image, under a product of the maps of the file, of exactly one printed
  inequality (`Spec.OnePerFacetOrbit`; `Proofs/FacetOrbits`).
* **C78** histories (latest first) of `start`, `move`, `destroy` and the ends of threads; `destroy` is possible only when the thread has ended; the
  invariant counts, for every thread, the joins and the living objects in charge of it.
* **C79** streams with a position, `tellg`, `clear`, `seekg`; the functions that look ahead follow the code. The models of the parser (`Model/Text`, ...),
  which only know the unread characters, are proved to be exact (`C79_*_model`).
* **C80** `ListsOrbits` characterises the printed rows without the program: primitive rows that define facets, one for every orbit (orbits are given by
  products of the maps of the file), the largest of its orbit. Such a list is unique (`ListsOrbits.same`), and every run prints it.
  Without maps also for sets in a hyperplane (`Props/CanonicalFlat`): two inputs for the same set have the same cone (`cone_transfer`, from the
  two descriptions of the cone), hence the same facets (`facetP_transfer`) and the same reduced echelon form (`equations_perm_of_annih`).
* **C81** the rows of the vertices and extreme directions in lowest terms (`Spec.VertexRow`) are determined by the set (`row_unique`); the
  double description run lists exactly these and prints each by a fixed function of the row, adjacency decomposition lists some of them.
  With maps: `ListsPointOrbits`, as for C80.
* **C76, C77** round trips: the text printed by one run is an input file of the other direction (`Spec.PrintedSystem`/`Spec.PrintedPoints` imply
  `Spec.InequalityFile`/`Spec.VertexFile`), so C58 and C61 compose. Outside the scope stated (two points, no line, no names) the round
  trip fails: `C76_point_false`, `C76_names_false`, `C77_line_false`.

  The statements only mention the command line, the file text, the points meant by it, the printed text and
  the solutions of the printed system.

## 4. Findings (the code does not do what a user relies on)

Each is a theorem about the model with a concrete witness.

| theorem | code | effect |
|---|---|---|
| `C10_pure_cone_false` | FME start | a facet of a cone without vertices is lost |
| `C13_lines_false` | vertex enumeration | lines of the solution set are not reported |
| `C05_undefined`, `C07_undefined` | empty/all-zero input | undefined behaviour |
| `C16_point_undefined`, `C19_point_false` | adjacency decomposition of a point | undefined behaviour |
| `C19_segment_false`, `C19_strip_false` | one-dimensional input | a facet is missing |
| `C19_trivial_row_false` | | the trivial inequality is printed as a facet |
| `C19_nontermination_false`, `C52_nontermination_false` | maps + equations | runs forever |
| `C20_adjacency_vertices_false` | vertex enumeration by adjacency decomposition | vertices are missing |
| `C65_incomplete_false` | the same for the whole program | exit code 0, vertices are missing |
| `C65_known_undefined_false` | `method_adjacency_decomposition_implementation.cpp:172` | a temporary list of equations is read after its destruction |
| `C18_maps_false` | `method_adjacency_decomposition_implementation.cpp:85-123` | maps, an equation of leading coefficient 2 and a known facet: an inequality that a corner violates is printed |
| `C25_*_false` | `algorithm_map_operations.cpp` | undefined behaviour, wrong maps |
| `C68_equations_false` | `input.cpp:97-111` | "Reduced Inequalities" after equations: inequalities are lost |
| `C69_late_maps_false`, `C69_equations_false` | `input.cpp:50-96`, `115-247` | `-c` accepts maps that are no symmetries; wrong inequalities / vertices are printed |
| `C70_infinity_false` | `input_validity.cpp:152-183` | with `-c`, the known inequality `0 <= 1`, which is not a facet, is accepted for a cone (harmless: the output is correct) |
| `C71_more_threads_false`, `C71_fewer_threads_false` | `job_manager.cpp:55-59`, `concurrency.cpp:25-53` | the master creates request threads for each node by its own number of processors; a node with more threads never ends, with fewer the master may hang |
| `C72_unknown_false` | `help.cpp:186-226` | `--help=--known-data` (also `--known-facets`, `--known-vertices`, `--help-command`, `--v`): 'Command not found', exit code 1, although `--help` lists these options |
| `C73_bound_false` | `list.cpp:88, 111` | the stop signal is counted as a class: with known rows, 'Processing #2 of at least 3 classes' although only two exist |
| `C75_moved_false` | `delayed_action.h:46` | the defaulted move constructor leaves the moved-from delayed action armed: the function is run twice, or although it was dismissed (harmless in the program: the only use is not moved after its creation) |
| `C76_point_false` | `input.cpp` | the output for a single point (equations and an empty list of inequalities) is refused as an input file |
| `C76_names_false` | `algorithm_row_operations.cpp:51` | inequalities are printed with the names of the variables, but the names are not declared: the output is refused as an input file |
| `C77_line_false` | `method_vertex_enumeration` | a half-plane is printed as a point and a ray: facet enumeration of the output yields a half-line |
| `C71_segment_false` | `communication.cpp:91`, `algorithm_rotation.cpp` | for a segment (and any input of rank two) `rotation` returns an empty matrix, whose transmission is undefined behaviour |
| `C29_race_false` | `list.cpp:88` | data race |
| `C32/C33/C34/C36_*_false` | `big_integer*` | wrong sign of quotients, `x *= x`, INT_MIN |
| `C40_identity_false` | `input_validity.cpp` | the identity map is rejected |
| `C41_*_false`, `C42_*_false`, `C43_*_false`, `C53_*_false`, `C57_*_false`, `C59_equations_false` | parsers | input outside the documented format is silently misread, a loop never ends, output cannot be read back |
| `C46_undefined_false`, `C48_equation_size_false`, `C48_dimension_false` | `input.cpp`, `input_consistency.cpp` | undefined behaviour; sizes of equations unchecked; `DIM=-1` counts as no declaration |
| `C50_dangling_false`, `C50_empty_false` | `communication.cpp` | dead send buffers; empty matrix |
| `C51_int64_false`, `C60_*_false` | `cast.cpp`, integer types | wrong numbers are printed without notice |
| `C64_swallowed_false` | `method_adjacency_decomposition_implementation.cpp:80, 151-159` | an exception in the asynchronous task is never looked at: a facet is missing, exit code 0 |
| `C54_undefined_false`, `C55_short_equals_false` | options | reads past the argument; file name swallowed |

No property of the list is inexpressible in the model.
