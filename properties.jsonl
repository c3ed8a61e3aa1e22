{"id": "C01", "title": "Integer gcd/lcm", "statement": "gcd(a,b) is the non-negative greatest common divisor of a and b for all integers including negatives and zero; lcm(a,b) is their non-negative least common multiple whenever not both are zero, and is a division by zero when both are.", "quantifier": "all pairs of integers", "why_tests_cant": "unbounded integer domain; the loop must terminate and be right for every pair", "anchors": [{"file": "src/algorithm_integer_operations.cpp", "symbols": ["gcd", "lcm", "unsigned_gcd"]}]}
{"id": "C02", "title": "Row gcd and primitive rows", "statement": "The gcd of a row is the gcd of all its entries (the leading-zero skip and the early exit at 1 never change it), the row lcm is the lcm of all its entries when they are non-zero, and dividing a non-zero row by its gcd is exact and yields the primitive row on the same ray.", "quantifier": "all integer rows of every length", "why_tests_cant": "every length and every content", "anchors": [{"file": "src/algorithm_row_operations.cpp", "symbols": ["gcd", "lcm", "normalize", "operator/="]}]}
{"id": "C03", "title": "Row normalisation modulo equations keeps the inequality", "statement": "Normalising an inequality with equations that hold on the input set and have positive leading coefficients in echelon form yields an inequality that is zero at every leading position and cuts out the same set of points on the affine hull (it differs from a positive multiple of the input by a combination of the equations); with a negative leading coefficient the inequality would be reversed.", "quantifier": "all rows, all equation lists in that form", "why_tests_cant": "all rows, all equation systems", "anchors": [{"file": "src/algorithm_row_operations.cpp", "symbols": ["normalize"]}, {"file": "src/algorithm_matrix_operations.cpp", "symbols": ["extractEquations"]}]}
{"id": "C04", "title": "Matrix dimension is the rank", "statement": "The dimension reported for a matrix equals the rank over the rationals of its rows.", "quantifier": "all non-empty rectangular integer matrices", "why_tests_cant": "all sizes and contents", "anchors": [{"file": "src/algorithm_matrix_operations.cpp", "symbols": ["dimension"]}]}
{"id": "C05", "title": "Equations describe exactly the affine hull", "statement": "The equations reported for a set of vertices/rays are satisfied by every one of them, are linearly independent, and every equation satisfied by all of them is a combination of the reported ones: a vector satisfies all of them iff it is in the linear span of the (homogenised) input.", "quantifier": "all non-empty rectangular inputs", "why_tests_cant": "all input sets, dimensions", "anchors": [{"file": "src/algorithm_matrix_operations.cpp", "symbols": ["extractEquations", "gaussianElimination", "appendNegativeIdentityMatrix"]}]}
{"id": "C06", "title": "Equations are in reduced echelon form", "statement": "Every reported equation is primitive, has a positive first non-zero coefficient, and no other equation or reported inequality has a non-zero coefficient at that position.", "quantifier": "all non-empty rectangular inputs", "why_tests_cant": "all inputs", "anchors": [{"file": "src/algorithm_matrix_operations.cpp", "symbols": ["gaussianElimination", "extractEquations"]}, {"file": "src/algorithm_fourier_motzkin_elimination.cpp", "symbols": ["fourierMotzkinElimination"]}]}
{"id": "C07", "title": "Facet enumeration (double description) is sound", "statement": "Every inequality and equation printed is satisfied by every input vertex and input ray.", "quantifier": "all vertex/ray inputs", "why_tests_cant": "all inputs", "anchors": [{"file": "src/algorithm_fourier_motzkin_elimination.cpp", "symbols": ["fourierMotzkinElimination", "projection", "updateSystem"]}, {"file": "src/method_double_description.cpp", "symbols": ["FacetEnumerationDoubleDescription::call"]}]}
{"id": "C08", "title": "Facet enumeration (double description) is complete", "statement": "For every input with at least one vertex, a point lies in conv(vertices)+cone(rays) iff it satisfies all reported equations and inequalities.", "quantifier": "all vertex/ray inputs with at least one vertex, all rational points", "why_tests_cant": "all inputs and all points of the space", "anchors": [{"file": "src/algorithm_fourier_motzkin_elimination.cpp", "symbols": ["fourierMotzkinElimination", "projection", "phaseTwo", "detectBadRow"]}, {"file": "src/method_double_description.cpp", "symbols": ["FacetEnumerationDoubleDescription::call"]}]}
{"id": "C09", "title": "Facet enumeration is irredundant", "statement": "Every reported inequality defines a facet (the input rows satisfying it with equality have rank one less than the whole input), no inequality is reported twice, not even as a multiple or modulo the equations, and dropping one changes the polyhedron.", "quantifier": "all vertex/ray inputs with at least one vertex", "why_tests_cant": "all inputs; redundancy elimination must never keep or drop the wrong row", "anchors": [{"file": "src/algorithm_fourier_motzkin_elimination.cpp", "symbols": ["countCheck", "containmentCheck", "pnrIteration"]}]}
{"id": "C10", "title": "Pure cones keep all their facets", "statement": "Facet enumeration of a cone given only by rays reports every facet of the cone.", "quantifier": "all ray-only inputs", "why_tests_cant": "all ray-only inputs", "anchors": [{"file": "src/algorithm_fourier_motzkin_elimination.cpp", "symbols": ["detectBadRow", "eliminateZeroColumns"]}]}
{"id": "C11", "title": "Facet enumeration does not depend on the input order", "statement": "Permuting the input rows or repeating rows changes neither the set of reported inequalities nor the set of reported equations.", "quantifier": "all inputs and all permutations", "why_tests_cant": "all orders", "anchors": [{"file": "src/algorithm_fourier_motzkin_elimination.cpp", "symbols": ["fourierMotzkinElimination"]}, {"file": "src/algorithm_matrix_operations.cpp", "symbols": ["gaussianElimination"]}]}
{"id": "C12", "title": "Vertex enumeration (double description) is correct", "statement": "For every satisfiable system of inequalities whose solution set contains no line, a point satisfies the system iff it is a convex combination of reported vertices plus a conic combination of reported rays; each is reported once and is extreme.", "quantifier": "all inequality systems, all points", "why_tests_cant": "all systems", "anchors": [{"file": "src/algorithm_fourier_motzkin_elimination.cpp", "symbols": ["fourierMotzkinElimination"]}, {"file": "src/method_double_description.cpp", "symbols": ["VertexEnumerationDoubleDescription::call", "split"]}, {"file": "src/input.cpp", "symbols": ["inequalities"]}]}
{"id": "C13", "title": "Vertex enumeration reports the lines of the solution set", "statement": "If the solution set contains a line, the reported vertices and rays still generate it.", "quantifier": "all inequality systems", "why_tests_cant": "all systems", "anchors": [{"file": "src/method_double_description.cpp", "symbols": ["VertexEnumerationDoubleDescription::call"]}]}
{"id": "C14", "title": "Elimination bookkeeping is exact", "statement": "Throughout the elimination the set attached to each row is exactly the set of already processed inputs at which it is strictly satisfied, the rows are pairwise non-proportional, and each row is primitive.", "quantifier": "all inputs, all elimination steps", "why_tests_cant": "an invariant over every intermediate state", "anchors": [{"file": "src/algorithm_fourier_motzkin_elimination.cpp", "symbols": ["initializeR", "projection", "updateSystem"]}]}
{"id": "C15", "title": "Initial facets for adjacency decomposition", "statement": "Every row found by the abortable elimination is a facet-defining inequality of the input or the trivial inequality 0<=1, and at least one row is found when the input has at least two different points.", "quantifier": "all inputs", "why_tests_cant": "all inputs", "anchors": [{"file": "src/algorithm_fourier_motzkin_elimination.cpp", "symbols": ["fourierMotzkinEliminationHeuristic", "phaseTwoHeuristic", "extractFacets"]}]}
{"id": "C16", "title": "Rotation terminates with the neighbouring facet", "statement": "Rotating a facet around one of its ridges terminates and yields a valid, primitive inequality that is satisfied with equality on the ridge, is not the facet itself, and defines a facet.", "quantifier": "all inputs, facets and ridges", "why_tests_cant": "the rotation loop must terminate for every input; result for every facet", "anchors": [{"file": "src/algorithm_rotation.cpp", "symbols": ["rotation", "rotate", "getRidges"]}, {"file": "src/algorithm_inequality_operations.cpp", "symbols": ["nearestVertex", "furthestVertex"]}]}
{"id": "C17", "title": "Nearest/furthest vertex", "statement": "The furthest (nearest) vertex returned is an element of the list with maximal (minimal) distance, the first such one.", "quantifier": "all non-empty vertex lists and inequalities", "why_tests_cant": "all lists", "anchors": [{"file": "src/algorithm_inequality_operations.cpp", "symbols": ["furthestVertex", "nearestVertex", "extremalVertex", "distance"]}]}
{"id": "C18", "title": "Adjacency decomposition is sound", "statement": "Every inequality printed by adjacency decomposition facet enumeration is a facet-defining inequality (or the trivial 0<=1), printed once.", "quantifier": "all inputs, all schedules", "why_tests_cant": "all inputs and all interleavings", "anchors": [{"file": "src/method_adjacency_decomposition_implementation.cpp", "symbols": ["adjacencyDecomposition", "initializationOnMaster"]}, {"file": "src/algorithm_rotation.cpp", "symbols": ["rotation"]}]}
{"id": "C19", "title": "Adjacency decomposition is complete", "statement": "Adjacency decomposition facet enumeration reports the same facets as double description.", "quantifier": "all inputs with at least one vertex", "why_tests_cant": "completeness of a graph search over an unbounded family of polytopes", "anchors": [{"file": "src/method_adjacency_decomposition_implementation.cpp", "symbols": ["adjacencyDecomposition"]}, {"file": "src/algorithm_rotation.cpp", "symbols": ["rotation"]}]}
{"id": "C20", "title": "Adjacency decomposition vertex enumeration is complete", "statement": "Adjacency decomposition vertex enumeration reports the same vertices and rays as double description.", "quantifier": "all inequality systems", "why_tests_cant": "all systems", "anchors": [{"file": "src/method_adjacency_decomposition_implementation.cpp", "symbols": ["adjacencyDecomposition"]}, {"file": "src/algorithm_fourier_motzkin_elimination.cpp", "symbols": ["detectBadRow"]}]}
{"id": "C21", "title": "Symmetry classes partition the rows", "statement": "Reducing a set of rows by maps that act as permutations on it returns one representative per orbit: the lexicographically largest; every row's orbit is represented and no orbit twice.", "quantifier": "all finite row sets and all map lists acting injectively", "why_tests_cant": "all groups, all sets", "anchors": [{"file": "src/algorithm_classes.cpp", "symbols": ["classes", "getClass"]}]}
{"id": "C22", "title": "Class representative is an orbit invariant", "statement": "Two rows in the same orbit have the same class representative, and the representative lies in the orbit.", "quantifier": "all rows and maps with finite orbits acting as permutations", "why_tests_cant": "all rows/maps", "anchors": [{"file": "src/algorithm_classes.cpp", "symbols": ["classRepresentative", "getClass"]}]}
{"id": "C23", "title": "Getting a class terminates with the reachable set", "statement": "Computing the class of a row terminates whenever finitely many rows are reachable and returns exactly the rows reachable by applying maps.", "quantifier": "all rows and map lists with finite closure", "why_tests_cant": "all closures", "anchors": [{"file": "src/algorithm_classes.cpp", "symbols": ["getClass"]}]}
{"id": "C24", "title": "Maps act dually on facets and vertices", "statement": "Applying a map to an inequality and evaluating at a vertex gives the same sign (the same value up to the gcd division) as evaluating the inequality at the mapped vertex; hence a map permuting the vertices (up to scaling) sends valid inequalities to valid inequalities and facets to facets.", "quantifier": "all maps, rows and vertices", "why_tests_cant": "all maps", "anchors": [{"file": "src/algorithm_map_operations.cpp", "symbols": ["apply", "applyTerm"]}]}
{"id": "C25", "title": "Map normalisation", "statement": "Normalising maps by the equations does not change their action on normalised inequalities modulo the equations, and images of normalised inequalities are normalised.", "quantifier": "all maps and equation systems in reduced echelon form", "why_tests_cant": "all maps, all equations", "anchors": [{"file": "src/algorithm_map_operations.cpp", "symbols": ["normalizeMap", "subtractEquation", "simplify", "eliminateZeroCoefficients"]}]}
{"id": "C26", "title": "Job pool: printed and handed out at most once", "statement": "In every interleaving of workers, each row put into the pool is printed exactly once and handed out to at most one worker.", "quantifier": "all thread counts, all schedules, all put/get histories", "why_tests_cant": "all interleavings", "anchors": [{"file": "src/list.cpp", "symbols": ["put", "get", "empty"]}]}
{"id": "C27", "title": "Job pool: workers stop only when the work is finished", "statement": "A worker receives the stop signal only if every printed row (other than rows added asynchronously afterwards from the known-output section) has been handed out and its results have been added, so upon termination the printed set is closed under rotation.", "quantifier": "all schedules", "why_tests_cant": "all interleavings", "anchors": [{"file": "src/list.cpp", "symbols": ["get", "put", "empty"]}, {"file": "src/method_adjacency_decomposition_implementation.cpp", "symbols": ["adjacencyDecomposition"]}]}
{"id": "C28", "title": "Job pool: no deadlock", "statement": "No interleaving leaves a worker waiting forever while no other thread can take a step: some thread can always make progress until all workers have stopped.", "quantifier": "all schedules", "why_tests_cant": "all interleavings", "anchors": [{"file": "src/list.cpp", "symbols": ["get", "put", "empty"]}]}
{"id": "C29", "title": "Job pool: no unsynchronised access", "statement": "The shared set of rows is never accessed by two threads without the lock.", "quantifier": "all schedules", "why_tests_cant": "data races depend on the schedule", "anchors": [{"file": "src/list.cpp", "symbols": ["get"]}]}
{"id": "C30", "title": "Checked integers are exact or throw", "statement": "Every arithmetic operation on the overflow-checked integer type returns the mathematically exact result, or throws; it throws only if the exact result is not representable or the divisor is invalid; no operation executes undefined behaviour.", "quantifier": "all pairs of 64-bit values", "why_tests_cant": "2^128 pairs per operation", "anchors": [{"file": "src/safe_integer_arithmetics.tpp", "symbols": ["operator+=", "operator-=", "operator*=", "operator/=", "operator%="]}, {"file": "src/safe_integer.tpp", "symbols": ["operator-"]}]}
{"id": "C31", "title": "Checked-integer runs equal exact runs", "statement": "If facet/vertex enumeration with the overflow-checked type completes without throwing, its result is the exact result.", "quantifier": "all inputs", "why_tests_cant": "all inputs; overflow may occur anywhere", "anchors": [{"file": "src/integer_type_selection.tpp", "symbols": ["select"]}, {"file": "src/algorithm_fourier_motzkin_elimination.cpp", "symbols": ["fourierMotzkinElimination"]}]}
{"id": "C32", "title": "Big integers: construction and magnitude representation", "statement": "Constructing a big integer from a machine integer and reading it back is the identity; the representation never has a leading zero word.", "quantifier": "all values", "why_tests_cant": "all values", "anchors": [{"file": "src/big_integer_constructors.cpp", "symbols": ["BigInteger"]}, {"file": "src/big_integer_constructors.cpp", "symbols": ["operator int"]}]}
{"id": "C33", "title": "Big integers: addition, subtraction, multiplication are exact", "statement": "For all big integers a,b: a+b, a-b, a*b represent the exact mathematical results.", "quantifier": "all pairs of arbitrary-precision integers", "why_tests_cant": "unbounded operands; carries at every position", "anchors": [{"file": "src/big_integer_arithmetics.cpp", "symbols": ["operator+=", "operator-=", "operator*=", "addMagnitude", "subtractMagnitude"]}]}
{"id": "C34", "title": "Big integers: division truncates towards zero", "statement": "a/b is the truncated quotient for all a and all b != 0.", "quantifier": "all pairs of arbitrary-precision integers", "why_tests_cant": "unbounded operands", "anchors": [{"file": "src/big_integer_arithmetics.cpp", "symbols": ["operator/=", "divideMagnitudesWithRemainder"]}]}
{"id": "C35", "title": "Big integers: remainder", "statement": "a % b for non-negative a and positive b is the remainder of the division.", "quantifier": "all pairs of arbitrary-precision integers", "why_tests_cant": "unbounded operands", "anchors": [{"file": "src/big_integer_arithmetics.cpp", "symbols": ["operator%="]}]}
{"id": "C36", "title": "Big integers: comparisons are the order of the integers", "statement": "<, <=, >, >=, ==, != between big integers (and against machine integers) agree with the order of the represented values.", "quantifier": "all pairs", "why_tests_cant": "unbounded operands", "anchors": [{"file": "src/big_integer_comparisons.cpp", "symbols": ["operator<", "operator==", "operator>", "operator<="]}]}
{"id": "C37", "title": "Bit sets behave as sets of indices", "statement": "For every capacity, setting, merging, containment, union-containment and counting on the fixed-size and the variable-size bit sets agree with finite sets of indices; both implementations give the same answers, hence the word-count dispatch cannot change the result.", "quantifier": "all capacities, all sets, all operation sequences", "why_tests_cant": "all sizes, including word boundaries", "anchors": [{"file": "src/bitset_fixed_size.tpp", "symbols": ["set", "merge", "count", "contains", "unionContains", "unionCount"]}, {"file": "src/bitset_variable_size.cpp", "symbols": ["BitsetVariableSize"]}]}
{"id": "C38", "title": "Population count fallback", "statement": "The portable population count returns the number of one bits of every 32-bit word.", "quantifier": "all 32-bit words", "why_tests_cant": "2^32 words per width", "anchors": [{"file": "src/popcount.tpp", "symbols": ["popcount"]}]}
{"id": "C39", "title": "Known-inequality validation", "statement": "With validation on, a known inequality from the input file is accepted iff it is satisfied by all vertices, holds with equality for at least one of them, and the vertices on it have rank one less than all the vertices; a known vertex is accepted iff it is an extreme ray of the cone of the inequalities.", "quantifier": "all vertex sets and all rows", "why_tests_cant": "all inputs", "anchors": [{"file": "src/input_validity.cpp", "symbols": []}, {"file": "src/algorithm_matrix_operations.cpp", "symbols": ["dimension"]}]}
{"id": "C40", "title": "Map validation", "statement": "With validation on, a map is accepted iff it permutes the given rows.", "quantifier": "all row sets and all maps", "why_tests_cant": "all inputs", "anchors": [{"file": "src/input_validity.cpp", "symbols": []}]}
{"id": "C41", "title": "Vertex parsing", "statement": "Reading a vertex with fractional coordinates yields an integer row whose quotients by the (positive) last entry are exactly the given fractions; zero denominators are rejected; a ray yields last entry 0.", "quantifier": "all coordinate lists", "why_tests_cant": "all fractions, all lengths", "anchors": [{"file": "src/input_vertex.cpp", "symbols": ["vertex"]}]}
{"id": "C42", "title": "Constraint parsing", "statement": "Reading an inequality or equation yields the row (a,-b) meaning a*x<=b; '>=' yields the negated row; a variable that occurs twice is rejected; unknown names are rejected.", "quantifier": "all well-formed constraint lines", "why_tests_cant": "all lines", "anchors": [{"file": "src/input_constraint_named_variables.cpp", "symbols": []}, {"file": "src/input_constraint_unnamed_variables.cpp", "symbols": []}, {"file": "src/input_constraint.cpp", "symbols": []}]}
{"id": "C43", "title": "Printed constraints read back as the same row", "statement": "Parsing the line printed for an inequality over named variables yields the same row.", "quantifier": "all rows, all admissible name lists", "why_tests_cant": "all rows and names", "anchors": [{"file": "src/algorithm_row_operations.cpp", "symbols": ["prettyPrint"]}, {"file": "src/input_constraint_named_variables.cpp", "symbols": []}]}
{"id": "C44", "title": "Printed vertices read back as the same point", "statement": "Parsing the line printed for a vertex yields a row representing the same point.", "quantifier": "all vertices with non-zero last entry", "why_tests_cant": "all vertices", "anchors": [{"file": "src/algorithm_row_operations.cpp", "symbols": ["printFractional"]}, {"file": "src/input_vertex.cpp", "symbols": ["vertex"]}]}
{"id": "C45", "title": "Input ordering only permutes", "statement": "Whatever sorting option is chosen, the rows used are a permutation of the rows given, sorted by the chosen key, and the polyhedron described by the input is unchanged.", "quantifier": "all options and row lists", "why_tests_cant": "all inputs and options", "anchors": [{"file": "src/input_common.cpp", "symbols": []}, {"file": "src/input.cpp", "symbols": []}]}
{"id": "C46", "title": "Inequality input describes the same set", "statement": "The assembled inequality system (inequalities, both sides of each equation, and the homogenising row) has the same solutions as the input file.", "quantifier": "all inequality/equation lists, all points", "why_tests_cant": "all inputs", "anchors": [{"file": "src/input.cpp", "symbols": ["inequalities"]}]}
{"id": "C47", "title": "Orbit expansion", "statement": "Expanding vertices (or inequalities) by maps yields exactly the union of the orbits of the given rows.", "quantifier": "all rows and maps with finite orbits", "why_tests_cant": "all inputs", "anchors": [{"file": "src/input.cpp", "symbols": ["expandVertices", "expandInequalities"]}]}
{"id": "C48", "title": "Consistency checks", "statement": "Inputs in which rows have different sizes, or where the number of names or the declared dimension disagree with the rows, are rejected before any computation.", "quantifier": "all inputs", "why_tests_cant": "all inputs", "anchors": [{"file": "src/input_consistency.cpp", "symbols": ["checkConsistency"]}, {"file": "src/input_dimension.cpp", "symbols": ["dimension"]}, {"file": "src/input_keywords.cpp", "symbols": []}]}
{"id": "C49", "title": "Number of threads option", "statement": "The number of threads used is the value given with -t/--threads if it is a positive number and an error otherwise; without the option it is the hardware default and at least one.", "quantifier": "all command lines", "why_tests_cant": "all argument vectors", "anchors": [{"file": "src/concurrency.cpp", "symbols": ["numberOfThreads"]}]}
{"id": "C50", "title": "Distributed messages arrive intact", "statement": "A matrix or row sent between nodes is received as the same matrix or row, and messages of different threads to the same node are not mixed.", "quantifier": "all matrices/rows, all send orders", "why_tests_cant": "all messages and interleavings", "anchors": [{"file": "src/communication.cpp", "symbols": ["toMaster", "fromSlave", "toSlave", "fromMaster"]}]}
{"id": "C51", "title": "Conversion to machine integers for output", "statement": "Printing converts each entry to a machine integer of the same value or throws; it never prints a different number.", "quantifier": "all values of every supported integer type", "why_tests_cant": "all values", "anchors": [{"file": "src/cast.cpp", "symbols": ["cast"]}, {"file": "src/safe_integer_constructors.tpp", "symbols": ["operator int"]}, {"file": "src/big_integer_constructors.cpp", "symbols": ["operator int"]}]}
{"id": "C52", "title": "Double-description output under symmetry", "statement": "With symmetries of the input given as maps, double description prints one facet per orbit, and the orbits of the printed facets are all the facets.", "quantifier": "all inputs and symmetry maps", "why_tests_cant": "all inputs, all symmetry groups", "anchors": [{"file": "src/method_double_description.cpp", "symbols": ["FacetEnumerationDoubleDescription::call"]}, {"file": "src/algorithm_classes.cpp", "symbols": ["classes"]}]}
{"id": "C53", "title": "Maps are read as written", "statement": "Every map in the maps section of a file in the documented format is read as the affine map it denotes: each image is the listed sum of factors times named variables plus constants.", "quantifier": "all files, names and map texts of the documented format", "why_tests_cant": "unbounded texts and numbers of variables", "anchors": [{"file": "src/input_map.cpp", "symbols": ["maps", "image", "extractFactor", "extractName"]}]}
{"id": "C54", "title": "Options with a word as parameter", "statement": "The options for the sorting order, the method and the integer type select the documented alternative for every documented spelling, the default if absent, and are rejected otherwise.", "quantifier": "all command lines", "why_tests_cant": "all argument vectors", "anchors": [{"file": "src/input_detection.cpp", "symbols": ["getInputOrder"]}, {"file": "src/input_method.cpp", "symbols": ["method", "detectMethod"]}, {"file": "src/integer_type_detection.cpp", "symbols": []}]}
{"id": "C55", "title": "Input file name", "statement": "The input file is the one argument that is neither an option nor the parameter of an option; several such arguments are rejected.", "quantifier": "all command lines", "why_tests_cant": "all argument vectors", "anchors": [{"file": "src/input_detection.cpp", "symbols": ["getFilename"]}]}
{"id": "C56", "title": "Operation mode", "statement": "Facet or vertex enumeration is selected from the section headings in the file: headings of both kinds are invalid; help and version options win over everything and read no file.", "quantifier": "all command lines and file contents", "why_tests_cant": "all files", "anchors": [{"file": "src/input_detection.cpp", "symbols": ["detectOperationMode", "keywords", "commandLineModeOption"]}]}
{"id": "C57", "title": "Whole files are read as written", "statement": "For every file in the documented format, the rows, names and maps handed to the algorithms are those written in the file (rays before vertices), whatever the order of sections.", "quantifier": "all files of the documented format", "why_tests_cant": "unbounded files", "anchors": [{"file": "src/input.cpp", "symbols": ["vertices", "inequalities"]}, {"file": "src/input_names.cpp", "symbols": ["names"]}]}
{"id": "C58", "title": "From file to printed answer", "statement": "Running the facet enumeration (double description method, without maps) on a file that lists points and rays ends, and, unless the checked integers report an overflow or 32-bit integers overflow, prints a system of equations and inequalities, none of the inequalities redundant, whose solutions are exactly the convex hull of the points plus the cone of the rays.", "quantifier": "all files of the documented format with at least one point, all command lines that select the method and checked or 32-bit integers", "why_tests_cant": "unbounded files", "anchors": [{"file": "src/input.cpp", "symbols": ["vertices"]}, {"file": "src/method_double_description.cpp", "symbols": ["FacetEnumerationDoubleDescription::call"]}, {"file": "src/algorithm_row_operations.cpp", "symbols": ["prettyPrint"]}]}
{"id": "C59", "title": "Known data is read from the file given", "statement": "The option -k / --known-data (--known-facets for facet enumeration, --known-vertices for vertex enumeration) selects the file whose inequalities, or vertices and rays, are used as known data, exactly as written there; without the option there is none, and malformed variants of it are rejected.", "quantifier": "all command lines, all files of the documented format", "why_tests_cant": "unboundedly many command lines and files", "anchors": [{"file": "src/input.cpp", "symbols": ["getFilenameKnownFacets", "getFilenameKnownVertices", "knownFacets", "knownVertices"]}]}
{"id": "C60", "title": "Enumeration is exact for every selectable integer type", "statement": "Whatever integer type is selected with -i (16, 32, 64, safe, inf, or none), if the double description method completes then the facets or vertices it prints are the exact ones.", "quantifier": "all inputs, all selectable integer types", "why_tests_cant": "overflow and conversion errors occur only for particular inputs of unbounded number", "anchors": [{"file": "src/integer_type_selection.tpp", "symbols": ["select"]}, {"file": "src/cast.cpp", "symbols": ["cast"]}, {"file": "src/method_double_description.cpp", "symbols": ["FacetEnumerationDoubleDescription::call", "VertexEnumerationDoubleDescription::call"]}]}
{"id": "C61", "title": "From file to printed vertices", "statement": "Running the vertex enumeration (double description method, without maps) on a file with inequalities and equations whose solution set is not empty and contains no line ends, and, unless the checked integers report an overflow or 32-bit integers overflow, prints points and rays, none of them superfluous, whose hull is exactly the solution set.", "quantifier": "all files of the documented format with such a solution set, all command lines that select the method and checked or 32-bit integers", "why_tests_cant": "unbounded files", "anchors": [{"file": "src/input.cpp", "symbols": ["inequalities"]}, {"file": "src/method_double_description.cpp", "symbols": ["VertexEnumerationDoubleDescription::call"]}, {"file": "src/algorithm_row_operations.cpp", "symbols": ["printFractional"]}]}
{"id": "C62", "title": "From file to printed answer with the default method", "statement": "Running the facet enumeration with adjacency decomposition (the default method, any number of threads, without maps) on a file that lists points and rays whose hull contains three points not on a line, but no line, ends under every schedule of the threads (if no thread is woken without reason), and, unless the checked integers report an overflow or 32-bit integers overflow, prints equations and pairwise different inequalities whose solutions are exactly the hull; no inequality, except one that holds everywhere, is redundant.", "quantifier": "all files of the documented format with such a hull, all command lines that select the method and checked or 32-bit integers, all numbers of threads and interleavings", "why_tests_cant": "unbounded files, unboundedly many interleavings", "anchors": [{"file": "src/method_adjacency_decomposition.cpp", "symbols": ["FacetEnumerationAdjacencyDecomposition::call"]}, {"file": "src/method_adjacency_decomposition_implementation.cpp", "symbols": ["adjacencyDecomposition", "initializePool"]}, {"file": "src/list.cpp", "symbols": ["put", "get"]}, {"file": "src/input.cpp", "symbols": ["vertices"]}]}
{"id": "C63", "title": "From file to printed answer with symmetries", "statement": "Running the facet enumeration (either method) on a file with names, maps, points and rays, where no image mentions a variable twice, every map maps the hull onto itself, and where the hull is not contained in a hyperplane, ends, and, unless there is an overflow, prints pairwise different inequalities such that a point lies in the hull if and only if all its images under products of the maps satisfy the printed inequalities; no printed inequality, except one that holds everywhere, can be left out (with adjacency decomposition: for hulls with three points not on a line and without lines).", "quantifier": "all files of the documented format with such maps and hull, all command lines that select checked or 32-bit integers, all numbers of threads and interleavings", "why_tests_cant": "unbounded files and symmetry groups, unboundedly many interleavings", "anchors": [{"file": "src/algorithm_classes.cpp", "symbols": ["classes", "getClass"]}, {"file": "src/algorithm_map_operations.cpp", "symbols": ["normalize"]}, {"file": "src/input_map.cpp", "symbols": ["maps"]}, {"file": "src/method_double_description.cpp", "symbols": ["FacetEnumerationDoubleDescription::call"]}, {"file": "src/method_adjacency_decomposition_implementation.cpp", "symbols": ["adjacencyDecomposition"]}]}
{"id": "C64", "title": "The answer does not depend on how it is computed", "statement": "Facet enumeration that starts from a file of known facets (-k) prints an exact and, apart from one inequality that holds everywhere, irredundant description of the hull, under every schedule. Any two runs that finish on the same file with the same sorting print the same equations and the same inequalities, apart from one that holds everywhere, whatever the method, the number of threads, the schedule, the integer type (checked or 32 bits) and the known facets.", "quantifier": "all files of the documented format with a hull that contains three points not on a line but no line, all files of facets of that hull, all command lines of the documented form, all interleavings", "why_tests_cant": "unbounded files, pairs of runs with unboundedly many interleavings each", "anchors": [{"file": "src/method_adjacency_decomposition_implementation.cpp", "symbols": ["initializationOnMaster", "adjacencyDecomposition"]}, {"file": "src/input.cpp", "symbols": ["knownFacets", "vertices"]}, {"file": "src/list.cpp", "symbols": ["put"]}, {"file": "src/method_double_description.cpp", "symbols": ["FacetEnumerationDoubleDescription::call"]}]}
{"id": "C65", "title": "Vertex enumeration with adjacency decomposition, from file to output", "statement": "For every file of the documented format with inequalities and equations (no maps) whose solution set is non-empty and contains no line, every command line that selects adjacency decomposition (the default) with checked or 32-bit integers, every number of threads and every interleaving: if the program finishes, the lines it prints are pairwise different and each is, in lowest terms, a vertex or an extreme direction of the solution set; every vertex and every extreme direction is printed. The program always ends.", "quantifier": "all files of the format, all command lines of the stated form, all thread counts, all interleavings", "why_tests_cant": "composes option parsing, file reading, the rotation over all polyhedra and all schedules of the pool; which edges are lost depends on the geometry relative to the origin", "anchors": [{"file": "src/main.cpp", "symbols": ["main"]}, {"file": "src/method_adjacency_decomposition.cpp", "symbols": ["VertexEnumerationAdjacencyDecomposition::call"]}, {"file": "src/method_adjacency_decomposition_implementation.cpp", "symbols": ["adjacencyDecomposition", "initializePool", "initializationOnMaster"]}, {"file": "src/algorithm_rotation.cpp", "symbols": ["rotation"]}, {"file": "src/list.cpp", "symbols": ["put", "get"]}]}
{"id": "C66", "title": "Vertex enumeration with symmetries, from file to output", "statement": "For every file of the documented format with inequalities, equations, names and maps, each of which maps the solution set onto itself, where the solution set is non-empty and contains no line, and every command line that selects checked or 32-bit integers: if the program finishes, the printed (reduced) vertices and rays are vertices and extreme directions of the solution set, in lowest terms, no two of them in the same orbit under the maps, and every vertex and extreme direction is the image of a printed one under compositions of the maps; so the solution set is recovered from the images of the printed rows. The program always ends, for both methods, every number of threads and every interleaving.", "quantifier": "all files of the format with maps that are symmetries, all command lines of the stated form, all thread counts, all interleavings", "why_tests_cant": "composes parsing, both enumeration methods, orbits under arbitrary groups generated by the maps, and all schedules of the pool", "anchors": [{"file": "src/main.cpp", "symbols": ["main"]}, {"file": "src/method_double_description.cpp", "symbols": ["VertexEnumerationDoubleDescription::call", "print"]}, {"file": "src/method_adjacency_decomposition.cpp", "symbols": ["VertexEnumerationAdjacencyDecomposition::call"]}, {"file": "src/algorithm_classes.cpp", "symbols": ["classes", "getClass", "classRepresentative"]}, {"file": "src/algorithm_map_operations.cpp", "symbols": ["normalize"]}]}
{"id": "C67", "title": "Reduced points and rays are expanded to their orbits", "statement": "For every file of the documented format in which points or rays are given by representatives (\"Reduced Vertices\", \"Reduced Rays\", after names and maps): unless numbers exceed the range of int, exactly the images of the listed points and rays under compositions of the maps are read (rays up to length), and the polyhedron handed to the algorithms is their convex hull plus cone; the facets printed by either method describe this hull. For maps that exchange coordinates and change signs, no number exceeds the range.", "quantifier": "all files of the format, all command lines of the stated form, all thread counts and interleavings", "why_tests_cant": "orbits under arbitrary maps (finite or infinite), all section orders, all coordinates", "anchors": [{"file": "src/input.cpp", "symbols": ["readVerticesReducedConvex", "readVerticesReducedConical", "expandVertices", "vertices"]}, {"file": "src/algorithm_classes.cpp", "symbols": ["getClass"]}, {"file": "src/algorithm_map_operations.cpp", "symbols": ["apply"]}]}
{"id": "C68", "title": "Reduced inequalities are expanded to their orbits", "statement": "For every file of the documented format in which inequalities are given by representatives (\"Reduced Inequalities\", after names and maps, with no equations before that section): unless numbers exceed the range of int, the system handed to the algorithms has as solutions exactly the points all of whose images under compositions of the maps satisfy the listed inequalities (and which satisfy the equations given later). If every map maps this set onto itself (which holds for maps of finite order), and the set is non-empty and contains no line, double description prints exactly one vertex and one extreme direction of every orbit; adjacency decomposition prints only such rows, at most one per orbit, and all orbits if no edge leads straight away from the origin. For maps that exchange coordinates and change signs, no number exceeds the range while reading.", "quantifier": "all files of the format, all command lines of the stated form, all thread counts and interleavings", "why_tests_cant": "orbits under arbitrary maps (finite or infinite), all section orders, all coefficients, all schedules of the pool", "anchors": [{"file": "src/input.cpp", "symbols": ["readReducedInequalities", "expandInequalities", "inequalities"]}, {"file": "src/algorithm_classes.cpp", "symbols": ["getClass"]}, {"file": "src/algorithm_map_operations.cpp", "symbols": ["apply", "normalize"]}]}
{"id": "C69", "title": "The option -c rejects maps that are not symmetries", "statement": "For every file of the documented format with maps before the points and rays (or before the inequalities), and every command line with -c: the input is accepted if and only if every map permutes the points and permutes the rays up to length (or permutes the inequalities up to positive factors) and the rows read are different and in lowest terms; accepted input is handed to the algorithms unchanged, rejected input ends with a reported error (unless the checks themselves overflow int). A map that permutes the points and rays is a symmetry of the hull; one that permutes the inequalities of a file without equations is a symmetry of the non-empty line-free solution set. Hence, without any assumption on the maps, if the program with -c finishes, the printed inequalities or vertices describe the input as they do for symmetric input.", "quantifier": "all files of the format with maps first, all command lines of the stated form with -c, all maps (symmetries or not), all thread counts and interleavings", "why_tests_cant": "all maps and point lists, including maps that are almost symmetries; all schedules of the pool", "anchors": [{"file": "src/input_validity.cpp", "symbols": ["checkValidityOfInequalityClasses", "checkValidityOfVertexClasses", "checkValidity"]}, {"file": "src/input.cpp", "symbols": ["readVerticesConvex", "readVerticesConical", "readInequalities", "vertices", "inequalities"]}]}
{"id": "C70", "title": "The option -c together with known facets", "statement": "For every file of points and rays (no maps) and every file of known inequalities given with -k, and every command line with -c that selects checked or 32-bit integers: if the program finishes, every known inequality is a facet of the hull, or holds strictly at every point of the hull (a facet at infinity, which the check does not tell apart); the printed system describes the hull exactly and irredundantly, as it does without -k. The program ends with a reported error only if some known inequality is not a facet of the hull or checked integers overflow. It always ends, for both methods, every number of threads and every interleaving.", "quantifier": "all files of the format, all known inequalities (facets or not), all command lines of the stated form, all thread counts and interleavings", "why_tests_cant": "all polyhedra and all candidate inequalities, including valid ones of every lower dimension; all schedules of the pool", "anchors": [{"file": "src/input_validity.cpp", "symbols": ["checkValidityOfInequalities", "checkValidityOfInequality"]}, {"file": "src/input.cpp", "symbols": ["vertices", "knownFacets"]}]}
{"id": "C71", "title": "A distributed run over several nodes", "statement": "With MPI, for every number of nodes and threads and every interleaving of the threads of all nodes and of the messages between them: the master prints every row at most once, hands every row out at most once, and, when a thread of any node has stopped, has printed a representative of every facet (vertex enumeration: of every vertex and extreme ray, if no edge leads straight away from the origin, see C20); everything printed is a facet (a vertex or extreme ray), and no two printed rows are equivalent. If all nodes use the same number of threads, the run never gets stuck and always ends on all nodes, although a request thread may receive the result of a row that another request thread has sent, and whether or not sending waits for the receiver.", "quantifier": "all inputs of adjacency decomposition, all numbers of nodes and threads, all interleavings, both modes of completion of MPI_Isend", "why_tests_cant": "the interleavings of several processes and messages cannot be enumerated, and a hang shows only for particular thread counts and inputs", "anchors": [{"file": "src/job_manager.cpp", "symbols": ["JobManager"]}, {"file": "src/job_manager_proxy.cpp", "symbols": ["put", "get"]}, {"file": "src/communication.cpp", "symbols": ["toMaster", "fromSlave", "toSlave", "fromMaster"]}, {"file": "src/method_adjacency_decomposition_implementation.cpp", "symbols": ["adjacencyDecomposition"]}, {"file": "src/concurrency.cpp", "symbols": ["numberOfThreads"]}]}
{"id": "C72", "title": "Help about an option", "statement": "For every option spelling that --help lists, asking for help about it (-h <option>, -h=<option>, --help=<option>, --help-command=<option>, as the first argument that has to do with help or the version) prints the help text of that option and ends with exit code 0, whatever the other arguments are and without reading a file; asking about anything else ends with exit code 1 and prints nothing on the standard output.", "quantifier": "all command lines, all option spellings", "why_tests_cant": "all positions and combinations of arguments", "anchors": [{"file": "src/help.cpp", "symbols": ["command", "printHelpCommand"]}, {"file": "src/main.cpp", "symbols": ["main", "printHelp"]}, {"file": "src/input_detection.cpp", "symbols": ["commandLineModeOption"]}]}
{"id": "C73", "title": "Progress messages", "statement": "During adjacency decomposition, with any number of threads and nodes and in every interleaving, the lines 'Processing #k of at least n classes' on the standard error are numbered 1, 2, 3, ... without gap or repetition, one for each row handed to a thread; 'Done processing #k' appears at most once for each k, after the announcement of k, and not before all rows found from row k have been printed; at the end it has appeared for every announced number; and the announced n never exceeds the number of rows printed in the end.", "quantifier": "all inputs, thread counts, interleavings, spurious wake-ups", "why_tests_cant": "all schedules", "anchors": [{"file": "src/list.cpp", "symbols": ["List::get", "List::put"]}]}
{"id": "C74", "title": "Scope guards run their function exactly once", "statement": "The function of a scope guard is run when the guard in charge of it is destroyed, and at no other time: at most once however guards are moved, exactly once if nothing is dismissed and all guards are destroyed, and never after the guard in charge has been dismissed.", "quantifier": "all programs: all histories of making, moving, dismissing and destroying guards", "why_tests_cant": "The number of histories is unbounded; a test follows one nesting of scopes.", "anchors": [{"file": "src/scope_guard.tpp", "symbols": ["ScopeGuard", "~ScopeGuard", "dismiss", "makeScopeGuard"]}]}
{"id": "C75", "title": "Delayed actions run at most once, after the waiting time", "statement": "A delayed action is run exactly if it is destroyed undismissed at least the given time after its creation; each action is run at most once, and never after it has been dismissed, also when it is moved.", "quantifier": "all histories of making, moving, dismissing and destroying delayed actions, and all times shown by the system clock", "why_tests_cant": "Depends on the clock and on moves a compiler may or may not perform.", "anchors": [{"file": "src/delayed_action.tpp", "symbols": ["DelayedAction", "~DelayedAction", "dismiss", "makeDelayedAction"]}, {"file": "src/delayed_action.h", "symbols": ["DelayedAction"]}]}
{"id": "C76", "title": "Round trip from points to inequalities and back", "statement": "The output of facet enumeration for a file of points and rays is accepted as an input file, and vertex enumeration applied to it prints points and rays whose hull is that of the original file, none of them redundant: exactly the extreme points and rays of the original polyhedron come back.", "quantifier": "all texts of the documented format without names and maps whose hull contains two points and no line, all command lines selecting double description with the default or checked integers, all dimensions, no printed equation with the entry -2^31; if a run does not end regularly, it reports an overflow (or is undefined by overflow of int)", "why_tests_cant": "Composes two whole runs with the parser and the printer in between, for every file.", "anchors": [{"file": "src/main.cpp", "symbols": ["main"]}, {"file": "src/method_double_description.cpp", "symbols": ["doubleDescription"]}, {"file": "src/algorithm_matrix_operations.cpp", "symbols": ["prettyPrint"]}]}
{"id": "C77", "title": "Round trip from inequalities to points and back", "statement": "The output of vertex enumeration for a file of inequalities is accepted as an input file, and facet enumeration applied to it prints a system with the same solutions as the original file, none of its inequalities redundant.", "quantifier": "all texts of the documented format without maps whose solution set is non-empty and contains no line, all command lines selecting double description with the default or checked integers, all dimensions; if a run does not end regularly, it reports an overflow (or is undefined by overflow of int)", "why_tests_cant": "Composes two whole runs with the parser and the printer in between, for every file.", "anchors": [{"file": "src/main.cpp", "symbols": ["main"]}, {"file": "src/method_double_description.cpp", "symbols": ["doubleDescription"]}, {"file": "src/algorithm_row_operations.cpp", "symbols": ["printFractional"]}]}
{"id": "C78", "title": "Joining threads", "statement": "A JoiningThread object is destroyed only after the thread it is in charge of has ended; moving an object passes the charge on; every started thread is joined exactly once, and the destruction of an object never terminates the program.", "quantifier": "all histories of starting threads and moving and destroying objects, with the threads ending at any moment", "why_tests_cant": "Depends on when the threads end and on the order of the destructions: infinitely many histories and schedules.", "anchors": [{"file": "src/joining_thread.cpp", "symbols": ["~JoiningThread"]}, {"file": "src/joining_thread.tpp", "symbols": ["JoiningThread"]}, {"file": "src/joining_thread.h", "symbols": ["JoiningThread"]}]}
{"id": "C79", "title": "Looking ahead consumes nothing", "statement": "Looking at the next line or word of a file, testing for a relation operator, for variable names or for keywords, and detecting the mode leave a readable stream exactly as it was (position and state), and the line or word seen is the one that is read next.", "quantifier": "all texts, all positions in them, all lists of names; streams that are good (and, for words, have a word left)", "why_tests_cant": "Infinitely many texts and positions; the end of the file, line breaks and white space make the difference.", "anchors": [{"file": "src/istream_peek_line.cpp", "symbols": ["peekLine"]}, {"file": "src/position_guarded_file.cpp", "symbols": ["PositionGuardedFile"]}, {"file": "src/input_common.cpp", "symbols": ["isRelation", "containsNames", "peekWord"]}, {"file": "src/input_keywords.cpp", "symbols": ["containsKeywords"]}, {"file": "src/input_detection.cpp", "symbols": ["keywords"]}]}
{"id": "C80", "title": "The output depends on the hull and the maps only", "statement": "For facet enumeration, the sets of printed equations and inequalities are determined by the hull of the file (and the maps, if there are any; then for hulls that are not contained in a hyperplane) alone: they do not change if redundant points are added, if the points are reordered or if another order of sorting, integer type, method or number of threads is chosen, and they do not depend on what the threads do. Double description prints exactly these inequalities, adjacency decomposition at most one more, which holds everywhere.", "quantifier": "all sets of points (with maps: all that are not contained in a hyperplane), all lists of symmetries of the set, all files whose hull is the set, all command lines (sorting, checked or 32-bit integers, both methods, threads), all interleavings", "why_tests_cant": "It compares all pairs of runs on all descriptions of the same polyhedron; the order in which threads find the facets and the class representatives varies from run to run.", "anchors": [{"file": "src/method_facet_enumeration.cpp", "symbols": ["facetEnumeration"]}, {"file": "src/method_double_description.cpp", "symbols": ["doubleDescription"]}, {"file": "src/method_adjacency_decomposition_implementation.cpp", "symbols": ["adjacencyDecomposition"]}, {"file": "src/algorithm_classes.cpp", "symbols": ["classes", "getClass"]}, {"file": "src/input.cpp", "symbols": ["getInputOrder"]}]}
{"id": "C81", "title": "The output of vertex enumeration depends on the solutions only", "statement": "For vertex enumeration of a file whose set of solutions is not empty and contains no line, double description prints the same points and the same rays, character by character up to their order, for every file with the same solutions (and the same maps, if there are any): nothing changes if redundant inequalities are added, if they are multiplied or reordered, if equations are written as pairs of inequalities or if another order of sorting or integer type is chosen. Adjacency decomposition prints some of the rows of one list that depends on the solutions (and the maps) only, none twice, for every such file, number of threads and interleaving - and the whole list if no edge of the set leads straight away from the origin.", "quantifier": "all sets with a point and without lines, all lists of symmetries of the set, all files whose solutions are the set, all command lines (sorting, checked or 32-bit integers, both methods, threads), all interleavings", "why_tests_cant": "It compares all pairs of runs on all descriptions of the same polyhedron; the eliminations of two descriptions share no intermediate result, and the order in which threads find the vertices varies from run to run.", "anchors": [{"file": "src/method_vertex_enumeration.cpp", "symbols": ["vertexEnumeration"]}, {"file": "src/method_double_description.cpp", "symbols": ["doubleDescription", "print"]}, {"file": "src/algorithm_fourier_motzkin_elimination.cpp", "symbols": ["fourierMotzkinElimination"]}, {"file": "src/method_adjacency_decomposition_implementation.cpp", "symbols": ["adjacencyDecomposition"]}, {"file": "src/input.cpp", "symbols": ["getInputOrder"]}]}
