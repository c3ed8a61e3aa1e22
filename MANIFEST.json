{
 "claims": [
  {
   "property": "C01",
   "status": "proved",
   "theorems": [
    "Panda.C01_gcd",
    "Panda.C01_lcm"
   ],
   "note": "lcm(0,0) is the division by zero (ub)"
  },
  {
   "property": "C02",
   "status": "proved",
   "theorems": [
    "Panda.C02_row_gcd",
    "Panda.C02_row_lcm",
    "Panda.C02_primitive"
   ],
   "note": ""
  },
  {
   "property": "C03",
   "status": "proved",
   "theorems": [
    "Panda.C03_normalize",
    "Panda.C03_negative_lead_reverses"
   ],
   "note": ""
  },
  {
   "property": "C04",
   "status": "proved",
   "theorems": [
    "Panda.C04_dimension_eq_rank"
   ],
   "note": ""
  },
  {
   "property": "C05",
   "status": "proved",
   "theorems": [
    "Panda.C05_equations_describe_span",
    "Panda.C05_undefined"
   ],
   "note": "non-empty input with at least one column; otherwise ub"
  },
  {
   "property": "C06",
   "status": "proved",
   "theorems": [
    "Panda.C06_reduced_echelon"
   ],
   "note": ""
  },
  {
   "property": "C07",
   "status": "proved",
   "theorems": [
    "Panda.C07_dd_sound",
    "Panda.C07_undefined"
   ],
   "note": ""
  },
  {
   "property": "C08",
   "status": "proved",
   "theorems": [
    "Panda.C08_dd_complete"
   ],
   "note": ""
  },
  {
   "property": "C09",
   "status": "proved",
   "theorems": [
    "Panda.C09_dd_irredundant",
    "Panda.C09_every_facet_reported"
   ],
   "note": ""
  },
  {
   "property": "C10",
   "status": "partial",
   "theorems": [
    "Panda.C10_pure_cone_false",
    "Panda.C10_pure_cone_partial",
    "Panda.C10_exact"
   ],
   "note": "FALSE of the code: negation proved with a witness; the output is characterised exactly: all facets except -x_j <= 0 for the last column j in which no equation starts"
  },
  {
   "property": "C11",
   "status": "proved",
   "theorems": [
    "Panda.C11_order_independent"
   ],
   "note": ""
  },
  {
   "property": "C12",
   "status": "proved",
   "theorems": [
    "Panda.C12_vertex_enumeration"
   ],
   "note": ""
  },
  {
   "property": "C13",
   "status": "partial",
   "theorems": [
    "Panda.C13_lines_false",
    "Panda.C13_lines_partial",
    "Panda.C13_line_false",
    "Panda.C13_exact"
   ],
   "note": "FALSE of the code whenever the solution set contains a line (proved for all such systems, so the output generates the solution set iff it contains no line); true part: sound, and complete modulo the lines"
  },
  {
   "property": "C14",
   "status": "proved",
   "theorems": [
    "Panda.C14_bookkeeping",
    "Panda.C14_final_state"
   ],
   "note": ""
  },
  {
   "property": "C15",
   "status": "proved",
   "theorems": [
    "Panda.C15_initial_facets"
   ],
   "note": ""
  },
  {
   "property": "C16",
   "status": "proved",
   "theorems": [
    "Panda.C16_rotation",
    "Panda.C16_rotation_any_partial",
    "Panda.C16_point_undefined"
   ],
   "note": ""
  },
  {
   "property": "C17",
   "status": "proved",
   "theorems": [
    "Panda.C17_furthest",
    "Panda.C17_nearest"
   ],
   "note": ""
  },
  {
   "property": "C18",
   "status": "partial",
   "theorems": [
    "Panda.C18_sound_partial",
    "Panda.ADInput.of_no_maps",
    "Panda.C18_known_printed",
    "Panda.C18_maps_false"
   ],
   "note": "FALSE of the code with symmetries if the leading coefficient of an equation is not one (witness: an invalid inequality is printed); complete for input without maps, for full-dimensional input, and for all maps that are adapted to the equations correctly (exactly the conditions of C25_exact and C25_defined); dimension zero is undefined behaviour"
  },
  {
   "property": "C19",
   "status": "partial",
   "theorems": [
    "Panda.C19_complete_partial",
    "Panda.C19_same_as_dd_partial",
    "Panda.C19_terminates",
    "Panda.C19_nontermination_false",
    "Panda.C19_segment_false",
    "Panda.C19_strip_false",
    "Panda.C19_point_false",
    "Panda.C19_trivial_row_false"
   ],
   "note": "FALSE of the code in dimension 0 and 1 (modulo lines): negations proved with witnesses; proved in dimension at least two, all interleavings"
  },
  {
   "property": "C20",
   "status": "partial",
   "theorems": [
    "Panda.C20_sound_partial",
    "Panda.C20_complete_partial",
    "Panda.C20_complete_origin_partial",
    "Panda.C20_vertices_partial",
    "Panda.C20_adjacency_vertices_false",
    "Panda.quadrilateral_edge"
   ],
   "note": "FALSE of the code: negation proved with a witness; true part: soundness and termination always, and completeness if no edge of the polyhedron leads straight away from the origin (the witness violates exactly this)"
  },
  {
   "property": "C21",
   "status": "proved",
   "theorems": [
    "Panda.C21_classes_partition"
   ],
   "note": ""
  },
  {
   "property": "C22",
   "status": "proved",
   "theorems": [
    "Panda.C22_representative_invariant"
   ],
   "note": ""
  },
  {
   "property": "C23",
   "status": "proved",
   "theorems": [
    "Panda.C23_get_class_correct",
    "Panda.C23_get_class_terminates",
    "Panda.C23_infinite_orbit"
   ],
   "note": ""
  },
  {
   "property": "C24",
   "status": "proved",
   "theorems": [
    "Panda.C24_apply",
    "Panda.C24_dual",
    "Panda.C24_symmetry"
   ],
   "note": ""
  },
  {
   "property": "C25",
   "status": "partial",
   "theorems": [
    "Panda.C25_normalize_partial",
    "Panda.C25_no_equations",
    "Panda.C25_exact",
    "Panda.C25_defined",
    "Panda.C25_undefined_false",
    "Panda.C25_undefined_permutation_false",
    "Panda.C25_wrong_false"
   ],
   "note": "FALSE of the code in general (undefined behaviour, missing division by the leading coefficient): negations proved with witnesses; characterised exactly: C25_defined says for which maps the code is defined, C25_exact for which of these the result is right (and that images are always normalised)"
  },
  {
   "property": "C26",
   "status": "proved",
   "theorems": [
    "Panda.C26_once",
    "Panda.C26_nothing_else"
   ],
   "note": "all thread counts (local and MPI request threads), all interleavings of critical sections, spurious wake-ups"
  },
  {
   "property": "C27",
   "status": "proved",
   "theorems": [
    "Panda.C27_stop",
    "Panda.C27_stop_no_known",
    "Panda.C27_known"
   ],
   "note": ""
  },
  {
   "property": "C28",
   "status": "proved",
   "theorems": [
    "Panda.C28_no_deadlock",
    "Panda.C28_terminates",
    "Panda.C28_fair_termination",
    "Panda.C28_can_finish"
   ],
   "note": ""
  },
  {
   "property": "C29",
   "status": "partial",
   "theorems": [
    "Panda.C29_race_false",
    "Panda.C29_race_partial"
   ],
   "note": "FALSE of the code: with two threads every terminating run has a racy interleaving (list.cpp:88); true part: without known rows only insertions of the stop signal race"
  },
  {
   "property": "C30",
   "status": "proved",
   "theorems": [
    "Panda.C30_add",
    "Panda.C30_sub",
    "Panda.C30_mul",
    "Panda.C30_neg",
    "Panda.C30_abs",
    "Panda.C30_div",
    "Panda.C30_div_zero",
    "Panda.C30_mod",
    "Panda.C30_construct_signed",
    "Panda.C30_construct_unsigned",
    "Panda.C30_to_int",
    "Panda.C30_compare"
   ],
   "note": "64-bit two's complement; comparisons, construction and conversion included"
  },
  {
   "property": "C31",
   "status": "proved",
   "theorems": [
    "Panda.C31_facets",
    "Panda.C31_vertices",
    "Panda.C31_facets_or_throw",
    "Panda.C31_vertices_or_throw"
   ],
   "note": "the double description method with SafeInteger arithmetic at every operation; without maps the only failure is an exception"
  },
  {
   "property": "C32",
   "status": "partial",
   "theorems": [
    "Panda.C32_construct_signed",
    "Panda.C32_construct_unsigned",
    "Panda.C32_representation",
    "Panda.C32_read_back_partial",
    "Panda.C32_read_back_undefined_false",
    "Panda.C32_narrow_blocks_false"
   ],
   "note": "FALSE of the code at one value: reading back -2^31 negates INT_MIN (undefined behaviour); everything else proved, for every block width of at least 32 (64 for the 64-bit constructors)"
  },
  {
   "property": "C33",
   "status": "partial",
   "theorems": [
    "Panda.C33_add_partial",
    "Panda.C33_sub_partial",
    "Panda.C33_mul_partial",
    "Panda.C33_mul_never_wrong",
    "Panda.C33_negate",
    "Panda.C33_abs",
    "Panda.C33_undefined_false",
    "Panda.C33_self_false"
   ],
   "note": "fully proved for compilers on which negating INT_MIN wraps; otherwise undefined behaviour exactly when an operand of + or - is -2^31; x *= x (same object) gives 0 for large x: proved"
  },
  {
   "property": "C34",
   "status": "partial",
   "theorems": [
    "Panda.C34_quotient",
    "Panda.C34_nonnegative_partial",
    "Panda.C34_division_by_zero",
    "Panda.C34_false",
    "Panda.C34_gcd_division_false"
   ],
   "note": "FALSE of the code: -2^40/2 = 2^39; the exact behaviour is characterised for all operands"
  },
  {
   "property": "C35",
   "status": "proved",
   "theorems": [
    "Panda.C35_remainder",
    "Panda.C35_bad_divisor",
    "Panda.C35_negative_congruent",
    "Panda.C35_negative_false"
   ],
   "note": "as stated (non-negative dividend); for negative dividends the result is only congruent"
  },
  {
   "property": "C36",
   "status": "partial",
   "theorems": [
    "Panda.C36_compare",
    "Panda.C36_compare_int",
    "Panda.C36_compare_int_undefined_false"
   ],
   "note": "proved for all big integers and all machine integers except INT_MIN, where std::abs is undefined"
  },
  {
   "property": "C37",
   "status": "proved",
   "theorems": [
    "Panda.C37_fixed",
    "Panda.C37_variable",
    "Panda.C37_same_answers",
    "Panda.C37_equals"
   ],
   "note": "every history of set/merge, every capacity"
  },
  {
   "property": "C38",
   "status": "proved",
   "theorems": [
    "Panda.C38_popcount"
   ],
   "note": ""
  },
  {
   "property": "C39",
   "status": "proved",
   "theorems": [
    "Panda.C39_known_inequalities",
    "Panda.C39_known_facets",
    "Panda.C39_known_vertices",
    "Panda.C39_filter",
    "Panda.C39_point"
   ],
   "note": ""
  },
  {
   "property": "C40",
   "status": "partial",
   "theorems": [
    "Panda.C40_vertex_maps",
    "Panda.C40_inequality_maps",
    "Panda.C40_all_maps",
    "Panda.C40_identity_false"
   ],
   "note": "FALSE of the code when the given rows contain duplicates or rows not in lowest terms (even the identity map is rejected: witness); the exact acceptance condition is proved, and equals the claim for distinct primitive rows"
  },
  {
   "property": "C41",
   "status": "proved",
   "theorems": [
    "Panda.C41_vertex",
    "Panda.C41_zero_denominator",
    "Panda.C41_overflow",
    "Panda.C41_sections",
    "Panda.C41_large_number_drops_section_false",
    "Panda.C41_large_number_changes_ray_false",
    "Panda.C41_ray_garbage_false",
    "Panda.C41_bad_denominator_false"
   ],
   "note": "all lines of the documented format whose numbers fit into int; the _false theorems show what happens to other input"
  },
  {
   "property": "C42",
   "status": "proved",
   "theorems": [
    "Panda.C42_named",
    "Panda.C42_rejected",
    "Panda.C42_no_relation",
    "Panda.C42_meaning",
    "Panda.C42_raw",
    "Panda.C42_unnamed",
    "Panda.C42_sections",
    "Panda.C42_raw_sections",
    "Panda.C42_rhs_variable_false",
    "Panda.C42_rhs_sign_false",
    "Panda.C42_lookahead_false"
   ],
   "note": "all lines of the documented format whose numbers fit into int, and whole sections; the _false theorems show what happens to other input"
  },
  {
   "property": "C43",
   "status": "partial",
   "theorems": [
    "Panda.C43_line_partial",
    "Panda.C43_raw",
    "Panda.C43_output_partial",
    "Panda.C43_output_raw",
    "Panda.C43_prefix_false",
    "Panda.C43_zero_row_false"
   ],
   "note": "FALSE of the code when a name is a prefix of an earlier name or a row has no non-zero coefficient (witnesses); proved otherwise, for single lines and for the whole output"
  },
  {
   "property": "C44",
   "status": "proved",
   "theorems": [
    "Panda.C44_vertex",
    "Panda.C44_ray",
    "Panda.C44_output"
   ],
   "note": "entries in the range of int (what is printed has been cast to int)"
  },
  {
   "property": "C45",
   "status": "proved",
   "theorems": [
    "Panda.C45_sorted",
    "Panda.C45_unique",
    "Panda.C45_same_polyhedron"
   ],
   "note": "all orders and row lists (rows of one size)"
  },
  {
   "property": "C46",
   "status": "partial",
   "theorems": [
    "Panda.C46_assembled",
    "Panda.C46_undefined_false"
   ],
   "note": "FALSE of the code for an equation that contains the smallest int (undefined behaviour); proved otherwise, for rows of one size"
  },
  {
   "property": "C47",
   "status": "proved",
   "theorems": [
    "Panda.C47_expand",
    "Panda.C47_no_maps"
   ],
   "note": ""
  },
  {
   "property": "C48",
   "status": "partial",
   "theorems": [
    "Panda.C48_vertices",
    "Panda.C48_inequalities",
    "Panda.C48_equation_size_false",
    "Panda.C48_dimension_false"
   ],
   "note": "FALSE of the code: the sizes of equations are not checked, nor is a declared dimension of 2^64-1 (witnesses); all other checks are characterised exactly"
  },
  {
   "property": "C49",
   "status": "proved",
   "theorems": [
    "Panda.C49_threads",
    "Panda.C49_positive"
   ],
   "note": "all command lines; stops with an error for anything that is not a positive number"
  },
  {
   "property": "C51",
   "status": "partial",
   "theorems": [
    "Panda.C51_big_partial",
    "Panda.C51_safe",
    "Panda.C51_int32",
    "Panda.C51_int64",
    "Panda.C51_int16",
    "Panda.C51_int64_false"
   ],
   "note": "FALSE of the code for -i 64 (silent truncation): witness; proved for checked and big integers"
  },
  {
   "property": "C52",
   "status": "partial",
   "theorems": [
    "Panda.C52_facets_partial",
    "Panda.C52_facets_full_dimensional",
    "Panda.C52_vertices",
    "Panda.C52_nontermination_false"
   ],
   "note": "FALSE of the code in general (because C25 is): negation proved with a witness; vertex enumeration and full-dimensional facet enumeration fully proved; facet enumeration with equations proved for all maps that are adapted correctly (exactly the condition of C25_exact)"
  },
  {
   "property": "C53",
   "status": "proved",
   "theorems": [
    "Panda.C53_image",
    "Panda.C53_line",
    "Panda.C53_sections",
    "Panda.C53_no_names_false",
    "Panda.C53_short_line_false",
    "Panda.C53_trailing_sign_false"
   ],
   "note": "all sections whose lines list one image per name; the _false theorems show what happens to other input (a section of maps before the names is never left)"
  },
  {
   "property": "C54",
   "status": "partial",
   "theorems": [
    "Panda.C54_sorting",
    "Panda.C54_method",
    "Panda.C54_integer_type",
    "Panda.C54_undefined_false"
   ],
   "note": "FALSE of the code for sorting orders that are not documented (-s none, -s lexx read past the end of the argument): witness; proved for the documented spellings, and for all command lines for the other two options"
  },
  {
   "property": "C55",
   "status": "proved",
   "theorems": [
    "Panda.C55_filename",
    "Panda.C55_short_equals_false"
   ],
   "note": "command lines of the documented form; -t=4 swallows the next argument (witness)"
  },
  {
   "property": "C56",
   "status": "proved",
   "theorems": [
    "Panda.C56_operation_mode",
    "Panda.C56_help_first",
    "Panda.C56_first",
    "Panda.C56_exit"
   ],
   "note": "all file contents; exit codes"
  },
  {
   "property": "C57",
   "status": "proved",
   "theorems": [
    "Panda.C57_vertices",
    "Panda.C57_hull",
    "Panda.C57_inequalities",
    "Panda.C57_late_header_false",
    "Panda.C57_dimension_line_false",
    "Panda.C57_dimension_skip_false"
   ],
   "note": "files of the documented format, sections in any order (names before maps and constraints), without reduced sections, -c and -k; the _false theorems show what happens to other files (first header after line 20, declared dimension on the line of its header)"
  },
  {
   "property": "C59",
   "status": "proved",
   "theorems": [
    "Panda.C59_option",
    "Panda.C59_facets",
    "Panda.C59_vertices",
    "Panda.C59_equations_false"
   ],
   "note": "all command lines; files of the documented format; a list of facets that starts with equations is rejected (witness)"
  },
  {
   "property": "C60",
   "status": "partial",
   "theorems": [
    "Panda.C60_facets_int",
    "Panda.C60_vertices_int",
    "Panda.C60_facets_64_partial",
    "Panda.C60_vertices_64_partial",
    "Panda.C60_64_false",
    "Panda.C60_16_false",
    "Panda.C60_inf_false"
   ],
   "note": "FALSE of the code for -i 64, -i 16 and -i inf (witnesses: printed inequalities violated by the input points); proved for int (unless overflow, which is undefined behaviour) and, up to the conversion when printing, for 64 bits; -i safe is C31"
  },
  {
   "property": "C58",
   "status": "proved",
   "theorems": [
    "Panda.C58_facets",
    "Panda.C58_exact"
   ],
   "note": "the composition of option parsing, file reading, the computation in the selected type and printing; every text, every command line of the stated form"
  },
  {
   "property": "C61",
   "status": "proved",
   "theorems": [
    "Panda.C61_vertices",
    "Panda.C61_exact"
   ],
   "note": "as C58; undefined behaviour with checked integers only if a vertex has -2^31 among its coprime entries (printFractional takes absolute values)"
  },
  {
   "property": "C50",
   "status": "partial",
   "theorems": [
    "Panda.Mpi.C50_matrix",
    "Panda.Mpi.C50_row",
    "Panda.Mpi.C50_intact",
    "Panda.Mpi.C50_progress",
    "Panda.Mpi.C50_terminates",
    "Panda.Mpi.C50_delivered",
    "Panda.Mpi.C50_eager",
    "Panda.Mpi.C50_dangling_false",
    "Panda.Mpi.C50_empty_false"
   ],
   "note": "FALSE of the code in general: the size messages are sent from local variables that are dead before the transmission is waited for (witness), and an empty matrix is undefined behaviour; proved for every interleaving as long as no dead buffer is read (always, if MPI_Isend copies at once)"
  },
  {
   "property": "C62",
   "status": "proved",
   "theorems": [
    "Panda.C62_facets",
    "Panda.C62_terminates",
    "Panda.C62_exact"
   ],
   "note": "the composition of option parsing, file reading, the computation in the selected type, the pool of threads and printing; every text, every command line of the stated form, every interleaving"
  },
  {
   "property": "C63",
   "status": "proved",
   "theorems": [
    "Panda.C63_facets_dd",
    "Panda.C63_facets_ad",
    "Panda.C63_terminates",
    "Panda.C63_exact_dd",
    "Panda.C63_exact_ad"
   ],
   "note": "full-dimensional hulls (with equations the code is wrong: C25, C52); maps whose images do not mention a variable twice; the meaning of the printed representatives is stated by the images of points under the maps of the file"
  },
  {
   "property": "C64",
   "status": "partial",
   "theorems": [
    "Panda.C64_facets",
    "Panda.C64_terminates",
    "Panda.C64_exact",
    "Panda.C64_same",
    "Panda.C64_swallowed_false"
   ],
   "note": "FALSE of the code with known facets and checked integers if the hull lies in a hyperplane: an exception while printing a known facet is stored in a future that nobody reads, and the facet is missing although the exit code is 0 (witness); proved in all other cases"
  },
  {
   "property": "C65",
   "status": "partial",
   "theorems": [
    "Panda.C65_vertices",
    "Panda.C65_terminates",
    "Panda.C65_incomplete_false",
    "Panda.C65_known_undefined_false"
   ],
   "note": "FALSE of the code: edges that lead straight away from the origin are discarded and vertices are missing (witness), and with known vertices the asynchronous loop reads a destroyed temporary (witness); proved: soundness and termination always, completeness if no edge leads straight away from the origin"
  },
  {
   "property": "C66",
   "status": "partial",
   "theorems": [
    "Panda.C66_vertices_dd",
    "Panda.C66_vertices_ad",
    "Panda.C66_terminates"
   ],
   "note": "double description: fully proved. Adjacency decomposition: soundness, one row per orbit and termination always; completeness only if no edge leads straight away from the origin (otherwise FALSE of the code: C65_incomplete_false)"
  },
  {
   "property": "C67",
   "status": "proved",
   "theorems": [
    "Panda.C67_reading",
    "Panda.C67_defined",
    "Panda.C67_facets_dd",
    "Panda.C67_facets_ad",
    "Panda.C67_exact_dd",
    "Panda.C67_exact_ad",
    "Panda.C67_overflow"
   ],
   "note": "sections Reduced Vertices and Reduced Rays (after names and maps); overflow of int while the images are computed is undefined behaviour, excluded for maps that exchange coordinates and change signs"
  },
  {
   "property": "C68",
   "status": "proved",
   "theorems": [
    "Panda.C68_reading",
    "Panda.C68_defined",
    "Panda.C68_symmetry",
    "Panda.C68_vertices_dd",
    "Panda.C68_vertices_dd_defined",
    "Panda.C68_vertices_ad",
    "Panda.C68_vertices_ad_defined",
    "Panda.C68_terminates",
    "Panda.C68_overflow",
    "Panda.C68_no_maps",
    "Panda.C68_equations_false"
   ],
   "note": "section Reduced Inequalities after names and maps, no equations before it; with equations before it the maps are simplified first and inequalities are lost (C68_equations_false: outside the stated property); overflow of int while the images are computed is undefined behaviour, excluded for maps that exchange coordinates and change signs"
  },
  {
   "property": "C69",
   "status": "proved",
   "theorems": [
    "Panda.C69_vertices",
    "Panda.C69_symmetry",
    "Panda.C69_facets_dd",
    "Panda.C69_facets_ad",
    "Panda.C69_exact_dd",
    "Panda.C69_exact_ad",
    "Panda.C69_facets_terminate",
    "Panda.C69_inequalities",
    "Panda.C69_system_symmetry",
    "Panda.C69_vertices_dd",
    "Panda.C69_vertices_ad",
    "Panda.C69_vertices_terminate",
    "Panda.C69_late_maps_false",
    "Panda.C69_equations_false"
   ],
   "note": "maps before the points, rays or inequalities; outside of that -c accepts maps that are no symmetries (C69_late_maps_false: maps after the points are never checked; C69_equations_false: equations are never checked); completeness of vertex enumeration by adjacency decomposition as in C66"
  },
  {
   "property": "C70",
   "status": "proved",
   "theorems": [
    "Panda.C70_dd",
    "Panda.C70_ad",
    "Panda.C70_terminate",
    "Panda.C70_infinity_false"
   ],
   "note": "files without maps; the hull must contain two points (double description) or three points not on a line and no line (adjacency decomposition); with adjacency decomposition and checked integers it must be full-dimensional. Undefined behaviour (overflow of int) is the third possible outcome; C70_infinity_false: the check accepts 0 <= 1 for a cone, which is why the statement has the second alternative."
  },
  {
   "property": "C71",
   "status": "partial",
   "theorems": [
    "Panda.C71_once",
    "Panda.C71_nothing_else",
    "Panda.C71_stop",
    "Panda.C71_no_deadlock",
    "Panda.C71_no_deadlock_all",
    "Panda.C71_known",
    "Panda.C71_terminates",
    "Panda.C71_fair_termination",
    "Panda.C71_can_finish",
    "Panda.C71_facets_sound",
    "Panda.C71_facets_complete",
    "Panda.C71_facets_known",
    "Panda.C71_facets_terminates",
    "Panda.C71_vertices_sound",
    "Panda.C71_vertices_complete_partial",
    "Panda.C71_vertices_terminates",
    "Panda.C71_more_threads_false",
    "Panda.C71_fewer_threads_false",
    "Panda.C71_empty_result_false",
    "Panda.C71_segment_false"
   ],
   "note": "FALSE of the code if the machines have different numbers of processors and -t is not given (a node with more threads than the master never ends; with fewer threads the master may hang), and for inputs of rank two (an empty result is undefined behaviour, witness: a segment); proved for all inputs of dimension at least two with the same number of threads on all nodes"
  },
  {
   "property": "C72",
   "status": "partial",
   "theorems": [
    "Panda.C72_documented_partial",
    "Panda.C72_exit",
    "Panda.C72_unknown_false"
   ],
   "note": "FALSE of the code for --known-data, --known-facets, --known-vertices (compared with an underscore), --help-command and --v: exit code 1 (proved); true for all other listed spellings"
  },
  {
   "property": "C73",
   "status": "partial",
   "theorems": [
    "Panda.C73_every_run",
    "Panda.C73_numbers",
    "Panda.C73_done",
    "Panda.C73_order",
    "Panda.C73_all_done",
    "Panda.C73_bound_partial",
    "Panda.C73_bound_known",
    "Panda.C73_classes",
    "Panda.C73_number_le",
    "Panda.C73_text",
    "Panda.C73_bound_false"
   ],
   "note": "everything but the bound n is proved in general; the bound is FALSE of the code with known rows (the stop signal is counted as a class; at most one too many, proved), true without"
  },
  {
   "property": "C74",
   "status": "proved",
   "theorems": [
    "Panda.C74_destroy",
    "Panda.C74_silent",
    "Panda.C74_once",
    "Panda.C74_exactly",
    "Panda.C74_dismissed"
   ],
   "note": "all histories; a destroyed object is never used again (C++ rule)"
  },
  {
   "property": "C75",
   "status": "partial",
   "theorems": [
    "Panda.C75_destroy_partial",
    "Panda.C75_silent_partial",
    "Panda.C75_two_seconds",
    "Panda.C75_moved_false"
   ],
   "note": "exact for actions that are not moved; FALSE of the code for moved ones (defaulted move constructor: the moved-from object runs as well)"
  },
  {
   "property": "C76",
   "status": "proved",
   "theorems": [
    "Panda.C76_points",
    "Panda.C76_exact",
    "Panda.C76_point_false",
    "Panda.C76_names_false"
   ],
   "note": "two runs of the whole program with the output of the first as the file of the second; outside the stated scope the round trip fails: a single point is printed as equations that vertex enumeration refuses (C76_point_false), and a file with names is printed with the names but without declaring them (C76_names_false)"
  },
  {
   "property": "C77",
   "status": "proved",
   "theorems": [
    "Panda.C77_inequalities",
    "Panda.C77_exact",
    "Panda.C77_line_false"
   ],
   "note": "two runs of the whole program; outside the stated scope the round trip fails: a half-plane comes back as a half-line (C77_line_false)"
  },
  {
   "property": "C78",
   "status": "proved",
   "theorems": [
    "Panda.C78_calm",
    "Panda.C78_destroy",
    "Panda.C78_ready",
    "Panda.C78_once",
    "Panda.C78_end"
   ],
   "note": "all histories of starting, moving and destroying, the threads ending at any time; failure of the operating system to start a thread is not modelled"
  },
  {
   "property": "C79",
   "status": "proved",
   "theorems": [
    "Panda.C79_guard",
    "Panda.C79_line",
    "Panda.C79_line_next",
    "Panda.C79_word",
    "Panda.C79_tests",
    "Panda.C79_line_model",
    "Panda.C79_word_model",
    "Panda.C79_relation_model",
    "Panda.C79_names_model",
    "Panda.C79_keywords_model",
    "Panda.C79_end_false",
    "Panda.C79_word_false"
   ],
   "note": "all texts and positions, streams that are good; the _model theorems show that the models of the parser, which do not know positions, are exact; the _false theorems show what happens to a stream at the end of the file (outside the stated property)"
  },
  {
   "property": "C80",
   "status": "proved",
   "theorems": [
    "Panda.C80_every_set",
    "Panda.C80_plain",
    "Panda.C80_maps"
   ],
   "note": "runs that finish (the other ends are overflow); without maps every set of points, also those contained in a hyperplane (equations and inequalities), with maps the sets that are not contained in a hyperplane; adjacency decomposition in the situation of C62 and C63"
  },
  {
   "property": "C81",
   "status": "proved",
   "theorems": [
    "Panda.C81_vertices",
    "Panda.C81_maps"
   ],
   "note": "runs that finish (the other ends are overflow); the condition on edges in adjacency decomposition is needed (C65_incomplete_false)"
  }
 ]
}