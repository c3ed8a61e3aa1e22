import json
M=[
("C01","proved",["C01_gcd","C01_lcm"],"lcm(0,0) is the division by zero (ub)"),
("C02","proved",["C02_row_gcd","C02_row_lcm","C02_primitive"],""),
("C03","proved",["C03_normalize","C03_negative_lead_reverses"],""),
("C04","proved",["C04_dimension_eq_rank"],""),
("C05","proved",["C05_equations_describe_span","C05_undefined"],"non-empty input with at least one column; otherwise ub"),
("C06","proved",["C06_reduced_echelon"],""),
("C07","proved",["C07_dd_sound","C07_undefined"],""),
("C08","proved",["C08_dd_complete"],""),
("C09","proved",["C09_dd_irredundant","C09_every_facet_reported"],""),
("C10","partial",["C10_pure_cone_false","C10_pure_cone_partial","C10_exact"],"FALSE of the code: negation proved with a witness; the output is characterised exactly: all facets except -x_j <= 0 for the last column j in which no equation starts"),
("C11","proved",["C11_order_independent"],""),
("C12","proved",["C12_vertex_enumeration"],""),
("C13","partial",["C13_lines_false","C13_lines_partial","C13_line_false","C13_exact"],"FALSE of the code whenever the solution set contains a line (proved for all such systems, so the output generates the solution set iff it contains no line); true part: sound, and complete modulo the lines"),
("C14","proved",["C14_bookkeeping","C14_final_state"],""),
("C15","proved",["C15_initial_facets"],""),
("C16","proved",["C16_rotation","C16_rotation_any_partial","C16_point_undefined"],""),
("C17","proved",["C17_furthest","C17_nearest"],""),
("C18","partial",["C18_sound_partial","ADInput.of_no_maps","C18_known_printed","C18_maps_false"],"FALSE of the code with symmetries if the leading coefficient of an equation is not one (witness: an invalid inequality is printed); complete for input without maps, for full-dimensional input, and for all maps that are adapted to the equations correctly (exactly the conditions of C25_exact and C25_defined); dimension zero is undefined behaviour"),
("C19","partial",["C19_complete_partial","C19_same_as_dd_partial","C19_terminates","C19_nontermination_false","C19_segment_false","C19_strip_false","C19_point_false","C19_trivial_row_false"],"FALSE of the code in dimension 0 and 1 (modulo lines): negations proved with witnesses; proved in dimension at least two, all interleavings"),
("C20","partial",["C20_sound_partial","C20_complete_partial","C20_complete_origin_partial","C20_vertices_partial","C20_adjacency_vertices_false","quadrilateral_edge"],"FALSE of the code: negation proved with a witness; true part: soundness and termination always, and completeness if no edge of the polyhedron leads straight away from the origin (the witness violates exactly this)"),
("C21","proved",["C21_classes_partition"],""),
("C22","proved",["C22_representative_invariant"],""),
("C23","proved",["C23_get_class_correct","C23_get_class_terminates","C23_infinite_orbit"],""),
("C24","proved",["C24_apply","C24_dual","C24_symmetry"],""),
("C25","partial",["C25_normalize_partial","C25_no_equations","C25_exact","C25_defined","C25_undefined_false","C25_undefined_permutation_false","C25_wrong_false"],"FALSE of the code in general (undefined behaviour, missing division by the leading coefficient): negations proved with witnesses; characterised exactly: C25_defined says for which maps the code is defined, C25_exact for which of these the result is right (and that images are always normalised)"),
("C26","proved",["C26_once","C26_nothing_else"],"all thread counts (local and MPI request threads), all interleavings of critical sections, spurious wake-ups"),
("C27","proved",["C27_stop","C27_stop_no_known","C27_known"],""),
("C28","proved",["C28_no_deadlock","C28_terminates","C28_fair_termination","C28_can_finish"],""),
("C29","partial",["C29_race_false","C29_race_partial"],"FALSE of the code: with two threads every terminating run has a racy interleaving (list.cpp:88); true part: without known rows only insertions of the stop signal race"),
("C30","proved",["C30_add","C30_sub","C30_mul","C30_neg","C30_abs","C30_div","C30_div_zero","C30_mod","C30_construct_signed","C30_construct_unsigned","C30_to_int","C30_compare"],"64-bit two's complement; comparisons, construction and conversion included"),
("C31","proved",["C31_facets","C31_vertices","C31_facets_or_throw","C31_vertices_or_throw"],"the double description method with SafeInteger arithmetic at every operation; without maps the only failure is an exception"),
("C32","partial",["C32_construct_signed","C32_construct_unsigned","C32_representation","C32_read_back_partial","C32_read_back_undefined_false","C32_narrow_blocks_false"],"FALSE of the code at one value: reading back -2^31 negates INT_MIN (undefined behaviour); everything else proved, for every block width of at least 32 (64 for the 64-bit constructors)"),
("C33","partial",["C33_add_partial","C33_sub_partial","C33_mul_partial","C33_mul_never_wrong","C33_negate","C33_abs","C33_undefined_false","C33_self_false"],"fully proved for compilers on which negating INT_MIN wraps; otherwise undefined behaviour exactly when an operand of + or - is -2^31; x *= x (same object) gives 0 for large x: proved"),
("C34","partial",["C34_quotient","C34_nonnegative_partial","C34_division_by_zero","C34_false","C34_gcd_division_false"],"FALSE of the code: -2^40/2 = 2^39; the exact behaviour is characterised for all operands"),
("C35","proved",["C35_remainder","C35_bad_divisor","C35_negative_congruent","C35_negative_false"],"as stated (non-negative dividend); for negative dividends the result is only congruent"),
("C36","partial",["C36_compare","C36_compare_int","C36_compare_int_undefined_false"],"proved for all big integers and all machine integers except INT_MIN, where std::abs is undefined"),
("C37","proved",["C37_fixed","C37_variable","C37_same_answers","C37_equals"],"every history of set/merge, every capacity"),
("C38","proved",["C38_popcount"],""),
("C39","proved",["C39_known_inequalities","C39_known_facets","C39_known_vertices","C39_filter","C39_point"],""),
("C40","partial",["C40_vertex_maps","C40_inequality_maps","C40_all_maps","C40_identity_false"],"FALSE of the code when the given rows contain duplicates or rows not in lowest terms (even the identity map is rejected: witness); the exact acceptance condition is proved, and equals the claim for distinct primitive rows"),
("C41","proved",["C41_vertex","C41_zero_denominator","C41_overflow","C41_sections","C41_large_number_drops_section_false","C41_large_number_changes_ray_false","C41_ray_garbage_false","C41_bad_denominator_false"],"all lines of the documented format whose numbers fit into int; the _false theorems show what happens to other input"),
("C42","proved",["C42_named","C42_rejected","C42_no_relation","C42_meaning","C42_raw","C42_unnamed","C42_sections","C42_raw_sections","C42_rhs_variable_false","C42_rhs_sign_false","C42_lookahead_false"],"all lines of the documented format whose numbers fit into int, and whole sections; the _false theorems show what happens to other input"),
("C43","partial",["C43_line_partial","C43_raw","C43_output_partial","C43_output_raw","C43_prefix_false","C43_zero_row_false"],"FALSE of the code when a name is a prefix of an earlier name or a row has no non-zero coefficient (witnesses); proved otherwise, for single lines and for the whole output"),
("C44","proved",["C44_vertex","C44_ray","C44_output"],"entries in the range of int (what is printed has been cast to int)"),
("C45","proved",["C45_sorted","C45_unique","C45_same_polyhedron"],"all orders and row lists (rows of one size)"),
("C46","partial",["C46_assembled","C46_undefined_false"],"FALSE of the code for an equation that contains the smallest int (undefined behaviour); proved otherwise, for rows of one size"),
("C47","proved",["C47_expand","C47_no_maps"],""),
("C48","partial",["C48_vertices","C48_inequalities","C48_equation_size_false","C48_dimension_false"],"FALSE of the code: the sizes of equations are not checked, nor is a declared dimension of 2^64-1 (witnesses); all other checks are characterised exactly"),
("C49","proved",["C49_threads","C49_positive"],"all command lines; stops with an error for anything that is not a positive number"),
("C51","partial",["C51_big_partial","C51_safe","C51_int32","C51_int64","C51_int16","C51_int64_false"],"FALSE of the code for -i 64 (silent truncation): witness; proved for checked and big integers"),
("C52","partial",["C52_facets_partial","C52_facets_full_dimensional","C52_vertices","C52_nontermination_false"],"FALSE of the code in general (because C25 is): negation proved with a witness; vertex enumeration and full-dimensional facet enumeration fully proved; facet enumeration with equations proved for all maps that are adapted correctly (exactly the condition of C25_exact)"),
("C53","proved",["C53_image","C53_line","C53_sections","C53_no_names_false","C53_short_line_false","C53_trailing_sign_false"],"all sections whose lines list one image per name; the _false theorems show what happens to other input (a section of maps before the names is never left)"),
("C54","partial",["C54_sorting","C54_method","C54_integer_type","C54_undefined_false"],"FALSE of the code for sorting orders that are not documented (-s none, -s lexx read past the end of the argument): witness; proved for the documented spellings, and for all command lines for the other two options"),
("C55","proved",["C55_filename","C55_short_equals_false"],"command lines of the documented form; -t=4 swallows the next argument (witness)"),
("C56","proved",["C56_operation_mode","C56_help_first","C56_first","C56_exit"],"all file contents; exit codes"),
("C57","proved",["C57_vertices","C57_hull","C57_inequalities","C57_late_header_false","C57_dimension_line_false","C57_dimension_skip_false"],"files of the documented format, sections in any order (names before maps and constraints), without reduced sections, -c and -k; the _false theorems show what happens to other files (first header after line 20, declared dimension on the line of its header)"),
("C59","proved",["C59_option","C59_facets","C59_vertices","C59_equations_false"],"all command lines; files of the documented format; a list of facets that starts with equations is rejected (witness)"),
("C60","partial",["C60_facets_int","C60_vertices_int","C60_facets_64_partial","C60_vertices_64_partial","C60_64_false","C60_16_false","C60_inf_false"],"FALSE of the code for -i 64, -i 16 and -i inf (witnesses: printed inequalities violated by the input points); proved for int (unless overflow, which is undefined behaviour) and, up to the conversion when printing, for 64 bits; -i safe is C31"),
("C58","proved",["C58_facets","C58_exact"],"the composition of option parsing, file reading, the computation in the selected type and printing; every text, every command line of the stated form"),
("C61","proved",["C61_vertices","C61_exact"],"as C58; undefined behaviour with checked integers only if a vertex has -2^31 among its coprime entries (printFractional takes absolute values)"),
("C50","partial",["Mpi.C50_matrix","Mpi.C50_row","Mpi.C50_intact","Mpi.C50_progress","Mpi.C50_terminates","Mpi.C50_delivered","Mpi.C50_eager","Mpi.C50_dangling_false","Mpi.C50_empty_false"],"FALSE of the code in general: the size messages are sent from local variables that are dead before the transmission is waited for (witness), and an empty matrix is undefined behaviour; proved for every interleaving as long as no dead buffer is read (always, if MPI_Isend copies at once)"),
("C62","proved",["C62_facets","C62_terminates","C62_exact"],"the composition of option parsing, file reading, the computation in the selected type, the pool of threads and printing; every text, every command line of the stated form, every interleaving"),
("C63","proved",["C63_facets_dd","C63_facets_ad","C63_terminates","C63_exact_dd","C63_exact_ad"],"full-dimensional hulls (with equations the code is wrong: C25, C52); maps whose images do not mention a variable twice; the meaning of the printed representatives is stated by the images of points under the maps of the file"),
("C64","partial",["C64_facets","C64_terminates","C64_exact","C64_same","C64_swallowed_false"],"FALSE of the code with known facets and checked integers if the hull lies in a hyperplane: an exception while printing a known facet is stored in a future that nobody reads, and the facet is missing although the exit code is 0 (witness); proved in all other cases"),
("C65","partial",["C65_vertices","C65_terminates","C65_incomplete_false","C65_known_undefined_false"],"FALSE of the code: edges that lead straight away from the origin are discarded and vertices are missing (witness), and with known vertices the asynchronous loop reads a destroyed temporary (witness); proved: soundness and termination always, completeness if no edge leads straight away from the origin"),
("C66","partial",["C66_vertices_dd","C66_vertices_ad","C66_terminates"],"double description: fully proved. Adjacency decomposition: soundness, one row per orbit and termination always; completeness only if no edge leads straight away from the origin (otherwise FALSE of the code: C65_incomplete_false)"),
("C67","proved",["C67_reading","C67_defined","C67_facets_dd","C67_facets_ad","C67_exact_dd","C67_exact_ad","C67_overflow"],"sections Reduced Vertices and Reduced Rays (after names and maps); overflow of int while the images are computed is undefined behaviour, excluded for maps that exchange coordinates and change signs"),
("C68","proved",["C68_reading","C68_defined","C68_symmetry","C68_vertices_dd","C68_vertices_dd_defined","C68_vertices_ad","C68_vertices_ad_defined","C68_terminates","C68_overflow","C68_no_maps","C68_equations_false"],"section Reduced Inequalities after names and maps, no equations before it; with equations before it the maps are simplified first and inequalities are lost (C68_equations_false: outside the stated property); overflow of int while the images are computed is undefined behaviour, excluded for maps that exchange coordinates and change signs"),
("C69","proved",["C69_vertices","C69_symmetry","C69_facets_dd","C69_facets_ad","C69_exact_dd","C69_exact_ad","C69_facets_terminate","C69_inequalities","C69_system_symmetry","C69_vertices_dd","C69_vertices_ad","C69_vertices_terminate","C69_late_maps_false","C69_equations_false"],"maps before the points, rays or inequalities; outside of that -c accepts maps that are no symmetries (C69_late_maps_false: maps after the points are never checked; C69_equations_false: equations are never checked); completeness of vertex enumeration by adjacency decomposition as in C66"),
("C70","proved",["C70_dd","C70_ad","C70_terminate","C70_infinity_false"],"files without maps; the hull must contain two points (double description) or three points not on a line and no line (adjacency decomposition); with adjacency decomposition and checked integers it must be full-dimensional. Undefined behaviour (overflow of int) is the third possible outcome; C70_infinity_false: the check accepts 0 <= 1 for a cone, which is why the statement has the second alternative."),
("C71","partial",["C71_once","C71_nothing_else","C71_stop","C71_no_deadlock","C71_no_deadlock_all","C71_known","C71_terminates","C71_fair_termination","C71_can_finish","C71_facets_sound","C71_facets_complete","C71_facets_known","C71_facets_terminates","C71_vertices_sound","C71_vertices_complete_partial","C71_vertices_terminates","C71_more_threads_false","C71_fewer_threads_false","C71_empty_result_false","C71_segment_false"],"FALSE of the code if the machines have different numbers of processors and -t is not given (a node with more threads than the master never ends; with fewer threads the master may hang), and for inputs of rank two (an empty result is undefined behaviour, witness: a segment); proved for all inputs of dimension at least two with the same number of threads on all nodes"),
("C72","partial",["C72_documented_partial","C72_exit","C72_unknown_false"],"FALSE of the code for --known-data, --known-facets, --known-vertices (compared with an underscore), --help-command and --v: exit code 1 (proved); true for all other listed spellings"),
("C73","partial",["C73_every_run","C73_numbers","C73_done","C73_order","C73_all_done","C73_bound_partial","C73_bound_known","C73_classes","C73_number_le","C73_text","C73_bound_false"],"everything but the bound n is proved in general; the bound is FALSE of the code with known rows (the stop signal is counted as a class; at most one too many, proved), true without"),
("C74","proved",["C74_destroy","C74_silent","C74_once","C74_exactly","C74_dismissed"],"all histories; a destroyed object is never used again (C++ rule)"),
("C75","partial",["C75_destroy_partial","C75_silent_partial","C75_two_seconds","C75_moved_false"],"exact for actions that are not moved; FALSE of the code for moved ones (defaulted move constructor: the moved-from object runs as well)"),
("C76","proved",["C76_points","C76_exact","C76_point_false","C76_names_false"],"two runs of the whole program with the output of the first as the file of the second; outside the stated scope the round trip fails: a single point is printed as equations that vertex enumeration refuses (C76_point_false), and a file with names is printed with the names but without declaring them (C76_names_false)"),
("C77","proved",["C77_inequalities","C77_exact","C77_line_false"],"two runs of the whole program; outside the stated scope the round trip fails: a half-plane comes back as a half-line (C77_line_false)"),
("C78","proved",["C78_calm","C78_destroy","C78_ready","C78_once","C78_end"],"all histories of starting, moving and destroying, the threads ending at any time; failure of the operating system to start a thread is not modelled"),
("C79","proved",["C79_guard","C79_line","C79_line_next","C79_word","C79_tests","C79_line_model","C79_word_model","C79_relation_model","C79_names_model","C79_keywords_model","C79_end_false","C79_word_false"],"all texts and positions, streams that are good; the _model theorems show that the models of the parser, which do not know positions, are exact; the _false theorems show what happens to a stream at the end of the file (outside the stated property)"),
("C80","proved",["C80_every_set","C80_plain","C80_maps"],"runs that finish (the other ends are overflow); without maps every set of points, also those contained in a hyperplane (equations and inequalities), with maps the sets that are not contained in a hyperplane; adjacency decomposition in the situation of C62 and C63"),
("C81","proved",["C81_vertices","C81_maps"],"runs that finish (the other ends are overflow); the condition on edges in adjacency decomposition is needed (C65_incomplete_false)"),
]
json.dump({"claims":[{"property":p,"status":s,"theorems":["Panda."+t for t in ts],"note":n} for p,s,ts,n in M]},open('/verif/MANIFEST.json','w'),indent=1)
