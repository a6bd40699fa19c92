{"claims": [
 {"property": "C01", "status": "proved", "theorems": ["Verif.C01_set_refines", "Verif.C01_insert_sequence"], "note": "All client programs (insert/merge/filter/filtered merge/copy) over growing sets with initial size >= 2, every hash multiplier."},
 {"property": "C02", "status": "partial", "theorems": ["Verif.C02_default_lookup_violated", "Verif.C02_default_lookup_two_violated", "Verif.C02_default_set_partial"], "note": "Violated by the code: with one or two keys a default constructed set is full and looking up a missing key never returns (proved for every key and multiplier). The partial theorem covers everything else."},
 {"property": "C03", "status": "proved", "theorems": ["Verif.C03_merge_union"], "note": "Operands built by arbitrary client programs."},
 {"property": "C04", "status": "partial", "theorems": ["Verif.C04_filter", "Verif.C04_mergeFilter_partial", "Verif.C04_mergeFilter_actual_partial", "Verif.C04_mergeFilter_cmp_violated", "Verif.C04_mergeFilter_empty_violated"], "note": "filter and filtered merge with cmp=false proved; violated for cmp=true (flag not passed on, LP_Set.hxx:426) and for two empty operands (table of size 0, out-of-bounds access)."},
 {"property": "C05", "status": "proved", "theorems": ["Verif.HashIter.C05_iteration", "Verif.HashIter.C05_set_iteration"], "note": "Forward iteration; operator-- is not covered."},
 {"property": "C06", "status": "proved", "theorems": ["Verif.HashIter.C06_split_covers", "Verif.HashIter.C06_split_covers_any_order"], "note": "All split trees permitted by is_divisible, any execution order."},
 {"property": "C07", "status": "partial", "theorems": ["Verif.C07_map_refines_partial", "Verif.C07_get_full_violated"], "note": "insert/get of present keys proved for all programs; lookups of absent keys hang on a completely full table, which the integer division in the growth test allows (negation proved)."},
 {"property": "C08", "status": "partial", "theorems": ["Verif.C08_contains_partial", "Verif.C08_contains_zero_violated"], "note": "Holds for non-zero values while the table is not full; value 0 is reported as absent (negation proved)."},
 {"property": "C09", "status": "partial", "theorems": ["Verif.C09_get_partial", "Verif.C09_contains_partial", "Verif.C09_get_one_free_violated", "Verif.C09_get_full_violated"], "note": "Proved for all client programs whenever two slots are free; false with one or zero free slots, which insert can produce (witness theorems)."},
 {"property": "C10", "status": "proved", "theorems": ["Verif.ConcSet.C10_linearizable", "Verif.ConcSet.C10_quiescent", "Verif.ConcSet.C10_returned_present", "Verif.ConcSet.C10_no_undefined"], "note": "Any number of threads, both template variants, sequentially consistent interleavings."},
 {"property": "C100", "status": "partial", "theorems": ["Verif.Classify.C100_int_partial", "Verif.Classify.C100_text_partial", "Verif.Classify.C100_fixed_partial", "Verif.Classify.C100_no_throw_partial", "Verif.Classify.C100_throw_violated", "Verif.Classify.C100_letter_violated", "Verif.Classify.C100_range_violated", "Verif.Classify.C100_float_violated", "Verif.Classify.C100_truncated_violated", "Verif.Classify.C100_exponent_partial"], "note": "Printed integers in the range of long, text that does not end with a digit or a point, and numbers in fixed notation whose second digit is not 0 are stored correctly; values that begin with a digit or a sign do not throw. A letter followed by digits (a host called n1) throws, .5 throws, 10.5 and 1e+06 are stored as text, .1.5 as 0.1."},
 {"property": "C101", "status": "partial", "theorems": ["Verif.FPM.C101_inside2_partial", "Verif.FPM.C101_vertex2_partial", "Verif.FPM.C101_outside2_partial", "Verif.FPM.C101_edge2_violated", "Verif.FPM.C101_inside2_violated", "Verif.FPM.C101_outside2_violated", "Verif.FPM.C101_inside3_partial", "Verif.FPM.C101_vertex3_partial", "Verif.FPM.C101_outside3_partial", "Verif.FPM.C101_face3_violated", "Verif.FPM.C101_inside3_violated", "Verif.FPM.C101_outside3_violated"], "note": "The exact test of all coordinates is violated by witnesses with integers of 17 bits in double; the partial theorems hold for integers up to 1722 in the plane and 69 in space (double)."},
 {"property": "C102", "status": "partial", "theorems": ["Verif.FPM.C102_finds2_partial", "Verif.FPM.C102_finds3_partial", "Verif.FPM.C102_missed2_violated", "Verif.FPM.C102_missed3_violated"], "note": "With double and integer coordinates of absolute value at most 87 in the plane and 17 in space. Without the restriction it is false: the computed radius can be zero, in space already for coordinates below 2^19."},
 {"property": "C103", "status": "proved", "theorems": ["Verif.MigrateMM.C103_at_most_once", "Verif.MigrateMM.C103_complete", "Verif.MigrateMM.C103_no_undefined"], "note": "Migration of a multimap that is not written meanwhile."},
 {"property": "C104", "status": "partial", "theorems": ["Verif.GrowingMM.C104_no_growth", "Verif.GrowingMM.C104_quiescent", "Verif.GrowingMM.C104_lost_value_violated"], "note": "Proved while the number of insertions is at most half the capacity; with growth the property is violated (concrete execution)."},
 {"property": "C105", "status": "proved", "theorems": ["Verif.DC.C105_insertions", "Verif.DC.C105_build_no_growth", "Verif.DC.C105_merge_no_growth"], "note": "The insertions into the multimap are counted in the model of the merge, where the index is a bag."},
 {"property": "C106", "status": "partial", "theorems": ["Verif.MigrateMap.C106_at_most_once", "Verif.MigrateMap.C106_complete", "Verif.MigrateMap.C106_no_undefined", "Verif.GrowingMap.C106_no_growth", "Verif.GrowingMap.C106_quiescent", "Verif.GrowingMap.C106_counted_twice_violated", "Verif.GrowingMap.C106_lost_key_violated", "Verif.GrowingMap.C106_lost_value_violated"], "note": "The migration into a larger table is complete and copies each pair once; as long as fewer different keys are inserted than half the slots of the first table, keys are acknowledged exactly once and stored with an inserted value. When the table grows during an insertion the code violates this: a key can be acknowledged as new twice, an acknowledged key or its value can be lost (negations proved)."},
 {"property": "C107", "status": "partial", "theorems": ["Verif.Samp.C107_grows", "Verif.Samp.C107_partial", "Verif.Samp.C107_violated"], "note": "Violated in the plane: the map always grows for the first triangulation of a process (ids 1, 2, ... without gaps) if it has as many finite triangles as infinite triangles and threads. It does not grow if the ids are large compared with the number of simplices (_partial). The case D = 3 is only covered by C107_grows, which says for any keys when the map must grow."},
 {"property": "C108", "status": "partial", "theorems": ["Verif.Samp.C108_partial", "Verif.Samp.C108_defined", "Verif.Samp.C108_violated"], "note": "Proved as long as the number of different edges is below half the number of slots of the edge map (so that it does not grow). Otherwise the claim is false: on a sample of four points in the plane an edge is counted twice and the graph has a loop (C108_violated)."},
 {"property": "C109", "status": "partial", "theorems": ["Verif.Dist.C109_partial", "Verif.Dist.C109_no_growth_partial", "Verif.Dist.C109_one_thread_partial", "Verif.Dist.C109_grows", "Verif.Dist.C109_violated"], "note": "False when a set grows while another thread is between finding a free slot and claiming it: C109_violated loses a point, distributed to two parts of six points by two threads. C109_grows: a part with at least half the slots plus the number of threads always makes its set grow, and the sets are constructed for the average number of points of a part, so this is the usual case. Proved: nothing is lost and nothing is invented if no write is late, if the set does not grow, or with one thread."},
 {"property": "C11", "status": "partial", "theorems": ["Verif.ConcSet.C11_not_full_partial", "Verif.ConcSet.C11_wait_free", "Verif.ConcSet.C11_full_violated"], "note": "Full is never reported with fewer keys than slots; with exactly as many keys as slots re-inserting a present key reports Full (witness). Step bound holds up to the capacity."},
 {"property": "C110", "status": "partial", "theorems": ["Verif.Samp.C110_partial", "Verif.Samp.C110_nonempty_iff", "Verif.Samp.C110_sqrt", "Verif.Samp.C110_log", "Verif.Samp.C110_violated"], "note": "The size and the members of the sample are proved. The sample can be empty exactly if no more ids are requested than there are infinite ids (C110_nonempty_iff); with the sizes of the code that is for fewer than (2^D+1)^2 points (sqrt) or 2^(2^D+1) points (log). C110_violated: the assignment to the nearest sample point is then undefined."},
 {"property": "C111", "status": "partial", "theorems": ["Verif.Samp.C111_edges", "Verif.Samp.C111_median_partial", "Verif.Samp.C111_borderLength", "Verif.Samp.C111_split", "Verif.Samp.C111_violated"], "note": "Edges, position of the split and the two boxes are proved. The dimension is not that of the shortest border, since the length is assigned in the loop and not added up (C111_violated): it is the one with the closest last two points."},
 {"property": "C112", "status": "partial", "theorems": ["Verif.Cli.C112_partial", "Verif.Cli.C112_starts_iff", "Verif.Cli.C112_details", "Verif.Cli.C112_ub_iff", "Verif.Cli.C112_violated", "Verif.Cli.C112_order_violated"], "note": "C112_starts_iff lists exactly the command lines that are carried out, C112_ub_iff those with undefined behaviour (unknown distribution or partitioner, no dimension). If the experiment starts, it is the requested one with the documented defaults, up to unknown names of weights and modes. The constructor of Experiment depends on the order of evaluation (C112_order_violated)."},
 {"property": "C113", "status": "partial", "theorems": ["Verif.Edges.C113_partial", "Verif.Edges.C113_no_growth_partial", "Verif.Edges.C113_one_thread_partial", "Verif.Edges.C113_sound", "Verif.Edges.C113_spec_partial", "Verif.Edges.C113_grows", "Verif.Edges.C113_violated", "Verif.Edges.C113_delaunay_partial", "Verif.Edges.C113_delaunay_one_thread_partial", "Verif.Edges.C113_terminates_partial", "Verif.Edges.C113_returns_partial"], "note": "Proved for executions without late writes, without growth, or with one thread; soundness (no foreign ids, marks) and the condition under which the sets must grow hold in all executions. The whole algorithm with these sets returns a Delaunay triangulation for executions without late writes, and for one thread in all executions. C113_violated: with two threads a vertex of an edge simplex is lost although the simplex is kept. With one thread the extraction and the whole algorithm terminate and have results."},
 {"property": "C114", "status": "partial", "theorems": ["Verif.Growing.C114_returns", "Verif.Growing.C114_execution", "Verif.Growing.C114_memory_partial", "Verif.Growing.C114_collisions", "Verif.Growing.C114_violated"], "note": "Termination, answers and contents for all sequences of ids; the bound on the memory only with distinct residues modulo a power of two. Without it the bound is false: twelve multiples of 2^q make more than 2^q slots."},
 {"property": "C115", "status": "partial", "theorems": ["Verif.Report.C115_json_partial", "Verif.Report.C115_args", "Verif.Report.C115_violated"], "note": "Proved if no string needs escaping, for any number of runs; the text denotes the report and nothing else. In general the property is false: strings are not escaped, and with an odd number of quotation marks in the arguments the output is no JSON text."},
 {"property": "C116", "status": "partial", "theorems": ["Verif.Report.C116_first_partial", "Verif.Report.C116_violated"], "note": "Proved for the first run. For a second run the property is false: the accumulator keeps the parts and base triangulations of the first one."},
 {"property": "C117", "status": "partial", "theorems": ["Verif.Bench.C117_generate_partial", "Verif.Bench.C117_violated"], "note": "Complete for a first number of points with one nonzero digit (default 10), maxN below 4*10^9, positive minThreads and maxThreads below 2^31. False otherwise: minN = 0 and minThreads = 0 give endless loops, maxThreads < -1 wraps the shifted counter to 0 and loops for ever, maxN >= 4*10^9 makes the conversion of double to uint undefined; all four are proved in C117_violated."},
 {"property": "C118", "status": "proved", "theorems": ["Verif.Bench.C118_execute", "Verif.Bench.C118_reread", "Verif.Bench.C118_generated", "Verif.Bench.C118_order"], "note": "Letters of the options must not be white space; host name and revision must survive the text format (not empty, no space at the ends, no three spaces in a row); the text is shorter than 2^63. Numbers fit into 32 bits."},
 {"property": "C119", "status": "partial", "theorems": ["Verif.Dump.C119_partial", "Verif.Dump.C119_violated", "Verif.Dump.C119_digits_violated"], "note": "False: the loop of the dump program also visits the reserved entry 0 of the container, so that the origin is the first point of every file and all ids are larger by one; and six decimals do not distinguish all points. Proved: each point is in its place behind it, with the nearest multiple of a millionth before rounding to double."},
 {"property": "C12", "status": "proved", "theorems": ["Verif.ConcSet.C12_contains_after_insert", "Verif.ConcSet.C10_linearizable"], "note": ""},
 {"property": "C120", "status": "partial", "theorems": ["Verif.Count.C120_slots_partial", "Verif.Count.C120_pure_violated", "Verif.DC.C120_base_violated"], "note": "Violated: exact_size counts slots. Proved: it bounds the number of simplices from above, with equality exactly if every slot holds a simplex; for the base triangulator the slots of the infinite cells are counted; the plain CGAL triangulators always report one simplex."},
 {"property": "C121", "status": "proved", "theorems": ["Verif.FP.C121_orient2d", "Verif.FP.C121_orient3d", "Verif.FP.C121_insphere2d", "Verif.FP.C121_insphere3d"], "note": "Exponents are unbounded: neither overflow nor underflow."},
 {"property": "C122", "status": "partial", "theorems": ["Verif.FP.C122_grow", "Verif.FP.C122_growZ", "Verif.FP.C122_sum", "Verif.FP.C122_sumZ1", "Verif.FP.C122_sumZ2_partial", "Verif.FP.C122_sumZ2_violated", "Verif.FP.C122_fast", "Verif.FP.C122_scale"], "note": "Violated: expansion_sum_zeroelim2 writes its last component even if it is zero ([1, 2^60] + [-2^60] gives [1, 0]); everything else it promises is proved. Not covered: nonadjacency, the nonoverlapping property of scale_expansion, linear_expansion_sum and compress."},
 {"property": "C123", "status": "proved", "theorems": ["Verif.ConcMap.C123_rehash", "Verif.ConcMap.C123_merge", "Verif.ConcMap.C123_filter", "Verif.ConcMap.C123_rehash_small", "Verif.ConcMap.C123_filter_either", "Verif.ConcMap.rest_of_execution"], "note": "C123_rehash_small and C123_filter_either show that the room is needed and that the filtered merge may keep either value of a common key."},
 {"property": "C124", "status": "partial", "theorems": ["Verif.ConcMultiMap.C124_rehash", "Verif.ConcMultiMap.C124_merge_partial", "Verif.ConcMultiMap.C124_merge_violated", "Verif.ConcMultiMap.room_ends", "Verif.ConcMultiMap.rest_of_execution"], "note": "Violated when both multimaps are empty: the new table has no slots and a following contains reads outside of it (C124_merge_violated). _insert(key, value) is modelled by insert, whose test of the counter never fails here."},
 {"property": "C125", "status": "proved", "theorems": ["Verif.FP.C125_compress"], "note": "The two loops are on lists: every component is read before its place is written, so the result may take the place of the argument. Unbounded exponents, round to nearest even."},
 {"property": "C126", "status": "proved", "theorems": ["Verif.FP.C126_linear", "Verif.FP.C126_linearZ"], "note": "Unbounded exponents, round to nearest even. The reads of one component past the end of the arguments, whose value is not used, are not modelled."},
 {"property": "C127", "status": "proved", "theorems": ["Verif.FP.C127_grow", "Verif.FP.C127_sum", "Verif.FP.C127_product", "Verif.FP.C127_orient2d", "Verif.FP.C127_insphere2d", "Verif.FP.C127_orient3d", "Verif.FP.C127_insphere3d", "Verif.FP.C127_reads_violated"], "note": "Sum, sign and number of components for all points. C127_reads_violated: the arrays axby and bxay of eight components are full, so the sum function reads one element beyond one of them (as in C92); the value read is not used."},
 {"property": "C128", "status": "proved", "theorems": ["Verif.FP.C128_scale", "Verif.FP.C128_scaleZ"], "note": "Exponents are unbounded (no overflow or underflow). The strongly nonoverlapping case of scale_expansion_zeroelim is part of the theorems on the exact tests."},
 {"property": "C129", "status": "partial", "theorems": ["Verif.BitSet.C129_dec", "Verif.BitSet.C129_backwards", "Verif.BitSet.C129_before_first_violated"], "note": "Walking backwards over the one-bits is proved; decrementing the iterator at the first one-bit is proved to be undefined, so the second half of the claim is false for the code."},
 {"property": "C13", "status": "partial", "theorems": ["Verif.ConcMap.C13_get_partial", "Verif.ConcMap.C13_undefined_only_in_race", "Verif.ConcMap.C13_quiescent", "Verif.ConcMap.C13_get_violated"], "note": "The claim fails: a get that overlaps with the first insert of its key can read a value slot that was never written (C13_get_violated). Proved: every value a get returns was passed to an insert of that key called before, or is 0 while no insert of the key has completed; the bad read only occurs while another thread is inside an insert of the same key; final state properties."},
 {"property": "C130", "status": "partial", "theorems": ["Verif.ConcMap.C130_insert_violated"], "note": "The claim is false for the code: the theorem states that no run returns and what the table looks like after as many rounds as there are slots."},
 {"property": "C131", "status": "proved", "theorems": ["Verif.Samp.C131_file", "Verif.Samp.C131_sample"], "note": "Opening the file and stream errors are not modelled."},
 {"property": "C132", "status": "partial", "theorems": ["Verif.Life.C132_assign", "Verif.Life.C132_bipart_partial", "Verif.Life.C132_same", "Verif.Life.C132_bipart_violated"], "note": "Proved for the partitioners with one level and for the bipartitioner with up to three parts. With four or more parts the code violates the claim (C132_bipart_violated). C132_same ties the model with addresses to the trees of C63 and C80."},
 {"property": "C133", "status": "partial", "theorems": ["Verif.TreeMem.C133_copy", "Verif.TreeMem.C133_query", "Verif.TreeMem.C133_answers", "Verif.TreeMem.C133_assign_partial", "Verif.TreeMem.C133_move_violated"], "note": "Copies are equal and independent, on the level of addresses. Moves between existing trees exchange them. The move constructor reads members that have no value (std::swap of nChildren, cell_size), so the move into a new object, which the accurate maker performs, is undefined: proved as C133_move_violated."},
 {"property": "C134", "status": "partial", "theorems": ["Verif.Indent.C134_isolated_partial", "Verif.Indent.C134_task_partial", "Verif.Indent.C134_steal_violated"], "note": "Holds if waiting threads only take tasks of the loop they wait for (task isolation). Without isolation a thread that waits in getEdge may run a task of an outer loop, after which DEDENT underflows and the next LOG builds a line with 2^32-1 tabs: proved as C134_steal_violated."},
 {"property": "C135", "status": "partial", "theorems": ["Verif.Prof.C135_measurements", "Verif.Prof.C135_between", "Verif.Prof.C135_perc_partial", "Verif.Prof.C135_perc_violated"], "note": "Measurements and averages hold as stated. The percentages are integer divisions and are 0 unless the part is the whole: C135_perc_violated."},
 {"property": "C136", "status": "partial", "theorems": ["Verif.Prov.C136_narrow_partial", "Verif.Prov.C136_flat_partial", "Verif.Prov.C136_near_partial", "Verif.Prov.C136_fixed_violated", "Verif.Prov.C136_wide_violated"], "note": "Holds for trees whose nodes have at most ten children, for trees with one level, and with the samples of the nearest sample point bipartitioner. False for the hyperplane bipartitioner and the box estimating partitioner, which register every sample as s0, and for trees with a wide node one of whose children is divided again (no partitioner of the code makes such a tree)."},
 {"property": "C137", "status": "proved", "theorems": ["Verif.Geom.C137_face2", "Verif.Geom.C137_face3", "Verif.Geom.C137_range"], "note": "Exact arithmetic, simplices without degenerate faces. The value itself is not the squared distance (C40)."},
 {"property": "C138", "status": "partial", "theorems": ["Verif.LogLevel.C138_dac_partial", "Verif.LogLevel.C138_wrap_violated", "Verif.LogLevel.C138_ignored_violated", "Verif.LogLevel.C138_invalid_partial", "Verif.LogLevel.C138_container"], "note": "Holds in DAC_Test for verbosities that are a short other than -32768. Violated in LB_Experiments: the level is set before the command line is parsed, so that the option has no effect, and the log is only printed for invalid runs. One sequence of calls; the characters of concurrent live lines may mix."},
 {"property": "C139", "status": "partial", "theorems": ["Verif.Progress.C139_full_partial", "Verif.Progress.C139_share", "Verif.Progress.C139_beyond_violated", "Verif.Progress.C139_result_violated"], "note": "Proved for positive increments that do not pass over the expected count, for every such rounding; the share of the count in exact arithmetic. Violated for increments beyond the expected count, and for the result of the operator, which is read after the lock is released."},
 {"property": "C14", "status": "proved", "theorems": ["Verif.ConcMultiMap.C14_quiescent", "Verif.ConcMultiMap.C14_acknowledged_stored", "Verif.ConcMultiMap.C14_get", "Verif.ConcMultiMap.C14_contains", "Verif.ConcMultiMap.C14_no_undefined"], "note": "All interleavings of any number of threads calling insert and contains; get after quiescence needs two free slots (see C09)."},
 {"property": "C140", "status": "partial", "theorems": ["Verif.PointId.C140_generated_partial", "Verif.PointId.C140_loaded_partial", "Verif.PointId.C140_reserve", "Verif.PointId.C140_numpoints_violated", "Verif.PointId.C140_below_violated"], "note": "Violated: the report prints finite_size(), which counts the entry 0, so it always reports one point too many; reserving up to an index below the offset asks for almost 2^64 elements."},
 {"property": "C141", "status": "partial", "theorems": ["Verif.PointId.C141_contains_violated", "Verif.PointId.C141_infinite_partial"], "note": "Violated: a misplaced parenthesis compares the truth value with the size, so that every finite id is contained. The infinite ids are right. No file includes the header any more."},
 {"property": "C142", "status": "partial", "theorems": ["Verif.Paint.C142_similar", "Verif.Paint.C142_middle", "Verif.Paint.C142_box", "Verif.Paint.C142_circle", "Verif.Paint.C142_edges", "Verif.Paint.C142_points_partial", "Verif.Paint.C142_points_violated"], "note": "Exact arithmetic instead of float. Violated: the loop over all points also draws the entry 0 of the container."},
 {"property": "C143", "status": "partial", "theorems": ["Verif.Convert.C143_convert_partial", "Verif.Convert.C143_insert", "Verif.Convert.C143_part_partial", "Verif.Convert.C143_part_size_partial", "Verif.Convert.C143_full_violated"], "note": "Size and insertions hold without restriction; queries if the set is not full or the key is in it. In a full set of fixed size, the query for another key does not return. The sets of the parts and their sizes are right if no id was lost by a late write (C109)."},
 {"property": "C144", "status": "partial", "theorems": ["Verif.Growing.C144_size_partial", "Verif.Growing.C144_violated"], "note": "Holds if no thread writes into a slot that was handed out for copying and every handle is used by one thread at a time. With a late write a new handle reports too few keys."},
 {"property": "C145", "status": "partial", "theorems": ["Verif.Copy.C145_set_partial", "Verif.Copy.C145_multimap_partial", "Verif.Copy.C145_set_violated", "Verif.Copy.C145_multimap_violated"], "note": "The slots of a copy are those of the source, and the size of a set is right. The hash function is not copied: with different multipliers keys are not found. The size of a multimap is not copied, and its assertion compares the number of slots with the number of pairs."},
 {"property": "C146", "status": "partial", "theorems": ["Verif.Convert.C146_partial", "Verif.Convert.C146_violated"], "note": "Holds if no thread writes an id into a slot that was handed out for copying; queries of full sets for other ids are excluded (C143). After a late write a vertex of an edge simplex is not in the set that is triangulated."},
 {"property": "C147", "status": "partial", "theorems": ["Verif.Convert.C147_partial", "Verif.Convert.C147_violated"], "note": "Holds if no thread writes an id into a slot that was handed out for copying. After a late write a finite point is in no part that is returned."},
 {"property": "C15", "status": "partial", "theorems": ["Verif.Growing.C15_lost_insert_violated", "Verif.Growing.C15_no_loss_partial", "Verif.Growing.C15_serial_partial", "Verif.Growing.C15_no_growth_partial", "Verif.Growing.C15_no_phantom_partial", "Verif.Growing.C15_table_forward_partial"], "note": "The full claim is false in the code: an insertion into a slot that has already been migrated is acknowledged and lost (witness execution). Proved for all executions, any number of threads and growth phases: nothing is lost if no thread writes into a slot after the migration has handed it out (and every handle is used by one thread at a time); this holds in particular when insertions do not overlap each other and when the table has not grown. Also, contains(k) answers true only if insert(k) was called before, and the published table never moves back to an older version."},
 {"property": "C16", "status": "proved", "theorems": ["Verif.Migrate.C16_at_most_once", "Verif.Migrate.C16_complete", "Verif.Migrate.C16_items", "Verif.Migrate.C16_no_undefined"], "note": "For every number of helpers and every interleaving; the old table is frozen during the migration, which is the situation the claim is about."},
 {"property": "C17", "status": "proved", "theorems": ["Verif.BulkMerge.C17_size", "Verif.BulkMerge.C17_filtered_union", "Verif.BulkMerge.C17_wait_free", "Verif.BulkMerge.C17_empty", "Verif.BulkMerge.C17_empty_unusable"], "note": "All table contents, filters, task decompositions and interleavings. C17_empty_unusable records that merging two empty sets leaves a table of size 0 in which lookups are undefined."},
 {"property": "C18", "status": "proved", "theorems": ["Verif.BitSet.C18_bitset", "Verif.BitSet.C18_large_ids_violated"], "note": "For bounds up to 2^32, the range of the 32-bit key type; ids beyond are truncated (witness)."},
 {"property": "C19", "status": "partial", "theorems": ["Verif.BitSet.C19_algebra_partial", "Verif.BitSet.C19_filter_size_violated"], "note": "Membership after merge, mergeFilter, filter and resize is proved for all ranges; the size after filter is wrong when an id lies outside the range of the argument (witness), correct otherwise."},
 {"property": "C20", "status": "partial", "theorems": ["Verif.BitSet.C20_batchSet_partial", "Verif.BitSet.C20_batchSet_fresh_partial", "Verif.BitSet.C20_aligned_end_violated", "Verif.BitSet.C20_other_bits_violated", "Verif.BitSet.C20_size_violated"], "note": "The code violates the claim for a block-aligned upper end (shift by 32), for other bits of the first and last block, and for the size of a non-empty set; proved otherwise."},
 {"property": "C21", "status": "proved", "theorems": ["Verif.BitSet.C21_iteration"], "note": "For every bit set built from the public operations."},
 {"property": "C22", "status": "proved", "theorems": ["Verif.ConcBitSet.C22_linearizable", "Verif.ConcBitSet.C22_one_winner", "Verif.ConcBitSet.C22_balance", "Verif.ConcBitSet.C22_size", "Verif.ConcBitSet.C22_size_needs_quiescence"], "note": "Any number of threads, all interleavings; the counter may wrap around while calls are running (witness)."},
 {"property": "C23", "status": "proved", "theorems": ["Verif.IndexHandler.C23_unique", "Verif.IndexHandler.C23_disable", "Verif.IndexHandler.C23_reuse_of_earlier_ids"], "note": "Fewer than 2^64 allocations (the counter is a uint64). Ids queued before disable() are still handed out after it."},
 {"property": "C24", "status": "proved", "theorems": ["Verif.ConcIndexHandler.C24_unique"], "note": "Any number of threads, all interleavings; the TBB queue is a linearizable FIFO queue."},
 {"property": "C25", "status": "partial", "theorems": ["Verif.BA2.C25_at", "Verif.BA2.C25_write", "Verif.BA2.C25_contains", "Verif.BA2.C25_hint", "Verif.BA2.C25_absent", "Verif.BA2.C25_empty_block_violated", "Verif.BA2.C25_hint_violated"], "note": "Proved for all arrays of non-empty disjoint blocks and legal hints. False with an empty block or a hint that is not a block number (negations proved)."},
 {"property": "C26", "status": "partial", "theorems": ["Verif.BA2.C26_all", "Verif.BA2.C26_valid", "Verif.BA2.C26_exact_size", "Verif.BA2.C26_empty_block_violated"], "note": "Proved for all arrays of non-empty disjoint blocks and validity patterns. False with an empty block between others (negation proved)."},
 {"property": "C27", "status": "partial", "theorems": ["Verif.BA1.C27_at_partial", "Verif.BA1.C27_at_violated"], "note": "The index equal to the capacity is not rejected (negation proved for every array)."},
 {"property": "C28", "status": "partial", "theorems": ["Verif.Misc.C28_sort_with_data", "Verif.Misc.C28_sort", "Verif.Misc.C28_sort_large_violated"], "note": "Sorted, stable and pair-preserving for every array of at most 32768 elements; beyond that (still accepted by the static_assert) the short index overflows, proved as out-of-bounds access."},
 {"property": "C29", "status": "partial", "theorems": ["Verif.Misc.C29_isPow2", "Verif.Misc.C29_nextPow2", "Verif.Misc.C29_nextPow2_model", "Verif.Misc.C29_nextPow2_wraps", "Verif.Misc.C29_log2", "Verif.Misc.C29_logN", "Verif.Misc.C29_logN_diverges", "Verif.Misc.C29_popcount", "Verif.Misc.C29_isPowN_violated", "Verif.Misc.C29_isPowN_partial"], "note": "All 64-bit words. isPowN is wrong in the code (decides divisibility): negation proved."},
 {"property": "C30", "status": "proved", "theorems": ["Verif.Misc.C30_split", "Verif.Misc.C30_split_no_empties"], "note": "Any alphabet, any string."},
 {"property": "C31", "status": "proved", "theorems": ["Verif.Simplex.C31_contains", "Verif.Simplex.C31_countSharedVertices", "Verif.Simplex.C31_isNeighbor", "Verif.Simplex.C31_containsAllAny"], "note": "All dimensions and all vertex lists."},
 {"property": "C32", "status": "partial", "theorems": ["Verif.Simplex.C32_rol_rotation", "Verif.Simplex.C32_fingerprint_order_partial", "Verif.Simplex.C32_equalVertices", "Verif.Simplex.C32_faceFingerprint_partial", "Verif.Simplex.C32_faceFingerprint_nonzero", "Verif.Simplex.C32_shift_violated"], "note": "Vertex-id hash is undefined (shift by the word width) for ids divisible by 32 (witness); proved for all other ids."},
 {"property": "C33", "status": "partial", "theorems": ["Verif.Simplex.C33_eqOp_partial", "Verif.Simplex.C33_transitive_violated", "Verif.Simplex.C33_equalNeighbors_violated"], "note": "equalNeighbors accepts different neighbour sets and the operator is not transitive (witnesses); the part that holds is proved."},
 {"property": "C34", "status": "proved", "theorems": ["Verif.PointId.C34_isFinite", "Verif.PointId.C34_infIndex", "Verif.PointId.C34_infIndex_bijective", "Verif.PointId.C34_contains_access", "Verif.PointId.C34_contains_finite", "Verif.PointId.C34_contains_infinite", "Verif.PointId.C34_base", "Verif.Simplex.C34_simplex_isFinite"], "note": "All ids and container sizes."},
 {"property": "C35", "status": "proved", "theorems": ["Verif.Box.C35_contains_point", "Verif.Box.C35_contains_box", "Verif.Box.C35_contains_closed_ball", "Verif.Box.C35_contains_open_ball", "Verif.Box.C35_intersects", "Verif.Box.C35_eq"], "note": "Any dimension, any linear ordered field; non-empty boxes and non-negative radius where stated."},
 {"property": "C36", "status": "proved", "theorems": ["Verif.Box.C36_subtraction"], "note": "Any dimension, any linear ordered field."},
 {"property": "C37", "status": "proved", "theorems": ["Verif.Geom.C37_circumsphere2", "Verif.Geom.C37_circumsphere3"], "note": "The formulas are transcribed from the source; exact arithmetic, sqrt any square root function."},
 {"property": "C38", "status": "proved", "theorems": ["Verif.Geom.C38_inSphere2", "Verif.Geom.C38_inSphere3"], "note": "Adaptive predicates replaced by the determinants whose sign they compute."},
 {"property": "C39", "status": "proved", "theorems": ["Verif.Geom.C39_inSimplex2", "Verif.Geom.C39_inSimplex3"], "note": "Exact arithmetic, non-degenerate simplices."},
 {"property": "C40", "status": "partial", "theorems": ["Verif.Geom.C40_sqDistance_violated", "Verif.Geom.C40_order_violated", "Verif.Geom.C40_face2_partial", "Verif.Geom.C40_face3_partial"], "note": "The function returns distance divided by the length of the face's normal vector, not the squared distance, and does not order faces by distance (witnesses); what it computes is proved."},
 {"property": "C41", "status": "partial", "theorems": ["Verif.Part.C41_seq_partial", "Verif.Part.C41_parallel_partial", "Verif.Part.C41_negative_violated"], "note": "Tight box for every thread decomposition if some coordinate per dimension is at least numeric_limits::min() (the code starts the maximum there); violated when all coordinates of a dimension are negative: max is then the smallest positive number."},
 {"property": "C42", "status": "partial", "theorems": ["Verif.Part.C42_dWay", "Verif.Part.C42_oneDim", "Verif.Part.C42_cycle", "Verif.Part.C42_extend_partial", "Verif.Part.C42_extend_violated"], "note": "Complete for d-way, one-dimensional and cycle; the extend splitter needs a positive extent in some dimension and reads out of bounds otherwise (violated)."},
 {"property": "C43", "status": "proved", "theorems": ["Verif.Part.C43_dWay", "Verif.Part.C43_oneDim", "Verif.Part.C43_cycle", "Verif.Part.C43_extend"], "note": "Exact arithmetic."},
 {"property": "C44", "status": "proved", "theorems": ["Verif.Part.C44_dWay", "Verif.Part.C44_oneDim", "Verif.Part.C44_cycle", "Verif.Part.C44_extend"], "note": "Convex hull is Mathlib's."},
 {"property": "C45", "status": "proved", "theorems": ["Verif.Part.C45_partition", "Verif.Part.C45_contains"], "note": ""},
 {"property": "C46", "status": "proved", "theorems": ["Verif.DC.C46_getEdge", "Verif.DC.C46_getEdge_terminates", "Verif.DC.C46_getEdge_defined", "Verif.DC.C46_getEdge_exists"], "note": "DCTriangulator::getEdge at single-access granularity with racing marks; requires that the 8-bit mark does not overflow (C47). The variant in LoadBalancedDCTriangulator.tpp differs only in the test, which is a parameter here."},
 {"property": "C47", "status": "partial", "theorems": ["Verif.DC.C47_getEdge_partial", "Verif.DC.C47_buildWhereUsed_partial", "Verif.DC.C47_updateNeighbors_partial", "Verif.DC.C47_marks_violated"], "note": "Proved while the 8-bit mark does not wrap (mark + 2 < 256 before each pass); violated after wrapping: with mark 254 getEdge drops all work (witness)."},
 {"property": "C48", "status": "proved", "theorems": ["Verif.DC.C48_buildWhereUsed", "Verif.DC.C48_buildWhereUsed_terminates", "Verif.DC.C48_buildWhereUsed_defined"], "note": "All schedules; no mark overflow (C47)."},
 {"property": "C49", "status": "proved", "theorems": ["Verif.DC.C49_mergeTriangulation", "Verif.DC.C49_mergeTriangulation_exists"], "note": "For all vertex hashes (collisions included) and loop orders; the iterations of the parallel loop are atomic."},
 {"property": "C50", "status": "proved", "theorems": ["Verif.DC.C50_hull"], "note": "All inputs allowed by C49 with exact hull lists."},
 {"property": "C51", "status": "proved", "theorems": ["Verif.DC.C51_updateNeighbors", "Verif.DC.C51_updateNeighbors_terminates", "Verif.DC.C51_updateNeighbors_defined"], "note": "All schedules; that every kept simplex which lost a neighbour is processed is part of C52."},
 {"property": "C52", "status": "proved", "theorems": ["Verif.DC.C52_delaunay", "Verif.DC.C52_exact", "Verif.DC.C52_constructed", "Verif.DC.C52_returns", "Verif.DC.C52_cgal"], "note": "Any dimension, depth, splitter, interleaving; cospherical points handled by a tie-breaking rule that is proved to exist (Tie.exists). Base triangulator is a parameter satisfying BaseOk, proved for the program's own collection of CGAL cells (C52_cgal). Needs the infinite points to enclose the data (C54) and coordinates in the range where the statistics work (C41)."},
 {"property": "C53", "status": "proved", "theorems": ["Verif.DC.C53_depth", "Verif.DC.C53_leaf", "Verif.DC.C53_levels"], "note": "Nested calls incl. edge recursion; depth from the thread count for all splitters."},
 {"property": "C54", "status": "partial", "theorems": ["Verif.DC.C54_enclosed_partial", "Verif.DC.C54_origin_violated"], "note": "Violated: the box is centred at the origin. Partial theorem if coordinates are smaller than 200 times the extent."},
 {"property": "C55", "status": "proved", "theorems": ["Verif.DC.C55_blocks", "Verif.DC.C55_own"], "note": "All interleavings of fetch_add with fewer than 2^64-1 requested ids."},
 {"property": "C56", "status": "partial", "theorems": ["Verif.DC.C56_valid_partial", "Verif.DC.C56_lists_partial", "Verif.DC.C56_accepts", "Verif.DC.C56_triangulator", "Verif.DC.C56_neighbors_violated", "Verif.DC.C56_missing_violated"], "note": "valid iff same vertex sets and the neighbours of each reference simplex are found; extra neighbours of the checked triangulation are not detected and only the first missing simplex of a chunk is listed (witnesses)."},
 {"property": "C57", "status": "partial", "theorems": ["Verif.DC.C57_checks", "Verif.DC.C57_sound_partial", "Verif.DC.C57_accepts_partial", "Verif.DC.C57_triangulator_partial", "Verif.DC.inSphereOk2", "Verif.DC.inSphereOk3", "Verif.DC.C57_cospherical_violated", "Verif.DC.C57_overlap_violated", "Verif.DC.C57_neighbors_violated", "Verif.DC.C57_infinite_violated"], "note": "exact characterisation of what is checked; the empty circumsphere property follows for proper coverings (local to global); acceptance without cospherical points; false otherwise, with witnesses."},
 {"property": "C58", "status": "proved", "theorems": ["Verif.DC.C58_value", "Verif.DC.C58_order", "Verif.DC.C58_same"], "note": "the fingerprint is a function of the multiset of vertex sets."},
 {"property": "C59", "status": "proved", "theorems": ["Verif.C59_index", "Verif.C59_bounds", "Verif.C59_center"], "note": "Exact arithmetic, unbounded indices."},
 {"property": "C60", "status": "proved", "theorems": ["Verif.AABB.C60_tree", "Verif.C60_cell"], "note": "For grid cells and any initial box with low <= high; every insertion terminates, its result says whether the cell fits into the rounded root; queries equal brute force over the cells that fit. Exact arithmetic; recursion depth bounded by twice the extent of the root in cells plus two."},
 {"property": "C61", "status": "partial", "theorems": ["Verif.Checker.C61_grid_partial", "Verif.Checker.C61_accurate_partial", "Verif.Checker.C61_bounds", "Verif.Checker.C61_empty", "Verif.Checker.C61_parts", "Verif.Checker.C61_violated"], "note": "False as stated: a point on a grid plane with the largest coordinate of its part is in a cell outside of the rounded bounds, which is silently not inserted (C61_violated). Proved for all other points, also for the accurate checker; the bounds checker never misses a point."},
 {"property": "C62", "status": "proved", "theorems": ["Verif.PTree.C62_flatten", "Verif.PTree.C62_flatten_leaf", "Verif.PTree.C62_collect", "Verif.PTree.C62_toOld", "Verif.PTree.C62_toOld_null"], "note": "toOldPartitioning is defined exactly if all children have checkers."},
 {"property": "C63", "status": "partial", "theorems": ["Verif.Build.C63_simple", "Verif.Build.C63_hyperplane", "Verif.Build.C63_binary", "Verif.Build.C63_assign", "Verif.Build.C63_bipart", "Verif.Build.C63_old", "Verif.Build.C63_old_total", "Verif.Build.C63_old_splitter", "Verif.Build.C63_kway_partial", "Verif.Build.C63_kway_violated", "Verif.Build.C63_kway_rounding_violated"], "note": "Proved for all partitioners except that the k-way splitter need not return: it divides zero by zero if all points of a bucket have the same coordinate, and converts a negative number to size_t if the minimum is rounded up to float. If it returns, its leaves split the ids."},
 {"property": "C64", "status": "proved", "theorems": ["Verif.Build.C64_leaves", "Verif.Build.C64_splits"], "note": "For runs that return (C63); numbers of partitions below 2^64."},
 {"property": "C65", "status": "proved", "theorems": ["Verif.Chk.C65_plane", "Verif.Build.C65_sides"], "note": "Exact arithmetic; normals of length at most one."},
 {"property": "C66", "status": "proved", "theorems": ["Verif.Box.C66_distance", "Verif.Box.C66_inside", "Verif.Box.C66_boundary", "Verif.Box.C66_split", "Verif.Box.C66_bounding_box"], "note": "Exact arithmetic. C66_boundary adds that vecToBoxBoundary is the distance to the boundary of the box."},
 {"property": "C67", "status": "partial", "theorems": ["Verif.Samp.C67_partial", "Verif.Samp.C67_violated"], "note": "False: the code counts one point too many, so the centre is the sum of the sample points divided by their number plus one (the mean pulled towards the origin)."},
 {"property": "C68", "status": "partial", "theorems": ["Verif.Samp.C68_partial", "Verif.Samp.C68_symmetric", "Verif.Samp.C68_collect_defined", "Verif.Samp.C68_assign_defined", "Verif.Samp.C68_collect_ends", "Verif.Samp.C68_returns", "Verif.Samp.C68_sequential", "Verif.Samp.C68_reproducible_partial", "Verif.Samp.C68_reproducible_violated", "Verif.Samp.C68_race_violated", "Verif.Samp.C68_race_partial"], "note": "Every schedule of the two parallel loops returns the graph of the sample triangulation (and one exists below 2^31 edges). Violated parts: idTranslation[id] inserts infinite ids into a hash map shared by the threads (data race), and the REPRODUCIBLE sorting loop then reads nodeRecords out of bounds. Edge map insertion is atomic in this model; C108 is the same claim with the concurrent map of the code."},
 {"property": "C69", "status": "partial", "theorems": ["Verif.Samp.C69_partial", "Verif.Samp.C69_flat", "Verif.Samp.C69_weights", "Verif.Samp.C69_linear", "Verif.Samp.C69_squared_inverted_violated", "Verif.Samp.C69_inverted_violated", "Verif.Samp.C69_log_violated"], "note": "The output is in the range and monotone, but the slope is an int: the largest output is reached if and only if the slope is an integer. With the options squared-inverted and inverted the slope is 0 and all edges have weight 1; with log the largest weight is not reached. Exact arithmetic."},
 {"property": "C70", "status": "partial", "theorems": ["Verif.Gen.C70_uniform", "Verif.Gen.C70_normal_partial", "Verif.Gen.C70_normal_ends", "Verif.Gen.C70_bubble_partial", "Verif.Gen.C70_bubble_ends", "Verif.Gen.C70_bubble_violated", "Verif.Gen.C70_ellipsoid_partial", "Verif.Gen.C70_ellipsoid_violated", "Verif.Gen.C70_skewLine_partial", "Verif.Gen.C70_skewLine_violated", "Verif.Gen.C70_unbound_partial", "Verif.Gen.C70_unbound_violated", "Verif.Gen.C70_unbound_bounds_violated", "Verif.Gen.C70_malicious_partial", "Verif.Gen.C70_malicious_violated", "Verif.Gen.C70_patch_partial", "Verif.Gen.C70_patch_violated"], "note": "Holds for the uniform and normal generators, for bubbles if 2^D divides n, for lines if n is even, for ellipsoids if no draw vanishes, for patch bubbles if the factors are at most 2. Violated otherwise and for unbound and malicious bubbles with any n."},
 {"property": "C71", "status": "proved", "theorems": ["Verif.PointId.C71_makePointIds", "Verif.PointId.C71_equal"], "note": "For every hash multiplier and every container whose ids do not wrap around 2^64."},
 {"property": "C72", "status": "partial", "theorems": ["Verif.C72_set_roundtrip", "Verif.C72_map_roundtrip", "Verif.BitSet.C72_bitset_roundtrip", "Verif.BA2.C72_blocked_array_partial", "Verif.BA2.C72_blocked_array_violated"], "note": "LP_Set, LP_Map and Bit_Set round-trip. BlockedArray2::load dereferences null pointers when the target has fewer blocks than were saved (negation proved)."},
 {"property": "C73", "status": "partial", "theorems": ["Verif.Locate.C73_ends", "Verif.Locate.C73_outcome", "Verif.Locate.C73_partial", "Verif.Locate.C73_defined", "Verif.Locate.C73_valid", "Verif.Locate.C73_plane", "Verif.Locate.C73_space", "Verif.Locate.C73_nearestVertex", "Verif.Locate.C73_violated", "Verif.Locate.C73_nearest_violated"], "note": "Proved for every order of equally distant simplices: the search ends, is defined when the reachable ids exist and lie between the bounds, and returns the id stored in a reachable slot that contains the point if there is one; with exact predicates in the plane and in space. Violated for the default start simplex, which may be a removed slot whose id is invalid (C73_violated), and as a nearest-simplex search, since the start simplex is never taken as nearest (C73_nearest_violated)."},
 {"property": "C74", "status": "proved", "theorems": ["Verif.C74_fixed_set", "Verif.C74_fixed_set_full_diverges"], "note": ""},
 {"property": "C75", "status": "proved", "theorems": ["Verif.C75_set_equality"], "note": ""},
 {"property": "C76", "status": "proved", "theorems": ["Verif.C76_map_merge", "Verif.C76_map_mergeFilter"], "note": "All client programs, all hash multipliers."},
 {"property": "C77", "status": "proved", "theorems": ["Verif.BA2.C77_split_defined", "Verif.BA2.C77_split_complete"], "note": ""},
 {"property": "C78", "status": "proved", "theorems": ["Verif.DC.C78_collect", "Verif.DC.C52_cgal"], "note": "CGAL's result is a parameter constrained by CgalOk; fingerprints are not stored in the model (C32)."},
 {"property": "C79", "status": "partial", "theorems": ["Verif.Race.C79_partial", "Verif.Race.C79_violated"], "note": "False as stated: the flags of different parts share words of a std::vector<bool>, a flag can get lost and the box then misses points. Proved if no other non-empty part has its flag in the same word."},
 {"property": "C80", "status": "partial", "theorems": ["Verif.DC.C80_delaunay", "Verif.DC.C80_returns", "Verif.DC.C80_run", "Verif.DC.C80_simple", "Verif.DC.C80_binary", "Verif.DC.C80_hyperplane", "Verif.DC.C80_old", "Verif.DC.C80_kway", "Verif.DC.C80_flat", "Verif.DC.C80_null", "Verif.DC.C80_bipart_violated", "Verif.DC.C80_center", "Verif.DC.C80_nearest_violated", "Verif.DC.C80_bounds_violated"], "note": "Proved for exact arithmetic, if every node with several children has two children with finite points, the marks do not wrap (at most 42 levels, together with those of the parallel base triangulator) and the sequential base triangulator is right. The tree of the nearest sample point bipartitioner has a null checker at the root and yields no result. False for the nearest sample point and bounds distance partitioners: a part may lie inside of the hull of another one, and then the border of the outer part does not meet it. The witness has six points in the plane, all in the sample, and a partition of the sample into an inner and an outer triangle; the result keeps the outer triangle."},
 {"property": "C81", "status": "partial", "theorems": ["Verif.PTree.C81_copy", "Verif.Build.C82_simple", "Verif.Build.C82_binary", "Verif.Build.C82_hyperplane", "Verif.Build.C82_assign", "Verif.Build.C82_old", "Verif.Build.C82_kway", "Verif.Build.C81_bipart_violated"], "note": "False for NearestSamplePointAssigningSampleBipartitioner, which sets no checker at the root whenever it splits. Proved for all others (second component of the C82 theorems)."},
 {"property": "C82", "status": "proved", "theorems": ["Verif.Build.C82_simple", "Verif.Build.C82_binary", "Verif.Build.C82_hyperplane", "Verif.Build.C82_assign", "Verif.Build.C82_mkBounds", "Verif.Build.C82_bipart", "Verif.Build.C82_old", "Verif.Build.C82_kway"], "note": "Exact arithmetic. For the assigning partitioners: for makers whose checkers cover their part, which bounding boxes do; the grid checkers do with the exception of C61."},
 {"property": "C83", "status": "partial", "theorems": ["Verif.Build.C83_simple", "Verif.Build.C83_binary", "Verif.Build.C83_hyperplane", "Verif.Build.C83_old", "Verif.DC.C83_kway", "Verif.Samp.C83_center", "Verif.DC.C80_nearest_violated", "Verif.DC.C80_bounds_violated"], "note": "Exact arithmetic; for the k-way splitter any monotone rounding to float that keeps 0 and does not push bucket numbers out of the range of int. Of the partitioners that assign points to parts of a sample, it holds for the centre distance one; it is false for the nearest sample point and bounds distance ones, also with consequences for the result (C80_nearest_violated, C80_bounds_violated)."},
 {"property": "C84", "status": "partial", "theorems": ["Verif.Gen.C84_partial", "Verif.Gen.C84_single_partial", "Verif.Gen.C84_violated", "Verif.Gen.C84_unbound_violated", "Verif.Gen.C84_malicious_violated"], "note": "Holds for up to 2^23 points, violated for 2^24 + 1 points."},
 {"property": "C85", "status": "partial", "theorems": ["Verif.Gen.C85_bubbles_partial", "Verif.Gen.C85_violated", "Verif.Gen.C85_seq_fault_violated"], "note": "Holds for unbound, malicious and patch bubbles. Violated by the generators of Generator.h: std::bind copies the source, so all rounds of --seq-fault have the same points."},
 {"property": "C86", "status": "partial", "theorems": ["Verif.Gen.C86_partial", "Verif.Gen.C86_violated"], "note": "Holds for different centres inside the box, violated by the malicious bubbles on the lower sides of the box."},
 {"property": "C87", "status": "partial", "theorems": ["Verif.Load.C87_partial", "Verif.Load.C87_violated", "Verif.Load.C87_empty_violated", "Verif.Load.C87_short_violated"], "note": "The box contains the points; it is tight only if every dimension has a coordinate that is not below the smallest positive number."},
 {"property": "C88", "status": "proved", "theorems": ["Verif.FP.C88_rounding", "Verif.FP.C88_sum", "Verif.FP.C88_fast_sum", "Verif.FP.C88_split", "Verif.FP.C88_product"], "note": "Exponents are unbounded in the model: overflow and underflow are excluded. C88_rounding shows that the rounding function of the model is rounding to nearest, ties to even."},
 {"property": "C89", "status": "proved", "theorems": ["Verif.FP.C89_constants"], "note": "p = 24 and p = 53 are instances."},
 {"property": "C90", "status": "partial", "theorems": ["Verif.FP.C90_sum", "Verif.FP.C90_scale", "Verif.FP.C90_diff", "Verif.FP.C90_strong_violated"], "note": "Exactness and sign are proved for everything computed by the two functions. The last sentence, which is what the comments in the code say, is false: witnesses with double precision. The proofs use a weaker rule that is kept. No overflow or underflow."},
 {"property": "C91", "status": "proved", "theorems": ["Verif.FP.C91_orient2d"], "note": "No overflow or underflow; rounding to nearest, ties to even."},
 {"property": "C92", "status": "partial", "theorems": ["Verif.FP.C92_array", "Verif.FP.C92_full_violated", "Verif.FP.C92_orient2d_violated", "Verif.FP.C92_orient2d_partial"], "note": "False if an expansion fills its array, which is the case for every call with a four component expansion: the loop loads the component after the last one. True if both arrays are longer. Without the access beyond the end the results are those of the model on lists."},
 {"property": "C93", "status": "proved", "theorems": ["Verif.FP.C93_insphere2d", "Verif.FP.C93_inSphere2d"], "note": "Unbounded exponents: overflow and underflow are outside the model. The finding C92 (reads one component past the end of full arrays) applies to the calls of fast_expansion_sum_zeroelim here too; values read there are not used."},
 {"property": "C94", "status": "proved", "theorems": ["Verif.FP.C94_orient3d"], "note": "Floating point numbers have p >= 11 digits and unbounded exponents."},
 {"property": "C95", "status": "proved", "theorems": ["Verif.FP.C95_insphere3d", "Verif.FP.C95_inSphere3d"], "note": "Floating point numbers have p >= 11 digits and unbounded exponents."},
 {"property": "C96", "status": "proved", "theorems": ["Verif.C96_orient2", "Verif.C96_insphere2", "Verif.C96_orient3", "Verif.C96_insphere3"], "note": "Write accesses; the read access one past the end of the arguments of fast_expansion_sum_zeroelim is C92."},
 {"property": "C97", "status": "proved", "theorems": ["Verif.C97_constants_double", "Verif.C97_constants_float", "Verif.C97_orient2_double", "Verif.C97_orient2_float", "Verif.C97_insphere2_double", "Verif.C97_inSphere2_double", "Verif.C97_orient3_double", "Verif.C97_insphere3_double", "Verif.C97_inSphere3_double", "Verif.C97_orient2_violated"], "note": "The ranges of coordinates are part of the statement. The tests other than orient in the plane are not covered for float. C97_orient2_violated: without the restriction of the range the answer can be wrong (products underflow)."},
 {"property": "C98", "status": "partial", "theorems": ["Verif.Run.C98_roundtrip_partial", "Verif.Run.C98_equal_partial", "Verif.Run.C98_equality", "Verif.Run.C98_empty_value_violated", "Verif.Run.C98_trailing_space_violated", "Verif.Run.C98_started_violated", "Verif.Run.C98_symmetric_violated", "Verif.Run.C98_no_separator_violated", "Verif.Run.C98_empty_separator_violated", "Verif.Run.C98_sorted", "Verif.Run.C98_map"], "note": "The round trip holds for names without colon and space and values that are not empty, do not begin or end with a space and do not contain three spaces in a row. The conditions on values are needed (witnesses); operator== is not symmetric, and is false for a run that was started; a text without the inner separator is accepted with a wrong value; with an empty separator the constructor does not return. The traits are a map sorted by name: addTrait, updateTrait and getTrait are stated for all traits."},
 {"property": "C99", "status": "partial", "theorems": ["Verif.Counter.C99_never_more_partial", "Verif.Counter.C99_apart_partial", "Verif.Counter.C99_lost_violated", "Verif.Counter.C99_reset_violated"], "note": "A counter never exceeds the sum, and equals it (modulo 2^64) if increments of the same counter do not overlap. In general the property is false: the addition is a plain load and store; one slow thread can discard any number of increments."}
]}
