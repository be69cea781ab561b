{
 "claims": [
  {
   "property": "C01",
   "status": "proved",
   "theorems": [
    "DuckLisp.Trie.C01_trie_is_finite_map",
    "DuckLisp.Trie.C01_insert_other"
   ],
   "note": "All insert histories and keys; allocation assumed to succeed."
  },
  {
   "property": "C02",
   "status": "partial",
   "theorems": [
    "DuckLisp.DynArray.C02_copy_elements",
    "DuckLisp.DynArray.C02_copy_is_shared",
    "DuckLisp.DynArray.C02_copy_released_twice",
    "DuckLisp.DynArray.C02_copy_no_memory",
    "DuckLisp.DynArray.C02_copy_to_itself",
    "DuckLisp.C02.C02_array_is_list_partial",
    "DuckLisp.C02.C02_failing_call_partial",
    "DuckLisp.C02.C02_failed_allocation_loses_contents"
   ],
   "note": "All histories, both strategies, arbitrary fresh memory, errors for underflow and range. The clause 'contents survive a failed allocation' is false of the code; the negation is proved (C02_failed_allocation_loses_contents). dl_array_copy: the copy has the elements (C02_copy_elements), but it shares the memory of the array copied, leaks its own and leads to a double release (C02_copy_is_shared, C02_copy_released_twice)."
  },
  {
   "property": "C03",
   "status": "proved",
   "theorems": [
    "DuckLisp.Sort.C03_heapsort_sorts",
    "DuckLisp.Sort.C03_quicksort_lomuto_sorts",
    "DuckLisp.Sort.C03_quicksort_hoare_sorts",
    "DuckLisp.Sort.C03_heapsort_empty_ub"
   ],
   "note": "All three sorts, all total preorders, all ranges; heapsort of an empty range is undefined behaviour (proved separately)."
  },
  {
   "property": "C04",
   "status": "partial",
   "theorems": [
    "DuckLisp.DlString.C04_print_denotes",
    "DuckLisp.DlString.C04_roundtrip_partial",
    "DuckLisp.DlString.C04_roundtrip_min_ub",
    "DuckLisp.DlString.C04_size_roundtrip",
    "DuckLisp.DlString.C04_byte_roundtrip"
   ],
   "note": "Every integer except INT64_MIN round-trips; parsing the text of INT64_MIN overflows in C (C04_roundtrip_min_ub)."
  },
  {
   "property": "C05",
   "status": "proved",
   "theorems": [
    "DuckLisp.DlString.C05_accepts_numerals",
    "DuckLisp.DlString.C05_accepts_only_numerals"
   ],
   "note": "Acceptance and rejection exact; values are those inside the 64-bit range (overflow is an explicit outcome)."
  },
  {
   "property": "C06",
   "status": "proved",
   "theorems": [
    "DuckLisp.Mem.C06_memcopy_overlap_safe",
    "DuckLisp.Mem.C06_memcopy_noOverlap",
    "DuckLisp.Mem.C06_noOverlap_needs_disjoint",
    "DuckLisp.Mem.C06_memclear",
    "DuckLisp.Mem.C06_strlen"
   ],
   "note": "All overlaps, lengths and memory contents."
  },
  {
   "property": "C07",
   "status": "proved",
   "theorems": [
    "DuckLisp.DlString.C07_compare_decides",
    "DuckLisp.DlString.C07_compare_partial_decides",
    "DuckLisp.DlString.C07_bool_roundtrip",
    "DuckLisp.DlString.C07_bool_accepts_only"
   ],
   "note": "All byte strings."
  },
  {
   "property": "C08",
   "status": "partial",
   "theorems": [
    "DuckLisp.Props.C08_allocations_partial",
    "DuckLisp.Props.C08_tiling_partial",
    "DuckLisp.Props.C08_coalesced_partial",
    "DuckLisp.Props.C08_release_partial",
    "DuckLisp.Props.C08_wrong_pointers_partial",
    "DuckLisp.Props.C08_exhausted_partial",
    "DuckLisp.Props.C08_outcomes_partial",
    "DuckLisp.Props.C08_success_keeps_the_guard",
    "DuckLisp.Props.C08_resize_partial",
    "DuckLisp.Props.C08_table_is_handed_out",
    "DuckLisp.Props.C08_huge_request_succeeds",
    "DuckLisp.Props.C08_releasing_the_last_block",
    "DuckLisp.Props.C08_next_fit_hands_out_stale_blocks",
    "DuckLisp.Props.C08_failed_resize_loses_the_block",
    "DuckLisp.Props.C08_best_and_worst_fit_are_first_fit",
    "DuckLisp.Props.C08_usage_partial",
    "DuckLisp.Props.C08_usage_counts_junk"
   ],
   "note": "All histories of allocating, releasing and resizing, for every memory size, for the strategies first, best and worst. Not true, and so excluded: the strategy next, sizes near 2^64, calls after a failed allocation that left the table's block free or after a failed resize; releasing the last block reads before the table. The number of bytes reported as in use is exact up to what uninitialised entries claim (theorems without the suffix _partial are the counterexamples)."
  },
  {
   "property": "C09",
   "status": "partial",
   "theorems": [
    "DuckLisp.Reader.C09_reads",
    "DuckLisp.Reader.C09_read",
    "DuckLisp.Reader.C09_read_plain",
    "DuckLisp.Reader.C09_print_read_partial",
    "DuckLisp.Reader.C09_unambiguous",
    "DuckLisp.Reader.C09_true_inside_a_name",
    "DuckLisp.Reader.C09_point_hangs",
    "DuckLisp.Reader.C09_unmatched_parenthesis",
    "DuckLisp.Reader.C09_number_at_the_end",
    "DuckLisp.Reader.C09_literal_at_the_end"
   ],
   "note": "Reader model covers all eight readers. Every text that denotes a tree (specification Written, independent of the reader) is read as exactly that tree, consuming exactly that text; canonical printing gives such a text. Missing: false of the code for names beginning with true/false, for text ending in a number or in an unclosed parenthesis (witnesses proved); floating point values are a parameter."
  },
  {
   "property": "C10",
   "status": "partial",
   "theorems": [
    "DuckLisp.Reader.C10_skipped",
    "DuckLisp.Reader.C10_layout_partial",
    "DuckLisp.Reader.C10_blank_between_parentheses",
    "DuckLisp.Reader.C10_blank_at_the_end"
   ],
   "note": "Separators before any form are skipped for arbitrary following text; any layout of the elements of an expression reads the same. False of the code between the parentheses of an empty expression and at the end of the text (witnesses proved)."
  },
  {
   "property": "C11",
   "status": "proved",
   "theorems": [
    "DuckLisp.Reader.C11_counter_restored",
    "DuckLisp.Reader.C11_read_ends_at_zero",
    "DuckLisp.Reader.C11_too_deep",
    "DuckLisp.Reader.C11_only_when_deep",
    "DuckLisp.Reader.C11_bounded_recursion"
   ],
   "note": "Counter restored on every exit for every text (parser actions of the host assumed to restore it too); text nested to the limit or deeper is refused with bufferOverflow; text nested less deeply is read (C09_read); for arbitrary text bufferOverflow needs as many opening parentheses as the limit; recursion never exceeds the limit."
  },
  {
   "property": "C12",
   "status": "partial",
   "theorems": [
    "DuckLisp.Reader.C12_denotes_partial",
    "DuckLisp.Reader.C12_every_string",
    "DuckLisp.Reader.C12_only_literals",
    "DuckLisp.Reader.C12_functional",
    "DuckLisp.Reader.C12_last_in_text"
   ],
   "note": "Both directions: a literal is read as the bytes it stands for, and whatever is read at a quote was such a literal; every byte string can be written. False of the code when the literal is the last thing in the text (C12_last_in_text)."
  },
  {
   "property": "C13",
   "status": "partial",
   "theorems": [
    "DuckLisp.Tables.C13_ids_partial",
    "DuckLisp.Tables.C13_injective_partial",
    "DuckLisp.Tables.C13_stable_partial",
    "DuckLisp.Tables.C13_dense_partial",
    "DuckLisp.Tables.C13_out_of_memory"
   ],
   "note": "All histories of creations and lookups, over the verified trie. Missing because false of the code: a creation that fails for lack of memory leaves its id in the trie, and the next name gets the same id (C13_out_of_memory)."
  },
  {
   "property": "C14",
   "status": "proved",
   "theorems": [
    "DuckLisp.Tables.C14_distinct",
    "DuckLisp.Tables.C14_calls_differ",
    "DuckLisp.Tables.C14_not_in_source"
   ],
   "note": "Up to 2^64 calls from any counter; for every source text no identifier or callback in the tree read from it has a generated name (parser actions of the host excluded)."
  },
  {
   "property": "C15",
   "status": "proved",
   "theorems": [
    "DuckLisp.Compile.C15_lookup",
    "DuckLisp.Compile.C15_closed_scope",
    "DuckLisp.Compile.C15_declared"
   ],
   "note": "Model/Compile/Scope.lean follows the section 'Scope' of duckLisp.c and the functions that declare names. Proved for every history of opening and closing scopes, declarations of variables, functions, macros and labels, captures, and turns between run time and compile time: the lookup gives the newest declaration in the nearest scope of the current function and -1 otherwise; a closed scope leaves no trace in any lookup. Memory allocation is assumed to succeed."
  },
  {
   "property": "C16",
   "status": "proved",
   "theorems": [
    "DuckLisp.Compile.C16_capture",
    "DuckLisp.Compile.C16_kept",
    "DuckLisp.Compile.C16_no_duplicates",
    "DuckLisp.Compile.C16_recorded"
   ],
   "note": "For every history (so for every stack of scopes and all captures recorded before): the position returned leads, through the chain of capture lists, to exactly the slot of the innermost binding outside the function; nothing is found or changed if there is none; earlier captures keep their places and meanings; no list has duplicates; the declaring scope notes the captured slot. Memory allocation is assumed to succeed."
  },
  {
   "property": "C17",
   "status": "partial",
   "theorems": [
    "DuckLisp.Reader.C17_reader",
    "DuckLisp.Reader.C17_syntax_report",
    "DuckLisp.Tables.C17_reports_partial",
    "DuckLisp.Tables.C17_joined",
    "DuckLisp.Tables.C17_nothing_lost",
    "DuckLisp.Tables.C17_out_of_memory"
   ],
   "note": "All histories of run-time reports (compiler and machine use the same code, modelled on the verified dynamic array), and the reader's reports. Missing because false of the code: a report that fails for lack of memory loses the log (C17_out_of_memory)."
  },
  {
   "property": "C18",
   "status": "partial",
   "theorems": [
    "DuckLisp.Props.C18_depth",
    "DuckLisp.Props.C18_value_partial",
    "DuckLisp.Props.C18_operators",
    "DuckLisp.Props.C18_vector",
    "DuckLisp.Props.C18_nop",
    "DuckLisp.Props.C18_endless_branch"
   ],
   "note": "C18_depth: for every form of the core language, compiled in any state that a compiler can be in in the midst of a core program, every instruction has one height, whichever path control took; the code ends at the recorded height, never goes below the start, reads only values that are there and changes nothing below the start but assigned variables; in whatever program the code stands, for all stacks, all paths and all prefixes of runs. C18_value_partial: the value is where the compiler says and the variables have the values they have in the evaluator's semantics. C18_operators, C18_vector: which instruction with which operands. Missing: the value part for what the evaluator does not describe (vectors, composites). The property is false of the code for (nop) and for a while with a constant true condition, see C18_nop and C18_endless_branch; these are not forms in the sense of Spec/Core.lean."
  },
  {
   "property": "C19",
   "status": "partial",
   "theorems": [
    "DuckLisp.Props.C19_global_not_set",
    "DuckLisp.Props.C19_assembles",
    "DuckLisp.Props.C19_evaluation_partial",
    "DuckLisp.Props.C19_memory_partial",
    "DuckLisp.Props.C19_jumps",
    "DuckLisp.Props.C19_small_programs_fit",
    "DuckLisp.Props.C19_session_partial"
   ],
   "note": "For every program of the core language (constants, variables, globals, operators on numbers, pairs, lists and texts, if/when/unless/while, var, noscope, setq, global, blocks, quote, list) and of its extension by functions (lambda with fixed parameters and with &rest, whose body mentions only its own variables and globals, funcall, apply, calls of globals by name, recursion) that the compiler model accepts and the assembler model turns into bytes, executing the bytes in any machine in order gives the value, the error, the undefined step or the endless run that the evaluator (Spec/Eval.lean) gives; all optimisation settings. Needs: the jumps land (proved for 4-byte addresses below 2 GiB and for code of at most 126 bytes, false in general, C24), operands fit the format (proved for programs that take room for at most 255 values, with 32-bit literals), no string or symbol literal is dropped right after it is made. C19_session_partial: whole sessions of programs, compiled by one compiler and run by one machine: what one program sets is what later ones read. Globals are set only if the number of the name is beyond the places on the stack the program uses (NumbersFrom), because of C19_global_not_set. Not described by the evaluator: functions that capture variables, functions of earlier programs, defun, apply with more elements than the function takes (the machine drops them, C39), macros, vectors, composites, globals that were never set, empty strings as computed conditions, equality of two lists, concatenation of parts of texts (the machine gets it wrong, C32), make-string of lists of other things than integers, the names and numbers of symbols, make-type and types as conditions. Programs that make objects: or memory runs out. C19_global_not_set: a global whose number equals the place of its value is never set."
  },
  {
   "property": "C20",
   "status": "partial",
   "theorems": [
    "DuckLisp.Props.C20_quote_partial"
   ],
   "note": "All quotable trees of any size and depth, all options and machines in order, or memory runs out. Missing: texts of 65535 bytes and more (the compiler cuts them after a warning) and integers of more than 32 bits (C22)."
  },
  {
   "property": "C21",
   "status": "partial",
   "theorems": [
    "DuckLisp.Props.C21_operands_partial",
    "DuckLisp.Props.C21_defects"
   ],
   "note": "All instructions and all operands of up to 32 bits, except the operands of six instructions for which the code has a defect; for every one of those the failure is proved (C21_defects). Instructions that name a label are the subject of C24."
  },
  {
   "property": "C22",
   "status": "partial",
   "theorems": [
    "DuckLisp.Props.C22_integer_literals_partial",
    "DuckLisp.Props.C22_large_literals_are_wrong"
   ],
   "note": "All literals in [-2^31, 2^31) and all machine states. Every literal outside that range is pushed as another integer (proved)."
  },
  {
   "property": "C23",
   "status": "partial",
   "theorems": [
    "DuckLisp.Props.C23_block_partial",
    "DuckLisp.Props.C23_program_partial",
    "DuckLisp.Props.C23_string_literal_partial",
    "DuckLisp.Props.C23_symbol_partial",
    "DuckLisp.Props.C23_type_partial",
    "DuckLisp.Props.C23_pop_nothing"
   ],
   "note": "For every block of pushes and pops the rewritten block ends in the same state or the same error (C23_block_partial), and every run of a whole program, with any other instructions and host functions, is a run of the rewritten one (C23_program_partial). Dropped string literals, symbols and types leave only garbage, or an unused type number (C23_string_literal_partial, C23_symbol_partial, C23_type_partial). Missing: dropped closures, and runs of whole programs modulo garbage. C23_pop_nothing: the rewriting breaks an instruction to pop nothing, which the emitters never produce."
  },
  {
   "property": "C24",
   "status": "partial",
   "theorems": [
    "DuckLisp.Props.C24_lands_iff_in_reach_partial",
    "DuckLisp.Props.C24_fixed_size",
    "DuckLisp.Props.C24_short_code_partial",
    "DuckLisp.Props.C24_size_for_distance",
    "DuckLisp.Props.C24_assembles",
    "DuckLisp.Props.C24_execution",
    "DuckLisp.Props.C24_jump",
    "DuckLisp.Props.C24_branch",
    "DuckLisp.Props.C24_call",
    "DuckLisp.Props.C24_closure",
    "DuckLisp.Props.C24_jump_misses_its_label"
   ],
   "note": "With NO_OPTIMIZE_JUMPS: every jump, branch, call and closure of a program below 2 GiB lands on its label (C24_fixed_size). By default: lands exactly when the distance fits the address size chosen, always for code of at most 126 bytes; the size chosen can be too small, C24_jump_misses_its_label is a 260-byte counterexample. C24_execution/jump/branch/call/closure connect this with the machine; C24_assembles: every well-formed program is assembled."
  },
  {
   "property": "C25",
   "status": "partial",
   "theorems": [
    "DuckLisp.Props.C25_running_function_loses_captures",
    "DuckLisp.VM.C25_collection_keeps_reachable_partial",
    "DuckLisp.VM.C25_collection_is_safe"
   ],
   "note": "All heaps, cyclic structures and roots. Missing: storage held only by a call in progress, and vectors under construction; the code does lose those (C25_running_function_loses_captures, C31_vector_loses_elements)."
  },
  {
   "property": "C26",
   "status": "proved",
   "theorems": [
    "DuckLisp.VM.C26_collection_reclaims_unreachable",
    "DuckLisp.VM.C26_freed_once",
    "DuckLisp.VM.C26_cells_always_accounted_for"
   ],
   "note": "All heaps and all histories of allocation, collection and program steps."
  },
  {
   "property": "C27",
   "status": "proved",
   "theorems": [
    "DuckLisp.VM.C27_allocation_takes_unused_cell",
    "DuckLisp.VM.C27_allocation_fails_only_when_full",
    "DuckLisp.VM.C27_allocation_is_safe"
   ],
   "note": "All heaps; malloc itself is assumed to succeed, so the bounded object heap is what runs out."
  },
  {
   "property": "C28",
   "status": "proved",
   "theorems": [
    "DuckLisp.VM.C28_cycle_check_is_exact",
    "DuckLisp.VM.C28_length_of_any_list"
   ],
   "note": "All heaps and all lists whose cells exist; the check and `length` are shown to terminate."
  },
  {
   "property": "C29",
   "status": "partial",
   "theorems": [
    "DuckLisp.VM.C29_last_stored",
    "DuckLisp.VM.C29_last_linked",
    "DuckLisp.VM.C29_stays_unset",
    "DuckLisp.VM.C29_run_is_history",
    "DuckLisp.VM.C29_set_global",
    "DuckLisp.VM.C29_link_function",
    "DuckLisp.VM.C29_fresh_unset",
    "DuckLisp.VM.C29_host_reads"
   ],
   "note": "Stores by instructions and links by the host: reading gives the last value stored, after any history of instructions of any programs, host calls, host functions, collections and failures in which nothing is stored under the key (C29_last_stored, C29_last_linked, C29_stays_unset; C29_run_is_history turns runs of bytecode into such histories). Partial only because the host's own duckVM_setGlobal does not work: it is undefined behaviour (proved, C42_set_global_undefined). Histories pass through machines in order (see C47) and leave out duckVM_call of a closure, which puts a frame outside the heap on the stack."
  },
  {
   "property": "C30",
   "status": "proved",
   "theorems": [
    "DuckLisp.VM.C30_cons",
    "DuckLisp.VM.C30_car",
    "DuckLisp.VM.C30_cdr",
    "DuckLisp.VM.C30_nil",
    "DuckLisp.VM.C30_lists_are_pairs",
    "DuckLisp.VM.C30_set_car",
    "DuckLisp.VM.C30_set_cdr",
    "DuckLisp.VM.C30_set_nil"
   ],
   "note": "All machines in order and all operands, including failing allocations; aliasing is covered because the change is stated of the pair itself."
  },
  {
   "property": "C31",
   "status": "partial",
   "theorems": [
    "DuckLisp.VM.C31_make_vector",
    "DuckLisp.VM.C31_make_vector_negative",
    "DuckLisp.VM.C31_vector_partial",
    "DuckLisp.VM.C31_vectors_have_elements",
    "DuckLisp.VM.C31_get",
    "DuckLisp.VM.C31_get_negative",
    "DuckLisp.VM.C31_set",
    "DuckLisp.VM.C31_set_car",
    "DuckLisp.VM.C31_cdr",
    "DuckLisp.VM.C31_car",
    "DuckLisp.VM.C31_length",
    "DuckLisp.VM.C31_empty",
    "DuckLisp.VM.C31_empty_access_undefined",
    "DuckLisp.VM.C31_set_negative_index",
    "DuckLisp.VM.C31_vector_loses_elements"
   ],
   "note": "get/set/cdr/car/length/make-vector for all machines in order. `vector` is proved when no collection is needed while it fills the vector; otherwise the code loses elements (proved, C31_vector_loses_elements). Also proved: negative index on a slice writes before it, access to the empty slice is undefined behaviour."
  },
  {
   "property": "C32",
   "status": "partial",
   "theorems": [
    "DuckLisp.VM.C32_length",
    "DuckLisp.VM.C32_car",
    "DuckLisp.VM.C32_cdr",
    "DuckLisp.VM.C32_get",
    "DuckLisp.VM.C32_substring",
    "DuckLisp.VM.C32_literal",
    "DuckLisp.VM.C32_concatenate_partial",
    "DuckLisp.VM.C32_symbol_string",
    "DuckLisp.VM.C32_symbol_id",
    "DuckLisp.VM.C32_make_string_of_vector",
    "DuckLisp.VM.C32_make_string_of_list",
    "DuckLisp.VM.C32_concatenate_of_slices",
    "DuckLisp.VM.C32_concatenate_reads_beyond_end",
    "DuckLisp.VM.C32_concatenate_of_empty",
    "DuckLisp.VM.C32_symbol_string_of_stripped"
   ],
   "note": "All strings on machines in order. concatenate is right only for strings that start at the start of their storage; the three violations are proved."
  },
  {
   "property": "C33",
   "status": "partial",
   "theorems": [
    "DuckLisp.VM.C33_integer_arithmetic_is_exact_partial",
    "DuckLisp.VM.C33_mixing_promotes_to_float",
    "DuckLisp.VM.C33_non_numbers_are_rejected",
    "DuckLisp.VM.C33_overflow_is_undefined",
    "DuckLisp.VM.C33_division_by_zero_is_undefined",
    "DuckLisp.VM.C33_boolean_arithmetic_wraps"
   ],
   "note": "Exact for all operands whose result fits. Overflow and division by zero are undefined behaviour in the code (proved); arithmetic on two booleans wraps in 8 bits (proved). Float arithmetic itself is abstract."
  },
  {
   "property": "C34",
   "status": "proved",
   "theorems": [
    "DuckLisp.VM.C34_integers_are_ordered",
    "DuckLisp.VM.C34_less_and_greater_are_converse",
    "DuckLisp.VM.C34_equal_decides_sameness",
    "DuckLisp.VM.C34_equal_is_an_equivalence",
    "DuckLisp.VM.C34_floats_are_ordered",
    "DuckLisp.VM.C34_nan_compares_false",
    "DuckLisp.VM.C34_infinities",
    "DuckLisp.VM.C34_mixed_floats",
    "DuckLisp.VM.C34_truth_values_count_as_numbers",
    "DuckLisp.VM.C34_only_numbers_are_ordered",
    "DuckLisp.VM.C34_equal_asks_identity",
    "DuckLisp.VM.C34_equal_across_kinds"
   ],
   "note": "All operands and sound states; converse law for all operands of any kind. Floats against the numbers IEEE 754 gives their bit patterns (Spec/Double.lean); conversion of an integer to a float is left abstract. As the code has it, = refuses functions and instances of user types as its first operand but answers false if they are the second (C34_equal_across_kinds)."
  },
  {
   "property": "C35",
   "status": "partial",
   "theorems": [
    "DuckLisp.VM.C35_branching_partial",
    "DuckLisp.VM.C35_not_inverts_partial",
    "DuckLisp.VM.C35_null",
    "DuckLisp.VM.C35_empty_string_is_true",
    "DuckLisp.VM.C35_types_and_composites_are_false",
    "DuckLisp.VM.C35_not_rejects",
    "DuckLisp.VM.C35_not_of_exhausted_slice"
   ],
   "note": "Holds for the kinds named in the theorems. Counterexamples proved: empty string is true, types and composites are false, `not` rejects symbols/strings/functions and is wrong on exhausted slices."
  },
  {
   "property": "C36",
   "status": "proved",
   "theorems": [
    "DuckLisp.VM.C36_types_are_unique",
    "DuckLisp.VM.C36_type_of_composite",
    "DuckLisp.VM.C36_type_of_builtin"
   ],
   "note": "All histories of instructions, failing ones included; host callbacks assumed not to lower the type counter; wraparound after 2^64 types not modelled."
  },
  {
   "property": "C37",
   "status": "proved",
   "theorems": [
    "DuckLisp.VM.C37_make_instance",
    "DuckLisp.VM.C37_no_builtin_instance",
    "DuckLisp.VM.C37_parts",
    "DuckLisp.VM.C37_set_value",
    "DuckLisp.VM.C37_set_function"
   ],
   "note": "All machines in order and all operands, including failing allocations."
  },
  {
   "property": "C38",
   "status": "partial",
   "theorems": [
    "DuckLisp.VM.C38_functions_have_code",
    "DuckLisp.VM.C38_fixed",
    "DuckLisp.VM.C38_wrong_count",
    "DuckLisp.VM.C38_not_a_function",
    "DuckLisp.VM.C38_host_function",
    "DuckLisp.VM.C38_variadic",
    "DuckLisp.VM.C38_return",
    "DuckLisp.VM.C38_call_returns",
    "DuckLisp.VM.C38_host_call",
    "DuckLisp.VM.C38_by_key",
    "DuckLisp.VM.C38_by_key_unset",
    "DuckLisp.VM.C38_by_key_not_checked",
    "DuckLisp.VM.C38_by_key_or_value",
    "DuckLisp.VM.C38_run_ends"
   ],
   "note": "All arities, argument counts, callees (closures, host functions, chains of composites, anything else) and stack contents, for the call instruction, for calls of host functions by their key and for calls by the host. A call by key does not check that the value under the key is a host function (C38_by_key_not_checked). Surplus arguments are collected in order, also when a collection happens on the way, or out of memory is reported. The function value stays below the arguments, and the result takes the place of the arguments. That compiled bodies leave the stack as C38_call_returns asks is C51_call and C51_compiled_partial for the language covered there; missing: compiled bodies with captured variables."
  },
  {
   "property": "C39",
   "status": "partial",
   "theorems": [
    "DuckLisp.VM.C39_fixed_partial",
    "DuckLisp.VM.C39_wrong_count_partial",
    "DuckLisp.VM.C39_surplus_is_dropped",
    "DuckLisp.VM.C39_variadic",
    "DuckLisp.VM.C39_only_closures",
    "DuckLisp.VM.C39_not_a_list"
   ],
   "note": "All closures, argument counts and lists; for compiled programs that apply functions, C19_memory_partial. Missing because false of the code: surplus list elements are dropped silently when the function has no rest parameter (C39_surplus_is_dropped, for all such calls, with the direct call being an error), and functions of the host can be called but not applied (C39_only_closures)."
  },
  {
   "property": "C40",
   "status": "partial",
   "theorems": [
    "DuckLisp.Props.C40_read",
    "DuckLisp.Props.C40_read_local",
    "DuckLisp.Props.C40_write",
    "DuckLisp.Props.C40_write_local",
    "DuckLisp.Props.C40_capture",
    "DuckLisp.Props.C40_release",
    "DuckLisp.Props.C40_schedule_partial",
    "DuckLisp.Props.C40_last_assigned_partial"
   ],
   "note": "Captures, reads, assignments and the end of a scope are proved for all machines in order, all operands and chains of captures, failing allocations included. The schedule theorems (same variables stay the same, different ones different, each has the value assigned last) cover all interleavings of all data instructions (pairs, vectors, texts, symbols, instances, globals, arithmetic, with the collections they cause; the faults of C47 excluded), reads, assignments, new closures, jumps, branches, calls of closures with fixed and with surplus arguments, applications to proper lists, returns and scope ends; missing there: host calls and compile-time requests. The running closure must be reachable when it makes a closure: C25_running_function_loses_captures is a program where it is not and its variables are lost."
  },
  {
   "property": "C41",
   "status": "partial",
   "theorems": [
    "DuckLisp.Props.C41_instruction",
    "DuckLisp.Props.C41_failed_instruction_partial",
    "DuckLisp.Props.C41_host_call",
    "DuckLisp.Props.C41_host_call_error",
    "DuckLisp.Props.C41_lockstep_partial",
    "DuckLisp.Props.C41_failed_vector_breaks_lockstep",
    "DuckLisp.Props.C41_pending_calls"
   ],
   "note": "All programs, host calls and histories, failed ones included. False after a failed vector, make-vector or push-closure (proved, C41_failed_vector_breaks_lockstep); the theorem covers every other instruction and call."
  },
  {
   "property": "C42",
   "status": "partial",
   "theorems": [
    "DuckLisp.Props.C42_push_slot",
    "DuckLisp.Props.C42_copy_from_top",
    "DuckLisp.Props.C42_push_pop",
    "DuckLisp.Props.C42_pop_several",
    "DuckLisp.Props.C42_pop_all",
    "DuckLisp.Props.C42_nil",
    "DuckLisp.Props.C42_integer",
    "DuckLisp.Props.C42_unsigned_integer",
    "DuckLisp.Props.C42_boolean",
    "DuckLisp.Props.C42_float",
    "DuckLisp.Props.C42_set",
    "DuckLisp.Props.C42_type_and_symbol_number",
    "DuckLisp.Props.C42_new_type",
    "DuckLisp.Props.C42_copy_string",
    "DuckLisp.Props.C42_string",
    "DuckLisp.Props.C42_symbol",
    "DuckLisp.Props.C42_stripped_symbol_length_not_set",
    "DuckLisp.Props.C42_wrong_kind",
    "DuckLisp.Props.C42_empty_stack",
    "DuckLisp.Props.C42_list_tests",
    "DuckLisp.Props.C42_set_global_undefined"
   ],
   "note": "All values of each kind and all machines with something on the stack. The text length of a stripped symbol is never set, and setting an undefined global is undefined behaviour (both proved)."
  },
  {
   "property": "C43",
   "status": "partial",
   "theorems": [
    "DuckLisp.VM.C43_list_partial",
    "DuckLisp.VM.C43_vector_element",
    "DuckLisp.VM.C43_vector_first_partial",
    "DuckLisp.VM.C43_vector_rest_partial",
    "DuckLisp.VM.C43_length_of_list",
    "DuckLisp.VM.C43_length_of_vector",
    "DuckLisp.VM.C43_length_of_string",
    "DuckLisp.VM.C43_new_pair",
    "DuckLisp.VM.C43_is_empty",
    "DuckLisp.VM.C43_is_empty_vector",
    "DuckLisp.VM.C43_string_partial",
    "DuckLisp.VM.C43_set_first_of_list",
    "DuckLisp.VM.C43_set_rest_of_list_partial",
    "DuckLisp.VM.C43_set_element_of_vector",
    "DuckLisp.VM.C43_first_of_empty_or_wrong_kind",
    "DuckLisp.VM.C43_rest_of_last_element",
    "DuckLisp.VM.C43_element_of_list",
    "DuckLisp.VM.C43_element_beyond_list",
    "DuckLisp.VM.C43_set_element_of_list",
    "DuckLisp.VM.C43_set_element_of_wrong_kind",
    "DuckLisp.VM.C43_first_of_substring",
    "DuckLisp.VM.C43_element_beyond_string",
    "DuckLisp.VM.C43_set_rest_makes_improper_list",
    "DuckLisp.VM.C43_new_vector_has_no_elements"
   ],
   "note": "Agreement proved for first/rest/length on lists, first of non-empty vectors, rest of vectors with two or more elements, elements of vectors, length of everything, strings that start at their storage. The ten ways in which the host functions disagree are proved as separate theorems."
  },
  {
   "property": "C44",
   "status": "partial",
   "theorems": [
    "DuckLisp.Props.C44_soft_reset_partial",
    "DuckLisp.Props.C44_reset_after_history_partial",
    "DuckLisp.Props.C44_reset_after_error_partial",
    "DuckLisp.Props.C44_reset_releases_heap",
    "DuckLisp.Props.C44_no_code_running",
    "DuckLisp.Props.C44_out_of_step_can_not_be_reset",
    "DuckLisp.Props.C44_failed_program_can_not_be_reset"
   ],
   "note": "After every history that leaves the two stacks in step, and after errors of any instruction that keeps them in step. A program that fails while building a vector leaves a machine that can not be reset (proved)."
  },
  {
   "property": "C45",
   "status": "partial",
   "theorems": [
    "DuckLisp.Props.C45_accepted_partial",
    "DuckLisp.Props.C45_states",
    "DuckLisp.Props.C45_loaded",
    "DuckLisp.Props.C45_whole",
    "DuckLisp.Props.C45_boundaries",
    "DuckLisp.Props.C45_assembled_partial",
    "DuckLisp.Props.C45_compiled_partial",
    "DuckLisp.Props.C45_one_program",
    "DuckLisp.Props.C45_execute",
    "DuckLisp.Props.C45_collected_while_running"
   ],
   "note": "C45_states: in every state of every run of any code, control and all pending calls are at positions which following the instructions from the first byte on leads to, in a block of code that was there at the start (or the run has come to one of the situations of C47 before, with the machine confined until then). C45_boundaries: in assembled code these are the starts of instructions, each wholly inside the code. C45_one_program: so a machine with one program always executes exactly an instruction of that program. C45_execute: histories of programs. C45_compiled_partial: compiled programs of the core language and its functions, all options. C45_accepted_partial: all programs the compiler accepts, as far as their addresses are right and their numbers fit. Missing: code whose addresses the assembler gets wrong (C24: false there); functions of another program, whose code can be collected while they run (C45_collected_while_running: false of the code). Host functions are assumed to keep the machine in order and not to load code."
  },
  {
   "property": "C46",
   "status": "partial",
   "theorems": [
    "DuckLisp.Props.C46_object_to_tree",
    "DuckLisp.Props.C46_object_to_tree_ends",
    "DuckLisp.Props.C46_one_tree",
    "DuckLisp.Props.C46_wrong_only",
    "DuckLisp.Props.C46_comptime_wrong_only",
    "DuckLisp.Props.C46_comptime_partial",
    "DuckLisp.Props.C46_tree_to_object_partial",
    "DuckLisp.Props.C46_roundtrip_partial",
    "DuckLisp.Props.C46_data",
    "DuckLisp.Props.C46_quote_partial",
    "DuckLisp.Props.C46_collected",
    "DuckLisp.Props.C46_dotted_pair",
    "DuckLisp.Props.C46_circular"
   ],
   "note": "Objects to trees: C46_object_to_tree characterises the conversion exactly, for all machines and objects; C46_wrong_only lists where it goes wrong in a machine in order. Trees to objects and back: for all trees, tables of symbols and machines in order with enough free cells (C46_tree_to_object_partial, C46_roundtrip_partial). Quoted code run by the machine comes back as written (C46_quote_partial). Compile-time results are put into the program as trees with the same value, parts of texts as texts (C46_comptime_partial). Missing because false of the code: a collection during the conversion loses the objects (C46_collected); pairs that are not lists and circular lists (C46_dotted_pair, C46_circular); quoted expressions and host function names come back as plain ones (asCode)."
  },
  {
   "property": "C47",
   "status": "partial",
   "theorems": [
    "DuckLisp.Props.C47_data_instructions",
    "DuckLisp.Props.C47_control_instructions",
    "DuckLisp.Props.C47_variable_instructions",
    "DuckLisp.Props.C47_literals",
    "DuckLisp.Props.C47_faults_are_real",
    "DuckLisp.Props.C47_release_nothing",
    "DuckLisp.Props.C47_foreign_function",
    "DuckLisp.Props.C47_foreign_function_happens",
    "DuckLisp.Props.C47_states",
    "DuckLisp.Props.C47_run",
    "DuckLisp.Props.C47_execute"
   ],
   "note": "As stated the property is false of the code: Spec/Safety.lean lists the situations in which an instruction goes wrong, and C47_faults_are_real proves that they do (except those of vector, set-cdr, symbol-id, funcall, apply, push-closure and release-upvalues, where the list errs on the safe side or the failure is proved separately: C47_release_nothing, C47_foreign_function). Everywhere else every instruction of the machine is proved to succeed or report an error and to leave memory in order, for all states and operands; and any run of any bytes that has undefined behaviour is proved to have reached a listed situation with the machine in order, or a position without a whole instruction. Partial because of those situations; functions of the host are assumed to keep the machine in order."
  },
  {
   "property": "C48",
   "status": "partial",
   "theorems": [
    "DuckLisp.Props.C48_value_partial",
    "DuckLisp.Props.C48_only_numbers",
    "DuckLisp.Props.C48_literal_partial",
    "DuckLisp.Props.C48_sign_lost",
    "DuckLisp.Props.C48_zero_exponent",
    "DuckLisp.Props.C48_long_fraction"
   ],
   "note": "For all texts and all arithmetics: a text of a decimal number is accepted and the calculation made is, carried out exactly, that number (C48_value_partial); nothing else is accepted (C48_only_numbers); so for numbers written in programs (C48_literal_partial). How doubles round is a parameter. Missing because false of the code: -1. loses its sign (C48_sign_lost), e-0 is rejected (C48_zero_exponent), 19 or more digits after the point are undefined behaviour (C48_long_fraction), exponents near 2^63."
  },
  {
   "property": "C49",
   "status": "partial",
   "theorems": [
    "DuckLisp.Props.C49_loads",
    "DuckLisp.Props.C49_layout",
    "DuckLisp.Props.C49_evaluation_partial",
    "DuckLisp.Props.C49_session_partial",
    "DuckLisp.Props.C49_rest_ignored",
    "DuckLisp.Props.C49_reads_beyond",
    "DuckLisp.Props.C49_empty_text"
   ],
   "note": "Reader, compiler and assembler together. C49_loads, C49_layout: for all programs, texts of them, states and compilers without parser actions, loading gives the code of the program, independently of layout and of the memory after the text. C49_evaluation_partial, C49_session_partial: running the code leaves the value of the program written, also for sequences of texts; these have the limits of C19 (language covered). False of the code: a text that begins with white space and ends with a name is read beyond its end (C49_reads_beyond), so is the empty text (C49_empty_text); forms after the first one are silently ignored (C49_rest_ignored)."
  },
  {
   "property": "C50",
   "status": "proved",
   "theorems": [
    "DuckLisp.Props.C50_rules",
    "DuckLisp.Props.C50_enough_time",
    "DuckLisp.Props.C50_unambiguous",
    "DuckLisp.Props.C50_only_adds_parentheses",
    "DuckLisp.Props.C50_idempotent",
    "DuckLisp.Props.C50_parentheses_optional",
    "DuckLisp.Props.C50_text",
    "DuckLisp.Props.C50_never_ends",
    "DuckLisp.Props.C50_literal_head",
    "DuckLisp.Props.C50_marks"
   ],
   "note": "For all programs, declarations and scripts: inference gives a program exactly if the rules of Spec/Infer.lean do (C50_rules), with enough time always the same one (C50_enough_time, C50_unambiguous); it only adds parentheses (C50_only_adds_parentheses); inferring again changes nothing if nothing is marked (C50_idempotent; with marks it may: C50_marks); parentheses of calls with a fixed number of arguments are optional (C50_parentheses_optional); so texts are read as the programs they stand for (C50_text). What runs scripts is a parameter: a script is any behaviour that takes arguments, declares names and opens and closes scopes. Inference need not end, or be defined: C50_never_ends, C50_literal_head."
  },
  {
   "property": "C51",
   "status": "partial",
   "theorems": [
    "DuckLisp.Props.C51_states",
    "DuckLisp.Props.C51_loaded",
    "DuckLisp.Props.C51_own_values",
    "DuckLisp.Props.C51_call",
    "DuckLisp.Props.C51_call_unassigning",
    "DuckLisp.Props.C51_compiled_partial",
    "DuckLisp.Props.C51_execute",
    "DuckLisp.Props.C51_many_arguments"
   ],
   "note": "Spec/Nesting.lean counts from the instructions alone how many values a function has on the stack at every position of its code. C51_states: in every state of every run of tidy code every pending call has its part of the stack, one above the other, each of the size its code says, and what was on the stack before the program is still there but for assignments to captured variables (or the run has come to a situation of C47 or has called a host function with a wrong number of arguments). C51_own_values: instructions use values of the running function only. C51_call: until a call (also by apply) returns nothing below its arguments changes except by assignments to captured variables, which are named, and when it returns control goes on after the call and the result has taken the place of the arguments; calls within calls of any depth; C51_call_unassigning: nothing at all changes if no code assigns to captured variables. C51_execute: histories of programs. C51_compiled_partial: compiled programs of the core language with functions, rest parameters, apply and recursive calls are tidy, all options. Missing: that compiled code with captured variables is tidy; false of the code for calls with 256 or more arguments (C51_many_arguments)."
  },
  {
   "property": "C52",
   "status": "proved",
   "theorems": [
    "DuckLisp.Props.C52_labels",
    "DuckLisp.Props.C52_assembles",
    "DuckLisp.Props.C52_loads"
   ],
   "note": "For all programs in the model (all of the language but macros and compile-time code), all configurations and all states earlier programs left: C52_labels (each label handed out stands at exactly one place, all labels used were handed out, the last instruction is an exit), C52_assembles (the assembler accepts the code with any options), C52_loads (loading a text that the reader and the generators accept gives code). Assumes that fewer than 2^64 names were generated, after which generated names would repeat."
  },
  {
   "property": "C53",
   "status": "partial",
   "theorems": [
    "DuckLisp.Props.C53_listing_partial",
    "DuckLisp.Props.C53_assembled_partial",
    "DuckLisp.Props.C53_stripped_symbols_ub",
    "DuckLisp.Props.C53_vector_ub",
    "DuckLisp.Props.C53_loading_vector_ub",
    "DuckLisp.Props.C53_vector_out_of_step",
    "DuckLisp.Props.C53_floats_hidden",
    "DuckLisp.Props.C53_call_fails",
    "DuckLisp.Props.C53_globals_named_wrongly"
   ],
   "note": "C53_listing_partial: for all sequences of instructions as the machine reads them (and bytes that are none). C53_assembled_partial: for assembled programs. False of the code for stripped symbols (C53_stripped_symbols_ub), vectors of up to 65535 elements with small operands (C53_vector_ub, C53_vector_out_of_step, C53_loading_vector_ub), floats, which are not shown (C53_floats_hidden), obsolete calls (C53_call_fails) and the names of globals with large keys (C53_globals_named_wrongly); also left out are equal.16 and release-upvalues.16/.32, which the machine reads differently from the assembler (C21), and brz, which the machine does not know."
  },
  {
   "property": "C54",
   "status": "partial",
   "theorems": [
    "DuckLisp.Props.C54_without_macros",
    "DuckLisp.Props.C54_expansion_partial",
    "DuckLisp.Props.C54_comptime",
    "DuckLisp.Props.C54_stale_macro",
    "DuckLisp.Props.C54_variable_lost",
    "DuckLisp.Props.C54_comptime_error",
    "DuckLisp.Props.C54_defmacro_in_comptime"
   ],
   "note": "C54_without_macros: for all texts whose programs have no compile-time code, loading does not depend on the compiler's machine and leaves it alone; so C49, C52 and the others hold for the whole compiler. C54_expansion_partial: for all machines in order, macros and quotable arguments: the code executed gets to a call of the macro's function with the arguments as written (or memory runs out), the value is the expansion (as C46 says), and the expansion is compiled in a state in which code, scopes and variables are as before. C54_comptime: the value of compile-time code is compiled in its place. C54_defmacro_in_comptime: macros are not defined by compile-time code. False of the code: macros of later programs call functions of earlier ones (C54_stale_macro), macros that become a variable (C54_variable_lost), compile-time code that fails with nothing on the stack (C54_comptime_error), more than 255 arguments."
  },
  {
   "property": "C55",
   "status": "partial",
   "theorems": [
    "DuckLisp.Props.C55_gensym",
    "DuckLisp.Props.C55_generated_is_new_partial",
    "DuckLisp.Props.C55_intern_partial",
    "DuckLisp.Props.C55_intern_refuses",
    "DuckLisp.Props.C55_intern_error_lost",
    "DuckLisp.Props.C55_generated_name_interned",
    "DuckLisp.Props.C55_read_partial",
    "DuckLisp.Props.C55_read_unreadable_partial",
    "DuckLisp.Props.C55_read_refuses_flag",
    "DuckLisp.Props.C55_read_refuses_inference",
    "DuckLisp.Props.C55_read_refuses_text",
    "DuckLisp.Props.C55_read_without_text",
    "DuckLisp.Props.C55_read_collected"
   ],
   "note": "For builds without parenthesis inference. C55_gensym: for all tables, counters and machines in order: the symbol of the generated name is pushed, or out of memory is reported; C55_generated_is_new_partial: after every history of names in programs, labels, gensym, read and intern that takes fewer than 2^64 numbers the name is new and its symbol differs from all others (missing: interned texts that begin with a zero byte, for which it is false: C55_generated_name_interned). C55_intern_partial: the symbol with the number that the name has, for all texts (if memory runs out no error is reported: C55_intern_error_lost). C55_read_partial: for all texts of all programs the pair of the object and zero, if there are enough free cells (otherwise the object can be lost: C55_read_collected); C55_read_unreadable_partial. C55_intern_refuses, C55_read_refuses_flag, C55_read_refuses_inference, C55_read_refuses_text. C55_read_without_text: without a first argument undefined behaviour."
  },
  {
   "property": "C56",
   "status": "partial",
   "theorems": [
    "DuckLisp.Reader.C56_registered",
    "DuckLisp.Reader.C56_rewrites_partial",
    "DuckLisp.Reader.C56_read_partial",
    "DuckLisp.Reader.C56_others_untouched",
    "DuckLisp.Reader.C56_failure_lost"
   ],
   "note": "C56_rewrites_partial, C56_read_partial: for all texts, trees and actions (functions of the form and the log), success and failure. C56_others_untouched: programs without the names. C56_registered: all histories of registrations. Missing because false of the code: an action that fails with invalid value inside a literal expression #(...) has its failure ignored and the text is read as something else (C56_failure_lost). Actions that call the reader or change the nesting counter are not covered."
  },
  {
   "property": "C57",
   "status": "partial",
   "theorems": [
    "DuckLisp.Props.C57_appends",
    "DuckLisp.Props.C57_determined_partial",
    "DuckLisp.Props.C57_read_partial",
    "DuckLisp.Props.C57_floats_hidden",
    "DuckLisp.Props.C57_quotes_ambiguous"
   ],
   "note": "C57_appends: all trees and texts. C57_determined_partial: the tree up to the values of floats, and where its text ends, for all trees whose strings have no double quote; C57_read_partial: for all trees read from texts without a backslash. Missing because false of the code: values of floats are not shown (C57_floats_hidden), double quotes in strings are not marked (C57_quotes_ambiguous). With enough memory."
  },
  {
   "property": "C58",
   "status": "partial",
   "theorems": [
    "DuckLisp.Props.C58_ends",
    "DuckLisp.Props.C58_determined_partial",
    "DuckLisp.Props.C58_safe_partial",
    "DuckLisp.Props.C58_cyclic_never",
    "DuckLisp.Props.C58_ends_iff_partial",
    "DuckLisp.Props.C58_endless",
    "DuckLisp.Props.C58_recursive_never",
    "DuckLisp.Props.C58_floats_hidden",
    "DuckLisp.Props.C58_code_hidden",
    "DuckLisp.Props.C58_flag_unwritten"
   ],
   "note": "C58_ends: all data in all machines is printed. C58_determined_partial: the text determines the data, up to the values of floats, and where it ends, with no condition on the bytes of texts; instances included; functions are not covered, what they do is not shown (C58_code_hidden). C58_safe_partial: no undefined behaviour for all values (of all kinds) of all machines in order, if no closure is half built. C58_ends_iff_partial: printing such a value ends exactly if there is no cycle in it, through lists, vectors, closures, captured variables or composites. Missing because false of the code: whatever has a cycle is never printed, calls nest until the stack of the host overflows or a chain of captured variables is followed for ever (C58_cyclic_never; C58_endless: one set-cdr makes such a list of any pair; C58_recursive_never: a closure that captured itself); values of floats are not shown (C58_floats_hidden); the text contains a field that nothing ever writes (C58_flag_unwritten). With enough memory for the text."
  },
  {
   "property": "C59",
   "status": "partial",
   "theorems": [
    "DuckLisp.VM.C59_parts",
    "DuckLisp.VM.C59_new_partial",
    "DuckLisp.VM.C59_set_value",
    "DuckLisp.VM.C59_set_function_partial",
    "DuckLisp.VM.C59_refused",
    "DuckLisp.VM.C59_set_function_from_top",
    "DuckLisp.VM.C59_new_collected",
    "DuckLisp.VM.C59_builtin_type"
   ],
   "note": "C59_parts: the host reads type, value and function as the language does. C59_set_value: for all places of the stack, in all machines in order; the rest of the machine stays. C59_refused: no instance, nothing changes. C59_new_partial: instances are made as stated if two cells are free. C59_set_function_partial: for places counted from the bottom. Missing because false of the code: with one free cell a collection frees the cell of nil while the instance is made (C59_new_collected); places counted from the top are refused for the function (C59_set_function_from_top); instances of types that are not user types are made (C59_builtin_type)."
  },
  {
   "property": "C60",
   "status": "partial",
   "theorems": [
    "DuckLisp.VM.C60_parts",
    "DuckLisp.VM.C60_length",
    "DuckLisp.VM.C60_element",
    "DuckLisp.VM.C60_set_element",
    "DuckLisp.VM.C60_shared",
    "DuckLisp.VM.C60_element_beyond",
    "DuckLisp.VM.C60_rest"
   ],
   "note": "C60_parts, C60_length, C60_element, C60_set_element, C60_shared (with duckVM_pushFirst and duckVM_setFirst for element 0): as stated, for all machines in order. Missing because false of the code: elements that are not there are read from beyond the captured variables instead of refused (C60_element_beyond); the rest of a closure is meant to be refused, and an object that was never set is pushed (C60_rest)."
  },
  {
   "property": "C61",
   "status": "partial",
   "theorems": [
    "DuckLisp.Link.C61_known",
    "DuckLisp.Link.C61_calls_partial",
    "DuckLisp.Link.C61_link",
    "DuckLisp.Link.C61_other_globals",
    "DuckLisp.Link.C61_compiled"
   ],
   "note": "All histories in which the compiler's own allocations succeed (those of the machine may fail). C61_known, C61_compiled, C61_link as stated. C61_calls_partial: if programs leave the global variables of linked names alone; missing because false of the code: after a program has stored another value there, the call is undefined (C38_by_key_not_checked). Without parenthesis inference."
  }
 ]
}