{
 "claims": [
  {
   "property": "C01",
   "status": "proved",
   "theorems": [
    "Verif.Search.C01_lower_bound",
    "Verif.Search.C01_upper_bound",
    "Verif.Search.C01_lower_bound_safe"
   ],
   "note": "lower_bound_n/upper_bound_n loops over every length; out-of-range reads are a distinct outcome and proved not to happen."
  },
  {
   "property": "C02",
   "status": "proved",
   "theorems": [
    "Verif.Search.C02_equal_range"
   ],
   "note": "equal_range_n equals (lower_bound, upper_bound), by loop invariant."
  },
  {
   "property": "C03",
   "status": "partial",
   "theorems": [
    "Verif.Search.C03_binary_search_partial",
    "Verif.Search.C03_binary_search_violated",
    "Verif.Search.C03_found_partial",
    "Verif.Search.C03_is_member_partial",
    "Verif.Search.C03_is_member_violated"
   ],
   "note": "The full statement is false of the code (binary_search tests == instead of equivalence): C03_binary_search_violated gives the witness; the partial theorem holds when == coincides with equivalence."
  },
  {
   "property": "C04",
   "status": "proved",
   "theorems": [
    "Verif.Select.C04_min_max",
    "Verif.Select.C04_median",
    "Verif.Select.C04_median_equiv",
    "Verif.Select.C04_clamp",
    "Verif.Select.C04_clamp_wrong_bounds",
    "Verif.Select.C04_clamp_unordered"
   ],
   "note": "select_* decision trees over every strict weak order."
  },
  {
   "property": "C05",
   "status": "proved",
   "theorems": [
    "Verif.Permute.C05_rotate"
   ],
   "note": "std::reverse modelled by its contract."
  },
  {
   "property": "C06",
   "status": "proved",
   "theorems": [
    "Verif.Permute.C06_gather",
    "Verif.Permute.C06_gather_run"
   ],
   "note": "std::stable_partition modelled by its contract."
  },
  {
   "property": "C07",
   "status": "proved",
   "theorems": [
    "Verif.ClosedHash.C07_no_failure",
    "Verif.ClosedHash.C07_no_failure_short",
    "Verif.ClosedHash.C07_history",
    "Verif.ClosedHash.C07_find_last",
    "Verif.ClosedHash.C07_hash_irrelevant",
    "Verif.ClosedHash.C07_limit"
   ],
   "note": "Refinement of the node-and-link model (free/used rings, home/misplaced states, relocation, growth, copy) to a unique-key container for every history of any length and every hash function; find(k) = last value stored and not erased since. A history can fail only at an operation that needs more than 2874713497 nodes (C07_no_failure), and there it does (C07_limit: ULONG_MAX table entry, size wraparound)."
  },
  {
   "property": "C08",
   "status": "proved",
   "theorems": [
    "Verif.ClosedHash.C08_iterate"
   ],
   "note": "Every reachable state; iteration terminates, distinct keys, size = number visited <= capacity."
  },
  {
   "property": "C09",
   "status": "proved",
   "theorems": [
    "Verif.ClosedHash.C09_erase_iterator",
    "Verif.ClosedHash.C09_erase_loop",
    "Verif.ClosedHash.C09_clear"
   ],
   "note": "Every reachable state and valid position; also the erase-while-iterating loop and clear()."
  },
  {
   "property": "C10",
   "status": "proved",
   "theorems": [
    "Verif.ClosedHash.C10_eq",
    "Verif.ClosedHash.C10_equivalence",
    "Verif.ClosedHash.C10_copy"
   ],
   "note": "For every pair of histories; == of values assumed to be equality for the iff."
  },
  {
   "property": "C11",
   "status": "proved",
   "theorems": [
    "Verif.CircularQueue.C11_bounded_fifo",
    "Verif.CircularQueue.C11_pop_precondition",
    "Verif.CircularQueue.C11_drain",
    "Verif.CircularQueue.C11_clear_pops"
   ],
   "note": "Refinement to a bounded queue over every history of push/pop/clear."
  },
  {
   "property": "C12",
   "status": "proved",
   "theorems": [
    "Verif.CircularQueue.C12_putback_undoes_pops",
    "Verif.CircularQueue.C12_putback_front"
   ],
   "note": "putback restores exactly the popped elements, for every queue and number of pops."
  },
  {
   "property": "C13",
   "status": "partial",
   "theorems": [
    "Verif.CircularQueue.C13_copy_partial",
    "Verif.CircularQueue.C13_eq_partial",
    "Verif.CircularQueue.C13_copy_full_violated",
    "Verif.CircularQueue.C13_copy_of_every_full_violated",
    "Verif.CircularQueue.C13_empty_eq_violated",
    "Verif.CircularQueue.C13_empty_eq_oob_violated"
   ],
   "note": "False as stated: copying a full queue copies an empty range and both end pointers coincide (violated theorems give witnesses, for every full queue); proved for non-full queues. Comparing empty queues reads element 0 (violated)."
  },
  {
   "property": "C14",
   "status": "partial",
   "theorems": [
    "Verif.Selection.C14_union",
    "Verif.Selection.C14_intersection",
    "Verif.Selection.C14_symmetric_difference",
    "Verif.Selection.C14_invert",
    "Verif.Selection.C14_operation",
    "Verif.Selection.C14_asymmetric_operation_violated"
   ],
   "note": "union/intersection/symmetric difference/invert/operation pointwise on every index, all boundary lists."
  },
  {
   "property": "C15",
   "status": "partial",
   "theorems": [
    "Verif.Selection.C15_difference_partial",
    "Verif.Selection.C15_difference_iterators",
    "Verif.Selection.C15_difference_violated",
    "Verif.Selection.C15_difference_all_wrong_violated"
   ],
   "note": "selection_difference passes its arguments reversed in one case: false as stated (witness), partial form proved."
  },
  {
   "property": "C16",
   "status": "partial",
   "theorems": [
    "Verif.Selection.C16_includes_partial",
    "Verif.Selection.C16_includes_y_open_partial",
    "Verif.Selection.C16_includes_x_open_partial",
    "Verif.Selection.C16_includes_y_open_violated",
    "Verif.Selection.C16_includes_unbounded_violated",
    "Verif.Selection.C16_includes_oob_violated",
    "Verif.Selection.C16_includes_polarity_violated"
   ],
   "note": "selection_includes is boundary-list inclusion, not set inclusion: witness of the violation and the true part."
  },
  {
   "property": "C17",
   "status": "proved",
   "theorems": [
    "Verif.Selection.C17_is_selected",
    "Verif.Selection.C17_from_index_set",
    "Verif.Selection.C17_to_index_set",
    "Verif.Selection.C17_roundtrip_index_set",
    "Verif.Selection.C17_roundtrip_selection"
   ],
   "note": "index sets and selections agree on every index."
  },
  {
   "property": "C18",
   "status": "partial",
   "theorems": [
    "Verif.Selection.C18_copy_foreach",
    "Verif.Selection.C18_size",
    "Verif.Selection.C18_partition_copy_partial",
    "Verif.Selection.C18_partition_copy_violated",
    "Verif.Selection.C18_stable_partition",
    "Verif.Selection.C18_stable_partition_about_partial",
    "Verif.Selection.C18_stable_partition_about_violated"
   ],
   "note": "selection_copy, foreach, size, partition_copy, stable_partition(_about)."
  },
  {
   "property": "C19",
   "status": "partial",
   "theorems": [
    "Verif.Selection.C19_eq_partial",
    "Verif.Selection.C19_eq_violated"
   ],
   "note": "Different boundary lists can denote the same set (trailing boundary past the range, repeated boundary): violated; normal forms proved equal iff same set."
  },
  {
   "property": "C20",
   "status": "proved",
   "theorems": [
    "Verif.Forest.C20_history",
    "Verif.Forest.C20_traversal",
    "Verif.Forest.C20_values",
    "Verif.Forest.C20_positions",
    "Verif.Forest.C20_word_determines"
   ],
   "note": "Reach/AStep (History.lean) give the meaning of client programs over any number of forests in terms of plain tree edits; C20_history proves every call agrees with it (termination, result, heap), C20_traversal/values/positions say what is observed. Self-assignment, self-splice into the own moved range and exceptions from value copies are outside."
  },
  {
   "property": "C21",
   "status": "proved",
   "theorems": [
    "Verif.Forest.C21_inverse",
    "Verif.Forest.C21_forwards_backwards",
    "Verif.Forest.C21_nesting"
   ],
   "note": "for every reachable state and every iterator position."
  },
  {
   "property": "C22",
   "status": "proved",
   "theorems": [
    "Verif.Forest.C22_size"
   ],
   "note": "lazy cache modelled (size_m, size_valid); for every reachable state over any number of forests."
  },
  {
   "property": "C23",
   "status": "proved",
   "theorems": [
    "Verif.Forest.C23_copy",
    "Verif.Forest.C23_equality",
    "Verif.Forest.C23_equality_eq"
   ],
   "note": "copy construction and operator== (parametric in == of values); copy assignment is covered by C20_history."
  },
  {
   "property": "C24",
   "status": "proved",
   "theorems": [
    "Verif.Forest.C24_preorder_postorder",
    "Verif.Forest.C24_children_parent",
    "Verif.Forest.C24_depth",
    "Verif.Forest.C24_reverse_fullorder",
    "Verif.Forest.C24_filter"
   ],
   "note": "preorder, postorder, child_range, has_children, find_parent, depth_range, reverse_fullorder_range, filter_fullorder_range."
  },
  {
   "property": "C25",
   "status": "proved",
   "theorems": [
    "Verif.Unicode.C25_utf32_to_utf8",
    "Verif.Unicode.C25_roundtrip",
    "Verif.Unicode.C25_injective"
   ],
   "note": "Every sequence of scalar values, every length."
  },
  {
   "property": "C26",
   "status": "proved",
   "theorems": [
    "Verif.Unicode.C26_utf32_to_utf16",
    "Verif.Unicode.C26_roundtrip",
    "Verif.Unicode.C26_utf8_utf16",
    "Verif.Unicode.C26_surrogates"
   ],
   "note": "All width pairs, every sequence of scalar values."
  },
  {
   "property": "C27",
   "status": "partial",
   "theorems": [
    "Verif.Unicode.C27_never_reads_past_end",
    "Verif.Unicode.C27_terminates_partial",
    "Verif.Unicode.C27_terminates_violated",
    "Verif.Unicode.C27_debug_terminates",
    "Verif.Unicode.C27_expansion_partial",
    "Verif.Unicode.C27_debug_expansion",
    "Verif.Unicode.C27_expansion_violated",
    "Verif.Unicode.C27_unbounded_output_violated"
   ],
   "note": "Never reads past the end: proved for every input. Termination and the expansion bound are false in release builds (byte >= 0xF8 never advances; lone lead surrogate uses an uninitialised value), proved for all other inputs and for every input in debug builds."
  },
  {
   "property": "C28",
   "status": "proved",
   "theorems": [
    "Verif.Md5.C28_streaming",
    "Verif.Md5.C28_oneshot",
    "Verif.Md5.C28_compress",
    "Verif.Md5.C28_pad_blocks",
    "Verif.Md5.C28_leBytes_val"
   ],
   "note": "any split into updates, any initial buffer content, lengths modulo 2^64 bits; compression and constants equal the RFC's, spec written from the RFC."
  },
  {
   "property": "C29",
   "status": "proved",
   "theorems": [
    "Verif.Md5.C29_reuse",
    "Verif.Md5.C29_reset"
   ],
   "note": "final resets; a reused object behaves as a new one."
  },
  {
   "property": "C30",
   "status": "proved",
   "theorems": [
    "Verif.Sha.C30_sha1",
    "Verif.Sha.C30_sha224",
    "Verif.Sha.C30_sha256",
    "Verif.Sha.C30_sha384",
    "Verif.Sha.C30_sha512",
    "Verif.Sha.C30_digest"
   ],
   "note": "any history of updates with whole bytes and finalize calls, all five variants; spec written from FIPS 180-4 including the definition of the constants by roots of primes."
  },
  {
   "property": "C31",
   "status": "proved",
   "theorems": [
    "Verif.Json.C31_generated_text_parses_back",
    "Verif.Json.C31_generated_text_is_json",
    "Verif.Json.C31_other_values_throw",
    "Verif.Json.C31_nul_in_name_violated"
   ],
   "note": "Numbers are parametric: to_string(double)/strtod are hypotheses of Storable. C31_nul_in_name_violated shows that the condition on names is needed."
  },
  {
   "property": "C32",
   "status": "partial",
   "theorems": [
    "Verif.Json.C32_escapes_have_their_meaning_partial",
    "Verif.Json.C32_string_partial",
    "Verif.Json.C32_surrogate_pair_violated",
    "Verif.Json.C32_pair_value_violated"
   ],
   "note": "Proved for all texts whose escapes are simple ones or \\uXXXX outside of the surrogate range. For surrogate pairs the claim is false of the code (C32_surrogate_pair_violated: a valid pair is refused; C32_pair_value_violated: the accepted form denotes another character)."
  },
  {
   "property": "C33",
   "status": "partial",
   "theorems": [
    "Verif.Json.C33_parser_stays_inside_partial",
    "Verif.Json.C33_parser_terminates",
    "Verif.Json.C33_constant_at_end_violated"
   ],
   "note": "Proved for inputs that do not end with true/false/null; termination for all inputs. False for `[true` (C33_constant_at_end_violated): is_sequence compares the terminator of the constant with the terminator of the input and goes on."
  },
  {
   "property": "C34",
   "status": "proved",
   "theorems": [
    "Verif.Cow.C34_value_semantics",
    "Verif.Cow.C34_others_unchanged"
   ],
   "note": "Hypotheses: == of the value type is reflexive and < irreflexive (operator== and operator< compare pointers first). Atomic counts are sequentially consistent and do not overflow; the client stores one value through the reference that write() returns before its next operation on that handle; a handle is used by one thread at a time. Concurrent model with arbitrary interleavings, address reuse and exceptions."
  },
  {
   "property": "C35",
   "status": "proved",
   "theorems": [
    "Verif.Cow.C35_no_use_after_free",
    "Verif.Cow.C35_allocated_iff",
    "Verif.Cow.C35_quiescent",
    "Verif.Cow.C35_no_leak",
    "Verif.Cow.C35_count",
    "Verif.Cow.C35_exclusive_store"
   ],
   "note": "allocated iff referenced or being freed by exactly one thread; counts are the number of references; a thread about to store is the only holder; no leak when all handles are gone. Not modelled: a throwing copy constructor makes `allocate` call get_allocator() on the unconstructed block (copy_on_write.hpp:272), harmless for stateless allocators only."
  },
  {
   "property": "C36",
   "status": "partial",
   "theorems": [
    "Verif.Name.C36_exact",
    "Verif.Name.C36_equal_iff_partial",
    "Verif.Name.C36_stable",
    "Verif.Name.C36_order_consistent",
    "Verif.Name.C36_set_order",
    "Verif.Name.C36_collision_violated",
    "Verif.Name.C36_literal_nul_violated"
   ],
   "note": "The property as stated is FALSE of the code and C36_collision_violated proves it: names are looked up by 64 bit hash only; wg0ikmzrgv44k and ay1xpg4wc1tig collide. C36_exact gives the exact behaviour for every history (first request with a hash wins); C36_equal_iff_partial is the property under the hypothesis that no two requested strings have equal hashes. C36_stable (characters never change), C36_order_consistent (== and < agree) hold without it. C36_literal_nul_violated: literals with embedded NUL."
  },
  {
   "property": "C37",
   "status": "partial",
   "theorems": [
    "Verif.Fnv.C37_is_published_fnv1a",
    "Verif.Fnv.C37_other_widths",
    "Verif.Fnv.C37_sentinel_agrees",
    "Verif.Fnv.C37_fold",
    "Verif.Fnv.C37_ascii",
    "Verif.Fnv.C37_signed_char_violated"
   ],
   "note": "Every width 1..1024, constants included (offset basis = FNV-0 of the signature line, checked in the kernel). For signed char ranges with bytes >= 0x80 the result is not FNV-1a: C37_signed_char_violated."
  },
  {
   "property": "C38",
   "status": "proved",
   "theorems": [
    "Verif.Dlx.C38_undo"
   ],
   "note": "Proved for the pointer-level model; equality of the entire state (all link functions, sizes, colours, flags). Precondition Problem.Valid = documented preconditions (no node twice, colours not negative, only secondary columns coloured)."
  },
  {
   "property": "C39",
   "status": "partial",
   "theorems": [
    "Verif.Dlx.C39_search",
    "Verif.Dlx.C39_number",
    "Verif.Dlx.C39_count",
    "Verif.Dlx.C39_select_right",
    "Verif.Dlx.C39_select_most_constrained",
    "Verif.Dlx.C39_limit_zero_violated"
   ],
   "note": "Sound, complete, without repetition, in full. The limit 0 is not respected (C39_limit_zero_violated: a solution is reported before the limit is looked at). Rows without a node in a primary column are never part of a solution (spec: useful)."
  },
  {
   "property": "C40",
   "status": "proved",
   "theorems": [
    "Verif.ClosedHash.C40_destructor"
   ],
   "note": "Model steps that construct over a live value, or destroy/read a dead one, have no result; C07_history shows results always exist, C40_destructor that the destructor leaves no value."
  },
  {
   "property": "C41",
   "status": "partial",
   "theorems": [
    "Verif.Forest.C41_reverse_partial",
    "Verif.Forest.C41_reverse_violated"
   ],
   "note": "false in general: C41_reverse_violated shows a reachable forest on which reverse of the first two of three siblings destroys the list (the node after the range keeps its backward link). Proved when the range extends to the last sibling or has at most one tree."
  },
  {
   "property": "C42",
   "status": "partial",
   "theorems": [
    "Verif.Sha.C42_bits_partial",
    "Verif.Sha.C42_unused_bits_violated"
   ],
   "note": "false in general: the code does not mask the unused bits of the last byte (C42_unused_bits_violated); proved when they are zero."
  },
  {
   "property": "C43",
   "status": "proved",
   "theorems": [
    "Verif.Sha.C43_to_string",
    "Verif.Sha.C43_injective"
   ],
   "note": "for every word width of whole bytes."
  },
  {
   "property": "C44",
   "status": "proved",
   "theorems": [
    "Verif.Json.C44_parser_accepts_exactly_the_grammar",
    "Verif.Json.C44_unambiguous",
    "Verif.Json.C44_rfc_grammar_violated"
   ],
   "note": "Sound and complete for the grammar Spec.Text with the escapes that the library takes (Spec.Taken); C44_rfc_grammar_violated shows that these differ from RFC 8259."
  },
  {
   "property": "C45",
   "status": "proved",
   "theorems": [
    "Verif.Expr.C45_terminates",
    "Verif.Expr.C45_sound",
    "Verif.Expr.C45_complete",
    "Verif.Expr.C45_false_iff",
    "Verif.Expr.C45_start"
   ],
   "note": "Tokens are the model's input (lexer separate); recursion depth is a fuel parameter proved never to matter."
  },
  {
   "property": "C46",
   "status": "proved",
   "theorems": [
    "Verif.Expr.C46_meaning",
    "Verif.Expr.C46_parse_evaluate",
    "Verif.Expr.C46_unambiguous"
   ],
   "note": "Only operators with two evaluated operands may be overridden (overriding others breaks the stack in the code). Conversions double->int outside the target range, % 0 and shifts >= 32 are undefined in C++ and are a distinct outcome. Arithmetic on double is a parameter."
  },
  {
   "property": "C47",
   "status": "proved",
   "theorems": [
    "Verif.Lex.C47_lookahead"
   ],
   "note": "Lexer model includes the character putback stack (overflow is undefined behaviour), the token ring buffer of capacity 2 (the CircularQueue model) and all scanning functions."
  },
  {
   "property": "C48",
   "status": "proved",
   "theorems": [
    "Verif.Lex.C48_tokens",
    "Verif.Lex.C48_unambiguous"
   ],
   "note": "Classification of characters is that of the C locale; conversion of decimal digits to double is a parameter. Quirks in the code are part of the grammar: a lone quote at the end of the text is an empty string, 1.2.3 is one number token, strings and comments are cut at NUL, hexadecimal numbers wrap at 64 bits."
  },
  {
   "property": "C49",
   "status": "partial",
   "theorems": [
    "Verif.Lex.C49_offset",
    "Verif.Lex.C49_position_partial",
    "Verif.Lex.C49_line_numbers_violated"
   ],
   "note": "Offset: proved for all texts (C49_offset). Line number and line start: proved for texts without NUL whose strings contain no line end; violated otherwise, line ends inside strings are not counted (C49_line_numbers_violated)."
  },
  {
   "property": "C50",
   "status": "proved",
   "theorems": [
    "Verif.Lex.C50_text_to_value",
    "Verif.Lex.C50_text_accepted"
   ],
   "note": "Composition of C45, C46, C48. The parser model reads the list of tokens; that get/putback deliver that list is C47."
  },
  {
   "property": "C51",
   "status": "proved",
   "theorems": [
    "Verif.Adam.C51_update_computes_the_solution",
    "Verif.Adam.C51_inputs_are_kept"
   ],
   "note": "Reachable: any sequence of successful add_*/set/touch/reinitialize/update calls (plus failed updates that leave nothing on the evaluation stack), proper relations. Expressions are arbitrary interaction trees (Prog), so every evaluator that reads variables and computes is covered. Hypotheses: conditionals evaluate without going through relations (CondOk), the outputs are defined without circularity (Sensible)."
  },
  {
   "property": "C52",
   "status": "proved",
   "theorems": [
    "Verif.Adam.C52_one_term_per_relation"
   ],
   "note": "Proper relations: at least two terms, no repeated cell."
  },
  {
   "property": "C53",
   "status": "partial",
   "theorems": [
    "Verif.Adam.C53_order_does_not_matter",
    "Verif.Adam.C53_circular_definitions_violated"
   ],
   "note": "Proved for non-circular sheets; circular definitions through a logic cell are not detected and give order-dependent values (C53_circular_definitions_violated)."
  },
  {
   "property": "C54",
   "status": "proved",
   "theorems": [
    "Verif.Adam.C54_last_set_wins"
   ],
   "note": "Interface cells without an expression of their own."
  },
  {
   "property": "C55",
   "status": "proved",
   "theorems": [
    "Verif.Adam.C55_touch"
   ],
   "note": ""
  },
  {
   "property": "C56",
   "status": "proved",
   "theorems": [
    "Verif.Adam.C56_notifications"
   ],
   "note": ""
  },
  {
   "property": "C57",
   "status": "proved",
   "theorems": [
    "Verif.Adam.C57_contributors_are_complete",
    "Verif.Adam.C57_contributors_are_read"
   ],
   "note": "With unchanged priorities, and changed cells not read by conditionals (these are reported as contributors of every cell by the code)."
  },
  {
   "property": "C58",
   "status": "proved",
   "theorems": [
    "Verif.Adam.C58_invariants_and_enabling"
   ],
   "note": ""
  },
  {
   "property": "C59",
   "status": "proved",
   "theorems": [
    "Verif.Adam.C59_update_keeps_the_structure",
    "Verif.Adam.C59_failed_set_changes_nothing"
   ],
   "note": ""
  },
  {
   "property": "C60",
   "status": "partial",
   "theorems": [
    "Verif.Adam.C60_failed_update_partial",
    "Verif.Adam.C60_over_constrained_recovers",
    "Verif.Adam.C60_failed_update_violated"
   ],
   "note": "C60_failed_update_partial covers every exception except one thrown by an interface cell evaluated directly by update; that case is false: C60_failed_update_violated."
  },
  {
   "property": "C61",
   "status": "partial",
   "theorems": [
    "Verif.Adam.C61_reinitialize_partial",
    "Verif.Adam.C61_reinitialize_violated"
   ],
   "note": "Proved for initializers reading inputs and constants; C61_reinitialize_violated shows the dependence on hash order otherwise."
  },
  {
   "property": "C62",
   "status": "partial",
   "theorems": [
    "Verif.Eve.C62_children_contained_violated",
    "Verif.Eve.C62_cross_reverse_fill_violated",
    "Verif.Eve.C62_proportional_alone_violated",
    "Verif.Eve.C62_children_contained_partial",
    "Verif.Eve.C62_layout_contained_partial",
    "Verif.Eve.C62_evaluate_contained_partial"
   ],
   "note": "Proved for arrangements in which each child has an alignment and a nonnegative measure and, along the direction, no balancing, no negative spacing, no guided leaf that is aligned in reverse or follows a child taking additional space, and, across, no reverse fill. The _violated theorems show that the code does break containment outside of these."
  },
  {
   "property": "C63",
   "status": "proved",
   "theorems": [
    "Verif.Eve.C63_space_shared"
   ],
   "note": "Same sanity conditions as C62; natural length is the length the solver settled on."
  },
  {
   "property": "C64",
   "status": "partial",
   "theorems": [
    "Verif.Eve.C64_solver_settles_violated",
    "Verif.Eve.C64_guides_aligned_partial",
    "Verif.Eve.C64_guides_follow_partial"
   ],
   "note": "The hypothesis that the solver finishes (its last pass makes no progress) is assumed, not proved; no balancing; along the direction only up to the first child that takes additional space."
  },
  {
   "property": "C65",
   "status": "proved",
   "theorems": [
    "Verif.Eve.C65_nested_is_flat",
    "Verif.Eve.C65_nested_iff_flat",
    "Verif.Eve.C65_layout_nested_is_flat"
   ],
   "note": ""
  },
  {
   "property": "C66",
   "status": "partial",
   "theorems": [
    "Verif.Eve.C66_outsets_cover_violated",
    "Verif.Eve.C66_outsets_cover_partial",
    "Verif.Eve.C66_outsets_tight"
   ],
   "note": "Across the direction for all children; along the direction only for the first child (leading side) and the last (trailing side): the code looks at no others, and C66_outsets_cover_violated is a row whose middle child sticks out. C66_outsets_tight: after measuring, an outset is exactly the measured one or what the first/last child (along) or some child or the frame (across) needs."
  },
  {
   "property": "C67",
   "status": "proved",
   "theorems": [
    "Verif.Eve.C67_requested_size"
   ],
   "note": ""
  },
  {
   "property": "C68",
   "status": "proved",
   "theorems": [
    "Verif.Task.C68_at_most_once",
    "Verif.Task.C68_call_before_start",
    "Verif.Task.C68_start_before_finish",
    "Verif.Task.C68_not_early"
   ],
   "note": "Transition system of all threads; proved for every reachable state. Weak memory and std::future are not modelled."
  },
  {
   "property": "C69",
   "status": "proved",
   "theorems": [
    "Verif.Task.C69_one_at_a_time",
    "Verif.Task.C69_in_order"
   ],
   "note": ""
  },
  {
   "property": "C70",
   "status": "partial",
   "theorems": [
    "Verif.Task.C70_suspend_immediate_violated",
    "Verif.Task.C70_suspend"
   ],
   "note": "The code violates the full statement (C70_suspend_immediate_violated): a task that the queue has already given to the pool starts after suspend has returned. Proved: at most that one, and none when all tasks submitted before have finished; the call must not overlap other suspend/resume calls."
  },
  {
   "property": "C71",
   "status": "partial",
   "theorems": [
    "Verif.Task.C71_no_thread_violated",
    "Verif.Task.C71_pool_busy",
    "Verif.Task.C71_all_tasks_run",
    "Verif.Task.C71_comes_to_rest",
    "Verif.Task.C71_eventually_run"
   ],
   "note": "Proved for a pool with at least one thread; C71_no_thread_violated: with hardware_concurrency() == 0 (allowed by the standard) the pool has no thread and no task runs."
  },
  {
   "property": "C72",
   "status": "proved",
   "theorems": [
    "Verif.Cancel.C72_at_most_once",
    "Verif.Cancel.C72_not_before_cancel",
    "Verif.Cancel.C72_null_has_run",
    "Verif.Cancel.C72_register_after_cancel"
   ],
   "note": "Transition system with one thread per call."
  },
  {
   "property": "C73",
   "status": "partial",
   "theorems": [
    "Verif.Cancel.C73_second_cancel_violated",
    "Verif.Cancel.C73_throw_violated",
    "Verif.Cancel.C73_all_run",
    "Verif.Cancel.C73_cancel_waits"
   ],
   "note": "Proved: at rest, without exceptions, the number of callbacks that did not run is at most the number of calls of deregister_callback; and the only call of cancel returns after the callbacks have finished. The code violates the full statement: a second, concurrent cancel returns before the callbacks have run (C73_second_cancel_violated); an exception in one callback loses the others (C73_throw_violated)."
  },
  {
   "property": "C74",
   "status": "partial",
   "theorems": [
    "Verif.Cancel.C74_deregister_violated",
    "Verif.Cancel.C74_first_deregister_partial"
   ],
   "note": "Bug: register_callback splices the new callback to the front but returns the address of the last one, so with two callbacks deregistration removes the wrong one (C74_deregister_violated). Proved for the first registration."
  },
  {
   "property": "C75",
   "status": "proved",
   "theorems": [
    "Verif.Cancel.C75_true_needs_cancel",
    "Verif.Cancel.C75_stays_canceled"
   ],
   "note": "Under sequential consistency (the code reads a volatile bool without the lock)."
  },
  {
   "property": "C76",
   "status": "partial",
   "theorems": [
    "Verif.Decl.C76_terminates",
    "Verif.Decl.C76_complete",
    "Verif.Decl.C76_accepts_iff_partial",
    "Verif.Decl.C76_unambiguous",
    "Verif.Decl.C76_rejects_others_violated"
   ],
   "note": "The code violates the full statement: comments and `unlink` which precede no declaration are accepted (C76_rejects_others_violated). Proved: termination, completeness for the documented grammar with exact callbacks, and that what is accepted is exactly the grammar with these two additions; the callbacks are exact for both."
  },
  {
   "property": "C77",
   "status": "proved",
   "theorems": [
    "Verif.Decl.C77_sheet_failure",
    "Verif.Decl.C77_layout_failure"
   ],
   "note": "For layouts up to the defect of C78 (third relate expression)."
  },
  {
   "property": "C78",
   "status": "partial",
   "theorems": [
    "Verif.Decl.C78_terminates",
    "Verif.Decl.C78_complete_partial",
    "Verif.Decl.C78_complete_weak_partial",
    "Verif.Decl.C78_sound_partial",
    "Verif.Decl.C78_views_faithful",
    "Verif.Decl.C78_parents_known",
    "Verif.Decl.C78_reports_exactly_violated"
   ],
   "note": "Bug: eve_parser.cpp:330,333 clears only the expression of the relation which the loop reuses, so the third relate expression of a relation and those which follow are reported with the names (and comments) of earlier ones (C78_reports_exactly_violated). Proved: exact when relations have two relate expressions, and in general up to those names and comments; the additions of C76 are accepted here too."
  },
  {
   "property": "C79",
   "status": "partial",
   "theorems": [
    "Verif.Decl.C79_expression_partial",
    "Verif.Decl.C79_whole_input_violated"
   ],
   "note": "The code violates the second half: it does not look at what follows the expression (C79_whole_input_violated). Proved: every expression is accepted with its code; what is returned is the code of an expression with which the argument begins."
  },
  {
   "property": "C80",
   "status": "proved",
   "theorems": [
    "Verif.Algo.C80_reduce_balanced_is_the_ordered_fold",
    "Verif.Algo.C80_reduce_nonzeros_is_the_ordered_fold",
    "Verif.Algo.C80_reduce_balanced_applications",
    "Verif.Algo.C80_reduce_balanced_depth",
    "Verif.Algo.C80_reduce_balanced_uses_every_element"
   ],
   "note": "All theorems are about the model of the three function templates; std::vector growth (bad_alloc) is not modelled."
  },
  {
   "property": "C81",
   "status": "partial",
   "theorems": [
    "Verif.Algo.C81_is_sorted_range",
    "Verif.Algo.C81_is_sorted_rejects_equal_neighbours_violated",
    "Verif.Algo.C81_is_sorted_strict_partial",
    "Verif.Algo.C81_is_sorted_le",
    "Verif.Algo.C81_is_sorted_projection",
    "Verif.Algo.C81_sorted_longest_prefix"
   ],
   "note": "Violated by the code: is_sorted(f,l,o) tests !o(a,b) of neighbours, so with a strict ordering a sorted sequence with equal neighbours is reported as unsorted, while is_sorted(range) (std::is_sorted) accepts it. Proved: the exact condition decided (_partial), correctness for <=, correctness of the range form, projection form, longest prefix."
  },
  {
   "property": "C82",
   "status": "partial",
   "theorems": [
    "Verif.Algo.C82_erase_if_node",
    "Verif.Algo.C82_erase_if_block",
    "Verif.Algo.C82_erase_if_node_applications_partial",
    "Verif.Algo.C82_erase_if_node_applications_violated",
    "Verif.Algo.C82_find_range_if",
    "Verif.Algo.C82_find_range"
   ],
   "note": "The content part is proved for both container kinds. The documented number of predicate applications holds for block containers and is violated for node containers (the element that ends a run is tested twice; bound 2n-1 proved as _partial)."
  },
  {
   "property": "C83",
   "status": "proved",
   "theorems": [
    "Verif.Algo.C83_copy_bounded",
    "Verif.Algo.C83_copy_n",
    "Verif.Algo.C83_copy_sentinal",
    "Verif.Algo.C83_filter",
    "Verif.Algo.C83_iota"
   ],
   "note": ""
  },
  {
   "property": "C84",
   "status": "partial",
   "theorems": [
    "Verif.Table.C84_insert_range",
    "Verif.Table.C84_find_partial",
    "Verif.Table.C84_subscript_partial",
    "Verif.Table.C84_find_equivalent_keys_violated",
    "Verif.Table.C84_equal_range"
   ],
   "note": "find and operator[] compare the key found with !=, so they are right only for orderings whose equivalence is equality (_partial); C84_find_equivalent_keys_violated shows a sorted table whose key is not found otherwise. equal_range is right for every strict weak ordering."
  },
  {
   "property": "C85",
   "status": "partial",
   "theorems": [
    "Verif.Table.C85_unique_partial",
    "Verif.Table.C85_unique_loses_keys_violated",
    "Verif.Table.C85_unique_keeps_duplicates_violated"
   ],
   "note": "Violated by the code for every sorted index with more than one distinct key or a repeated smallest key: unique() passes the ordering (less) to std::unique as if it were an equality, so it keeps all rows with the smallest key and drops every other row. Both violations and the exact result (_partial) are proved."
  },
  {
   "property": "C86",
   "status": "partial",
   "theorems": [
    "Verif.Entity.C86_round_trip_partial",
    "Verif.Entity.C86_round_trip_bytes",
    "Verif.Entity.C86_round_trip_violated",
    "Verif.Entity.C86_nul_violated"
   ],
   "note": "Proved for ASCII strings without NUL (_partial). Violated for every string with a byte >= 0x80 (every non ASCII UTF-8 string): escaping works on bytes, unescaping produces UTF-8 of the byte value; and NUL is dropped. The exact result for every byte string is proved."
  },
  {
   "property": "C87",
   "status": "partial",
   "theorems": [
    "Verif.Entity.C87_needs_entity_escape",
    "Verif.Entity.C87_escaped_is_plain",
    "Verif.Entity.C87_entity_map_find",
    "Verif.Entity.C87_unknown_name",
    "Verif.Entity.C87_decimal_reference",
    "Verif.Entity.C87_hexadecimal_reference",
    "Verif.Entity.C87_hexadecimal_reference_end",
    "Verif.Entity.C87_decimal_reference_end",
    "Verif.Entity.C87_unescape_step",
    "Verif.Entity.C87_needs_entity_unescape_partial",
    "Verif.Entity.C87_needs_entity_unescape_true",
    "Verif.Entity.C87_unescape_truncates_violated"
   ],
   "note": "The last part is violated: a string with an ampersand and no semicolon after it is reported as not needing unescaping, but entity_unescape silently drops everything from the ampersand on."
  },
  {
   "property": "C88",
   "status": "proved",
   "theorems": [
    "Verif.ConcQueue.C88_linearizable",
    "Verif.ConcQueue.C88_fifo_meaning",
    "Verif.ConcQueue.C88_exactly_once_in_order",
    "Verif.ConcQueue.C88_no_undefined_behaviour",
    "Verif.ConcQueue.C88_no_deadlock"
   ],
   "note": "Herlihy-Wing linearizability stated on the observed history; lock, test and splice are separate steps so that mutual exclusion is proved. A pop whose assignment to the client's variable throws has taken the element (it is lost): this is part of the specification (`Fits.popThrew`)."
  },
  {
   "property": "C89",
   "status": "proved",
   "theorems": [
    "Verif.XmlAttr.C89_order",
    "Verif.XmlAttr.C89_insert_lookup",
    "Verif.XmlAttr.C89_sorted_unique",
    "Verif.XmlAttr.C89_names",
    "Verif.XmlAttr.C89_insert",
    "Verif.XmlAttr.C89_merge"
   ],
   "note": "On the bisection model of Search; std::set_union by its standard description."
  },
  {
   "property": "C90",
   "status": "partial",
   "theorems": [
    "Verif.XmlAttr.C90_count_same",
    "Verif.XmlAttr.C90_equal",
    "Verif.XmlAttr.C90_has_collisions",
    "Verif.XmlAttr.C90_count_collisions_partial",
    "Verif.XmlAttr.C90_count_collisions_at_least",
    "Verif.XmlAttr.C90_count_collisions_violated"
   ],
   "note": "count_collisions compares the pointers of the values instead of their texts (xml_parser.hpp:399), so equal sets from different places have collisions: C90_count_collisions_violated. Proved for values that are the same range, and as a lower bound in general."
  },
  {
   "property": "C91",
   "status": "proved",
   "theorems": [
    "Verif.Xml.C91_token",
    "Verif.Xml.C91_progress",
    "Verif.Xml.C91_get_token"
   ],
   "note": "Both directions, for every list of bytes; ranges of tokens and the state after each. The grammar (Spec.Lexeme, Spec.LexError) is stated without the scanning functions."
  },
  {
   "property": "C92",
   "status": "partial",
   "theorems": [
    "Verif.Xml.C92_content",
    "Verif.Xml.C92_sequence",
    "Verif.Xml.C92_document",
    "Verif.Xml.C92_any_text_violated",
    "Verif.Xml.C92_pi_in_content_violated",
    "Verif.Xml.C92_comment_before_root_violated",
    "Verif.Xml.C92_sequence_leading_text_violated"
   ],
   "note": "Proved for the trees of Spec.Content with the semantics Spec.ContentSem. XML that this leaves out is not accepted or silently skipped: text beginning with > or />, processing instructions in content, comments before the root, white space before the first element of a sequence (four violated theorems)."
  },
  {
   "property": "C93",
   "status": "partial",
   "theorems": [
    "Verif.Xml.C93_content",
    "Verif.Xml.C93_sequence",
    "Verif.Xml.C93_document",
    "Verif.Xml.C93_content_stop_violated",
    "Verif.Xml.C93_open_reference_violated",
    "Verif.Xml.C93_leading_text_violated",
    "Verif.Xml.C93_unambiguous"
   ],
   "note": "Proved: the accepted text is a well-formed tree followed by what the parser ignores, and output and calls are those of the tree. The full statement is false: parsing stops silently at a stray end tag, a reference may lack its semicolon at the end, and text before the root element is dropped (three violated theorems)."
  },
  {
   "property": "C94",
   "status": "partial",
   "theorems": [
    "Verif.Xml.C94_ends_partial",
    "Verif.Xml.C94_rounds",
    "Verif.Xml.C94_overread_violated"
   ],
   "note": "C94_ends_partial: linear number of rounds, and undefined behaviour only if the text has an attribute value without its second quote up to the end; C94_overread_violated: then it does read past the end. A client that replaces elements for ever makes the parser run for ever, so that hypothesis is needed."
  },
  {
   "property": "C95",
   "status": "partial",
   "theorems": [
    "Verif.Xml.C95_copy",
    "Verif.Xml.C95_verbatim",
    "Verif.Xml.C95_value_range_partial",
    "Verif.Xml.C95_end_tag_violated",
    "Verif.Xml.C95_value_range_violated"
   ],
   "note": "C95_copy, C95_verbatim for all texts, with what is copied of end tags (endEcho) made explicit. The full statement is false: white space in an end tag corrupts it in the output, and a leading comment makes the content range of a preorder element begin at the null pointer (two violated theorems)."
  },
  {
   "property": "C96",
   "status": "partial",
   "theorems": [
    "Verif.Cel.C96_put",
    "Verif.Cel.C96_serialize",
    "Verif.Cel.C96_dictionary",
    "Verif.Cel.C96_array",
    "Verif.Cel.C96_sorted",
    "Verif.Cel.C96_order_independent",
    "Verif.Cel.C96_after_end_violated"
   ],
   "note": "Proved for every value. `_violated`: after `end_asl_cel` the formatter stays installed in the stream; the next `any_regular_t` is swallowed silently (the `range_error` of `stack_n` is caught by the manipulator and dropped), the ones after it are printed with commas between them."
  },
  {
   "property": "C97",
   "status": "partial",
   "theorems": [
    "Verif.Cel.C97_round_trip_partial",
    "Verif.Cel.C97_equal",
    "Verif.Cel.C97_bytes_violated",
    "Verif.Cel.C97_quote_violated",
    "Verif.Cel.C97_exponent_violated",
    "Verif.Cel.C97_not_finite_violated",
    "Verif.Cel.C97_keyword_violated"
   ],
   "note": "Proved for values whose names are identifiers, whose keys are not keywords, whose numbers are printed without exponent, and whose strings are ASCII without NUL (unsafe: without quotes and NUL). `_violated`: 100000 is printed as `1e+05` and read as 1 with the rest left over; NaN and the infinities are read as variables; bytes from 128 on are doubled, NUL is lost; a final quote is dropped silently in unsafe mode; a dictionary with a keyword as key is rejected."
  },
  {
   "property": "C98",
   "status": "partial",
   "theorems": [
    "Verif.Zuid.C98_text",
    "Verif.Zuid.C98_round_trip",
    "Verif.Zuid.C98_injective",
    "Verif.Zuid.C98_reads",
    "Verif.Zuid.C98_unchecked_violated",
    "Verif.Zuid.C98_accepts_violated"
   ],
   "note": "Everything is proved for well-formed texts; the last part is violated by the code (C98_unchecked_violated, C98_accepts_violated): the result of sscanf is ignored."
  },
  {
   "property": "C99",
   "status": "proved",
   "theorems": [
    "Verif.Zuid.C99_eq",
    "Verif.Zuid.C99_lt_text",
    "Verif.Zuid.C99_total",
    "Verif.Zuid.C99_lt_fields"
   ],
   "note": "Proved."
  },
  {
   "property": "C100",
   "status": "partial",
   "theorems": [
    "Verif.Zuid.C100_name_partial",
    "Verif.Zuid.C100_bytes_injective",
    "Verif.Zuid.C100_collision_partial",
    "Verif.Zuid.C100_version",
    "Verif.Zuid.C100_long_name_violated"
   ],
   "note": "Proved for names of fewer than 65536 bytes; the code violates it for longer ones (C100_long_name_violated): the length is cut to 16 bits."
  },
  {
   "property": "C101",
   "status": "partial",
   "theorems": [
    "Verif.Zuid.C101_one_thread_partial",
    "Verif.Zuid.C101_threads_partial",
    "Verif.Zuid.C101_nodes",
    "Verif.Zuid.C101_node_kept",
    "Verif.Zuid.C101_version",
    "Verif.Zuid.C101_threads_violated",
    "Verif.Zuid.C101_period_violated"
   ],
   "note": "Proved for one thread and fewer than 2^30 zuids, and for any threads and fewer than 2^16; version, variant and nodes without bound. The code violates the unbounded statement: C101_threads_violated (two threads, 65537 zuids), C101_period_violated (2^30)."
  },
  {
   "property": "C102",
   "status": "partial",
   "theorems": [
    "Verif.XmlOut.C102_put",
    "Verif.XmlOut.C102_serialize",
    "Verif.XmlOut.C102_dictionary",
    "Verif.XmlOut.C102_array",
    "Verif.XmlOut.C102_order_independent",
    "Verif.XmlOut.C102_after_end_violated"
   ],
   "note": "The layout is proved in full. The last clause is false (C102_after_end_violated): end_xml does not take the format away, so what is written afterwards is still XML, outside of the root element. The text of a double that is no integer and of a foreign type is a parameter."
  },
  {
   "property": "C103",
   "status": "partial",
   "theorems": [
    "Verif.XmlOut.C103_reads_unique",
    "Verif.XmlOut.C103_round_trip_partial",
    "Verif.XmlOut.C103_only_reading_partial",
    "Verif.XmlOut.C103_injective_partial",
    "Verif.XmlOut.C103_accepted_partial",
    "Verif.XmlOut.C103_string_value_partial",
    "Verif.XmlOut.C103_name_violated",
    "Verif.XmlOut.C103_collision_violated",
    "Verif.XmlOut.C103_rejected_violated",
    "Verif.XmlOut.C103_bytes_violated"
   ],
   "note": "Proved for values whose names are character data, whose strings are ASCII without NUL, whose numbers are read back from what the stream prints for them, and which have no foreign types. `_violated`: names are not escaped (no element with the text stands for a name with `<` or `&`; the parser throws on `a<b`; two different arrays have the same text); bytes from 128 on and NUL are not read back."
  },
  {
   "property": "C104",
   "status": "partial",
   "theorems": [
    "Verif.Pool.C104_leak_violated",
    "Verif.Pool.C104_room_violated",
    "Verif.Pool.C104_total",
    "Verif.Pool.C104_stable",
    "Verif.Pool.C104_unique",
    "Verif.Pool.C104_disjoint",
    "Verif.Pool.C104_owned",
    "Verif.Pool.C104_again",
    "Verif.Pool.C104_frame",
    "Verif.Pool.C104_freed",
    "Verif.Pool.C104_freed_once"
   ],
   "note": "All but the claim on blocks without conditions; C104_freed assumes that push_back of the list of blocks does not throw. `_violated`: when it does, the block is never given back; when insert into the set throws, the room for the string stays taken. The std::set is a list searched for an equal string."
  },
  {
   "property": "C105",
   "status": "partial",
   "theorems": [
    "Verif.Any.C105_moved_violated",
    "Verif.Any.C105_total",
    "Verif.Any.C105_cast",
    "Verif.Any.C105_equals",
    "Verif.Any.C105_moved",
    "Verif.Any.C105_scope"
   ],
   "note": "Proved for programs in which assign(T) does not throw (see C106). `_violated`: a moved-from object of a type stored on the heap cannot be copied, compared or cast."
  },
  {
   "property": "C106",
   "status": "partial",
   "theorems": [
    "Verif.Any.C106_assign_throws_violated",
    "Verif.Any.C106_leak_violated",
    "Verif.Any.C106_owned",
    "Verif.Any.C106_no_leak",
    "Verif.Any.C106_small"
   ],
   "note": "`_violated`: assign(T) destructs the old value before it allocates, so when the allocation throws the object is destructed again at the end of its scope; when moving the value to the heap throws, the memory is leaked."
  },
  {
   "property": "C107",
   "status": "partial",
   "theorems": [
    "Verif.Any.Promote.C107_store",
    "Verif.Any.Promote.C107_cast",
    "Verif.Any.Promote.C107_roundtrip",
    "Verif.Any.Promote.C107_equal",
    "Verif.Any.Promote.C107_long_violated",
    "Verif.Any.Promote.C107_narrow_violated"
   ],
   "note": "Conversions to double and float are any functions that give a representable value back as it is. `_violated`: 8- and 1-byte integers are not numbers of this kind (cast<int> or cast<double> throw, they are not equal to the same int); asking for a type that does not have the number is undefined."
  },
  {
   "property": "C108",
   "status": "proved",
   "theorems": [
    "Verif.Layout.C108_lookup",
    "Verif.Layout.C108_unique"
   ],
   "note": "lookup in the sorted table; unstable sorting covered by taking every sorted permutation"
  },
  {
   "property": "C109",
   "status": "partial",
   "theorems": [
    "Verif.Layout.C109_apply",
    "Verif.Layout.C109_balance_violated",
    "Verif.Layout.C109_spacing_violated",
    "Verif.Layout.C109_margin_violated",
    "Verif.Layout.C109_atomic_violated"
   ],
   "note": "C109_apply covers all well typed parameters; the statement fails for: balanced baselines in a row without a mask (not suppressed), spacing: [] followed by a number, margin arrays with less than 4 elements (out of range), and errors of type (attributes half changed)"
  },
  {
   "property": "C110",
   "status": "partial",
   "theorems": [
    "Verif.Layout.C110_variables",
    "Verif.Layout.C110_variables_violated"
   ],
   "note": "not defined before bind_layout or apply_layout_parameters has been called (null table): C110_variables_violated"
  },
  {
   "property": "C111",
   "status": "partial",
   "theorems": [
    "Verif.ErrFmt.C111_snippet_partial",
    "Verif.ErrFmt.C111_left",
    "Verif.ErrFmt.C111_column_violated",
    "Verif.ErrFmt.C111_unknown_violated",
    "Verif.ErrFmt.C111_report",
    "Verif.ErrFmt.C111_other",
    "Verif.ErrFmt.C111_memory_violated"
   ],
   "note": "proved: lines, order, and that the caret is under the column before the reported one (or the first character, in the blanks). The statement fails: the caret is one column left of the reported column; without a position the blanks are subtracted twice; if there is no memory for the position the report reads the first of no positions"
  },
  {
   "property": "C112",
   "status": "proved",
   "theorems": [
    "Verif.ErrFmt.C112_get_line",
    "Verif.ErrFmt.C112_unique",
    "Verif.ErrFmt.C112_agree"
   ],
   "note": "first line characterised, and unique (C112_unique)"
  },
  {
   "property": "C113",
   "status": "partial",
   "theorems": [
    "Verif.ExtModel.C113_run",
    "Verif.ExtModel.C113_safe",
    "Verif.ExtModel.C113_apart",
    "Verif.ExtModel.C113_set_violated"
   ],
   "note": "set on a cell without a model monitor calls an empty function, bad_function_call (C113_set_violated); monitors that call back are not modelled"
  },
  {
   "property": "C114",
   "status": "proved",
   "theorems": [
    "Verif.Adam.C114_expression_program",
    "Verif.Adam.C114_cell_values"
   ],
   "note": "Nothing is claimed where the meaning of the text is undefined (conversion of a number that does not fit, % by zero, shift by 32 or more)."
  },
  {
   "property": "C115",
   "status": "partial",
   "theorems": [
    "Verif.Adam.C115_monitor_violated",
    "Verif.Adam.C115_removed_violated",
    "Verif.Adam.C115_report",
    "Verif.Adam.C115_report_all",
    "Verif.Adam.C115_report_to_cell",
    "Verif.Adam.C115_mark_and_report",
    "Verif.Adam.C115_nothing_new",
    "Verif.Adam.C115_report_twice",
    "Verif.Adam.C115_monitor_partial"
   ],
   "note": "Reports proved in full.  Partial for monitors: the notification runs before the update assigns priority_accessed_m, so the touched cells of a monitor's report are those of the previous update (C115_monitor_violated).  C115_removed_violated: the comment of contributing_set promises touched values whenever the set of contributing values changed; removals are not noticed."
  },
  {
   "property": "C116",
   "status": "partial",
   "theorems": [
    "Verif.Adam.C116_unread_cell_violated",
    "Verif.Adam.C116_order_violated",
    "Verif.Adam.C116_set_report",
    "Verif.Adam.C116_restore_partial",
    "Verif.Adam.C116_restore_without_relations_partial"
   ],
   "note": "Proved when the relations are directed in the same way in both instances, in particular for sheets without relations, if the update did not change the reported values.  False in general: a cell that was not read may win against another one (C116_unread_cell_violated), and the order in which the dictionary is set decides between unlinked cells (C116_order_violated)."
  },
  {
   "property": "C117",
   "status": "partial",
   "theorems": [
    "Verif.Adam.C117_silence_violated",
    "Verif.Adam.C117_initial",
    "Verif.Adam.C117_told_is_right",
    "Verif.Adam.C117_silence_partial"
   ],
   "note": "Silence is right only if the value of the cell was accessed as in the update before or no touched cell had its priority accessed: changes of value_accessed_m are not noticed (C117_silence_violated, also the REVISIT comment in the code)."
  },
  {
   "property": "C118",
   "status": "partial",
   "theorems": [
    "Verif.Poly.C118_total",
    "Verif.Poly.C118_cast",
    "Verif.Poly.C118_equals",
    "Verif.Poly.C118_moved",
    "Verif.Poly.C118_scope",
    "Verif.Poly.C118_owned",
    "Verif.Poly.C118_no_leak",
    "Verif.Poly.C118_small",
    "Verif.Poly.C118_moved_violated"
   ],
   "note": "All of it is proved for variables that hold values and for moved-from variables that are destroyed, moved, swapped or assigned with operator=. The last sentence fails: C118_moved_violated shows that assign(v) of a value of the type that a moved-from variable had (on the heap) dereferences a null pointer, as do copying, comparing and casting it."
  },
  {
   "property": "C119",
   "status": "partial",
   "theorems": [
    "Verif.XString.C119_best",
    "Verif.XString.C119_replace_id",
    "Verif.XString.C119_replace_xstr_partial",
    "Verif.XString.C119_empty_element_violated",
    "Verif.XString.C119_first_id_violated"
   ],
   "note": "C119_replace_id, C119_best: full statement for ids. Partial: markers contain plain text only (a marker inside of a replacement is replaced again, possibly without end); xstring_replace with an xstring is proved for texts with one outermost xstr element, since otherwise the code takes the last id, not the first (C119_first_id_violated). Elements without content in an entry are lost (C119_empty_element_violated)."
  },
  {
   "property": "C120",
   "status": "partial",
   "theorems": [
    "Verif.XString.C120_multimap",
    "Verif.XString.C120_glossary_partial",
    "Verif.XString.C120_lookup_partial",
    "Verif.XString.C120_lookup_violated",
    "Verif.XString.C120_context",
    "Verif.XString.C120_context_attributes",
    "Verif.XString.C120_duplicate_violated",
    "Verif.XString.C120_throw_violated",
    "Verif.XString.C120_slurp_violated"
   ],
   "note": "Partial: contents of xstr elements have no comments and are not empty; xstring without an element handler. Violated: the lookup never uses the glossary or the context (C120_lookup_violated; closest_match is disabled); duplicates are recognized by address only (C120_duplicate_violated); a constructor that throws leaves its changes (C120_throw_violated); the text of a context stays with the frame and is deleted at the end of the thread (C120_slurp_violated)."
  },
  {
   "property": "C121",
   "status": "partial",
   "theorems": [
    "Verif.Script.C121_javascript",
    "Verif.Script.C121_pdf",
    "Verif.Script.C121_integer",
    "Verif.Script.C121_large_violated"
   ],
   "note": "Layout proved for every value whose numbers fit in 64 bits. Violated for the others: the number is converted to int64_t before anything is looked at, which is undefined for large numbers, infinities and NaN (C121_large_violated). The text of a double that is not an integer is a parameter."
  },
  {
   "property": "C122",
   "status": "partial",
   "theorems": [
    "Verif.Script.C122_javascript_partial",
    "Verif.Script.C122_pdf_partial",
    "Verif.Script.C122_integers",
    "Verif.Script.C122_apostrophe_violated",
    "Verif.Script.C122_parenthesis_violated",
    "Verif.Script.C122_foreign_violated"
   ],
   "note": "Proved for values whose strings and names have no apostrophe and whose keys have no colon (PDF: strings with balanced parentheses, names without blanks and line ends), with numbers that are told by their texts (C122_integers: all 64-bit integers) and without foreign types. Violated otherwise: strings are not escaped (C122_apostrophe_violated, C122_parenthesis_violated), and a foreign value looks like a string (C122_foreign_violated)."
  },
  {
   "property": "C123",
   "status": "proved",
   "theorems": [
    "Verif.ToStr.C123_length"
   ],
   "note": "For every finite double; snprintf %.*g is modelled after the C standard."
  },
  {
   "property": "C124",
   "status": "proved",
   "theorems": [
    "Verif.ToStr.C124_precise_round_trip"
   ],
   "note": "For every finite double, subnormals included, and any tie breaking; overflow is excluded because the nearest number is sought without an upper bound on the exponent."
  },
  {
   "property": "C125",
   "status": "partial",
   "theorems": [
    "Verif.ToStr.C125_subnormal_violated",
    "Verif.ToStr.C125_decimal_round_trip_partial",
    "Verif.ToStr.C125_text_round_trip_partial"
   ],
   "note": "Proved for zero and for the range of normal numbers; false below it: 5e-324 is written as 4.94065645841247e-324 (C125_subnormal_violated)."
  },
  {
   "property": "C126",
   "status": "partial",
   "theorems": [
    "Verif.ToStr.C126_round_trip_partial",
    "Verif.ToStr.C126_fraction_violated",
    "Verif.ToStr.C126_sign_violated"
   ],
   "note": "Proved for integral numbers and positive ones with a small fraction; false otherwise: 0.3 and 0.1+0.2 have the same text (C126_fraction_violated), and the text of -2^-30 has fewer digits than that of 2^-30, since log10 of a negative fraction is NaN (C126_sign_violated)."
  },
  {
   "property": "C127",
   "status": "partial",
   "theorems": [
    "Verif.ToStr.C127_number",
    "Verif.ToStr.C127_stable_partial",
    "Verif.ToStr.C127_same_text_violated",
    "Verif.ToStr.C127_overflow_violated"
   ],
   "note": "Every number text is RFC 8259; the text is stable under parsing and generating for numbers neither very small nor very large. Different doubles may have the same text (C127_same_text_violated), and the text of DBL_MAX denotes a number beyond the range of double (C127_overflow_violated)."
  },
  {
   "property": "C128",
   "status": "proved",
   "theorems": [
    "Verif.Eve.C128_adjust_remembers",
    "Verif.Eve.C128_evaluate_forgets"
   ],
   "note": "Proved for evaluate: same outcome (result, error) for every history. Conditions (Fresh): the views start without stored guides, only containers have children, a container's child alignment is not `default`, and what a two-pass placeable computes does not depend on the stale vertical place it is also handed. adjust() alone does remember: C128_adjust_remembers shows that the horizontal outsets of a container only grow across adjust() calls (source/eve.cpp:773,781,820,828), so evaluate+adjust, the documented way to resize, gives another outset than evaluate. Adding, removing and re-attributing views between layouts is not modelled."
  },
  {
   "property": "C129",
   "status": "proved",
   "theorems": [
    "Verif.Iter.C129_segmented_walk",
    "Verif.Iter.C129_segmented_equal",
    "Verif.Iter.C129_segmented_traversal",
    "Verif.Iter.C129_segmented_empty"
   ],
   "note": "Proved. Not modelled: assignment and swap of segmented iterators, which do not compile when they are used (adobe/iterator.hpp:157 names `curent_m`), and segments which change while they are walked over."
  },
  {
   "property": "C130",
   "status": "proved",
   "theorems": [
    "Verif.Iter.C130_mismatch_random",
    "Verif.Iter.C130_mismatch_input"
   ],
   "note": "Proved, for element types whose operator== is equality."
  },
  {
   "property": "C131",
   "status": "partial",
   "theorems": [
    "Verif.Iter.C131_index_advance",
    "Verif.Iter.C131_index_distance",
    "Verif.Iter.C131_index_distance_partial",
    "Verif.Iter.C131_index_distance_violated"
   ],
   "note": "Partial: the distance is defined and right for indices below 2^63 (C131_index_distance_partial) and right wherever it is defined (C131_index_distance), but between indices on the two sides of 2^63 the signed subtraction overflows (C131_index_distance_violated), as the comment in the source admits. Index type std::size_t of 64 bits, difference type std::ptrdiff_t."
  },
  {
   "property": "C132",
   "status": "proved",
   "theorems": [
    "Verif.Iter.C132_max_adjacent_difference",
    "Verif.Iter.C132_max_adjacent_difference_short"
   ],
   "note": "Proved for integers without overflow of the differences."
  },
  {
   "property": "C133",
   "status": "proved",
   "theorems": [
    "Verif.Bind.C133_cells",
    "Verif.Bind.C133_appends",
    "Verif.Bind.C133_twice",
    "Verif.Bind.C133_start_values",
    "Verif.Bind.C133_accepts_iff",
    "Verif.Bind.C133_reachable"
   ],
   "note": "The parser, the compiler of expressions and the sheet are the models of C76, C46 and C01. The meaning of an array of code is a parameter, so nothing depends on it. C133_reachable assumes that no name is twice on the left of one relation. Comments and line positions are dropped."
  },
  {
   "property": "C134",
   "status": "partial",
   "theorems": [
    "Verif.Bind.C134_accepts_partial",
    "Verif.Bind.C134_layout_partial"
   ],
   "note": "Partial: layouts with a relation of more than two relate expressions are left out, because the parser confuses the names of the third (C78). Views made before an exception are not in the model's result. Positions of views are their numbers."
  }
 ]
}