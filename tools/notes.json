{
 "C01": {
  "note": "lower_bound_n/upper_bound_n loops over every length; out-of-range reads are a distinct outcome and proved not to happen."
 },
 "C02": {
  "note": "equal_range_n equals (lower_bound, upper_bound), by loop invariant."
 },
 "C03": {
  "note": "The full statement is false of the code (binary_search tests == instead of equivalence): C03_binary_search_violated gives the witness; the partial theorem holds when == coincides with equivalence."
 },
 "C04": {
  "note": "select_* decision trees over every strict weak order."
 },
 "C05": {
  "note": "std::reverse modelled by its contract."
 },
 "C06": {
  "note": "std::stable_partition modelled by its contract."
 },
 "C11": {
  "note": "Refinement to a bounded queue over every history of push/pop/clear."
 },
 "C12": {
  "note": "putback restores exactly the popped elements, for every queue and number of pops."
 },
 "C13": {
  "note": "False as stated: copying a full queue copies an empty range and both end pointers coincide (violated theorems give witnesses, for every full queue); proved for non-full queues. Comparing empty queues reads element 0 (violated)."
 },
 "C14": {
  "note": "union/intersection/symmetric difference/invert/operation pointwise on every index, all boundary lists."
 },
 "C15": {
  "note": "selection_difference passes its arguments reversed in one case: false as stated (witness), partial form proved."
 },
 "C16": {
  "note": "selection_includes is boundary-list inclusion, not set inclusion: witness of the violation and the true part."
 },
 "C17": {
  "note": "index sets and selections agree on every index."
 },
 "C18": {
  "note": "selection_copy, foreach, size, partition_copy, stable_partition(_about)."
 },
 "C19": {
  "note": "Different boundary lists can denote the same set (trailing boundary past the range, repeated boundary): violated; normal forms proved equal iff same set."
 },
 "C25": {
  "note": "Every sequence of scalar values, every length."
 },
 "C26": {
  "note": "All width pairs, every sequence of scalar values."
 },
 "C27": {
  "note": "Never reads past the end: proved for every input. Termination and the expansion bound are false in release builds (byte >= 0xF8 never advances; lone lead surrogate uses an uninitialised value), proved for all other inputs and for every input in debug builds."
 },
 "C07": {
  "note": "Refinement of the node-and-link model (free/used rings, home/misplaced states, relocation, growth, copy) to a unique-key container for every history of any length and every hash function; find(k) = last value stored and not erased since. A history can fail only at an operation that needs more than 2874713497 nodes (C07_no_failure), and there it does (C07_limit: ULONG_MAX table entry, size wraparound)."
 },
 "C08": {
  "note": "Every reachable state; iteration terminates, distinct keys, size = number visited <= capacity."
 },
 "C09": {
  "note": "Every reachable state and valid position; also the erase-while-iterating loop and clear()."
 },
 "C10": {
  "note": "For every pair of histories; == of values assumed to be equality for the iff."
 },
 "C40": {
  "note": "Model steps that construct over a live value, or destroy/read a dead one, have no result; C07_history shows results always exist, C40_destructor that the destructor leaves no value."
 },
 "C20": {
  "note": "Reach/AStep (History.lean) give the meaning of client programs over any number of forests in terms of plain tree edits; C20_history proves every call agrees with it (termination, result, heap), C20_traversal/values/positions say what is observed. Self-assignment, self-splice into the own moved range and exceptions from value copies are outside."
 },
 "C21": {
  "note": "for every reachable state and every iterator position."
 },
 "C22": {
  "note": "lazy cache modelled (size_m, size_valid); for every reachable state over any number of forests."
 },
 "C23": {
  "note": "copy construction and operator== (parametric in == of values); copy assignment is covered by C20_history."
 },
 "C24": {
  "note": "preorder, postorder, child_range, has_children, find_parent, depth_range, reverse_fullorder_range, filter_fullorder_range."
 },
 "C41": {
  "note": "false in general: C41_reverse_violated shows a reachable forest on which reverse of the first two of three siblings destroys the list (the node after the range keeps its backward link). Proved when the range extends to the last sibling or has at most one tree.",
  "status": "partial"
 },
 "C28": {
  "note": "any split into updates, any initial buffer content, lengths modulo 2^64 bits; compression and constants equal the RFC's, spec written from the RFC."
 },
 "C29": {
  "note": "final resets; a reused object behaves as a new one."
 },
 "C30": {
  "note": "any history of updates with whole bytes and finalize calls, all five variants; spec written from FIPS 180-4 including the definition of the constants by roots of primes."
 },
 "C42": {
  "note": "false in general: the code does not mask the unused bits of the last byte (C42_unused_bits_violated); proved when they are zero.",
  "status": "partial"
 },
 "C43": {
  "note": "for every word width of whole bytes."
 },
 "C34": {
  "note": "Hypotheses: == of the value type is reflexive and < irreflexive (operator== and operator< compare pointers first). Atomic counts are sequentially consistent and do not overflow; the client stores one value through the reference that write() returns before its next operation on that handle; a handle is used by one thread at a time. Concurrent model with arbitrary interleavings, address reuse and exceptions."
 },
 "C35": {
  "note": "allocated iff referenced or being freed by exactly one thread; counts are the number of references; a thread about to store is the only holder; no leak when all handles are gone. Not modelled: a throwing copy constructor makes `allocate` call get_allocator() on the unconstructed block (copy_on_write.hpp:272), harmless for stateless allocators only."
 },
 "C36": {
  "note": "The property as stated is FALSE of the code and C36_collision_violated proves it: names are looked up by 64 bit hash only; wg0ikmzrgv44k and ay1xpg4wc1tig collide. C36_exact gives the exact behaviour for every history (first request with a hash wins); C36_equal_iff_partial is the property under the hypothesis that no two requested strings have equal hashes. C36_stable (characters never change), C36_order_consistent (== and < agree) hold without it. C36_literal_nul_violated: literals with embedded NUL.",
  "status": "partial"
 },
 "C37": {
  "note": "Every width 1..1024, constants included (offset basis = FNV-0 of the signature line, checked in the kernel). For signed char ranges with bytes >= 0x80 the result is not FNV-1a: C37_signed_char_violated."
 },
 "C31": {
  "note": "Numbers are parametric: to_string(double)/strtod are hypotheses of Storable. C31_nul_in_name_violated shows that the condition on names is needed.",
  "status": "proved"
 },
 "C32": {
  "note": "Proved for all texts whose escapes are simple ones or \\uXXXX outside of the surrogate range. For surrogate pairs the claim is false of the code (C32_surrogate_pair_violated: a valid pair is refused; C32_pair_value_violated: the accepted form denotes another character)."
 },
 "C33": {
  "note": "Proved for inputs that do not end with true/false/null; termination for all inputs. False for `[true` (C33_constant_at_end_violated): is_sequence compares the terminator of the constant with the terminator of the input and goes on."
 },
 "C44": {
  "note": "Sound and complete for the grammar Spec.Text with the escapes that the library takes (Spec.Taken); C44_rfc_grammar_violated shows that these differ from RFC 8259.",
  "status": "proved"
 },
 "C38": {
  "note": "Proved for the pointer-level model; equality of the entire state (all link functions, sizes, colours, flags). Precondition Problem.Valid = documented preconditions (no node twice, colours not negative, only secondary columns coloured)."
 },
 "C39": {
  "note": "Sound, complete, without repetition, in full. The limit 0 is not respected (C39_limit_zero_violated: a solution is reported before the limit is looked at). Rows without a node in a primary column are never part of a solution (spec: useful)."
 },
 "C45": {
  "note": "Tokens are the model's input (lexer separate); recursion depth is a fuel parameter proved never to matter."
 },
 "C46": {
  "note": "Only operators with two evaluated operands may be overridden (overriding others breaks the stack in the code). Conversions double->int outside the target range, % 0 and shifts >= 32 are undefined in C++ and are a distinct outcome. Arithmetic on double is a parameter."
 },
 "C47": {
  "note": "Lexer model includes the character putback stack (overflow is undefined behaviour), the token ring buffer of capacity 2 (the CircularQueue model) and all scanning functions."
 },
 "C48": {
  "note": "Classification of characters is that of the C locale; conversion of decimal digits to double is a parameter. Quirks in the code are part of the grammar: a lone quote at the end of the text is an empty string, 1.2.3 is one number token, strings and comments are cut at NUL, hexadecimal numbers wrap at 64 bits."
 },
 "C49": {
  "note": "Offset: proved for all texts (C49_offset). Line number and line start: proved for texts without NUL whose strings contain no line end; violated otherwise, line ends inside strings are not counted (C49_line_numbers_violated)."
 },
 "C50": {
  "note": "Composition of C45, C46, C48. The parser model reads the list of tokens; that get/putback deliver that list is C47."
 },
 "C51": {
  "note": "Reachable: any sequence of successful add_*/set/touch/reinitialize/update calls (plus failed updates that leave nothing on the evaluation stack), proper relations. Expressions are arbitrary interaction trees (Prog), so every evaluator that reads variables and computes is covered. Hypotheses: conditionals evaluate without going through relations (CondOk), the outputs are defined without circularity (Sensible)."
 },
 "C52": {
  "note": "Proper relations: at least two terms, no repeated cell."
 },
 "C53": {
  "note": "Proved for non-circular sheets; circular definitions through a logic cell are not detected and give order-dependent values (C53_circular_definitions_violated)."
 },
 "C54": {
  "note": "Interface cells without an expression of their own."
 },
 "C57": {
  "note": "With unchanged priorities, and changed cells not read by conditionals (these are reported as contributors of every cell by the code)."
 },
 "C60": {
  "note": "C60_failed_update_partial covers every exception except one thrown by an interface cell evaluated directly by update; that case is false: C60_failed_update_violated."
 },
 "C61": {
  "note": "Proved for initializers reading inputs and constants; C61_reinitialize_violated shows the dependence on hash order otherwise."
 },
 "C62": {
  "note": "Proved for arrangements in which each child has an alignment and a nonnegative measure and, along the direction, no balancing, no negative spacing, no guided leaf that is aligned in reverse or follows a child taking additional space, and, across, no reverse fill. The _violated theorems show that the code does break containment outside of these.",
  "status": "partial"
 },
 "C63": {
  "note": "Same sanity conditions as C62; natural length is the length the solver settled on."
 },
 "C64": {
  "note": "The hypothesis that the solver finishes (its last pass makes no progress) is assumed, not proved; no balancing; along the direction only up to the first child that takes additional space.",
  "status": "partial"
 },
 "C66": {
  "note": "Across the direction for all children; along the direction only for the first child (leading side) and the last (trailing side): the code looks at no others, and C66_outsets_cover_violated is a row whose middle child sticks out. C66_outsets_tight: after measuring, an outset is exactly the measured one or what the first/last child (along) or some child or the frame (across) needs.",
  "status": "partial"
 },
 "C68": {
  "note": "Transition system of all threads; proved for every reachable state. Weak memory and std::future are not modelled.",
  "status": "proved"
 },
 "C70": {
  "note": "The code violates the full statement (C70_suspend_immediate_violated): a task that the queue has already given to the pool starts after suspend has returned. Proved: at most that one, and none when all tasks submitted before have finished; the call must not overlap other suspend/resume calls.",
  "status": "partial"
 },
 "C71": {
  "note": "Proved for a pool with at least one thread; C71_no_thread_violated: with hardware_concurrency() == 0 (allowed by the standard) the pool has no thread and no task runs.",
  "status": "partial"
 },
 "C72": {
  "note": "Transition system with one thread per call.",
  "status": "proved"
 },
 "C73": {
  "note": "Proved: at rest, without exceptions, the number of callbacks that did not run is at most the number of calls of deregister_callback; and the only call of cancel returns after the callbacks have finished. The code violates the full statement: a second, concurrent cancel returns before the callbacks have run (C73_second_cancel_violated); an exception in one callback loses the others (C73_throw_violated).",
  "status": "partial"
 },
 "C74": {
  "note": "Bug: register_callback splices the new callback to the front but returns the address of the last one, so with two callbacks deregistration removes the wrong one (C74_deregister_violated). Proved for the first registration.",
  "status": "partial"
 },
 "C75": {
  "note": "Under sequential consistency (the code reads a volatile bool without the lock).",
  "status": "proved"
 },
 "C76": {
  "note": "The code violates the full statement: comments and `unlink` which precede no declaration are accepted (C76_rejects_others_violated). Proved: termination, completeness for the documented grammar with exact callbacks, and that what is accepted is exactly the grammar with these two additions; the callbacks are exact for both.",
  "status": "partial"
 },
 "C77": {
  "note": "For layouts up to the defect of C78 (third relate expression)."
 },
 "C78": {
  "note": "Bug: eve_parser.cpp:330,333 clears only the expression of the relation which the loop reuses, so the third relate expression of a relation and those which follow are reported with the names (and comments) of earlier ones (C78_reports_exactly_violated). Proved: exact when relations have two relate expressions, and in general up to those names and comments; the additions of C76 are accepted here too.",
  "status": "partial"
 },
 "C79": {
  "note": "The code violates the second half: it does not look at what follows the expression (C79_whole_input_violated). Proved: every expression is accepted with its code; what is returned is the code of an expression with which the argument begins.",
  "status": "partial"
 },
 "C80": {
  "note": "All theorems are about the model of the three function templates; std::vector growth (bad_alloc) is not modelled."
 },
 "C81": {
  "note": "Violated by the code: is_sorted(f,l,o) tests !o(a,b) of neighbours, so with a strict ordering a sorted sequence with equal neighbours is reported as unsorted, while is_sorted(range) (std::is_sorted) accepts it. Proved: the exact condition decided (_partial), correctness for <=, correctness of the range form, projection form, longest prefix."
 },
 "C82": {
  "note": "The content part is proved for both container kinds. The documented number of predicate applications holds for block containers and is violated for node containers (the element that ends a run is tested twice; bound 2n-1 proved as _partial)."
 },
 "C84": {
  "note": "find and operator[] compare the key found with !=, so they are right only for orderings whose equivalence is equality (_partial); C84_find_equivalent_keys_violated shows a sorted table whose key is not found otherwise. equal_range is right for every strict weak ordering."
 },
 "C85": {
  "note": "Violated by the code for every sorted index with more than one distinct key or a repeated smallest key: unique() passes the ordering (less) to std::unique as if it were an equality, so it keeps all rows with the smallest key and drops every other row. Both violations and the exact result (_partial) are proved."
 },
 "C86": {
  "note": "Proved for ASCII strings without NUL (_partial). Violated for every string with a byte >= 0x80 (every non ASCII UTF-8 string): escaping works on bytes, unescaping produces UTF-8 of the byte value; and NUL is dropped. The exact result for every byte string is proved."
 },
 "C87": {
  "note": "The last part is violated: a string with an ampersand and no semicolon after it is reported as not needing unescaping, but entity_unescape silently drops everything from the ampersand on."
 },
 "C88": {
  "note": "Herlihy-Wing linearizability stated on the observed history; lock, test and splice are separate steps so that mutual exclusion is proved. A pop whose assignment to the client's variable throws has taken the element (it is lost): this is part of the specification (`Fits.popThrew`)."
 },
 "C89": {
  "note": "On the bisection model of Search; std::set_union by its standard description."
 },
 "C90": {
  "note": "count_collisions compares the pointers of the values instead of their texts (xml_parser.hpp:399), so equal sets from different places have collisions: C90_count_collisions_violated. Proved for values that are the same range, and as a lower bound in general."
 },
 "C91": {
  "note": "Both directions, for every list of bytes; ranges of tokens and the state after each. The grammar (Spec.Lexeme, Spec.LexError) is stated without the scanning functions."
 },
 "C92": {
  "note": "Proved for the trees of Spec.Content with the semantics Spec.ContentSem. XML that this leaves out is not accepted or silently skipped: text beginning with > or />, processing instructions in content, comments before the root, white space before the first element of a sequence (four violated theorems).",
  "status": "partial"
 },
 "C93": {
  "note": "Proved: the accepted text is a well-formed tree followed by what the parser ignores, and output and calls are those of the tree. The full statement is false: parsing stops silently at a stray end tag, a reference may lack its semicolon at the end, and text before the root element is dropped (three violated theorems).",
  "status": "partial"
 },
 "C94": {
  "note": "C94_ends_partial: linear number of rounds, and undefined behaviour only if the text has an attribute value without its second quote up to the end; C94_overread_violated: then it does read past the end. A client that replaces elements for ever makes the parser run for ever, so that hypothesis is needed.",
  "status": "partial"
 },
 "C95": {
  "note": "C95_copy, C95_verbatim for all texts, with what is copied of end tags (endEcho) made explicit. The full statement is false: white space in an end tag corrupts it in the output, and a leading comment makes the content range of a preorder element begin at the null pointer (two violated theorems).",
  "status": "partial"
 },
 "C96": {
  "note": "Proved for every value. `_violated`: after `end_asl_cel` the formatter stays installed in the stream; the next `any_regular_t` is swallowed silently (the `range_error` of `stack_n` is caught by the manipulator and dropped), the ones after it are printed with commas between them.",
  "status": "partial"
 },
 "C97": {
  "note": "Proved for values whose names are identifiers, whose keys are not keywords, whose numbers are printed without exponent, and whose strings are ASCII without NUL (unsafe: without quotes and NUL). `_violated`: 100000 is printed as `1e+05` and read as 1 with the rest left over; NaN and the infinities are read as variables; bytes from 128 on are doubled, NUL is lost; a final quote is dropped silently in unsafe mode; a dictionary with a keyword as key is rejected.",
  "status": "partial"
 },
 "C98": {
  "note": "Everything is proved for well-formed texts; the last part is violated by the code (C98_unchecked_violated, C98_accepts_violated): the result of sscanf is ignored.",
  "status": "partial"
 },
 "C99": {
  "note": "Proved."
 },
 "C100": {
  "note": "Proved for names of fewer than 65536 bytes; the code violates it for longer ones (C100_long_name_violated): the length is cut to 16 bits.",
  "status": "partial"
 },
 "C101": {
  "note": "Proved for one thread and fewer than 2^30 zuids, and for any threads and fewer than 2^16; version, variant and nodes without bound. The code violates the unbounded statement: C101_threads_violated (two threads, 65537 zuids), C101_period_violated (2^30).",
  "status": "partial"
 },
 "C102": {
  "note": "The layout is proved in full. The last clause is false (C102_after_end_violated): end_xml does not take the format away, so what is written afterwards is still XML, outside of the root element. The text of a double that is no integer and of a foreign type is a parameter.",
  "status": "partial"
 },
 "C103": {
  "note": "Proved for values whose names are character data, whose strings are ASCII without NUL, whose numbers are read back from what the stream prints for them, and which have no foreign types. `_violated`: names are not escaped (no element with the text stands for a name with `<` or `&`; the parser throws on `a<b`; two different arrays have the same text); bytes from 128 on and NUL are not read back.",
  "status": "partial"
 },
 "C104": {
  "note": "All but the claim on blocks without conditions; C104_freed assumes that push_back of the list of blocks does not throw. `_violated`: when it does, the block is never given back; when insert into the set throws, the room for the string stays taken. The std::set is a list searched for an equal string.",
  "status": "partial"
 },
 "C105": {
  "note": "Proved for programs in which assign(T) does not throw (see C106). `_violated`: a moved-from object of a type stored on the heap cannot be copied, compared or cast.",
  "status": "partial"
 },
 "C106": {
  "note": "`_violated`: assign(T) destructs the old value before it allocates, so when the allocation throws the object is destructed again at the end of its scope; when moving the value to the heap throws, the memory is leaked.",
  "status": "partial"
 },
 "C107": {
  "note": "Conversions to double and float are any functions that give a representable value back as it is. `_violated`: 8- and 1-byte integers are not numbers of this kind (cast<int> or cast<double> throw, they are not equal to the same int); asking for a type that does not have the number is undefined.",
  "status": "partial"
 },
 "C108": {
  "note": "lookup in the sorted table; unstable sorting covered by taking every sorted permutation"
 },
 "C109": {
  "note": "C109_apply covers all well typed parameters; the statement fails for: balanced baselines in a row without a mask (not suppressed), spacing: [] followed by a number, margin arrays with less than 4 elements (out of range), and errors of type (attributes half changed)",
  "status": "partial"
 },
 "C110": {
  "note": "not defined before bind_layout or apply_layout_parameters has been called (null table): C110_variables_violated",
  "status": "partial"
 },
 "C111": {
  "note": "proved: lines, order, and that the caret is under the column before the reported one (or the first character, in the blanks). The statement fails: the caret is one column left of the reported column; without a position the blanks are subtracted twice; if there is no memory for the position the report reads the first of no positions",
  "status": "partial"
 },
 "C112": {
  "note": "first line characterised, and unique (C112_unique)"
 },
 "C113": {
  "note": "set on a cell without a model monitor calls an empty function, bad_function_call (C113_set_violated); monitors that call back are not modelled",
  "status": "partial"
 },
 "C114": {
  "note": "Nothing is claimed where the meaning of the text is undefined (conversion of a number that does not fit, % by zero, shift by 32 or more)."
 },
 "C115": {
  "note": "Reports proved in full.  Partial for monitors: the notification runs before the update assigns priority_accessed_m, so the touched cells of a monitor's report are those of the previous update (C115_monitor_violated).  C115_removed_violated: the comment of contributing_set promises touched values whenever the set of contributing values changed; removals are not noticed.",
  "status": "partial"
 },
 "C116": {
  "note": "Proved when the relations are directed in the same way in both instances, in particular for sheets without relations, if the update did not change the reported values.  False in general: a cell that was not read may win against another one (C116_unread_cell_violated), and the order in which the dictionary is set decides between unlinked cells (C116_order_violated).",
  "status": "partial"
 },
 "C117": {
  "note": "Silence is right only if the value of the cell was accessed as in the update before or no touched cell had its priority accessed: changes of value_accessed_m are not noticed (C117_silence_violated, also the REVISIT comment in the code).",
  "status": "partial"
 },
 "C118": {
  "note": "All of it is proved for variables that hold values and for moved-from variables that are destroyed, moved, swapped or assigned with operator=. The last sentence fails: C118_moved_violated shows that assign(v) of a value of the type that a moved-from variable had (on the heap) dereferences a null pointer, as do copying, comparing and casting it.",
  "status": "partial"
 },
 "C119": {
  "note": "C119_replace_id, C119_best: full statement for ids. Partial: markers contain plain text only (a marker inside of a replacement is replaced again, possibly without end); xstring_replace with an xstring is proved for texts with one outermost xstr element, since otherwise the code takes the last id, not the first (C119_first_id_violated). Elements without content in an entry are lost (C119_empty_element_violated).",
  "status": "partial"
 },
 "C120": {
  "note": "Partial: contents of xstr elements have no comments and are not empty; xstring without an element handler. Violated: the lookup never uses the glossary or the context (C120_lookup_violated; closest_match is disabled); duplicates are recognized by address only (C120_duplicate_violated); a constructor that throws leaves its changes (C120_throw_violated); the text of a context stays with the frame and is deleted at the end of the thread (C120_slurp_violated).",
  "status": "partial"
 },
 "C121": {
  "note": "Layout proved for every value whose numbers fit in 64 bits. Violated for the others: the number is converted to int64_t before anything is looked at, which is undefined for large numbers, infinities and NaN (C121_large_violated). The text of a double that is not an integer is a parameter.",
  "status": "partial"
 },
 "C122": {
  "note": "Proved for values whose strings and names have no apostrophe and whose keys have no colon (PDF: strings with balanced parentheses, names without blanks and line ends), with numbers that are told by their texts (C122_integers: all 64-bit integers) and without foreign types. Violated otherwise: strings are not escaped (C122_apostrophe_violated, C122_parenthesis_violated), and a foreign value looks like a string (C122_foreign_violated).",
  "status": "partial"
 },
 "C123": {
  "note": "For every finite double; snprintf %.*g is modelled after the C standard.",
  "status": "proved"
 },
 "C124": {
  "note": "For every finite double, subnormals included, and any tie breaking; overflow is excluded because the nearest number is sought without an upper bound on the exponent.",
  "status": "proved"
 },
 "C125": {
  "note": "Proved for zero and for the range of normal numbers; false below it: 5e-324 is written as 4.94065645841247e-324 (C125_subnormal_violated).",
  "status": "partial"
 },
 "C126": {
  "note": "Proved for integral numbers and positive ones with a small fraction; false otherwise: 0.3 and 0.1+0.2 have the same text (C126_fraction_violated), and the text of -2^-30 has fewer digits than that of 2^-30, since log10 of a negative fraction is NaN (C126_sign_violated).",
  "status": "partial"
 },
 "C127": {
  "note": "Every number text is RFC 8259; the text is stable under parsing and generating for numbers neither very small nor very large. Different doubles may have the same text (C127_same_text_violated), and the text of DBL_MAX denotes a number beyond the range of double (C127_overflow_violated).",
  "status": "partial"
 },
 "C128": {
  "note": "Proved for evaluate: same outcome (result, error) for every history. Conditions (Fresh): the views start without stored guides, only containers have children, a container's child alignment is not `default`, and what a two-pass placeable computes does not depend on the stale vertical place it is also handed. adjust() alone does remember: C128_adjust_remembers shows that the horizontal outsets of a container only grow across adjust() calls (source/eve.cpp:773,781,820,828), so evaluate+adjust, the documented way to resize, gives another outset than evaluate. Adding, removing and re-attributing views between layouts is not modelled."
 },
 "C129": {
  "note": "Proved. Not modelled: assignment and swap of segmented iterators, which do not compile when they are used (adobe/iterator.hpp:157 names `curent_m`), and segments which change while they are walked over."
 },
 "C130": {
  "note": "Proved, for element types whose operator== is equality."
 },
 "C131": {
  "note": "Partial: the distance is defined and right for indices below 2^63 (C131_index_distance_partial) and right wherever it is defined (C131_index_distance), but between indices on the two sides of 2^63 the signed subtraction overflows (C131_index_distance_violated), as the comment in the source admits. Index type std::size_t of 64 bits, difference type std::ptrdiff_t.",
  "status": "partial"
 },
 "C132": {
  "note": "Proved for integers without overflow of the differences."
 },
 "C133": {
  "note": "The parser, the compiler of expressions and the sheet are the models of C76, C46 and C01. The meaning of an array of code is a parameter, so nothing depends on it. C133_reachable assumes that no name is twice on the left of one relation. Comments and line positions are dropped.",
  "status": "proved"
 },
 "C134": {
  "note": "Partial: layouts with a relation of more than two relate expressions are left out, because the parser confuses the names of the third (C78). Views made before an exception are not in the model's result. Positions of views are their numbers.",
  "status": "partial"
 }
}