{"id": "C01", "title": "lower_bound_n / upper_bound_n return the partition point", "statement": "For any range in which the projected elements are partitioned with respect to the searched value, lower_bound_n returns the first position whose projected element is not less than x, and upper_bound_n the first position whose projected element is greater than x; no position outside the range is ever dereferenced.", "quantifier": "every range (any length), every comparator/projection pair that partitions it, every searched value", "why_tests_cant": "the number of (range, comparator, projection, value) combinations is unbounded; off-by-one errors in halving only show for particular lengths", "anchors": ["adobe/algorithm/lower_bound.hpp: lower_bound_n_", "adobe/algorithm/upper_bound.hpp: upper_bound_n"]}
{"id": "C02", "title": "equal_range_n is exactly the pair of lower and upper bounds", "statement": "On a sorted range equal_range_n returns (lower_bound, upper_bound); the returned sub-range contains exactly the elements equivalent to x.", "quantifier": "every sorted range, strict weak order and value", "why_tests_cant": "infinitely many ranges; the early exit inside the loop combines two sub-searches", "anchors": ["adobe/algorithm/equal_range.hpp: equal_range_n"]}
{"id": "C03", "title": "binary_search finds an element iff an equivalent one is present", "statement": "On a sorted range binary_search returns an iterator to an element equivalent to x when one exists, and the end iterator otherwise. What it finds is equal to x and the first element not ordered before x. is_member says whether a sorted range has an element equivalent to x.", "quantifier": "every sorted range and value", "why_tests_cant": "unbounded domain", "anchors": ["adobe/algorithm/binary_search.hpp", "adobe/functional/is_member.hpp"]}
{"id": "C04", "title": "clamp, median, min and max return the documented order statistic", "statement": "min/max/median/clamp return the argument at the documented rank of the stable order; clamp(x,lo,hi) with lo<=hi lies in [lo,hi], equals x when x is inside, and median does not depend on the order of distinct arguments.", "quantifier": "every element type with a strict weak order, all triples", "why_tests_cant": "the order is arbitrary; equivalence but not equality matters for stability", "anchors": ["adobe/algorithm/select.hpp", "adobe/algorithm/clamp.hpp", "adobe/algorithm/median.hpp", "adobe/algorithm/minmax.hpp"]}
{"id": "C05", "title": "rotate exchanges two adjacent blocks and reports the meeting pair", "statement": "rotate(f,m,l) leaves [m,l) followed by [f,m), touches nothing outside, and the returned pair lets the caller recover the new position of the old first element (other_of).", "quantifier": "every range and every split point", "why_tests_cant": "the reversed-until bookkeeping differs in the three cases left shorter / equal / longer", "anchors": ["adobe/algorithm/rotate.hpp: rotate", "adobe/algorithm/reverse.hpp: reverse_until", "adobe/algorithm/other_of.hpp"]}
{"id": "C06", "title": "gather collects the selected elements stably around the pivot", "statement": "gather(first,last,pivot,pred) permutes the range so that all elements satisfying pred form one contiguous run around the pivot, preserving relative order of satisfying and of non-satisfying elements, and returns exactly that run.", "quantifier": "every range, pivot and predicate", "why_tests_cant": "unbounded domain", "anchors": ["adobe/algorithm/gather.hpp: gather"]}
{"id": "C07", "title": "closed_hash_set behaves as a finite map from keys to values under every history", "statement": "After any sequence of insert, erase(key), erase(iterator), clear, reserve and copy, find(k)/count(k) report exactly the last value inserted with key k and not erased since; the result is independent of the hash function. A history can only fail at an operation that needs a table of more than 2874713497 nodes, the largest usable entry of the table of primes.", "quantifier": "every operation history of any length, every hash function (including constant and adversarial ones), every key equality that is an equivalence compatible with the hash", "why_tests_cant": "collision chains, relocation of misplaced nodes and growth interact; histories are unbounded and the hash is a parameter", "anchors": ["adobe/closed_hash.hpp: closed_hash_set::insert, find, erase, reserve, clear"]}
{"id": "C08", "title": "closed_hash_set iteration visits every element exactly once and size() counts them", "statement": "In every reachable state, iterating begin()..end() visits each stored element exactly once, keys are pairwise inequivalent, size() is the number of elements visited and never exceeds capacity().", "quantifier": "every reachable state", "why_tests_cant": "needs an invariant over the intrusive linked lists, not a sample", "anchors": ["adobe/closed_hash.hpp: begin, end, size, capacity, insert_raw, erase_raw"]}
{"id": "C09", "title": "closed_hash_set erase(iterator) removes exactly one element and returns where to continue", "statement": "erase(it) removes the element at it and no other, keeps every remaining element findable, and returns an iterator from which continued iteration visits exactly the elements that had not yet been visited.", "quantifier": "every reachable state and every valid iterator", "why_tests_cant": "erasing a home node moves its successor into its slot; only some layouts exercise it", "anchors": ["adobe/closed_hash.hpp: erase(iterator), clear"]}
{"id": "C10", "title": "closed_hash_set equality is content equality", "statement": "x == y iff both hold the same key/value associations, whatever the insertion order, erase history and capacities; == is an equivalence relation.", "quantifier": "all pairs of reachable sets", "why_tests_cant": "pairs of histories", "anchors": ["adobe/closed_hash.hpp: operator=="]}
{"id": "C11", "title": "circular_queue is a bounded FIFO that drops the oldest element when full", "statement": "Under every sequence of push_back / pop_front / clear, front(), size(), empty() and full() agree with a bounded queue which discards its oldest element on overflow.", "quantifier": "every capacity >= 1 and every history", "why_tests_cant": "wrap-around positions depend on the whole history", "anchors": ["adobe/circular_queue.hpp: push_back, pop_front, size, front, full, clear"]}
{"id": "C12", "title": "circular_queue putback undoes pop_front", "statement": "As long as the queue is not full and no more putbacks than pops were made since the last push, putback restores the most recently popped element at the front and size() grows by one.", "quantifier": "every reachable state, any number of consecutive pops then putbacks", "why_tests_cant": "history dependent", "anchors": ["adobe/circular_queue.hpp: putback"]}
{"id": "C13", "title": "circular_queue copies are equal to and behave as the original", "statement": "A copy of a queue compares equal to it and every later operation sequence gives the same observations on both.", "quantifier": "every reachable state (including full queues) and every later history", "why_tests_cant": "a copy of a full queue differs only in a one-past-the-end position that is observed by the next push", "anchors": ["adobe/circular_queue.hpp: circular_queue(const circular_queue&), operator=="]}
{"id": "C14", "title": "Selection union / intersection / symmetric difference are pointwise boolean operations", "statement": "For every index i, i is selected in the result of a selection operation iff the boolean operation holds of its membership in the operands; the result's boundaries are strictly increasing.", "quantifier": "all pairs of well-formed selections (both starting polarities) and every index", "why_tests_cant": "infinitely many boundary interleavings", "anchors": ["adobe/algorithm/selection_algorithms.hpp: selection_operation, selection_operation_remainder, selection_union, selection_intersection, selection_symmetric_difference"]}
{"id": "C15", "title": "Selection difference is pointwise x and not y", "statement": "selection_difference(x,y) selects i iff x selects i and y does not.", "quantifier": "all pairs of well-formed selections, every index", "why_tests_cant": "polarity cases times boundary interleavings", "anchors": ["adobe/algorithm/selection_algorithms.hpp: selection_difference"]}
{"id": "C16", "title": "selection_includes decides set inclusion", "statement": "selection_includes(x,y) is true iff every index selected by y is selected by x, and evaluating it never reads past the end of a sequence.", "quantifier": "all pairs of well-formed selections", "why_tests_cant": "quantifies over all indices and pairs", "anchors": ["adobe/algorithm/selection_algorithms.hpp: selection_includes"]}
{"id": "C17", "title": "is_selected, index_set_to_selection and selection_to_index_set agree", "statement": "index_set_to_selection of a strictly increasing index set selects exactly these indices; selection_to_index_set(s, n) lists exactly the indices < n selected by s, in order; the two are inverse to each other.", "quantifier": "every strictly increasing index set, every selection, every n", "why_tests_cant": "unbounded", "anchors": ["adobe/algorithm/selection_algorithms.hpp: is_selected, find_sequence_end, index_set_to_selection, selection_to_index_set"]}
{"id": "C18", "title": "Selection copy/partition algorithms move exactly the selected elements, stably", "statement": "selection_copy, selection_partition_copy, size(selection, range) and selection_foreach act on exactly the selected elements in order; selection_stable_partition moves unselected elements before selected ones, stably, and returns the boundary.", "quantifier": "every range and every selection whose boundaries lie inside it", "why_tests_cant": "divide and conquer over boundary lists of any length", "anchors": ["adobe/algorithm/selection_algorithms.hpp: selection_copy, selection_partition_copy, size, selection_stable_partition"]}
{"id": "C19", "title": "Selections compare equal iff they select the same indices", "statement": "operator== on well-formed selections holds iff membership agrees for every index.", "quantifier": "all pairs of selections", "why_tests_cant": "quantifies over all indices", "anchors": ["adobe/selection.hpp: operator=="]}
{"id": "C20", "title": "forest is an ordered forest of trees under every history of insert, erase, splice", "statement": "Starting from empty forests, after any sequence of insert / erase (one or a range) / clear / splice (all, one, a range) / insert_parent / copy / move / swap / reverse-to-the-end / destruction calls at valid positions over any number of forests, every call terminates, returns the documented iterator, frees exactly the erased nodes, and the fullorder traversal of every forest is the parenthesis word of the ordered forest obtained by the corresponding tree edits.", "quantifier": "every history and every valid position", "why_tests_cant": "pointer surgery on four links per node; only particular neighbourhoods expose errors", "anchors": ["adobe/forest.hpp: insert, erase, clear, splice, insert_parent, reverse, copy/move construction and assignment, swap, set_next_fn"]}
{"id": "C21", "title": "forest iterators are bidirectional and traverse every node exactly twice", "statement": "From begin() repeated ++ reaches end() after visiting each node once on its leading and once on its trailing edge, properly nested; -- undoes ++ and ++ undoes -- everywhere.", "quantifier": "every reachable forest and every iterator position", "why_tests_cant": "unbounded shapes", "anchors": ["adobe/forest.hpp: forest_iterator::increment, decrement"]}
{"id": "C22", "title": "forest::size() is the number of nodes whatever the splice history", "statement": "size() always returns the number of nodes although the cached count is invalidated and recomputed lazily across splices between forests.", "quantifier": "every history over any number of forests", "why_tests_cant": "cached value validity depends on the history of both forests", "anchors": ["adobe/forest.hpp: size, size_valid, splice, insert, erase"]}
{"id": "C23", "title": "forest copy and equality are structural", "statement": "A copied forest has the same shape and values; x == y iff shape and values coincide.", "quantifier": "all forests", "why_tests_cant": "unbounded shapes", "anchors": ["adobe/forest.hpp: forest(const forest&), operator=="]}
{"id": "C24", "title": "forest preorder/postorder/child/depth/reverse/filter adaptors enumerate what they promise", "statement": "preorder visits parents before children in order, postorder after; child_range lists exactly the direct children in order; depth_range reports each node's depth; reverse_fullorder is the mirror traversal.", "quantifier": "every forest", "why_tests_cant": "unbounded shapes", "anchors": ["adobe/forest.hpp: edge_iterator, child_iterator, depth_fullorder_iterator, reverse_fullorder_iterator, find_parent, has_children"]}
{"id": "C25", "title": "UTF-32 to UTF-8 and back is the identity and matches the Unicode standard encoding", "statement": "For every sequence of Unicode scalar values, copying to UTF-8 yields the standard encoding and copying back yields the original sequence.", "quantifier": "every sequence of scalar values of any length", "why_tests_cant": "1.1 million scalars and unbounded sequences; concatenation must stay decodable", "anchors": ["adobe/unicode.hpp: copy_utf, utf32_to_utf8, to_utf32, promotion_engine_t, demotion_engine_t"]}
{"id": "C26", "title": "UTF-16 conversions round-trip", "statement": "For every sequence of scalar values the UTF-16 conversion uses surrogate pairs exactly above U+FFFF and converts back to the original; UTF-8 <-> UTF-16 conversions compose consistently.", "quantifier": "every sequence of scalar values", "why_tests_cant": "as above", "anchors": ["adobe/unicode.hpp: utf32_to_utf16, to_utf32 (16), to_utf8, to_utf16"]}
{"id": "C27", "title": "UTF conversion never reads past the input, always terminates and respects the expansion bound", "statement": "For every input (valid or not) copy_utf reads only the source range and writes at most expand_utf times its length.", "quantifier": "every byte / code unit sequence, including malformed ones", "why_tests_cant": "malformed inputs are unbounded", "anchors": ["adobe/unicode.hpp: copy_utf documentation note, expand_utf_t"]}
{"id": "C28", "title": "MD5 streaming is independent of chunking and equals the one-shot RFC 1321 digest", "statement": "For every split of a message into update() calls, final() equals MD5 of the concatenation: block-wise compression of message, 0x80, zero padding, 64-bit little-endian bit length.", "quantifier": "every message and every split into chunks", "why_tests_cant": "all lengths and all splits", "anchors": ["source/md5.cpp: md5_t::update, final"]}
{"id": "C29", "title": "md5_t::final resets the generator", "statement": "After final() the object behaves as freshly constructed.", "quantifier": "every prior history", "why_tests_cant": "history quantification", "anchors": ["source/md5.cpp: final, reset"]}
{"id": "C30", "title": "SHA-1/2 streaming is independent of chunking and pads per FIPS 180", "statement": "For every byte message below 2^64 bits and every split into update calls, finalize() equals the compression of the FIPS 180 padded message; finalize does not change the object.", "quantifier": "every message, every split, each of the hash variants", "why_tests_cant": "all lengths and splits", "anchors": ["adobe/sha.hpp: stuff_into_state, block_and_digest, finalize, sha::update"]}
{"id": "C31", "title": "JSON generate then parse is the identity", "statement": "For every array or object built of objects (with names that are C strings), arrays, strings (any bytes), numbers whose text is read back as the same number, booleans and null, generate writes a JSON text of that value and parsing that text yields the value back; other values are refused by generate.", "quantifier": "every JSON value of any depth and any indentation", "why_tests_cant": "unbounded structure and string contents", "anchors": ["adobe/json.hpp: json_generator, json_parser", "adobe/json_helper.hpp"]}
{"id": "C32", "title": "JSON parser accepts \\u escapes with the RFC meaning", "statement": "A \\uXXXX escape (or a surrogate pair of them) inside a string denotes the UTF-8 encoding of the scalar value.", "quantifier": "every escape sequence and every scalar value", "why_tests_cant": "65536^2 escape pairs", "anchors": ["adobe/json.hpp: is_string, get_four_digits, utf8"]}
{"id": "C33", "title": "JSON parser never reads past the terminating NUL", "statement": "For every NUL terminated input the parser either returns a value or throws, without reading beyond the terminator.", "quantifier": "every input string", "why_tests_cant": "truncated inputs at every position", "anchors": ["adobe/json.hpp: is_sequence, is_string, get_four_digits, is_number"]}
{"id": "C34", "title": "copy_on_write gives value semantics", "statement": "Each handle behaves as a plain variable of its own: under any history of constructions, copies, moves, swaps, assignments, writes, reads and comparisons by any number of threads on their own handles, in any interleaving, every value read and every result of == and < is what separate variables would give; no step changes what is read through a handle it does not name.", "quantifier": "every history and interleaving over any number of handles and threads", "why_tests_cant": "sharing patterns are unbounded", "anchors": ["adobe/copy_on_write.hpp: write, operator=, copy/move constructors"]}
{"id": "C35", "title": "copy_on_write frees each shared value exactly once", "statement": "In every interleaving of copies, releases and writes on distinct handles, the shared block is freed exactly when its last handle goes away: never earlier, never twice, never leaked.", "quantifier": "every interleaving of atomic steps of any number of threads", "why_tests_cant": "schedules", "anchors": ["adobe/copy_on_write.hpp: release, reset, write", "adobe/counter.hpp"]}
{"id": "C36", "title": "Interned names are equal iff their strings are equal", "statement": "name_t(a) == name_t(b) iff a and b are the same character sequence, regardless of the interleaving of earlier interning.", "quantifier": "every pair of strings and every interning history", "why_tests_cant": "2^64 hash space: a collision cannot be found by tests", "anchors": ["source/name.cpp: map_string", "source/string_pool.cpp: add"]}
{"id": "C37", "title": "FNV-1a is a left fold with the documented folding width", "statement": "fnv1a over a range equals the FNV-1a recurrence, both entry points (sentinel predicate and iterator pair) agree, and the result is below 2^Bits.", "quantifier": "every byte string and width", "why_tests_cant": "unbounded strings", "anchors": ["adobe/fnv.hpp: fnv1a, bitmask"]}
{"id": "C38", "title": "Dancing links: undo in stack order restores the toroid", "statement": "After the problem was set up by any sequence of set and set_secondary_column, cover_column/uncover_column and purify/unpurify that are performed and undone in stack order, nested arbitrarily (each column at most once at a time), restore every link, size, colour and flag of every node.", "quantifier": "every valid problem, every order of setting it up, every nesting of covers and purifications", "why_tests_cant": "the pointer state depends on the whole matrix and on the history of operations", "anchors": ["adobe/implementation/toroid.hpp: set, set_secondary_column, finalize, cover_column, uncover_column, purify, unpurify"]}
{"id": "C39", "title": "Dancing links enumerates exactly the exact covers", "statement": "search with a limit of at least 1 reports each set of rows that covers every primary column exactly once, and every secondary column at most once or with one colour, exactly once, until the limit is reached, and returns the number of reports; for every heuristic that picks a column of the header list (both heuristics of the library do).", "quantifier": "every valid problem, every limit >= 1, every admissible heuristic", "why_tests_cant": "exponential search space; correctness depends on undoing destructive pointer updates at every level", "anchors": ["adobe/dancing_links.hpp: search, do_search, select_right_heuristic_t, select_most_constrained_heuristic_t"]}
{"id": "C40", "title": "closed_hash_set destroys every value exactly once", "statement": "Under every operation history no node is constructed over a live value and no dead value is destroyed or read; the destructor then destroys each remaining value exactly once, leaving none.", "quantifier": "every operation history and hash function", "why_tests_cant": "object lifetimes along relocation/erase/growth paths cannot be sampled exhaustively", "anchors": ["adobe/closed_hash.hpp: insert_raw, erase_raw, ~closed_hash_set, reserve"]}
{"id": "C41", "title": "forest::reverse reverses a range of siblings", "statement": "reverse(first, last) for child iterators first..last reverses the order of these sibling trees, leaving their subtrees and all other nodes alone.", "quantifier": "every forest and every range of siblings", "why_tests_cant": "the result depends on where the range lies among its siblings; unbounded shapes", "anchors": ["adobe/forest.hpp: forest::reverse", "adobe/algorithm/reverse.hpp: reverse_append, reverse_nodes"]}
{"id": "C42", "title": "SHA of messages whose length is not a multiple of 8 bits", "statement": "update(first, num_bits) with a num_bits that is not a multiple of 8, in the last update, makes finalize return the FIPS 180 digest of exactly those num_bits bits, whatever the unused bits of the last byte are.", "quantifier": "every message of fewer than 2^64 bits, every split, each variant", "why_tests_cant": "all lengths, splits and contents of the unused bits", "anchors": ["adobe/sha.hpp: stuff_into_state, sha::update(I, std::uint64_t)"]}
{"id": "C43", "title": "SHA digest strings are the hexadecimal digits and identify the digest", "statement": "to_string(digest) is the concatenation of the words in lower case hexadecimal with leading zeros (separated by one space if asked for), so different digests have different strings.", "quantifier": "every digest of every word width", "why_tests_cant": "2^160 to 2^512 digests", "anchors": ["adobe/sha.hpp: sha::to_string"]}
{"id": "C44", "title": "JSON parser accepts exactly the JSON grammar", "statement": "The parser returns a value exactly if the input begins (after white space) with a JSON text of an array or object, and the value is the one this text denotes; a text denotes one value only; a later member replaces an earlier one of the same name. The only deviation from RFC 8259 is in the escapes of strings.", "quantifier": "every input, every nesting depth, every position of white space", "why_tests_cant": "infinitely many texts and non-texts; nesting is unbounded", "anchors": ["adobe/json.hpp: json_parser::parse, is_object, is_array, is_value, is_string, is_number"]}
{"id": "C45", "title": "The expression parser accepts exactly the documented grammar and always stops", "statement": "On every token sequence is_expression stops. When it returns true, the consumed tokens are a phrase of the grammar documented in expression_parser.cpp (precedence levels, left associativity, ?: right associative, postfix, arrays, dictionaries, calls) and exactly its postfix form was pushed; every phrase followed by a token that does not continue it is accepted completely; it returns false exactly when no expression begins with the next token, and then nothing was consumed or pushed.", "quantifier": "every sequence of tokens, every grammar phrase of any nesting, every continuation, every prior stack contents", "why_tests_cant": "phrases nest without bound; mutual recursion with optional parts and two-token lookahead", "anchors": ["source/expression_parser.cpp: is_expression, is_or_expression, ..., is_primary_expression, is_named_argument", "adobe/implementation/expression_parser.hpp"]}
{"id": "C46", "title": "Parsing and evaluating an expression computes its meaning", "statement": "Running the virtual machine on the code of an expression pushes exactly its value (operands left to right, &&, || and ?: evaluate only what is needed), leaves the rest of the stack untouched, propagates exactly the exception the meaning prescribes with the older stack entries intact, and never pops an empty stack; two readings of the same tokens have the same meaning.", "quantifier": "every expression, environment (variables, functions, overridden binary operators, arbitrary client state) and stack", "why_tests_cant": "expressions and client behaviours are unbounded; stack discipline must hold on every path including exceptions", "anchors": ["source/virtual_machine.cpp: evaluate, logical_operator, ifelse_operator, index_operator, ...", "source/expression_parser.cpp"]}
{"id": "C47", "title": "Token lookahead loses and repeats nothing", "statement": "However get(), putback() and next_position() of lex_stream_t are interleaved, as long as at most the last two tokens seen are put back, the tokens returned are those of the text in order: a token put back is returned again by the next get, next_position reports the position of the token the next get returns and consumes nothing, and after the last token every get returns end-of-text.", "quantifier": "every text, every sequence of get/putback/next_position calls within the two-token limit", "why_tests_cant": "Interleavings of calls are unbounded, and the ring buffer wraps around at positions that depend on the whole history.", "anchors": ["adobe/implementation/lex_shared.hpp: stream_lex_base_t::get_token, putback_token, next_position", "adobe/circular_queue.hpp", "source/lex_stream.cpp: lex_stream_t::get, putback"]}
{"id": "C48", "title": "The tokens of every text are those of the lexical grammar", "statement": "Every text is divided into tokens by the lexical grammar in exactly one way: identifiers and keywords, decimal and hexadecimal numbers, quoted strings (adjacent ones joined), line and block comments, and punctuation by longest match, separated by white space. get() returns exactly these tokens, then end-of-text for ever; it throws exactly where the rest of the text starts with no token (a stray character, an unclosed comment or string). It always returns, and the character putback stack never overflows.", "quantifier": "every text (sequence of characters), every keyword extension, comments bypassed or not", "why_tests_cant": "The set of texts is infinite; boundaries such as 0x without digits, <= against <==, CR LF at the end of a comment, end of text inside any token combine freely.", "anchors": ["source/lex_stream.cpp: parse_token, is_number, is_identifier_or_keyword, is_comment, is_string, is_compound, is_simple", "adobe/implementation/lex_shared.hpp: get_char, putback_char, skip_white_space, is_line_end"]}
{"id": "C49", "title": "Token positions are those of the text", "statement": "The position reported for a token (line number, start of its line, character offset) is the position of its first character in the text, where LF, CR and CR LF each end one line.", "quantifier": "every text, every token in it, every starting position", "why_tests_cant": "Every prefix of every text matters; putback and the two-character line end interact with every token kind.", "anchors": ["adobe/implementation/lex_shared.hpp: next_position, is_line_end, get_char, putback_char", "adobe/istream.hpp: is_line_end, line_position_t"]}
{"id": "C50", "title": "From text to value", "statement": "For every text that spells an expression, lexing, parsing and evaluating it yields the value the language definition gives that expression; and whatever the parser accepts from the tokens of a text evaluates to the meaning of the expression it read.", "quantifier": "every text of fewer than 2^31 characters, every environment of variables and functions", "why_tests_cant": "All texts and environments; relates three components.", "anchors": ["source/lex_stream.cpp", "source/expression_parser.cpp", "source/virtual_machine.cpp"]}
{"id": "C51", "title": "Updating a property model sheet computes the solution of its equations", "statement": "After sheet_t::update returns, every output, invariant and interface cell has the value it has in every solution of the equations of the sheet, i.e. of the cell expressions together with the one term of each active relation that was chosen; input and constant cells keep their values, linked interface cells remember the computed value and unlinked ones keep what was set. If these equations can be unfolded without circularity or exception, update does return (unless the relations over-constrain the cells).", "quantifier": "for all sheets reachable by any sequence of public calls, all expressions, all hash iteration orders and all correct sorts", "why_tests_cant": "the evaluation is lazy and memoised, with a stack for self references; the number of sheets and evaluation orders is unbounded", "anchors": ["source/adam.cpp: sheet_t::implementation_t::update, get, calculate_expression, cell_t::calculate"]}
{"id": "C52", "title": "Each active relation is directed by exactly one of its terms, following the priorities", "statement": "update either reports that the sheet is over-constrained or chooses exactly one term of each relation whose conditional is absent or true; the cells of the chosen term get their values from it, no cell is derived otherwise, and each other term of the relation has a cell of higher precedence than the derived cells (either itself derived before, or of at least the same priority).", "quantifier": "for all reachable sheets with proper relations (at least two terms, no repeated cell) and all priorities", "why_tests_cant": "the propagation is a graph algorithm over unboundedly many relations and cells", "anchors": ["source/adam.cpp: flow, add_relation"]}
{"id": "C53", "title": "The result of an update does not depend on the iteration order of the hash tables", "statement": "Two updates of the same sheet which go through the output cells in different orders give the same values to all output, interface, invariant, input and constant cells and report the same cells as having had their priority accessed, provided that the definitions are not circular.", "quantifier": "for all reachable sheets and all pairs of enumeration orders", "why_tests_cant": "a test sees the one order given by its hash function", "anchors": ["source/adam.cpp: update, index_t output_index_m"]}
{"id": "C54", "title": "The interface value set last is never overridden", "statement": "After set(name, value) on an interface cell without expression, update gives the cell exactly this value, whatever the relations and the previous history: the other cells adapt.", "quantifier": "for all reachable sheets, cells, values and histories", "why_tests_cant": "must hold for every topology of relations and history of priorities", "anchors": ["source/adam.cpp: set, flow"]}
{"id": "C55", "title": "touch raises priorities and keeps the relative order", "statement": "touch changes nothing but the priorities of the named cells: afterwards they are higher than those of all the other cells, and in the same relative order as before.", "quantifier": "for all reachable sheets and all lists of names (also unknown and repeated ones)", "why_tests_cant": "ranges over all priorities and lists", "anchors": ["source/adam.cpp: touch"]}
{"id": "C56", "title": "Monitors are told exactly the changes", "statement": "Each successful update notifies the value monitor of an output cell if and only if its value changed, with the new value and only once; the invariant monitor if and only if the flag changed; the contributing monitor always; and the enabled monitors once, at the end.", "quantifier": "for all reachable sheets, updates and cells", "why_tests_cant": "over all histories of updates", "anchors": ["source/adam.cpp: update (1283-1319), monitor_value, monitor_invariant_dependent"]}
{"id": "C57", "title": "The reported contributors of a cell are complete", "statement": "If interface cells which are not among the reported contributors of an output cell change their values (with the same priorities, and without being read by a conditional), the value of the output cell stays the same; the contributors are the cells read for its value, and at most those read by the conditionals besides.", "quantifier": "for all reachable sheets, all cells, all changes of values", "why_tests_cant": "a statement about all changes of the inputs", "anchors": ["source/adam.cpp: get, update, contributing"]}
{"id": "C58", "title": "Invariant flags and enabled cells", "statement": "After an update the invariant flag of an output cell is false exactly when one of its contributors contributes to an invariant that is false; the cells reported as active are those whose priority was accessed and those which contribute to an output cell (to an interface cell if there are no output cells).", "quantifier": "for all reachable sheets and updates", "why_tests_cant": "over all sheets", "anchors": ["source/adam.cpp: update (1249-1319)"]}
{"id": "C59", "title": "Evaluation does not change the structure of a sheet", "statement": "Whether it returns or throws, update leaves the cells, their definitions, the relations and the name tables unchanged; a set which throws changes nothing at all.", "quantifier": "for all sheets, reachable or not, and all outcomes", "why_tests_cant": "includes exceptions at every point of the evaluation", "anchors": ["source/adam.cpp: update, set"]}
{"id": "C60", "title": "A sheet recovers from an update which threw", "statement": "After an update which threw, the sheet is as usable as before: once the cause has been removed, the next update gives the values of the solution. (Proved when the exception did not come out of the expression of an interface cell which update evaluates directly, in particular for over-constrained sheets and for failing conditionals, outputs and invariants; false otherwise, because the name of the cell stays on the evaluation stack.)", "quantifier": "for all reachable sheets and all exceptions", "why_tests_cant": "quantifies over the points where an exception can happen and all later histories", "anchors": ["source/adam.cpp: update (1216-1244), get (1506-1547)"]}
{"id": "C61", "title": "reinitialize recomputes the initializers which depend on changed inputs", "statement": "After input cells were set, reinitialize gives each interface cell whose initializer has read one of them the value of the initializer in the new state, and keeps all other values, independently of the iteration order of the hash tables. (Proved for initializers reading input cells and constants only; false for initializers which read other interface cells.)", "quantifier": "for all reachable sheets and iteration orders", "why_tests_cant": "a test sees one iteration order", "anchors": ["source/adam.cpp: reinitialize, initialize_one, get (1462-1477)"]}
{"id": "C62", "title": "Layout keeps children inside their container and apart", "statement": "When eve_t::evaluate or adjust is given 0 or at least the size it would choose by itself, every visible child of a container is placed inside the container's frame and margin; along the direction of a row or column the children keep their order and are at least the spacing apart (so they never overlap).", "quantifier": "all trees of views with any nesting, measures, margins, spacing, guides, visibility and alignments, both directions, both coordinate options, all requested sizes not below the natural ones", "why_tests_cant": "the tree, the measures and the requested size are unbounded, and the position of a view depends on all of them through an iterated solver", "anchors": ["source/eve.cpp: eve_t::implementation_t::evaluate, adjust, solve, layout", "source/eve.cpp: view_proxy_t::layout_with, layout_cross, solve_up_with, solve_up_cross"]}
{"id": "C63", "title": "Additional space is divided evenly and completely", "statement": "Along the direction of a row or column without guides, each filling child gets its natural length plus an equal share of the additional space (shares differ by at most one unit), other children keep their natural length, and, when no child is centered or proportional and at least one fills, the children cover the interior exactly, except for the spacing.", "quantifier": "all trees of views without leaf guides, all requested sizes not below the natural one, any number of children", "why_tests_cant": "the claim is about integer division remainders over any number of children and any sizes", "anchors": ["source/eve.cpp: view_proxy_t::layout_with", "source/eve.cpp: view_proxy_t::solve_up_with"]}
{"id": "C64", "title": "Guides of aligned views coincide", "statement": "After a layout, across the direction of a container, guides with the same number of any two forward aligned children are at the same place (and are the guides the container reports); the same holds, counted from the other edge, for reverse aligned children; along the direction, the guides of the leading children are the guides of the container, one after the other.", "quantifier": "all trees of views without guide balancing for which the solver finishes in its allotted passes, any number of guides and any nesting", "why_tests_cant": "the alignment is reached by an iteration whose number of rounds depends on the tree; nesting and guide numbers are unbounded", "anchors": ["source/eve.cpp: view_proxy_t::solve_down_with, solve_down_cross, flatten", "source/eve.cpp: eve_t::implementation_t::solve"]}
{"id": "C65", "title": "Nested and flat coordinates describe the same layout", "statement": "A layout with evaluate_nested succeeds exactly if the one with evaluate_flat does, and adding up the nested positions through the views that create coordinate systems gives exactly the flat positions; lengths, outsets, guides and the returned size are identical.", "quantifier": "all trees of views, all sizes, any choice of views that create coordinates (for both directions together: views whose height does not depend on their horizontal position)", "why_tests_cant": "all nesting depths and all choices of coordinate-creating views", "anchors": ["source/eve.cpp: view_proxy_t::flatten", "adobe/eve.hpp: evaluate_options_t"]}
{"id": "C66", "title": "Outsets of containers cover those of their children", "statement": "After a layout, the outset of a container reaches at least as far as the outsets of its children on both sides; a view without children keeps its measured outset.", "quantifier": "all trees of views, all sizes and both coordinate options", "why_tests_cant": "nesting and sizes are unbounded", "anchors": ["source/eve.cpp: view_proxy_t::adjust_outsets_with, adjust_outsets_cross"]}
{"id": "C67", "title": "The topmost view gets the requested size", "statement": "evaluate and adjust return exactly the nonzero width and height they were given.", "quantifier": "all trees with a visible topmost view, all sizes", "why_tests_cant": "all trees and sizes", "anchors": ["source/eve.cpp: eve_t::implementation_t::layout, adjust"]}
{"id": "C68", "title": "A submitted task runs at most once, and not before its time", "statement": "Each task submitted with async, async(when, …) or shared_task_queue::async starts at most once, after its submission, and finishes at most once, after its start; a task submitted with a time starts at that time or later.", "quantifier": "all histories of calls from any number of threads, all schedules (including spurious wakeups), all sizes of the thread pool", "why_tests_cant": "schedules and histories are unbounded", "anchors": ["adobe/future.hpp: async, shared_task_queue", "source/future.cpp: thread_pool, timed_queue, task_queue_"]}
{"id": "C69", "title": "The tasks of a task queue run one at a time and in order", "statement": "Tasks of the same shared_task_queue never overlap; if the call that submits a returns before the call that submits b begins, a has finished before b starts.", "quantifier": "all histories of calls (also concurrent suspend/resume), all schedules, any number of queues and pool threads", "why_tests_cant": "schedules and histories are unbounded", "anchors": ["source/future.cpp: shared_task_queue::task_queue_::{async,_continue,_suspend,_resume}"]}
{"id": "C70", "title": "suspend stops a task queue", "statement": "After suspend has returned no task of the queue starts until resume is called.", "quantifier": "all histories and schedules", "why_tests_cant": "schedules are unbounded", "anchors": ["source/future.cpp: shared_task_queue::task_queue_::_suspend, _continue, async"]}
{"id": "C71", "title": "No submitted task is lost", "statement": "The library does not sleep while a task could run: when nothing can go on, each submitted task has finished, except those whose time has not come and those of a suspended queue; while a task waits, all threads of the pool are busy; and rest is reached after a bounded number of steps.", "quantifier": "all histories of calls, all schedules, all sizes of the pool", "why_tests_cant": "lost wakeups depend on schedules", "anchors": ["source/future.cpp: thread_pool::{async,_run}, timed_queue::{async,_run}, task_queue_"]}
{"id": "C72", "title": "A cancellation callback runs at most once, and only after cancel", "statement": "A callback registered with a cancellation_token starts at most once and only after cancel was called; if register_callback is called after a cancel has returned, the callback runs before register_callback returns (which then returns null).", "quantifier": "all histories of register_callback, deregister_callback, cancel and is_canceled from any number of threads, all schedules", "why_tests_cant": "schedules and histories are unbounded", "anchors": ["adobe/task.hpp: cancel_state::{cancel,register_callback}"]}
{"id": "C73", "title": "cancel runs all registered callbacks", "statement": "When cancel has been called and everything has come to rest, each registered callback that was not deregistered has run; when cancel returns, the callbacks registered before have finished.", "quantifier": "all histories and schedules", "why_tests_cant": "schedules and histories are unbounded", "anchors": ["adobe/task.hpp: cancel_state::{cancel,register_callback,deregister_callback}"]}
{"id": "C74", "title": "A deregistered callback does not run", "statement": "A callback that is deregistered, before cancel is called, with the registration that register_callback returned does not run, and others do.", "quantifier": "all histories and schedules", "why_tests_cant": "histories are unbounded", "anchors": ["adobe/task.hpp: cancel_state::{register_callback,deregister_callback}"]}
{"id": "C75", "title": "is_canceled is monotone", "statement": "is_canceled answers true only after cancel was called, and always after a cancel has returned or is_canceled has answered true.", "quantifier": "all histories and schedules", "why_tests_cant": "schedules are unbounded", "anchors": ["adobe/task.hpp: cancel_state::is_canceled"]}
{"id": "C76", "title": "A property model is parsed exactly when it is in the documented grammar, and reported declaration by declaration", "statement": "parse() of a property model terminates; it accepts a text exactly when the grammar documented in adam_parser.hpp generates it; when it does, the callbacks are called once for each declaration, in the order of the text, with the right kind, name, link flag, comments and the code of the expressions (an empty array for a missing one).", "quantifier": "every token sequence", "why_tests_cant": "The language is infinite and a test fixes a few texts; no test shows that nothing else is accepted.", "anchors": ["source/adam_parser.cpp: adam_parser", "adobe/adam_parser.hpp: parse, adam_callback_suite_t"]}
{"id": "C77", "title": "What was reported before a syntax error is right", "statement": "When parse() of a property model or a layout ends with an exception, the callbacks made until then are those of the declarations of a beginning of the text, each once and in order: the beginning completed by closing braces (for a layout that failed before its view: by any view) is a valid text with exactly these declarations.", "quantifier": "every token sequence on which parsing fails", "why_tests_cant": "An error can occur at every token of every text.", "anchors": ["source/adam_parser.cpp: adam_parser", "source/eve_parser.cpp: eve_parser"]}
{"id": "C78", "title": "A layout is parsed according to the documented grammar, and its cells and its tree of views are reported faithfully", "statement": "parse() of a layout terminates; it accepts every layout of the grammar documented in eve_parser.hpp (and only those); the callbacks are called for the cells in order, then once to say that they are complete, then for the views, each before the views it contains, with the position returned for its parent, so that the client can rebuild the tree; names, comments and code are exact.", "quantifier": "every token sequence; trees of views of every shape", "why_tests_cant": "The language is infinite; nesting is unbounded.", "anchors": ["source/eve_parser.cpp: eve_parser", "adobe/eve_parser.hpp: parse, eve_callback_suite_t"]}
{"id": "C79", "title": "parse_adam_expression", "statement": "parse_adam_expression returns the code of the expression which its argument is, and throws when the argument is not an expression.", "quantifier": "every token sequence", "why_tests_cant": "Infinite language.", "anchors": ["source/adam_parser.cpp: parse_adam_expression"]}
{"id": "C80", "title": "reduce_balanced is the in-order reduction, with logarithmic nesting", "statement": "For every associative operation op with identity z and every sequence, reduce_balanced(f, l, op, z) equals the left to right reduction of the sequence, even when op is not commutative and when partial results happen to equal z. For every op at all it applies op at most n-1 times, and its result is the value of an expression over elements of the sequence in order whose nesting depth is at most ceil(log2 n), using each element exactly once when no partial result equals z.", "quantifier": "every value type, operation, identity and finite sequence", "why_tests_cant": "Sequences and operations are unbounded; carries in the binary counter and partial results equal to the identity depend on the exact length and values.", "anchors": ["adobe/algorithm/reduce.hpp:reduce_nonzeros", "adobe/algorithm/reduce.hpp:add_to_counter", "adobe/algorithm/reduce.hpp:reduce_balanced", "adobe/functional.hpp:transpose"]}
{"id": "C81", "title": "is_sorted decides sortedness, sorted returns the sorted prefix", "statement": "is_sorted(f, l, o) (also with a projection, and the range form) with a strict weak ordering is true exactly for the sorted sequences; sorted(f, l, o) returns the end of the longest ordered prefix.", "quantifier": "every ordering, projection and finite sequence", "why_tests_cant": "All sequences, in particular those with equivalent neighbours.", "anchors": ["adobe/algorithm/sorted.hpp:is_sorted", "adobe/algorithm/sorted.hpp:sorted"]}
{"id": "C82", "title": "erase_if removes exactly the matching elements of the range", "statement": "erase_if(x, f, l, p) on node based and on block containers removes exactly the elements of [f, l) that satisfy p, keeps all other elements of the container in order and, as documented, applies p exactly last - first times. find_range(_if) returns the first maximal run of matching elements.", "quantifier": "every container content, sub range and predicate", "why_tests_cant": "All contents and predicates; runs, ends and empty ranges.", "anchors": ["adobe/algorithm/erase_if.hpp:erase_if", "adobe/algorithm/erase_if.hpp:erase", "adobe/algorithm/find.hpp:find_range_if", "adobe/algorithm/find.hpp:find_range", "adobe/algorithm/remove.hpp:remove_if"]}
{"id": "C83", "title": "bounded copies never leave the destination range", "statement": "Both implementations of copy_bounded copy exactly the first min(n, m) elements, write nothing outside the destination range and return the positions reached; copy_n copies n elements; copy_sentinal copies the elements before the first sentinel; filter threads the output through op once for each element in order; iota assigns consecutive values and returns the next.", "quantifier": "every source, destination, sub range, sentinel and value", "why_tests_cant": "Out of bounds writes must be excluded for all lengths.", "anchors": ["adobe/algorithm/copy.hpp:copy_bounded", "adobe/algorithm/copy.hpp:copy_n", "adobe/algorithm/copy.hpp:copy_sentinal", "adobe/algorithm/filter.hpp:filter", "adobe/algorithm/iota.hpp:iota"]}
{"id": "C84", "title": "table_index finds exactly the rows that are in the table", "statement": "For a table_index that has been sorted: find(key) returns a row with that key if the table has one and end() otherwise; operator[] returns such a row and throws range_error exactly if there is none; lower_bound, upper_bound and equal_range delimit exactly the rows with an equivalent key; inserting a range keeps the order. No operation reads outside of the index.", "quantifier": "every table, key function, strict weak ordering, sort result and key", "why_tests_cant": "All tables and orderings; std::sort may leave equivalent rows in any order.", "anchors": ["adobe/table_index.hpp:table_index::find", "adobe/table_index.hpp:table_index::operator[]", "adobe/table_index.hpp:table_index::equal_range", "adobe/table_index.hpp:table_index::insert", "adobe/table_index.hpp:table_index::sort"]}
{"id": "C85", "title": "table_index::unique keeps one row for each key", "statement": "unique() on a sorted table_index reduces the index to a single row for each key: no key is lost and no two rows with equivalent keys remain.", "quantifier": "every table, key function and strict weak ordering", "why_tests_cant": "All tables.", "anchors": ["adobe/table_index.hpp:table_index::unique", "adobe/algorithm/unique.hpp:unique"]}
{"id": "C86", "title": "entity_unescape inverts entity_escape", "statement": "For every string s, entity_unescape(entity_escape(s)) == s and neither function throws.", "quantifier": "every string of bytes, every result of sorting the two entity indexes", "why_tests_cant": "All strings; the table has 256 entries and every byte value and sequence matters.", "anchors": ["source/expression_filter.cpp:entity_escape", "source/expression_filter.cpp:entity_unescape", "source/expression_filter.cpp:code_point_index_find", "source/expression_filter.cpp:entity_name_index_find"]}
{"id": "C87", "title": "entity escaping predicates and safety of escaped text", "statement": "needs_entity_escape(s) is true exactly if entity_escape(s) differs from s; escaped text is printable ASCII without quotes or angle brackets; entity_map_find maps names and code points of the table onto each other and throws range_error for unknown ones; if needs_entity_unescape(s) is false then entity_unescape(s) == s.", "quantifier": "every string of bytes and every code point", "why_tests_cant": "All strings and code points.", "anchors": ["source/expression_filter.cpp:needs_entity_escape", "source/expression_filter.cpp:needs_entity_unescape", "source/expression_filter.cpp:entity_map_find"]}
{"id": "C88", "title": "concurrent_queue is a linearizable FIFO queue", "statement": "Whatever the interleaving of any number of push and pop calls on one adobe::concurrent_queue, there is one sequence of the calls, consistent with the real-time order of calls that do not overlap, in which the object behaves like a sequential FIFO queue: pop delivers exactly the values that push put in, each once and in order, pop returns false only if the queue was empty at some moment during the call, no call touches the front of an empty list, a push that throws has no effect, and no call in flight can be locked out for ever by the others.", "quantifier": "every number of concurrent calls, every interleaving of their steps, every pattern of throwing allocations and assignments", "why_tests_cant": "A test runs a handful of schedules; linearizability is a statement about all interleavings.", "anchors": ["adobe/future.hpp: concurrent_queue::push", "adobe/future.hpp: concurrent_queue::pop"]}
{"id": "C89", "title": "attribute_set_t is a map from names to values", "statement": "An attribute_set_t is a finite map keyed by the text of the names, whatever ranges of memory the names and values come from: after any sequence of insertions operator[] returns the value inserted last under a name with that text and the null range otherwise, iteration visits each name once in the documented order (shorter first, then byte order), and merge is the union in which the values of *this win. No operation reads outside of the container.", "quantifier": "every memory content, every sequence of insertions and merges, every looked-up name", "why_tests_cant": "The order of names and the bisection interact for every set of texts and every insertion order; a test has a few.", "anchors": ["adobe/xml_parser.hpp: attribute_set_t::insert, operator[], lower_bound, merge", "adobe/implementation/lex_shared_fwd.hpp: token_range_less, token_range_equal"]}
{"id": "C90", "title": "comparison of attribute sets is by text", "statement": "Two attribute sets are equal exactly when they have the same names with the same values (as texts); count_same counts the common attributes; has_collisions says whether some common name has different values, and count_collisions counts those names, so that has_collisions() == (count_collisions() != 0).", "quantifier": "every two attribute sets made by insertions and merges, in every memory", "why_tests_cant": "Equality must hold independently of where the texts lie in memory.", "anchors": ["adobe/xml_parser.hpp: attribute_set_t::count_same, has_collisions, count_collisions, operator=="]}
{"id": "C91", "title": "XML lexing", "statement": "The XML lexer splits every byte text into tokens exactly as its grammar says: processing instructions, comments (no -- inside), <, </, >, />, references and character data, and inside of tags names, = and quoted values without < and &; it throws exactly for a token that is begun and not ended properly; every token advances the position and lies within the text; white space is skipped where it is to be skipped.", "quantifier": "every byte string, position, inside or outside of a tag, skipping white space or not", "why_tests_cant": "All byte strings and positions; overlapping prefixes (<, </, <?, <!--) and the end of the range at any point.", "anchors": ["source/xml_lex.cpp: parse_token, is_processing_instruction, is_comment, is_tag_open, is_tag_close, is_name, is_equals, is_att_value, is_reference, is_char_data", "adobe/implementation/lex_shared.hpp: lex_base_t::get_token, skip_white_space"]}
{"id": "C92", "title": "the XML parser accepts well-formed content", "statement": "parse_content, parse_element_sequence and parse_document accept every well-formed content, sequence of elements and document, of any size and nesting depth, and the output and the callback calls (ranges of the element, name, attributes and content) are those of its tree.", "quantifier": "every tree of elements, attributes, references, comments and character data; every client predicate and callback, also ones that replace elements by other text, which is parsed in turn", "why_tests_cant": "Unbounded nesting and all callbacks.", "anchors": ["adobe/xml_parser.hpp: xml_parser_t::parse_content, parse_element_sequence, parse_document, is_element, is_content, content_callback"]}
{"id": "C93", "title": "the XML parser accepts only well-formed content", "statement": "Whatever parse_content, parse_element_sequence and parse_document accept is well formed - balanced tags with matching names, proper attributes, ended references and comments - and the output and callback calls are those of its tree; a text has no more than one such tree.", "quantifier": "every byte text, every predicate and callback", "why_tests_cant": "It is about all texts, including malformed ones at every nesting depth.", "anchors": ["adobe/xml_parser.hpp: xml_parser_t::is_element, is_content, is_e_tag, is_prolog, is_bom"]}
{"id": "C94", "title": "the XML parser ends and stays within the text", "statement": "Parsing ends on every text and neither reads outside of the text nor puts back more tokens than it took; the outcome is a normal return or an exception.", "quantifier": "every byte text, every client that does not replace preorder elements", "why_tests_cant": "Termination and memory safety on all inputs.", "anchors": ["adobe/xml_parser.hpp: xml_parser_t", "source/xml_lex.cpp: is_att_value", "adobe/implementation/lex_shared.hpp: lex_base_t"]}
{"id": "C95", "title": "what the XML parser copies and passes to the callback", "statement": "With a callback that gives back the elements it is called for, the output is the input with comments removed and references replaced; in particular, content without those is copied byte for byte; for a preorder element the callback is called once, with the ranges of the element, the name, the attributes and everything between its tags.", "quantifier": "every text, every predicate", "why_tests_cant": "All trees; ranges are computed over several tokens.", "anchors": ["adobe/xml_parser.hpp: xml_parser_t::is_element, is_content, content_callback"]}
{"id": "C96", "title": "Serializing a value writes exactly its CEL text", "statement": "`os << begin_asl_cel << value << end_asl_cel` (and `begin_asl_cel_unsafe`, and a `dictionary_t` or `array_t` in place of the `any_regular_t`) writes exactly the text of the value: keywords, numbers as `to_string` prints them, names after `@`, strings between quotes (escaped and in `xml_unescape(...)` if this is wanted and changes them), arrays as `[ a, b ]`, dictionaries with one member per line, indented by the depth, in lexicographic order of the names whatever the order in the hash table. Nothing is thrown and nesting and indentation are restored, so that it also holds inside of other bags and sequences.", "quantifier": "all values of any nesting, all prior contents of the stream and nestings of the formatter", "why_tests_cant": "Values nest without bound and the formatter's stack, depth and counters depend on the whole history.", "anchors": ["source/iomanip_asl_cel.cpp: asl_cel_format", "adobe/iomanip.hpp: format_base, format", "source/any_regular.cpp: operator<<(dictionary_t)", "adobe/array.hpp: operator<<", "adobe/manip.hpp: basic_omanipulator"]}
{"id": "C97", "title": "A serialized value is read back as an equal value", "statement": "The text written by `begin_asl_cel` for a value, given to the expression parser, is accepted to its end, and evaluating the resulting array gives a value that `operator==` considers equal, without changing anything else on the stack.", "quantifier": "all values built of booleans, empty, names, numbers, strings, arrays and dictionaries; all environments of the virtual machine; both safe and unsafe mode", "why_tests_cant": "It composes five components (formatter, entity escaping, lexer, parser, virtual machine) over unboundedly nested values.", "anchors": ["source/iomanip_asl_cel.cpp", "source/lex_stream.cpp", "source/expression_parser.cpp", "source/virtual_machine.cpp", "source/expression_filter.cpp"]}
{"id": "C98", "title": "The text of a zuid is canonical and read back", "statement": "`str()` of a `zuid_t` is five groups of 8, 4, 4, 4 and 12 lower case hexadecimal digits; constructing a `zuid_t` from it gives an equal one, different zuids have different texts, and every text of this form in any case is read as the zuid with that text; a string not of this form is rejected or at least gives a defined result.", "quantifier": "all zuids, all strings", "why_tests_cant": "2^128 zuids and unboundedly many strings; whether every variable is assigned by sscanf depends on the string.", "anchors": ["source/zuid.cpp: format_uuid, zuid_t::zuid_t(const char*), zuid_t::zuid_t(const std::string&), str, c_str"]}
{"id": "C99", "title": "zuids are totally ordered, as their texts are", "statement": "`operator==` holds exactly for equal zuids; `operator<` is a strict total order, the lexicographic order of the texts and of the fields.", "quantifier": "all zuids", "why_tests_cant": "Pairs and triples of 2^128 values.", "anchors": ["source/zuid_uuid.cpp: uuid_compare", "source/zuid.cpp: operator==, operator<"]}
{"id": "C100", "title": "A name-based zuid is the RFC 4122 version 3 UUID", "statement": "`zuid_t(name_space, name)` has the bytes of the MD5 digest of the name space in network byte order followed by the name, with version 3 and the variant of RFC 4122 put in, independently of uninitialised memory; so two of them are equal only if the digests collide.", "quantifier": "all name spaces, all names, all contents of memory", "why_tests_cant": "Unboundedly many names; a truncated length only shows for very long ones.", "anchors": ["source/zuid_uuid.cpp: uuid_create_from_name, format_uuid_v3", "source/zuid.cpp: zuid_t(const zuid_t&, const std::string&)", "source/md5.cpp"]}
{"id": "C101", "title": "Time-based zuids are unique", "statement": "The zuids made by default construction are different from each other, whatever the clock does (stands still, jumps, goes backwards) and however the calls of several threads interleave; they have version 1 and the variant of RFC 4122; zuids made with different nodes are different.", "quantifier": "all sequences of clock readings and random numbers, all interleavings of all threads, any number of calls", "why_tests_cant": "Collisions need particular clock behaviour and 2^16 or 2^30 calls.", "anchors": ["source/zuid_uuid.cpp: get_current_time, uuid_create, format_uuid_v1", "source/zuid_sys_dep.cpp: read_state, write_state, get_ieee_node_identifier"]}
{"id": "C102", "title": "Serializing a value as XML writes exactly its text", "statement": "`os << begin_xml << value << end_xml` (and a `dictionary_t` or `array_t` in place of the `any_regular_t`) writes an `xml` element with the element of the value: `empty`, `bool`, `integer` or `double`, `ident`, `string` (escaped), `array`, `dict` (with a `key` before each value, in the order of the names whatever the order in the hash table), each on lines of its own, indented by the depth. Nothing is thrown, nesting and indentation are restored, and after `end_xml` the stream is as it was before `begin_xml`.", "quantifier": "all values of any nesting, all prior contents of the stream and nestings of the formatter", "why_tests_cant": "Values nest without bound and the formatter's stack, depth and counters depend on the whole history.", "anchors": ["source/iomanip_xml.cpp: xml_format", "adobe/iomanip.hpp: format_base, format", "source/any_regular.cpp: operator<<(dictionary_t)", "adobe/array.hpp: operator<<"]}
{"id": "C103", "title": "XML written for a value is well formed and stands for that value only", "statement": "The text written for a value is a well-formed XML element, accepted by the library's own XML parser; the elements in it stand for the value (strings after entity_unescape) and for no other, so that different values have different texts.", "quantifier": "all values of any nesting; all XML trees that could have the text; all clients of the parser that give elements back", "why_tests_cant": "It is about all values and all ways of reading the text, and composes formatter, entity table and XML parser.", "anchors": ["source/iomanip_xml.cpp: xml_format::handle_atom", "source/expression_filter.cpp: entity_escape, entity_unescape", "adobe/xml_parser.hpp: xml_parser_t"]}
{"id": "C104", "title": "The string pool gives one lasting, non-overlapping pointer per string", "statement": "unique_string_pool_t::add never writes outside of the memory of the pool and gives a result unless an allocation throws; the pointers it gives keep pointing to the strings they were given for; two results are the same pointer if and only if the strings are equal (null and empty strings count as one); different strings share no memory; adding a string again, or a pointer the pool gave, allocates and changes nothing; the destructor gives each block back exactly once.", "quantifier": "all histories of calls, with any strings, pool size, addresses given by operator new, exceptions from allocations, and writes by others outside of the pool in between", "why_tests_cant": "It quantifies over all histories, block sizes and places of exceptions; overlap and stability are about all earlier results.", "anchors": ["source/string_pool.cpp: string_pool_t::add, string_pool_t::allocate, unique_string_pool_t", "adobe/algorithm/copy.hpp: copy_n"]}
{"id": "C105", "title": "any_regular_t behaves as a value: copies are independent, exceptions change nothing", "statement": "Constructing, copying, moving, assigning, swapping, writing through cast and destroying any_regular_t objects have the effects they have on plain variables: every variable gives back the value and type it holds, cast to another type throws bad_cast, comparison compares types and then values, operations on one variable never change another, and an operation that throws leaves all variables as they were.", "quantifier": "all programs made of these operations over any number of variables, all types (stored in the object or on the heap), all places where the allocator or a copy constructor throws", "why_tests_cant": "It quantifies over all sequences of operations on all variables, including self-assignment and self-swap, and all exceptions.", "anchors": ["adobe/any_regular.hpp: any_regular_t, any_regular_model_local, any_regular_model_remote, swap, operator=="]}
{"id": "C106", "title": "any_regular_t neither leaks nor frees twice", "statement": "At any time each allocated block is owned by exactly one variable, variables that hold small types own none, and when all variables are out of scope nothing is allocated; no block is freed twice or used after having been freed.", "quantifier": "all programs as in C105", "why_tests_cant": "Leaks and double frees depend on the whole history and on where exceptions happen.", "anchors": ["adobe/any_regular.hpp: any_regular_model_remote::new_move, ~any_regular_model_remote, any_regular_t::assign"]}
{"id": "C107", "title": "Numbers of 2 to 4 bytes are one kind of number in any_regular_t, without loss", "statement": "A short, int or float (signed or unsigned) stored in an any_regular_t is stored as a double with exactly its value; it can be had back as its own or any other such type (or double) that has the number, and two of them are equal if and only if the numbers are. Types of 1 and 8 bytes come back as they are.", "quantifier": "all numeric types and all their values", "why_tests_cant": "2^32 values per type and all pairs of types.", "anchors": ["adobe/conversion.hpp: promote", "adobe/any_regular.hpp: any_regular_t::any_regular_t(T), helper::cast"]}
{"id": "C108", "title": "A static table finds exactly its entries", "statement": "After sort(), looking up a key in a static_table gives the value of an entry with this key if there is one (the value, if keys are different) and otherwise reports that there is none (logic_error, or false with the result unchanged); no element outside the table is read.", "quantifier": "all tables of any size, all strict weak orders in which equivalent keys are equal, all keys, all results of sorting", "why_tests_cant": "tables, orders and keys are unbounded", "anchors": ["adobe/static_table.hpp: static_table::operator(), sort", "adobe/algorithm/sorted.hpp: lower_bound"]}
{"id": "C109", "title": "Layout parameters become the layout attributes they name", "statement": "apply_layout_parameters with parameters of the right types sets exactly the attributes named: indent, alignments, child alignments and placement from their names (unknown names change nothing), guide masks and balances from their arrays, spacing (the first one is kept), margins in the order top, left, bottom, right; a row placed by the parameters without a mask shows its baselines; everything else is kept. Balanced guides are suppressed, and no access is out of range.", "quantifier": "all dictionaries of parameters and all previous attributes", "why_tests_cant": "parameters come from user written Eve files; arrays have any length and the attributes any history", "anchors": ["source/eve_evaluate.cpp: apply_layout_parameters, init_once_", "adobe/layout_attributes.hpp: layout_attributes_t"]}
{"id": "C110", "title": "Layout variables: names of alignments and placements stand for themselves", "statement": "layout_variables gives the ten names of alignments and placements as themselves, whatever the layout sheet has, and asks the layout sheet for any other name.", "quantifier": "all names and all layout sheets, all results of sorting the table", "why_tests_cant": "all names", "anchors": ["source/eve_evaluate.cpp: layout_variables, init_once_"]}
{"id": "C111", "title": "Error reports show where the error is", "statement": "The report of a stream_error_t made at a position and passed on at others gives the position and text of the error, then every position in this order, each with its line without leading blanks and trailing nulls, and a caret under the reported column.", "quantifier": "all errors, positions, lines and numbers of positions", "why_tests_cant": "files, positions and depths of traces are unbounded", "anchors": ["source/istream.cpp: format_snippet, format_stream_error, operator<<", "adobe/istream.hpp: stream_error_t, line_position_t"]}
{"id": "C112", "title": "get_line gives the lines of a text", "statement": "get_line gives the first line of a text - up to \\n, \\r, \\r\\n or the end - and the place after its end, and no more; the two forms of is_line_end agree.", "quantifier": "all texts", "why_tests_cant": "all texts", "anchors": ["adobe/istream.hpp: is_line_end, get_line"]}
{"id": "C113", "title": "External models connect cells, monitors and the model", "statement": "Whatever has been done with an external_model_t: set passes the value to the model monitor that was set last and to no other, model_set passes it to every monitor connected to the cell and not disconnected, once and in the order of connection; other cells are not affected; unknown cells are reported as errors and nothing is changed; adding a cell again changes nothing.", "quantifier": "all sequences of calls, all names, values and monitors", "why_tests_cant": "must hold after every history", "anchors": ["source/external_model.cpp: add_cell, count, monitor, set, model_monitor, model_set, lookup", "adobe/external_model.hpp: external_model_t"]}
{"id": "C114", "title": "The expressions of a sheet are the texts of its declarations", "statement": "The value a property model sheet gives to a cell is the value of the text the cell was declared with: whatever tokens an expression has, parsing it and running the resulting array on the virtual machine, with the sheet as lookup of variables, asks the sheet for the variables in the order of evaluation of the language (only those needed by &&, || and ?:), gives the meaning of the text under the answers, leaves the sheet as the lookups leave it, and ends with the exception of the lookup or with its own.  After an update that succeeds each output cell has the meaning of its text when the variables have the values that solve the sheet, and a derived interface cell the meaning of the text of the chosen term of its relation.", "quantifier": "all token sequences derivable as expressions, all sheets and histories, all lookups, all clients whose other functions do not look at the world, all sorts and orders of hash tables", "why_tests_cant": "it composes the parser, the machine and the sheet over unbounded texts, sheets and histories", "anchors": ["source/adam.cpp: calculate_expression, get, update", "source/virtual_machine.cpp: evaluate, variable_operator", "source/expression_parser.cpp: is_expression", "test/property_model_eval/queryable_sheet.cpp"]}
{"id": "C115", "title": "contributing() reports exactly the contributing cells", "statement": "sheet_t::contributing(mark) returns each interface cell that contributes to an output cell (or to an interface cell when there are no outputs) with its current value if the mark has no value or another one for it, and, if some contributing cell is missing in the mark, also the unchanged contributing cells whose priority was accessed; nothing else.  Without a mark it returns all of them; a mark updated with the report on it has the current value of every contributing cell, and the report on it is empty exactly then.  contributing_to_cell does the same for one cell and throws exactly when there is no such cell.  A contributing monitor is told once in each update what a new monitor would be told after it.", "quantifier": "all sheets and histories, all marks, all orders of the hash tables", "why_tests_cant": "contribution is accumulated over arbitrarily nested lookups and histories of updates; all marks and sheets", "anchors": ["source/adam.cpp: contributing, contributing_set, contributing_to_cell, monitor_contributing, update", "adobe/adam.hpp: contributing"]}
{"id": "C116", "title": "set(contributing()) restores the output of an equivalent instance", "statement": "If the result of contributing() after an update is set in an equivalent instance of the sheet, whatever the values and priorities its interface cells have there, then after the next update every output has the value it had when the report was made.", "quantifier": "all sheets, histories, equivalent instances, orders of the hash tables and sorts", "why_tests_cant": "it relates two histories of arbitrary sheets through the direction of relations chosen by priorities", "anchors": ["adobe/adam.hpp: contributing (documentation)", "source/adam.cpp: contributing, set, update, flow"]}
{"id": "C117", "title": "Enabled monitors tell which controls matter", "statement": "monitor_enabled tells the monitor at once whether the cell is enabled in the sense of the documentation (active, or its value was accessed and a cell of the touch set had its priority accessed, in the last update); it throws exactly when one of the names is not that of an input or interface cell.  An update tells the monitor at most once; what it tells is right for that update; and when it tells nothing the cell is as enabled as before.", "quantifier": "all sheets, histories, touch sets, orders of the hash tables and sorts", "why_tests_cant": "it must hold after every history of updates", "anchors": ["source/adam.cpp: monitor_enabled, enabled_filter, update", "adobe/adam.hpp: monitor_enabled"]}
{"id": "C118", "title": "poly holds values", "statement": "A poly<regular> variable behaves as a variable of the value it holds: constructing, copying, moving, assigning (operator=, assign(v)), swapping and writing through cast do exactly what they mean; cast<T>() gives the value for the right type and throws for any other; == compares types and then values. An operation throws only if new, a copy or a move throws (or for the wrong type), and then no variable and no memory has changed, also in assign(v). What is allocated is owned by exactly one variable in scope; when all are out of scope nothing is allocated. A variable moved from can be assigned to, destroyed and swapped.", "quantifier": "all programs over any number of variables, all value types (small or not), all addresses new may give, all places where new, a copy or a move throws", "why_tests_cant": "Ownership, aliasing and exception safety must hold for every history of operations and every point of failure.", "anchors": ["adobe/poly.hpp: poly_base, poly_state_remote, poly_state_local, poly_instance, swap, assign, cast", "adobe/poly_regular.hpp: poly_regular_instance::equals"]}
{"id": "C119", "title": "xstring marker replacement", "statement": "xstring_replace(id, markers) looks at the glossary entries with that id in the order they were stored. If every entry has a marker for which no given marker has the same attributes (with the same values, in any order), it throws. Otherwise the result is the entry with the most markers among those whose markers all have a replacement, the first of these, with every marker replaced by the content of the first given marker with the same attributes, references resolved and comments removed. xstring_replace(xstr, markers) does this for the id of the xstr element.", "quantifier": "all well-formed glossary entries and marker texts (markers with plain text), all numbers of entries and markers, all attributes, all addresses", "why_tests_cant": "The choice among the candidates and the replacement of nested and repeated markers must be right for every combination of entries and markers.", "anchors": ["source/xstring.cpp: replacement_engine_t, candidate_parse, marker_parse, xstr_id_harvest, xstring_replace", "adobe/xstring.hpp: xstring_replace"]}
{"id": "C120", "title": "xstring glossaries, lookup and contexts", "statement": "Constructing a context from a text adds its xstr elements to the glossary: under every id, the entries are those there were followed by the new ones with this id in the order of the text, each with its content. xstring(text) gives the text without tags, with references resolved and marker elements untouched. Inside of a context its attributes are in force and shadow those of the contexts around it; when a context is destroyed, attributes, glossary, predicate and handler are as they were before, whatever was done in it, also in contexts nested in it.", "quantifier": "all well-formed texts, all glossaries made from texts, all ids and attributes, all well-nested sequences of contexts and settings", "why_tests_cant": "Order and completeness of entries must hold for all texts and all histories of contexts.", "anchors": ["adobe/xstring.hpp: context_frame_t, xstring_context_t, xstring, parse_xml_fragment, element_handler", "source/xstring.cpp: xml_xstr_store, xml_xstr_lookup, store, exact_match_exists, closest_match"]}
{"id": "C121", "title": "Layout of values written as JavaScript and PDF", "statement": "os << begin_javascript << value << end_javascript writes the JavaScript text of the value, and os << begin_pdf << value << end_pdf its PDF text between two comments: arrays as [ a, b ] ([ a b ]), dictionaries with one member per line, sorted by name, indented by depth, strings between apostrophes (parentheses), names as new name('n') (/n), integers with their decimal digits, for every value with any nesting; every number can be written.", "quantifier": "all values (any nesting of arrays and dictionaries, any strings and names), both formats", "why_tests_cant": "the formatter keeps counters on a stack of elements and decides from the three innermost ones what to write; values nest without bound", "anchors": ["source/iomanip_javascript.cpp: javascript_format::stack_event, handle_atom", "source/iomanip_pdf.cpp: pdf_format::stack_event, handle_atom", "adobe/iomanip.hpp: format_base", "source/any_regular.cpp: operator<<(dictionary_t)", "adobe/array.hpp: operator<<"]}
{"id": "C122", "title": "JavaScript and PDF text determines the value", "statement": "Two values with the same JavaScript (or PDF) text are the same value, up to the order of the members of dictionaries.", "quantifier": "all pairs of values", "why_tests_cant": "injectivity is a statement on all pairs of nested values", "anchors": ["source/iomanip_javascript.cpp: handle_atom", "source/iomanip_pdf.cpp: handle_atom"]}
{"id": "C123", "title": "to_string writes at most 24 (22) characters", "statement": "For every finite double x, to_string(x, out, precise) finds the whole text in its buffer, none of its assertions fails, and it writes at least 1 and at most 24 characters if precise is true, at most 22 otherwise.", "quantifier": "every finite double and both values of precise", "why_tests_cant": "There are 2^64 doubles; the bound depends on the extreme exponents, on negative exponents near -4 and on rounding up to a new power of ten.", "anchors": ["adobe/string/to_string.hpp: to_string(double, O, bool)"]}
{"id": "C124", "title": "A precise text determines its double", "statement": "The text that to_string(x, out, true) writes denotes a decimal number whose nearest double is x and no other, for every finite double x, subnormal numbers included; so reading it with any correctly rounding reader gives x.", "quantifier": "every finite double and every correctly rounding reader", "why_tests_cant": "That 17 digits suffice for all doubles is a theorem about the spacing of two number systems; tests sample a few doubles.", "anchors": ["adobe/string/to_string.hpp: to_string(double, O, bool)"]}
{"id": "C125", "title": "Decimals of 15 digits survive double and to_string", "statement": "A decimal number of at most 15 significant digits, read as a double by any correctly rounding reader and written with to_string (not precise), is the same number again; a text that to_string wrote, read and written again, is the same text.", "quantifier": "every decimal of at most 15 significant digits, every correctly rounding reader", "why_tests_cant": "There are more than 10^15 such numbers for each of 600 exponents.", "anchors": ["adobe/string/to_string.hpp: to_string(double, O, bool)"]}
{"id": "C126", "title": "to_string(double) without std::to_chars", "statement": "Where std::to_chars is not available, the text that to_string(double) returns for a finite double can be read back as the same double, and the text of -x is the text of x with a minus sign.", "quantifier": "every finite double", "why_tests_cant": "The choice between 15 and 17 digits depends on the logarithm of the fraction; tests see a few values.", "anchors": ["source/string.cpp: to_string(double)"]}
{"id": "C127", "title": "Numbers in JSON texts", "statement": "What json_generator writes for a finite double is a number of RFC 8259; a generated text is parsed without error, with the same numbers, and generating the result gives the same text.", "quantifier": "every array or object of doubles, every correctly rounding strtod", "why_tests_cant": "Holds or fails depending on digits and magnitude of every double and on nesting.", "anchors": ["adobe/json.hpp: json_generator::generate_(double)", "adobe/json.hpp: json_parser::is_number", "adobe/string/to_string.hpp: to_string(double, O, bool)"]}
{"id": "C128", "title": "evaluate forgets earlier layouts", "statement": "After any sequence of evaluate() and adjust() calls of any options and sizes and of set_visible() calls, evaluate(options, width, height) gives every visible view the same place (position, length, outsets, guides, in both directions), and returns the same size, as it would for the same views just added with the same visibility; it fails only if that fails.", "quantifier": "every tree of views with any attributes, extents and two-pass placeables, every history of layouts and visibility changes, every requested size", "why_tests_cant": "The engine keeps alignments, guide sets, lengths and outsets in the views between calls; a stale value can show after any one of unboundedly many histories.", "anchors": ["source/eve.cpp: eve_t::implementation_t::evaluate", "source/eve.cpp: eve_t::implementation_t::adjust", "source/eve.cpp: view_proxy_t::calculate", "source/eve.cpp: view_proxy_t::adjust", "adobe/eve.hpp: eve_t::evaluate"]}
{"id": "C129", "title": "A segmented range is the sequence of the elements of its segments", "statement": "For a range of ranges, make_segmented_range gives iterators which visit the elements of all the inner ranges, each exactly once and in order, forwards and backwards, whichever inner ranges are empty (first, last, several in a row, all). After any sequence of ++ and -- an iterator denotes the element a plain index into the concatenation would denote; it is undefined exactly where that index would leave the concatenation; two iterators of one range compare equal exactly when they are at the same element, or both at the end, however they came there.", "quantifier": "all ranges of ranges (any number and lengths of inner ranges, empty ones included), all first segments, all histories of increments and decrements", "why_tests_cant": "The lengths of the segments and the histories are unbounded; the mistakes lie in runs of empty segments and in stale inner iterators at the end.", "anchors": ["adobe/iterator.hpp: segmented_iterator, make_segmented_range"]}
{"id": "C130", "title": "mismatch finds the end of the longest common prefix", "statement": "adobe::mismatch of two ranges of possibly different lengths returns in both ranges the position after their longest common prefix, reads nothing outside the ranges, and gives the same result for random access iterators as for others.", "quantifier": "all pairs of finite ranges, both implementations", "why_tests_cant": "All pairs of lengths and contents.", "anchors": ["adobe/mismatch.hpp: mismatch, mismatch_n, mismatch_t"]}
{"id": "C131", "title": "Index iterators are random access iterators", "statement": "Moving an index_iterator by m and then by n is moving it by m + n; moving by n and by -n leads back; the distance between two index iterators is the n by which the one is moved to become the other.", "quantifier": "all 64-bit indices and all distances", "why_tests_cant": "2^128 pairs of indices; the failure is at one boundary.", "anchors": ["adobe/iterator.hpp: index_iterator::advance, distance_to"]}
{"id": "C132", "title": "max_adjacent_difference", "statement": "max_adjacent_difference returns the first position at which the difference between the following element and the element is largest; the beginning when there are fewer than two elements.", "quantifier": "all sequences of integers", "why_tests_cant": "All lengths and contents.", "anchors": ["adobe/numeric.hpp: max_adjacent_difference"]}
{"id": "C133", "title": "A property model is read into a sheet as it is written", "statement": "Parsing a property model with the callbacks of bind_to_sheet succeeds exactly when the text is one of the grammar (with the additions of C76), no name is declared twice, every initializer of an input, interface cell or constant can be evaluated with the cells declared before it (an interface cell itself being empty), every relation is between interface cells declared before it, and external cells occur only if an external model is bound. The sheet then has exactly the cells and relations of the text, in its order, with their kinds, names, expressions, conditions and links; inputs, interface cells and constants start with the values of their initializers, evaluated once in the order of the text; and the sheet is one of those the guarantees about sheets apply to. Reading into a sheet in use adds the cells of the text and leaves those which were there; a text which declares a name cannot be read twice into one sheet.", "quantifier": "every text (token sequence), every meaning of compiled expressions, with and without an external model", "why_tests_cant": "texts, numbers of declarations and orders are unbounded; that nothing is dropped, swapped or evaluated in another order must hold for all of them", "anchors": ["source/adam_evaluate.cpp: bind_to_sheet, add_cell, add_relation", "source/adam_parser.cpp: parse", "source/adam.cpp: sheet_t::add_input, add_output, add_interface, add_constant, add_logic, add_invariant, add_relation"]}
{"id": "C134", "title": "A layout is read cells first, then updated, then built view by view", "statement": "When parsing a layout with the callbacks of bind_layout succeeds, the cells and relations of the layout were put into the layout sheet as they are written, in the order of the text (kinds, names, expressions, links, initial values as in C133); then the sheet was updated exactly once; then the arguments of every view were evaluated exactly once, in the order of the text and on the updated sheet, and the client was given the views in that order, each with its name, its evaluated arguments and the position the client returned for the view around it.", "quantifier": "every text (token sequence), every meaning of compiled expressions, every evaluator of view arguments (which may change the sheet) and every effect of update", "why_tests_cant": "texts and trees of views are unbounded; order and multiplicity of the evaluations must hold for all of them", "anchors": ["source/eve_evaluate.cpp: bind_layout, add_cell, add_relation, evaluate_named_arguments", "source/eve_parser.cpp: parse"]}
