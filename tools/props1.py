# Generates the first block of /verif/properties.jsonl (later blocks are appended by hand).
import json
P=[]
def p(id,title,statement,quant,why,anchors):
    P.append(dict(id=id,title=title,statement=statement,quantifier=quant,why_tests_cant=why,anchors=anchors))
p("C01","lower_bound_n / upper_bound_n return the partition point",
 "For any range in which the projected elements are partitioned with respect to the searched value, lower_bound_n returns the first position whose projected element is not less than x, and upper_bound_n the first position whose projected element is greater than x; no position outside the range is ever dereferenced.",
 "every range (any length), every comparator/projection pair that partitions it, every searched value",
 "the number of (range, comparator, projection, value) combinations is unbounded; off-by-one errors in halving only show for particular lengths",
 ["adobe/algorithm/lower_bound.hpp: lower_bound_n_","adobe/algorithm/upper_bound.hpp: upper_bound_n"])
p("C02","equal_range_n is exactly the pair of lower and upper bounds",
 "On a sorted range equal_range_n returns (lower_bound, upper_bound); the returned sub-range contains exactly the elements equivalent to x.",
 "every sorted range, strict weak order and value","infinitely many ranges; the early exit inside the loop combines two sub-searches",
 ["adobe/algorithm/equal_range.hpp: equal_range_n"])
p("C03","binary_search finds an element iff an equivalent one is present",
 "On a sorted range binary_search returns an iterator to an element equivalent to x when one exists, and the end iterator otherwise.",
 "every sorted range and value","unbounded domain",["adobe/algorithm/binary_search.hpp"])
p("C04","clamp, median, min and max return the documented order statistic",
 "min/max/median/clamp return the argument at the documented rank of the stable order; clamp(x,lo,hi) with lo<=hi lies in [lo,hi], equals x when x is inside, and median does not depend on the order of distinct arguments.",
 "every element type with a strict weak order, all triples","the order is arbitrary; equivalence but not equality matters for stability",
 ["adobe/algorithm/select.hpp","adobe/algorithm/clamp.hpp","adobe/algorithm/median.hpp","adobe/algorithm/minmax.hpp"])
p("C05","rotate exchanges two adjacent blocks and reports the meeting pair",
 "rotate(f,m,l) leaves [m,l) followed by [f,m), touches nothing outside, and the returned pair lets the caller recover the new position of the old first element (other_of).",
 "every range and every split point","the reversed-until bookkeeping differs in the three cases left shorter / equal / longer",
 ["adobe/algorithm/rotate.hpp: rotate","adobe/algorithm/reverse.hpp: reverse_until","adobe/algorithm/other_of.hpp"])
p("C06","gather collects the selected elements stably around the pivot",
 "gather(first,last,pivot,pred) permutes the range so that all elements satisfying pred form one contiguous run around the pivot, preserving relative order of satisfying and of non-satisfying elements, and returns exactly that run.",
 "every range, pivot and predicate","unbounded domain",["adobe/algorithm/gather.hpp: gather"])
p("C07","closed_hash_set behaves as a finite map from keys to values under every history",
 "After any sequence of insert, erase(key), erase(iterator), clear, reserve and copy, find(k)/count(k) report exactly the last value inserted with key k and not erased since; the result is independent of the hash function.",
 "every operation history of any length, every hash function (including constant and adversarial ones), every key equality that is an equivalence compatible with the hash",
 "collision chains, relocation of misplaced nodes and growth interact; histories are unbounded and the hash is a parameter",
 ["adobe/closed_hash.hpp: closed_hash_set::insert, find, erase, reserve, clear"])
p("C08","closed_hash_set iteration visits every element exactly once and size() counts them",
 "In every reachable state, iterating begin()..end() visits each stored element exactly once, keys are pairwise inequivalent, size() is the number of elements visited and never exceeds capacity().",
 "every reachable state","needs an invariant over the intrusive linked lists, not a sample",
 ["adobe/closed_hash.hpp: begin, end, size, capacity, insert_raw, erase_raw"])
p("C09","closed_hash_set erase(iterator) removes exactly one element and returns where to continue",
 "erase(it) removes the element at it and no other, keeps every remaining element findable, and returns an iterator from which continued iteration visits exactly the elements that had not yet been visited.",
 "every reachable state and every valid iterator","erasing a home node moves its successor into its slot; only some layouts exercise it",
 ["adobe/closed_hash.hpp: erase(iterator), clear"])
p("C10","closed_hash_set equality is content equality",
 "x == y iff both hold the same key/value associations, whatever the insertion order, erase history and capacities; == is an equivalence relation.",
 "all pairs of reachable sets","pairs of histories",["adobe/closed_hash.hpp: operator=="])
p("C11","circular_queue is a bounded FIFO that drops the oldest element when full",
 "Under every sequence of push_back / pop_front / clear, front(), size(), empty() and full() agree with a bounded queue which discards its oldest element on overflow.",
 "every capacity >= 1 and every history","wrap-around positions depend on the whole history",
 ["adobe/circular_queue.hpp: push_back, pop_front, size, front, full, clear"])
p("C12","circular_queue putback undoes pop_front",
 "As long as the queue is not full and no more putbacks than pops were made since the last push, putback restores the most recently popped element at the front and size() grows by one.",
 "every reachable state, any number of consecutive pops then putbacks","history dependent",
 ["adobe/circular_queue.hpp: putback"])
p("C13","circular_queue copies are equal to and behave as the original",
 "A copy of a queue compares equal to it and every later operation sequence gives the same observations on both.",
 "every reachable state (including full queues) and every later history","a copy of a full queue differs only in a one-past-the-end position that is observed by the next push",
 ["adobe/circular_queue.hpp: circular_queue(const circular_queue&), operator=="])
p("C14","Selection union / intersection / symmetric difference are pointwise boolean operations",
 "For every index i, i is selected in the result of a selection operation iff the boolean operation holds of its membership in the operands; the result's boundaries are strictly increasing.",
 "all pairs of well-formed selections (both starting polarities) and every index","infinitely many boundary interleavings",
 ["adobe/algorithm/selection_algorithms.hpp: selection_operation, selection_operation_remainder, selection_union, selection_intersection, selection_symmetric_difference"])
p("C15","Selection difference is pointwise x and not y",
 "selection_difference(x,y) selects i iff x selects i and y does not.","all pairs of well-formed selections, every index",
 "polarity cases times boundary interleavings",["adobe/algorithm/selection_algorithms.hpp: selection_difference"])
p("C16","selection_includes decides set inclusion",
 "selection_includes(x,y) is true iff every index selected by y is selected by x, and evaluating it never reads past the end of a sequence.",
 "all pairs of well-formed selections","quantifies over all indices and pairs",["adobe/algorithm/selection_algorithms.hpp: selection_includes"])
p("C17","is_selected, index_set_to_selection and selection_to_index_set agree",
 "index_set_to_selection of a strictly increasing index set selects exactly these indices; selection_to_index_set(s, n) lists exactly the indices < n selected by s, in order; the two are inverse to each other.",
 "every strictly increasing index set, every selection, every n","unbounded",
 ["adobe/algorithm/selection_algorithms.hpp: is_selected, find_sequence_end, index_set_to_selection, selection_to_index_set"])
p("C18","Selection copy/partition algorithms move exactly the selected elements, stably",
 "selection_copy, selection_partition_copy, size(selection, range) and selection_foreach act on exactly the selected elements in order; selection_stable_partition moves unselected elements before selected ones, stably, and returns the boundary.",
 "every range and every selection whose boundaries lie inside it","divide and conquer over boundary lists of any length",
 ["adobe/algorithm/selection_algorithms.hpp: selection_copy, selection_partition_copy, size, selection_stable_partition"])
p("C19","Selections compare equal iff they select the same indices",
 "operator== on well-formed selections holds iff membership agrees for every index.","all pairs of selections","quantifies over all indices",
 ["adobe/selection.hpp: operator=="])
p("C20","forest is an ordered forest of trees under every history of insert, erase, splice",
 "Starting from an empty forest, after any sequence of insert / erase / splice / insert_parent / reverse / push / pop operations at valid positions, the fullorder traversal is the parenthesis word of the ordered forest obtained by the corresponding tree edits.",
 "every history and every valid position","pointer surgery on four links per node; only particular neighbourhoods expose errors",
 ["adobe/forest.hpp: insert, erase, splice, insert_parent, reverse, set_next_fn"])
p("C21","forest iterators are bidirectional and traverse every node exactly twice",
 "From begin() repeated ++ reaches end() after visiting each node once on its leading and once on its trailing edge, properly nested; -- undoes ++ and ++ undoes -- everywhere.",
 "every reachable forest and every iterator position","unbounded shapes",["adobe/forest.hpp: forest_iterator::increment, decrement"])
p("C22","forest::size() is the number of nodes whatever the splice history",
 "size() always returns the number of nodes although the cached count is invalidated and recomputed lazily across splices between forests.",
 "every history over any number of forests","cached value validity depends on the history of both forests",
 ["adobe/forest.hpp: size, size_valid, splice, insert, erase"])
p("C23","forest copy and equality are structural",
 "A copied forest has the same shape and values; x == y iff shape and values coincide.","all forests","unbounded shapes",
 ["adobe/forest.hpp: forest(const forest&), operator=="])
p("C24","forest preorder/postorder/child/depth/reverse/filter adaptors enumerate what they promise",
 "preorder visits parents before children in order, postorder after; child_range lists exactly the direct children in order; depth_range reports each node's depth; reverse_fullorder is the mirror traversal.",
 "every forest","unbounded shapes",["adobe/forest.hpp: edge_iterator, child_iterator, depth_fullorder_iterator, reverse_fullorder_iterator, find_parent, has_children"])
p("C25","UTF-32 to UTF-8 and back is the identity and matches the Unicode standard encoding",
 "For every sequence of Unicode scalar values, copying to UTF-8 yields the standard encoding and copying back yields the original sequence.",
 "every sequence of scalar values of any length","1.1 million scalars and unbounded sequences; concatenation must stay decodable",
 ["adobe/unicode.hpp: copy_utf, utf32_to_utf8, to_utf32, promotion_engine_t, demotion_engine_t"])
p("C26","UTF-16 conversions round-trip",
 "For every sequence of scalar values the UTF-16 conversion uses surrogate pairs exactly above U+FFFF and converts back to the original; UTF-8 <-> UTF-16 conversions compose consistently.",
 "every sequence of scalar values","as above",["adobe/unicode.hpp: utf32_to_utf16, to_utf32 (16), to_utf8, to_utf16"])
p("C27","UTF conversion never reads past the input, always terminates and respects the expansion bound",
 "For every input (valid or not) copy_utf reads only the source range and writes at most expand_utf times its length.",
 "every byte / code unit sequence, including malformed ones","malformed inputs are unbounded",["adobe/unicode.hpp: copy_utf documentation note, expand_utf_t"])
p("C28","MD5 streaming is independent of chunking and equals the one-shot RFC 1321 digest",
 "For every split of a message into update() calls, final() equals MD5 of the concatenation: block-wise compression of message, 0x80, zero padding, 64-bit little-endian bit length.",
 "every message and every split into chunks","all lengths and all splits",["source/md5.cpp: md5_t::update, final"])
p("C29","md5_t::final resets the generator",
 "After final() the object behaves as freshly constructed.","every prior history","history quantification",["source/md5.cpp: final, reset"])
p("C30","SHA-1/2 streaming is independent of chunking and pads per FIPS 180",
 "For every byte message below 2^64 bits and every split into update calls, finalize() equals the compression of the FIPS 180 padded message; finalize does not change the object.",
 "every message, every split, each of the hash variants","all lengths and splits",["adobe/sha.hpp: stuff_into_state, block_and_digest, finalize, sha::update"])
p("C31","JSON generate then parse is the identity",
 "For every JSON value built of objects, arrays, strings (any bytes), booleans and null, parsing the generated text yields the value back.",
 "every JSON value of any depth","unbounded structure and string contents",["adobe/json.hpp: json_generator, json_parser","adobe/json_helper.hpp"])
p("C32","JSON parser accepts \\u escapes with the RFC meaning",
 "A \\uXXXX escape (or a surrogate pair of them) inside a string denotes the UTF-8 encoding of the scalar value.",
 "every escape sequence and every scalar value","65536^2 escape pairs",["adobe/json.hpp: is_string, get_four_digits, utf8"])
p("C33","JSON parser never reads past the terminating NUL",
 "For every NUL terminated input the parser either returns a value or throws, without reading beyond the terminator.",
 "every input string","truncated inputs at every position",["adobe/json.hpp: is_sequence, is_string, get_four_digits, is_number"])
p("C34","copy_on_write gives value semantics",
 "Writing through one handle never changes the value read through any other handle, under any history of copies, moves, assignments and writes.",
 "every history over any number of handles","sharing patterns are unbounded",["adobe/copy_on_write.hpp: write, operator=, copy/move constructors"])
p("C35","copy_on_write frees each shared value exactly once",
 "In every interleaving of copies, releases and writes on distinct handles, the shared block is freed exactly when its last handle goes away: never earlier, never twice, never leaked.",
 "every interleaving of atomic steps of any number of threads","schedules",["adobe/copy_on_write.hpp: release, reset, write","adobe/counter.hpp"])
p("C36","Interned names are equal iff their strings are equal",
 "name_t(a) == name_t(b) iff a and b are the same character sequence, regardless of the interleaving of earlier interning.",
 "every pair of strings and every interning history","2^64 hash space: a collision cannot be found by tests",["source/name.cpp: map_string","source/string_pool.cpp: add"])
p("C37","FNV-1a is a left fold with the documented folding width",
 "fnv1a over a range equals the FNV-1a recurrence, both entry points (sentinel predicate and iterator pair) agree, and the result is below 2^Bits.",
 "every byte string and width","unbounded strings",["adobe/fnv.hpp: fnv1a, bitmask"])
p("C38","Dancing links: uncover undoes cover, unpurify undoes purify",
 "cover_column followed by uncover_column restores every link, size and flag of the toroid, also when nested operations happened in between in stack order.",
 "every toroid and every nesting","pointer state depends on entire matrix",["adobe/implementation/toroid.hpp: cover_column, uncover_column, purify, unpurify"])
p("C39","Dancing links enumerates exactly the exact covers",
 "search reports each set of rows that covers every primary column exactly once (and every secondary column at most once) exactly once, until the limit is reached.",
 "every 0/1 matrix, every heuristic choosing an uncovered column","exponential search space",["adobe/dancing_links.hpp: do_search"])
with open('/verif/properties.jsonl','w') as f:
    for x in P: f.write(json.dumps(x)+"\n")
