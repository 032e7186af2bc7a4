# Formal model of adobe_source_libraries in Lean 4 — design

## Method

`/repo` is read as text; nothing is compiled or executed.  Each C++ component gets a directory
`lean/Verif/<Component>/` with

* `Model.lean`  – executable, total Lean functions, one per C++ function, each with a comment
  `-- models: <file>:<lines>` and an explicit note of every simplification;
* `Spec.lean`   – (when needed) a tiny independent specification (finite map, queue, list of trees,
  index predicate, RFC padding …) that does not mention the model;
* `Lemmas.lean` – helper lemmas / invariants;
* `Props.lean`  – the property theorems (`Cnn_…`), each followed by an `example` showing that a
  concrete non-trivial case meets its hypotheses.

Partial results carry the suffix `_partial`; when the code itself violates a property the negation is
proved with a concrete witness (`…_violated`) and the largest true part is proved as `…_partial`.

C++ undefined behaviour (dereferencing end, reading past the terminator, etc.) is a distinct outcome of
the model (`none`/`Outcome.ub`), never totalised away.

## Trusted base

* Lean 4.33.0 kernel; axioms `propext`, `Classical.choice`, `Quot.sound` only (see the axiom audit at
  the end of this file).  No `axiom`, no `native_decide`, no `bv_decide`.
* The reading of the C++ sources (citations in the models).
* C++ standard-library pieces that the code calls are modelled by their standard contract
  (listed per component below).

## Plan per property

| id | modelled | proof shape |
|----|----------|-------------|
| C01–C03 | `lower_bound_n_`, `upper_bound_n`, `equal_range_n`, `binary_search` as loops on (offset, count) over an access function that fails out of range | loop invariant, induction on count |
| C04 | `select_*` decision trees, `clamp`, `median`, `min`, `max` over an arbitrary strict weak order | case analysis against the stable-sorted triple |
| C05–C06 | `reverse_until`, `rotate`, `gather` on lists/arrays by index | loop invariant; `std::reverse`, `std::stable_partition` by contract |
| C07–C10 | pointer-level heap (`next`/`prior`/2-bit state/value per node, two sentinel nodes) for `insert`, `find`, `erase`, `reserve`, `clear`, `operator==` | representation invariant (two circular lists, contiguous chains) + refinement to an association map |
| C11–C13 | buffer + begin/end index + empty flag | refinement to a bounded queue over op histories; copy of a full queue: UB witness |
| C14–C19 | boundary lists, each algorithm's loop | membership predicate `parity of boundaries ≤ i`; pointwise theorems |
| C20–C24 | four links per node, `(node,edge)` positions, `set_next` surgery | representation invariant: circular word of positions is the Dyck word of a list of rose trees; each op = tree edit |
| C25–C27 | code-unit level functions on `Nat`/`UInt32` | arithmetic, induction over the sequence |
| C28–C30 | byte buffers, counters modulo 2^32/2^64, compression function modelled concretely, theorem generic in it | streaming invariant: state = fold of compression over full blocks, buffer = remainder |
| C31–C33 | recursive-descent parser over NUL-terminated byte list with explicit out-of-bounds outcome; generator | mutual induction over JSON values |
| C34–C35 | heap of counted blocks, handles; small-step atomic interleavings | invariant: count = number of handles |
| C36–C37 | hash-keyed intern table; FNV fold | invariant over histories; negation under a collision |
| C38–C39 | toroid links; search over sets of rows | inverse laws; soundness/completeness of the search |

Further components (expression parser, virtual machine, lexer, property-model sheet, layout, XML, …) are
appended below as they are modelled.

## Components: what is modelled and what is not

| component | code modelled | not modelled / simplified |
|---|---|---|
| Search | `adobe/algorithm/{lower_bound,upper_bound,equal_range,binary_search}.hpp`: the counted loops | iterator categories; projections are ordinary functions |
| Select | `adobe/algorithm/{select,clamp,median,minmax}.hpp` decision trees | references are modelled as values plus the position they refer to |
| Permute | `rotate.hpp`, `gather.hpp`, `reverse.hpp` (`reverse_until`) | `std::reverse`, `std::stable_partition` by contract |
| ClosedHash | all of `closed_hash.hpp` at node level: two circular lists, packed 2-bit state, relocation, growth table, copy, destruction | allocator failure; value copy constructors that throw |
| CircularQueue | all of `circular_queue.hpp` | exceptions from assignment of values |
| Selection | `selection.hpp`, `selection_algorithms.hpp` | iterators are positions in a list |
| Forest | `forest.hpp`, `iterator/set_next.hpp` at link level; adaptors | self move-assignment, exceptions from value copies |
| Unicode | all of `unicode.hpp` | `expand_utf` (does not compile as instantiated) |
| Md5, Sha | `md5.cpp`, `sha.hpp` entirely, constants included | lengths beyond the counters wrap in the model as in the code |
| Fnv | `fnv.hpp`, widths 1..1024 | – |
| Name | `name.cpp`, `name.hpp`: the intern table, static names | the mutex (calls are atomic) |
| Json | parser and generator of `json.hpp` | `strtod`, `to_string(double)` are parameters; locale |
| Cow | `copy_on_write.hpp` as atomic steps of many threads | weak memory (sequential consistency assumed), counter overflow |
| Dlx | `dancing_links.hpp`, `toroid.hpp` at link level | – |
| Expr | `expression_parser.cpp`, `virtual_machine.cpp`, operator tables | arithmetic on `double` is a parameter; user functions are parameters |
| Lex | `lex_stream.cpp`, `lex_shared.hpp`, `token.cpp`; token ring on top of the CircularQueue model | C locale; copies of a stream; `strtod` a parameter |
| Adam | `adam.cpp` sheet engine: add_*, set, touch, update, reinitialize, monitors, contributing | `adam_parser.cpp`; connections are not stored in the sheet: a monitor is what `monitor_contributing` / `monitor_enabled` bind (C115–C117); expressions are interaction trees (`Prog`): `Expr/Tree`, `Adam/Link` (C114) show that the machine of `Expr` running the array of any text is such a tree (a nested evaluation shares the stack of the machine in the code and has its own in the model: values are not affected, only what an exception leaves below; `r != state_m` is equality of the model's values, i.e. NaN = NaN) |
| Eve | `eve.cpp` layout engine: calculate (horizontal, vertical), solve of guides and lengths, adjust, evaluate; proxies as a tree | placeable callbacks are parameters (`measure`, `measure_vertical`); integer overflow; `eve_parser.cpp`, `eve_evaluate.cpp` |
| Task | `future.hpp`, `future.cpp`: thread pool, timed queue, `shared_task_queue`, as a transition system of all threads (locks, `notify_one`, spurious wakeups) | weak memory, `std::future`, exceptions of allocation, the destruction of the static pool (it hangs, by the code's own comment), `concurrent_queue` |
| Cancel | `task.hpp`: `cancel_state` (register, deregister, cancel, is_canceled) as a transition system, callbacks that throw, addresses that are reused | `cancellation_token::none()`, weak memory, `task_canceled` |
| Decl | `adam_parser.cpp`, `eve_parser.cpp`: both declaration parsers on top of the expression parser (Expr), with a log of the calls of the client; grammar in `Spec.lean` | line positions, clients which throw, the keyword tables (tokens are given) |
| Algo | `reduce.hpp`, `sorted.hpp`, `erase_if.hpp`, `find.hpp` (`find_range*`), `copy.hpp` (`copy_n`, `copy_bounded`, `copy_sentinal`), `filter.hpp`, `iota.hpp`, with traces of the calls of function objects; `std::adjacent_find`, `std::remove_if`, `std::copy` by their standard algorithm | allocation failure, iterator categories other than by overload |
| Table | `table_index.hpp` `table_index`: insert, erase, sort (postcondition of `std::sort`), unique, find, subscript, bounds (on the Search models) | `hash_index` (ClosedHash), `count` (does not compile), positions invalidated by the client |
| Entity | `expression_filter.cpp`: the whole entity table (generated from the source), escape, unescape, both lookups (on Table), both predicates | other locales than "C", static initialisation |
| ConcQueue | `concurrent_queue` (`adobe/future.hpp:101-140`): `push`, `pop` for any number of concurrent calls, with the lock, the test of `empty()` and the `splice` as separate steps, throwing allocation and throwing assignment | weak memory, destruction of the queue while calls are in flight |
| XmlAttr | `token_range_t` comparisons (`lex_shared_fwd.hpp:62-232`), `attribute_set_t` (`xml_parser.hpp:44-404`): insert, lookup, merge, equality, `count_same`, collisions; memory is a map from addresses to bytes, so ranges with equal text at different places are told apart | ownership of the texts, `operator<<` |
| Xml | the XML lexer (`xml_lex.cpp`, `lex_base_t` in `lex_shared.hpp`) and parser (`xml_parser.hpp:414-1130`, `transform_reference` in `xml_parser.cpp`) over a byte memory with addresses: tokens, putback, tags, attributes, content, prolog, preorder elements, callbacks that throw or replace elements (parsed in turn); reading past the end is a distinct outcome | line and column numbers, texts of exceptions, `xml_element_finder`/`xml_parser_t` constructors and default callbacks, output iterators that fail, memory that changes during the parse |
| Cel | source/iomanip_asl_cel.cpp, `format_base`/`format`/manipulators (adobe/iomanip.hpp, manip.hpp), `operator<<` of `dictionary_t`, `array_t`, `any_regular_t`: as state transformers on (output, depth, stack) with exceptions; the round trip composes it with Entity, Lex and Expr (C96, C97) | `to_string(double)` and `type_info().name()` are parameters; stream failures; `copyfmt` and callbacks of the stream; `alt` sequences; formats other than CEL |
| Zuid | `zuid_t`: `str`/`c_str`, the constructors from text (sscanf with white space, signs, `0x`; `none` = indeterminate value read), comparison, from a name (on the Md5 model), from the clock for one and several threads (C98–C101) | how clock readings and random numbers are obtained (inputs), big-endian machines, effects of the data race on the static clock variables |
| XmlOut | `begin_xml`/`end_xml`: `xml_format::stack_event`, `handle_atom`, with the formatter stack, manipulators, `operator<<` of dictionary, array and `any_regular_t` of Cel; the text as a tree of the Xml grammar, which is shown to be unambiguous, and what the tree stands for (C102, C103) | `os << double`, `static_cast<int64_t>` of a double and `type_info().name()` (parameters); stream failure |
| Pool | source/string_pool.cpp: `string_pool_t::add`, `allocate`, destructor, `unique_string_pool_t::add`, over a byte memory with addresses; writes are checked against the blocks; histories with exceptions and foreign writes (C104) | `std::set` is a list searched for an equal string; what `operator new` gives is an argument, required to be unused memory; threads |
| Any | adobe/any_regular.hpp: `any_regular_t` with local and remote models, constructors, `operator=`, `assign`, `swap`, `cast`, `==`, destructor, over a heap with addresses and throwing allocations and copies (C105, C106); adobe/conversion.hpp `promote` and `cast` of numbers, over rationals (C107) | vtable version, captured allocator, serialization (see Cel, XmlOut); infinities and NaN; `runtime_cast` (wrappers of `cast`) |
| Poly | `poly_base` / `poly<regular>`: value, copy and move constructors, `operator=`, `assign(v)`, `swap`, `cast`, `==`, destructor, local and heap storage, with `new`, copies and moves that throw (adobe/poly.hpp, adobe/poly_regular.hpp) | conversions between interfaces, `poly_cast`, `poly_placeable` and other concepts' own members |
| XString | glossary (`context_frame_t`: store, multimap, exact match), marker replacement (`replacement_engine_t`, `xstring_replace`), lookup (`xstring`, `element_handler`), `xstring_context_t` (source/xstring.cpp, adobe/xstring.hpp), on top of Xml and XmlAttr | debug builds (in which a failed lookup stores the default), `parse_info`, string pool and `clone`, `xml_element_finalize`, markers whose contents have elements (modelled, but not covered by C119), handlers set by the client in `xstring` (modelled, not covered by C120) |
| Script | `begin_javascript`/`end_javascript`, `begin_pdf`/`end_pdf`: `stack_event` and `handle_atom` of both formatters (source/iomanip_javascript.cpp, source/iomanip_pdf.cpp) as one model with a `Style` record for the texts that differ, with the formatter stack and `operator<<` of dictionary and array; texts are read back in a grammar shown to be unambiguous on the printable fragment (C121, C122) | stream flags, the text of non-integral doubles and `type_info().name()` (parameters), stream failures |
| ToStr | `to_string(double, O, bool)` (adobe/string/to_string.hpp) with its buffer and assertions, `to_string(double)` without `std::to_chars` (source/string.cpp:41-47), `generate_(double)` (adobe/json.hpp:551-554); finite doubles are `m·2^e` over the rationals, `snprintf("%.*g")` is the rounding and layout of C11 7.21.6.1 (C123–C127) | `std::to_chars`, infinities and NaN, locales, `std::log10` near 10^-7 (a parameter); `strtod` is any correctly rounding reader |
| Layout | adobe/static_table.hpp (lookup, sort as any sorted permutation), source/eve_evaluate.cpp: `apply_layout_parameters` step by step with `bad_cast` and out of range accesses, the tables of `init_once_`, `layout_variables` | `bind_layout` (binding of callbacks), extents, numbers that are not finite |
| ErrFmt | source/istream.cpp, adobe/istream.hpp: positions, `stream_error_t` and its traces, `format_snippet`, `format_stream_error`, `is_line_end` (both), `get_line` | the function that reads the line (its result is given); overflow of offsets; bytes are characters |
| ExtModel | source/external_model.cpp: all of `external_model_t`, over histories of calls and disconnections | monitors that throw or call back; boost::signals2 beyond order and disconnection |

### Hypotheses that appear in several theorems

* A comparison passed to an algorithm is a strict weak order (`Common/Order.lean`), as its documentation demands.
* The `==` of a value type is equality when a theorem speaks of equality of containers.
* Memory allocation succeeds.
* `std::` containers and algorithms obey their contract.

## Disagreements between code and documentation found on the way

Each is either a `…_violated` theorem or a remark in the model.

* **Adam** – an update that throws inside an interface cell's expression leaves its name on the get stack, later
  updates read the input instead (`C60_failed_update_violated`); a circular definition through a logic cell is
  undetected and order dependent (`C53_circular_definitions_violated`); `reinitialize` depends on hash order
  (`C61_reinitialize_violated`); a single-term relation always throws; failed `add_*` calls are not
  transactional; `monitor_enabled` misses `value_accessed`; short arrays in `calculate_indexed` and more than
  1024 cells in `contributing_set` are undefined.
* **Cancel** – `register_callback` puts the callback at the front of the list and returns the address of the *last* one: with two
  callbacks, deregistering the second removes the first (C74_deregister_violated).  A second `cancel` returns while the first still
  runs callbacks; a callback that throws loses the rest of the list.
* **Task** – `suspend()` does not stop a task that the queue has already given to the pool: it starts after `suspend()` has
  returned (C70_suspend_immediate_violated).  `std::thread::hardware_concurrency()` may be 0; then no task ever runs
  (C71_no_thread_violated).  `async(f, args…)` passes the arguments to the constructor of `std::packaged_task`, which does not
  take them, so only calls without arguments compile.
* **Eve** – `adjust()` starts from the horizontal outsets of the last layout and only enlarges them: a window that is evaluated and then
  made larger with `adjust()` keeps an outset its content no longer needs (C128, `C128_adjust_remembers`).
* **Eve** – two reverse guided leaves in a row subtract the shared adjustment twice; a guided leaf after a filling
  sibling, and cross `reverse_fill` with guides, may leave the container (`C62_…_violated`); a single `align_proportional`
  child divides by zero; a child whose default alignment is never resolved is placed like `align_forward`; outsets of
  children in the middle of a row are not covered (`C66_outsets_cover_violated`); the guide solver may never settle
  when `reverse_fill` is used (`C64_solver_settles_violated`).
* **Expr/VM** – `% 0`, shifts ≥ 32, out-of-range conversions are undefined; overriding non-binary operators breaks
  the stack; min/max of one non-number returns it unchecked; duplicate dictionary keys keep the first.
* **Lex** – a lone quote at the end of the text is an empty string; `1.2.3` is one number; hex wraps at 64 bits; line
  ends inside strings are not counted (`C49_line_numbers_violated`); strings and comments are cut at NUL.
* **Table** – `unique()` gives the ordering to `std::unique` as equality: on a sorted index all rows but those with the smallest key
  are lost (`C85_…_violated`).  `find` compares with `!=` (`C84_find_equivalent_keys_violated`).
* **XmlAttr** – `attribute_set_t::count_collisions` compares the values with `!=` of `std::pair<const unsigned char*, …>`, i.e. pointers, where `has_collisions` compares texts: equal sets that were parsed from different places have no collisions but are counted (`C90_count_collisions_violated`).
* **Xml** – `is_att_value` calls `advance_lex()` once more after the loop, so a value that is not closed before the end of the range leaves `first_m` one past `last_m`; `is_eof` compares with `==` and the next token is read from beyond the range (`C94_overread_violated`; `C94_ends_partial` shows it is the only way).
* **Xml** – `is_element` copies the end tag as `[name.first-2, name.second+1)`, which is wrong with white space in the tag: `<a>x</a >` comes out as `<a>x</a ` (`C95_end_tag_violated`).
* **Xml** – in `is_content` for preorder elements, character data after a leading comment sets only the end of the content range: the callback gets a range from the null pointer (`C95_value_range_violated`).
* **Xml** – texts that are not well formed and are accepted silently: content is parsed up to a stray end tag, `>` or processing instruction and the rest is ignored, an unterminated reference at the end, any text before the root element (`C93_*_violated`). Well-formed XML that is not: text beginning with `>`, processing instructions in content, comments before the root (`C92_*_violated`).
* **Cel** – `end_asl_cel` does not uninstall the formatter; the next `any_regular_t` written to the stream is lost without any error (C96_after_end_violated).
* **Cel** – numbers that `std::to_chars` prints with an exponent (already 100000, `1e+05`) cannot be read back: the lexer knows no exponents and the parser stops after the mantissa (C97_exponent_violated). NaN and infinities become variable names.
* **Cel** – strings with bytes from 128 on are not read back (C97_bytes_violated), keys that are keywords make the text unreadable (C97_keyword_violated), a final quote is dropped in unsafe mode (C97_quote_violated).
* **Zuid** – the result of `sscanf` is ignored: a text that is no UUID leads to reads of uninitialised variables, or is taken for some UUID (C98_unchecked_violated, C98_accepts_violated).
* **Zuid** – the length of a name is cut to 16 bits: all names of 65536 bytes get the UUID of the empty name (C100_long_name_violated).
* **Zuid** – `get_current_time` shares its counter between threads (unsynchronised), the clock sequence is per thread and only incremented if the time decreases: a thread makes the same UUID again when others have made 65535 in between and the clock stands still (C101_threads_violated); one thread repeats itself after 2^30 (C101_period_violated).
* **XmlOut** – names are written unescaped in `<key>` and `<ident>` (C103_name_violated, C103_rejected_violated, C103_collision_violated); `end_xml` leaves the format in the stream (C102_after_end_violated).
* **Pool** – a block is never given back if `push_back` throws (C104_leak_violated); room is lost if `insert` throws (C104_room_violated).
* **Any** – `assign(T)` destructs before it allocates: if the allocation throws, the object is destructed twice (C106_assign_throws_violated); `new_move` leaks if the move throws (C106_leak_violated); moved-from remote objects hold a null pointer that copying, comparing and casting dereference (C105_moved_violated); 64-bit integers are not interchangeable with smaller ones (C107_long_violated).
* **Poly** – after `poly x(std::move(y))` with a value on the heap, `y.assign(v)` with a value of the type that `y` had writes through a null pointer (`y = poly(v)` is fine); `poly_base::assign(const poly_base<J, K>&)` names `interface_ptr`, which does not exist, so that it cannot be instantiated.
* **XString** – `xstring` never uses the glossary (`closest_match` is disabled with `#if 1`), so that it always gives the default text; `xstr_id_harvest` tests `distance(begin(id), begin(id))`, which is always 0, so that the last id counts; elements without content (`<br/>`) are lost in replacement; `exact_match_exists` compares addresses (`std::equal_to` does not see the `operator==` in `implementation`); a context whose constructor throws leaves attributes and partial glossary in the frame; `slurp_m` is not restored by the destructor and is passed to `delete[]` at thread exit although it is the client's memory; `marker_parse` dereferences `marker_tag_g` without `xstr_once` (a null pointer if `xstring_replace(name_t, …)` is the first call); a marker whose replacement contains a marker with the same attributes recurses without end.
* **Script** – the test for an integral number is `static_cast<std::int64_t>(value)` without a range test (undefined for large numbers, infinities and NaN; modelled as a parameter, C121_large_violated); strings and names are printed without escaping, so that different values share a text (C122_apostrophe_violated, C122_parenthesis_violated); a value of a foreign type is printed as a string or name (C122_foreign_violated).
* **ToStr** – the documentation says that texts of at most 15 significant digits make the round trip; that fails for subnormal numbers (`5e-324`). `to_string(double)` without `std::to_chars` takes `log10` of a negative fraction (NaN), so negative numbers with a small fraction lose digits that positive ones keep, and numbers with an ordinary fraction are not written precisely. JSON numbers are written with 15 digits: `parse(generate(x))` may be another double, and `generate(DBL_MAX)` is a text beyond the range of double.
* **Layout** – balanced baselines are un-suppressed in a row without a mask, against the comment in the source (C109_balance_violated); `spacing: []` then a number, and margin arrays with less than four elements, are out of range (C109_spacing_violated, C109_margin_violated); a type error leaves the attributes half changed (C109_atomic_violated); `layout_variables` before `init_once` dereferences null (C110_variables_violated).
* **ErrFmt** – the caret is one column left of the column reported (C111_column_violated); with an unknown position the blanks are subtracted twice (C111_unknown_violated); an error without positions (no memory) is not defined to print (C111_memory_violated).
* **ExtModel** – `set` without a model monitor throws `bad_function_call` (C113_set_violated).
* **Adam** – contributing monitors see the touched cells of the previous update (C115_monitor_violated); removed contributors are not noticed
  (C115_removed_violated); `set(contributing())` need not restore the output (C116_unread_cell_violated, C116_order_violated); an enabled monitor
  is not told about changes of `value_accessed_m` (C117_silence_violated).
* **Entity** – `entity_escape` works on bytes but `entity_unescape` on code points: no string with a non ASCII character survives
  the round trip; NUL is dropped; text after a lone `&` is dropped (`C86_…_violated`, `C87_…_violated`).
* **Algo** – `is_sorted(f, l, o)` with a strict ordering rejects sorted sequences with equal neighbours, unlike `is_sorted(range)`
  (`C81_…_violated`); `erase_if` on node based containers applies the predicate more often than documented (`C82_…_violated`).
* **Decl** – in a layout, the third relate expression of a relation and those which follow are reported with the names and comments
  of the first (`eve_parser.cpp:330,333` resets only the code; `adam_parser.cpp:404,407` resets all: `C78_reports_exactly_violated`);
  `unlink` and lead comments that precede nothing are accepted (`C76_rejects_others_violated`); `parse_adam_expression` ignores what
  follows the expression (`C79_whole_input_violated`).
* **Dlx** – `search(0)` reports a solution before it looks at the limit (`C39_limit_zero_violated`); a search stopped by
  its limit leaves the toroid covered.
* **Json** – `is_sequence` reads past the terminator on `[true`; surrogate pairs are refused or decoded wrongly; names are
  cut at NUL (`C31_…`, `C32_…`, `C33_…_violated`).
* **Name** – lookup by 64-bit hash only, with an explicit collision (`C36_collision_violated`). **Fnv** – sign extension of
  `char` (`C37_signed_char_violated`).
* **Forest** – `reverse` of a range that is followed by siblings breaks a link (`C41_reverse_violated`). **Sha** – unused bits of the
  last byte are not masked (`C42_unused_bits_violated`).
* **Search** – `binary_search` tests `==` (`C03_binary_search_violated`). **CircularQueue** – copy of a full queue, comparison of
  empty queues (C13). **Selection** – reversed arguments in `selection_difference` (C15), boundary inclusion (C16),
  several boundary lists for one set (C19). **Unicode** – nontermination in release builds (C27).
* **sorted.hpp** – `is_sorted` with iterators demands strictly increasing elements, the range version does not.

* **Iter** (C129–C132) – `adobe/iterator.hpp` `segmented_iterator` (a bucket, an end bucket and an inner iterator that names its segment; what
  C++ leaves undefined is `none`), `index_iterator` (64-bit vectors), `adobe/mismatch.hpp`, `max_adjacent_difference` of
  `adobe/numeric.hpp`.  Proved by an invariant that relates the iterator to a cursor of the concatenated segments.  Not modelled:
  `step_iterator_adaptor` (its step function is not in the library), assignment and `swap` of segmented iterators, which do not compile
  when used (`curent_m`, iterator.hpp:157).  Finding: the distance of index iterators overflows across 2^63 (`C131_index_distance_violated`).

* **Bind** (`lean/Verif/Bind`, C133): source/adam_evaluate.cpp `bind_to_sheet`, `add_cell`, `add_relation`, composed with the parser of `Decl` (C76) and the sheet of `Adam`. Which texts can be read (exactly), the cells, relations, names and start values of the sheet which results, and that it is reachable. What an array of code means is a parameter. Not modelled: the external model itself (`Sheet`-independent), comments, line positions. Proof: one lemma per callback (success condition and effect), induction over the declarations. `Bind/Layout.lean` (C134): source/eve_evaluate.cpp `bind_layout`, `add_cell`, `add_relation`, composed with the layout parser (C78); update and the evaluation of view arguments are parameters.

## Axiom audit

`tools/axioms.sh` prints the axioms of every theorem named in MANIFEST.json; all are within
`propext`, `Classical.choice`, `Quot.sound`.
