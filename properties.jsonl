{"id": "C01", "title": "Tokenizing a script is lossless", "statement": "If wander::lexer::tokenize(script) succeeds, the pieces of text the returned tokens stand for, in order, concatenate to exactly the script: no character is skipped, duplicated or reordered.", "quantifier": "every script (any Unicode string of any length)", "why_tests_cant": "There are infinitely many scripts; a test only samples some token adjacencies.", "anchors": ["wander/src/lexer.rs: Token, tokenize"]}
{"id": "C02", "title": "Every token is the longest match of the documented token patterns", "statement": "Each token produced at a position is the longest prefix of the remaining script matched by any of the token patterns, with the most specific pattern winning a tie; tokenize errs exactly when at some position no pattern matches, and then reports the one fixed error and no tokens.", "quantifier": "every script", "why_tests_cant": "Maximal munch is a statement about all prefixes of all inputs.", "anchors": ["wander/src/lexer.rs: Token (logos attributes), tokenize"]}
{"id": "C03", "title": "Tokenizing never panics", "statement": "tokenize and tokenize_and_filter return Ok or Err on every script: the two assertions on the delimiters of a string token never fire.", "quantifier": "every script", "why_tests_cant": "Absence of a panic cannot be shown by examples.", "anchors": ["wander/src/lexer.rs: trim_string, string, tokenize, tokenize_and_filter"]}
{"id": "C04", "title": "White space and comments never change the meaning of a script", "statement": "Putting any run of white space, or a comment ended by a newline, before, after or between two parts of a script that are already separated by white space leaves the significant tokens (and so the parse and the run) unchanged.", "quantifier": "every script part, every white space run, every comment text", "why_tests_cant": "Infinitely many combinations of surrounding text; greedy patterns can swallow neighbours only in rare combinations.", "anchors": ["wander/src/lexer.rs: tokenize_and_filter", "wander/src/lib.rs: run"]}
{"id": "C05", "title": "A quoted string and a bare word with the same text mean the same element", "statement": "After tokenize_and_filter a string literal whose content is t and a bare word t are the same token, so a script means the same whichever way an element is spelled; no String, comment or white-space token ever reaches the parser.", "quantifier": "every script and every element text spelled both ways", "why_tests_cant": "All texts over the whole identifier alphabet.", "anchors": ["wander/src/lexer.rs: tokenize_and_filter, Token::String, Token::Element"]}
{"id": "C06", "title": "The parser accepts exactly the Wander grammar", "statement": "parse(tokens) returns Ok(calls) if and only if the tokens derive exactly those calls in the Wander grammar (comma separated calls, optional trailing comma, networks in braces with optional trailing comma, quotes in parentheses); the result is unique.", "quantifier": "every token sequence", "why_tests_cant": "An equivalence between a recursive parser and a grammar over all token sequences.", "anchors": ["wander/src/parser.rs: parse, read_network, read_quote"]}
{"id": "C07", "title": "Parsing a rendered program gives the program back", "statement": "Writing any list of calls the grammar has a form for (no quote inside a quote, no role entry whose role is `:` or `\u00ac:`, which are other kinds of entries) as tokens (elements, networks entry by entry, quotes in parentheses, commas between calls) and parsing it returns Ok with the same calls, in the same order and with the same arguments.", "quantifier": "every non-empty list of well-formed calls, of any size and with networks of any size", "why_tests_cant": "Round trips over unbounded structures.", "anchors": ["wander/src/parser.rs: parse, read_network, read_quote"]}
{"id": "C08", "title": "Entry order, duplicates and a trailing comma in a network literal do not matter", "statement": "Two network literals that list the same entries in different order, with repetitions, or with or without trailing comma parse to equal networks.", "quantifier": "every pair of entry lists with the same members", "why_tests_cant": "All permutations and multiplicities of all entry lists.", "anchors": ["wander/src/parser.rs: read_network", "ligature/src/lib.rs: Entry (derived Ord)"]}
{"id": "C09", "title": "The parser's answer to malformed input, exactly", "statement": "For every token sequence the parser's outcome is characterised by the grammar: Ok exactly on programs; Err exactly on the sequences that stop being a prefix of a program at one of the places the parser reports; a panic (todo!()) exactly on the rest. Malformed scripts are therefore not always rejected without panicking: witnesses are given. The error message shows the token after the one the parser could not go on with (None if there is none), never that token itself. Every token has exactly one name in these messages: punctuation by kind, anything else by kind and text in its escaped form.", "quantifier": "every token sequence", "why_tests_cant": "A claim about every malformed input.", "anchors": ["wander/src/parser.rs: parse, read_network, read_quote"]}
{"id": "C10", "title": "Printing a value and reading it back", "statement": "Displaying a value and using the text as a script argument reads back the value in which every element text is replaced by its JSON-escaped form and every role entry with role `:` or `\u00ac:` by the corresponding extends entry; in particular the value comes back unchanged exactly when it has no such role entry, no namespace or language tag and no character that JSON escapes. (A quote inside a quote has no form in the grammar and is excluded.)", "quantifier": "every value without nested quotes, of any size", "why_tests_cant": "Round trips over all values and all Unicode texts.", "anchors": ["wander/src/lib.rs: Display for WanderValue, write_network, write_quote", "ligature/src/lib.rs: Display for Element", "wander/src/lexer.rs", "wander/src/parser.rs"]}
{"id": "C11", "title": "Distinct values print differently", "statement": "Two values that display to the same text are equal up to element namespace/language tag; in particular two different networks of plain elements never print alike. The printed text is exactly the documented layout: string literals, entries separated by commas in braces, quoted values separated by spaces in parentheses.", "quantifier": "every pair of values", "why_tests_cant": "Injectivity over an infinite domain.", "anchors": ["wander/src/lib.rs: Display for WanderValue", "ligature/src/lib.rs: Display for Element"]}
{"id": "C12", "title": "Escaping a string is reversible", "statement": "The output of write_string starts and ends with a double quote, contains no other unescaped double quote, and undoing the JSON escapes of its body gives back the original string; the same holds of the JSON display of an element. Every string free of control characters other than newline, carriage return and tab is a single Wander string token after write_string.", "quantifier": "every string", "why_tests_cant": "Infinite domain; interaction of successive replacements (a backslash followed by n, for instance).", "anchors": ["wander/src/lib.rs: write_string", "lig/src/lib.rs: write_string", "ligature/src/lib.rs: Display for Element"]}
{"id": "C13", "title": "Calls run in order and the first failure stops the script", "statement": "Running the calls xs followed by ys is running xs and, if that succeeded, running ys on the resulting store; if some call fails, the error is that call's error, the effects of the calls before it remain and no later call has any effect. A call is its command applied to its arguments: whatever a host command answers is the answer, and what it did to the store stays even if it failed.", "quantifier": "every call list, every split point, every command table and every store", "why_tests_cant": "All programs, all failure points.", "anchors": ["wander/src/lib.rs: run_calls, run"]}
{"id": "C14", "title": "A script's value is the value of its last call", "statement": "A script that succeeds yields the value returned by its last call, and the empty network if it has no call at all (an empty or comment-only script).", "quantifier": "every script, command table and store", "why_tests_cant": "Quantifies over all programs.", "anchors": ["wander/src/lib.rs: run_calls, run"]}
{"id": "C15", "title": "An unknown command is reported by name and has no effect", "statement": "A call whose name is not in the command table fails with the error `Could not find command: <name>` and leaves the store as it was when the call was reached.", "quantifier": "every command table, name, argument list and store", "why_tests_cant": "All names and tables.", "anchors": ["wander/src/lib.rs: run_calls"]}
{"id": "C16", "title": "Running a script always terminates, in depth bounded by quote nesting", "statement": "With the standard commands every script finishes: the number of nested command invocations never exceeds the nesting depth of quotes in the call plus one, whatever the store.", "quantifier": "every call list and store", "why_tests_cant": "Termination over all programs.", "anchors": ["wander/src/lib.rs: run_quote, run_calls", "wander/src/prelude.rs: assert_equal_command, assert_fail_command, let_command"]}
{"id": "C17", "title": "let then read gives the network back", "statement": "After a successful `let name network` on the in-memory store, `read name` returns exactly that network when its entries are in parser form, and in general the network with every entry brought to parser form; a second let of the same name replaces the first.", "quantifier": "every store, name and network", "why_tests_cant": "All prior histories and all networks.", "anchors": ["wander/src/prelude.rs: let_command, read_command", "ligature-graph/src/lib.rs", "trips/src/mem.rs"]}
{"id": "C18", "title": "let touches only the named collection", "statement": "A let of one name leaves the entries of every other collection, and the set of other collection names, unchanged.", "quantifier": "every store, name, argument and other name", "why_tests_cant": "Non-interference over all states.", "anchors": ["wander/src/prelude.rs: let_command", "trips/src/mem.rs"]}
{"id": "C19", "title": "Only let writes", "statement": "A call of any standard command other than let whose arguments contain no quote leaves the store unchanged, and any script whose calls and quotes never mention let leaves the store unchanged, whether it succeeds, errs or panics.", "quantifier": "every script not mentioning let, every store", "why_tests_cant": "Non-interference over all programs.", "anchors": ["wander/src/prelude.rs"]}
{"id": "C20", "title": "union is set union", "statement": "union returns the network containing exactly the entries of either argument; it is commutative, associative and idempotent and has {} as unit.", "quantifier": "every pair or triple of networks", "why_tests_cant": "Algebraic laws over an infinite domain.", "anchors": ["wander/src/prelude.rs: union_command"]}
{"id": "C21", "title": "filter returns exactly the matching entries", "statement": "On the in-memory graph, `filter c a r b` on an existing collection, without named variables (see C22; on the other stores filter panics, C59), returns exactly the stored entries whose subject, role (`:` / `\u00ac:` for extends entries) and object equal the given ones, a `?` matching anything.", "quantifier": "every store, collection and pattern without named variables", "why_tests_cant": "All stores and patterns.", "anchors": ["wander/src/prelude.rs: filter_command", "ligature-graph/src/lib.rs: filter, check_value", "trips/src/mem.rs: filter"]}
{"id": "C22", "title": "A filter with a named variable never silently returns a wrong answer", "statement": "If a pattern contains a `?name` variable, filter either panics (not implemented) or returns the correct answer because no stored triple reaches the variable; the exact condition for each is characterised.", "quantifier": "every collection and pattern", "why_tests_cant": "All stores and patterns.", "anchors": ["trips/src/mem.rs: filter", "ligature-graph/src/lib.rs: check_value"]}
{"id": "C23", "title": "assert-equal succeeds exactly on equal values", "statement": "assert-equal of two values (quotes being run first, left before right) succeeds exactly if both yield equal values, whichever order they are given in when running them has no effect; otherwise it fails with a message showing both values.", "quantifier": "every pair of arguments, every store", "why_tests_cant": "All values and all quotes.", "anchors": ["wander/src/prelude.rs: assert_equal_command"]}
{"id": "C24", "title": "assert-fail succeeds exactly when the quoted call errs", "statement": "assert-fail of a quote succeeds exactly if running the quote errs and errs if it succeeds; a panic is not caught; effects of the quoted call up to its failure remain.", "quantifier": "every quote and store", "why_tests_cant": "All quotes and stores.", "anchors": ["wander/src/prelude.rs: assert_fail_command"]}
{"id": "C25", "title": "Results do not depend on hash-map iteration order", "statement": "The result and effect of any call, including the listing produced by docs, are the same for every iteration order of the command table; docs lists exactly one entry per command. For the standard table the listing has nine entries with the documented texts.", "quantifier": "every command table, every permutation of it, every call list", "why_tests_cant": "HashMap order is randomised per process; a test sees one order.", "anchors": ["wander/src/prelude.rs: docs_command, common", "wander/src/lib.rs: run_calls"]}
{"id": "C26", "title": "A script behaves the same on any two stores that behave the same", "statement": "If two implementations of the store interface are related by a relation preserved by every operation with equal answers, then every script yields equal results on related stores and leaves them related.", "quantifier": "every pair of implementations, relation and script", "why_tests_cant": "Second-order quantification over implementations.", "anchors": ["wander/src/lib.rs: run", "ligature/src/lib.rs: Ligature"]}
{"id": "C27", "title": "The in-memory store behaves like a map from names to sets", "statement": "After any history of operations on a fresh in-memory store, every query answers as a plain map from collection names to sets of triples would that is updated by the same history.", "quantifier": "every operation history, of any length", "why_tests_cant": "All histories.", "anchors": ["trips/src/mem.rs: TripsMem"]}
{"id": "C28", "title": "Adding a collection that exists", "statement": "The interface documents that add_collection on an existing collection does nothing. The LMDB-backed store does nothing; the in-memory store instead empties the collection and the DuckDB-backed store panics without changing anything, in every reachable state, so these two violate the contract.", "quantifier": "every reachable store and name", "why_tests_cant": "All histories before the second add.", "anchors": ["trips/src/lib.rs: Trips::add_collection", "ligature/src/lib.rs: Ligature::add_collection", "trips/src/mem.rs", "trips/src/heed.rs", "trips/src/duckdb.rs"]}
{"id": "C29", "title": "Removing a collection that does not exist", "statement": "The interface documents that remove_collection of an absent name returns Ok and changes nothing. The in-memory and DuckDB-backed stores do so in every reachable state; the LMDB-backed store always panics instead and leaves the stored data as it was, so it violates the contract.", "quantifier": "every reachable store and absent name", "why_tests_cant": "All histories.", "anchors": ["trips/src/lib.rs: Trips::remove_collection", "trips/src/mem.rs", "trips/src/heed.rs", "trips/src/duckdb.rs"]}
{"id": "C30", "title": "Writing to a missing collection", "statement": "The interface documents that add_triples and remove_triples on an absent collection return Err. The DuckDB-backed store returns Err and changes nothing in every reachable state; the in-memory and LMDB-backed stores always panic instead, and so violate the contract.", "quantifier": "every reachable store, absent name and triple set", "why_tests_cant": "All histories.", "anchors": ["trips/src/lib.rs: Trips::add_triples, Trips::remove_triples", "trips/src/mem.rs", "trips/src/heed.rs", "trips/src/duckdb.rs"]}
{"id": "C31", "title": "Removing an absent triple", "statement": "The interface documents that remove_triples of triples the collection does not hold returns Ok and changes nothing. The in-memory and DuckDB-backed stores do so in every reachable state; the LMDB-backed store does so exactly if every part of the given triples was stored before (in any collection) and panics otherwise, which violates the contract.", "quantifier": "every reachable store, collection and triple set", "why_tests_cant": "All histories.", "anchors": ["trips/src/lib.rs: Trips::remove_triples", "trips/src/mem.rs", "trips/src/heed.rs", "trips/src/duckdb.rs"]}
{"id": "C32", "title": "Adding triples is idempotent and order-independent", "statement": "Adding a batch twice equals adding it once; adding two batches in either order, or as one combined batch, gives the same collection.", "quantifier": "every store, collection and pair of batches, for each store implementation", "why_tests_cant": "All batches and histories.", "anchors": ["trips/src/mem.rs: add_triples", "trips/src/heed.rs: add_triples", "trips/src/duckdb.rs: add_triples"]}
{"id": "C33", "title": "Collections are isolated", "statement": "No operation on one collection changes the triples or the existence of another.", "quantifier": "every reachable store, operation and other collection, for each store implementation", "why_tests_cant": "All histories and pairs of names.", "anchors": ["trips/src/mem.rs", "trips/src/heed.rs", "trips/src/duckdb.rs"]}
{"id": "C34", "title": "The collection listing is exact", "statement": "collections() lists exactly the collections added and not since removed, each once (on the heed store for names of 1 to 511 bytes); in ascending order for the in-memory and heed stores.", "quantifier": "every operation history", "why_tests_cant": "All histories.", "anchors": ["trips/src/mem.rs: collections", "trips/src/heed.rs: collections", "trips/src/duckdb.rs: collections"]}
{"id": "C35", "title": "Storing entries and reading them back", "statement": "Through the graph layer, entries read back are exactly the entries added and not removed, each brought to parser form and without namespace and language tag; entries built by the Wander parser come back unchanged.", "quantifier": "every store and every set of entries", "why_tests_cant": "All entry sets.", "anchors": ["ligature-graph/src/lib.rs: add_entries, remove_entries, entries"]}
{"id": "C36", "title": "The graph layer's filter agrees with its entries", "statement": "On the in-memory graph, filter with a pattern without named variables returns the subset of entries(collection) that match the pattern, each entry in the same form entries() reports. On a missing collection it panics, and over the LMDB and DuckDB stores it always panics.", "quantifier": "every store, collection and pattern without named variables", "why_tests_cant": "All stores and patterns.", "anchors": ["ligature-graph/src/lib.rs: filter, entries, check_value"]}
{"id": "C37", "title": "The caller's set after adding", "statement": "Adding entries through the graph layer leaves the caller's entry set unchanged with every store; adding triples directly drains the caller's set with the in-memory store and leaves it unchanged with the other two.", "quantifier": "every store and set", "why_tests_cant": "All inputs; an out-parameter effect tests rarely look at.", "anchors": ["trips/src/mem.rs: add_triples (BTreeSet::append)", "ligature-graph/src/lib.rs: add_entries"]}
{"id": "C38", "title": "A query pattern binds variables consistently", "statement": "Matching one triple against a pattern succeeds exactly if there is an assignment of the pattern's variables making the pattern equal to the triple (Any matching anything), and the returned bindings are that assignment restricted to the variables of the pattern.", "quantifier": "every pattern and triple", "why_tests_cant": "All combinations of repeated variables, values and wildcards over all strings.", "anchors": ["trips/src/mem.rs: match_query_single, match_query"]}
{"id": "C39", "title": "The LMDB-backed store behaves like a map from names to sets", "statement": "After any history of operations that did not panic on a fresh heed store with collection names of 1 to 511 bytes, every query answers as a plain map from names to sets of triples would that is updated by the same history.", "quantifier": "every operation history with legal names", "why_tests_cant": "All histories; identifiers, six indexes and byte keys are hidden state.", "anchors": ["trips/src/heed.rs: TripsHeed"]}
{"id": "C40", "title": "Identifiers are unique and never reused", "statement": "In every state of an LMDB environment that operations, failed commits and crashes can leave, no identifier names two things: the identifier-to-value and identifier-to-collection tables have disjoint identifiers, all at most the stored counter, and different values have different identifiers. What an identifier names never changes later, so a key once written never comes to mean something else.", "quantifier": "every reachable store", "why_tests_cant": "An invariant of all histories.", "anchors": ["trips/src/heed.rs: add_collection, add_triples"]}
{"id": "C41", "title": "The six indexes always describe the same triples", "statement": "In every state of an LMDB environment that operations, failed commits and crashes can leave, the six index tables hold the same set of (collection, first, second, third) identifiers, each in its own column order. So a read through any of the indexes would find the same triples.", "quantifier": "every reachable store", "why_tests_cant": "An invariant of all histories.", "anchors": ["trips/src/heed.rs: add_triples, remove_triples, merge_arrays"]}
{"id": "C42", "title": "Index keys encode faithfully and sort numerically", "statement": "The 32-byte key of four identifiers decodes back to them, different quadruples have different keys, and comparing keys byte by byte orders them like the quadruples of numbers, so that all keys of one collection are contiguous.", "quantifier": "every quadruple of 64-bit identifiers", "why_tests_cant": "2^256 keys.", "anchors": ["trips/src/heed.rs: merge_arrays, read_id"]}
{"id": "C43", "title": "Deleted data does not come back", "statement": "Removing a collection and adding it again gives an empty collection, on every store implementation, although the heed store leaves the old index rows in place.", "quantifier": "every reachable store and name", "why_tests_cant": "All histories before and between.", "anchors": ["trips/src/heed.rs: remove_collection, add_collection", "trips/src/mem.rs", "trips/src/duckdb.rs"]}
{"id": "C44", "title": "Reading an existing collection never panics", "statement": "triples() of a listed collection returns Ok in every reachable state of every store implementation: no index row refers to a missing value.", "quantifier": "every reachable store and listed collection", "why_tests_cant": "An invariant of all histories.", "anchors": ["trips/src/heed.rs: triples", "trips/src/mem.rs", "trips/src/duckdb.rs"]}
{"id": "C45", "title": "A crash leaves the state before or after the operation", "statement": "If the process stops at any point during an operation on the heed store, or the operation panics, the stored state is the one before the operation or the one after it completed, never a mixture; all invariants hold of it.", "quantifier": "every history and every crash point in it", "why_tests_cant": "Crash points cannot be enumerated by unit tests.", "anchors": ["trips/src/heed.rs: write_txn / commit in every operation"]}
{"id": "C46", "title": "When an acknowledged write is stored", "statement": "If commits succeed and names are legal (1 to 511 bytes), an operation on the LMDB-backed store that returns Ok has its whole effect stored. The results of put, delete and commit are discarded, so without these conditions an Ok does not mean stored: an operation whose commit failed reports exactly what it would have reported but stores nothing, and adding a collection with an empty or over-long name reports Ok and creates nothing readable.", "quantifier": "every history, every pattern of commit failures, every name", "why_tests_cant": "Fault injection at every commit.", "anchors": ["trips/src/heed.rs: add_collection, add_triples, remove_triples"]}
{"id": "C47", "title": "The DuckDB-backed store behaves like a map from names to sets", "statement": "After any history of operations that did not panic on a fresh DuckDB store, listing and reading answer as a plain map from names to sets of triples would that is updated by the same history; duplicate rows are never visible and one removal removes all copies.", "quantifier": "every operation history", "why_tests_cant": "All histories.", "anchors": ["trips/src/duckdb.rs: TripsDuckDB"]}
{"id": "C48", "title": "All stores give the same answers", "statement": "Any history in which every collection is added before use and at most once, and removed only if it exists (for DuckDB: when empty), and with only known parts removed, gives the same answers on the in-memory, heed and DuckDB stores.", "quantifier": "every such history", "why_tests_cant": "Differential claim over all histories.", "anchors": ["trips/src/mem.rs", "trips/src/heed.rs", "trips/src/duckdb.rs"]}
{"id": "C49", "title": "The graph export is closed and exact", "statement": "In the graph exported to JavaScript every edge's source and target are listed nodes, every entry of a collection gives one edge with its role as label (`:` and `\u00ac:` for extends entries), and nothing else is exported.", "quantifier": "every network", "why_tests_cant": "All networks.", "anchors": ["ligature-wasm/src/lib.rs: graph_to_graphology"]}
{"id": "C50", "title": "Exporting the store after a script never fails", "statement": "After any successful script the web entry point exports every collection of the store; the unimplemented branches are unreachable.", "quantifier": "every script", "why_tests_cant": "All scripts.", "anchors": ["ligature-wasm/src/lib.rs: ligature_to_graphology, run"]}
{"id": "C51", "title": "REPL commands are dispatched safely", "statement": "A line whose first non-blank character is a colon is handled as a REPL command without panicking and without touching the store; the session ends exactly on :q or :quit (or end of input); every other line is run as a script on the store left by the previous lines. What each command prints is fixed by its first word, and the end of input prints a farewell or the reader's error.", "quantifier": "every sequence of input lines", "why_tests_cant": "All sessions.", "anchors": ["wander-repl/src/lib.rs: start_repl, handle_command"]}
{"id": "C52", "title": "The server answers every request once and keeps its state", "statement": "The n-th reply of the ZeroMQ server is the rendering of running the n-th request on the store left by the first n-1 requests, including failed ones; a panic in a request ends the service.", "quantifier": "every request sequence", "why_tests_cant": "All request histories.", "anchors": ["ligature-zeromq/src/main.rs: main"]}
{"id": "C53", "title": "WanderPad and the web entry point keep nothing between runs", "statement": "The result of pressing Run (or calling the web entry point) depends only on the script, not on earlier runs.", "quantifier": "every sequence of runs", "why_tests_cant": "All run histories.", "anchors": ["wander-pad/src/lib.rs: update", "ligature-wasm/src/lib.rs: run"]}
{"id": "C54", "title": "The test suite runner counts correctly", "statement": "For any directory, if no script named *.wander panics, the printed total is the number of files named *.wander and the completed number is how many of their scripts ran without error, each in a fresh store, whatever the order of the directory listing; the number of failures printed is never negative. If one of them panics, the runner ends without printing a count, and it does so only then.", "quantifier": "all directories (any number of files, names and contents, in any order)", "why_tests_cant": "It is about every directory content and every listing order.", "anchors": ["ligature-test-suite/src/main.rs: main"]}
{"id": "C55", "title": "redb identifiers count up per kind", "statement": "Successive next_id calls for one kind return 0, 1, 2, ... regardless of interleaved calls for other kinds, so no identifier of a kind is returned twice.", "quantifier": "every sequence of calls", "why_tests_cant": "All interleavings.", "anchors": ["ligature-redb/src/lib.rs: next_id, id_type_str"]}
{"id": "C56", "title": "Networks are compared and ordered by content", "statement": "The derived order on entries is a total order consistent with equality, so a network holds each entry once, two networks are equal exactly if they have the same entries, and iteration is in ascending order whatever the insertion order.", "quantifier": "every entry and every insertion sequence", "why_tests_cant": "Order laws over an infinite domain.", "anchors": ["ligature/src/lib.rs: Element, Entry (derives)", "trips/src/lib.rs: Trip (derives)"]}
{"id": "C57", "title": "Crash and restart histories of the persistent store are explained", "statement": "After any history of operations on the LMDB-backed store, each of which completes, is refused, has its commit fail, or is cut off by the end of the process after any of its writes (the environment being reopened afterwards), what the store answers is that of an ideal store to which exactly the acknowledged operations with a good commit were applied in order, and each cut-off operation either wholly or not at all. Without cut-off operations the answers are determined by the history.", "quantifier": "every sequence of operations with legal collection names, every outcome of each and every crash point", "why_tests_cant": "Crash points between any two writes in any history cannot be enumerated.", "anchors": ["trips/src/heed.rs: TripsHeed (every mutating method)"]}
{"id": "C58", "title": "A script behaves the same over all three stores", "statement": "If a script keeps to what every store supports alike (it defines each collection at most once, under a name of 1 to 511 bytes, reads only collections that exist, does not filter, and uses at most 2^64 identifiers), then its result is the same whether LigatureGraph runs over the in-memory, the LMDB-backed or the DuckDB-backed store, and afterwards all three hold the same collections with the same triples. In general, a store whose operations follow those of another as long as the other does not panic gives the same result to every script on which the other does not panic.", "quantifier": "every script", "why_tests_cant": "All scripts and three implementations.", "anchors": ["ligature-graph/src/lib.rs: LigatureGraph", "trips/src/mem.rs", "trips/src/heed.rs", "trips/src/duckdb.rs", "wander/src/prelude.rs"]}
{"id": "C59", "title": "What let, read and filter do on the persistent stores", "statement": "On a graph over the LMDB-backed or the DuckDB-backed store, in every reachable state: let of a new name stores the network as on the in-memory store; let of an existing name adds to it on LMDB (the in-memory store replaces it) and panics without effect on DuckDB; read of a missing name is an error in memory, a panic on LMDB and the empty network on DuckDB; filter always panics on both.", "quantifier": "every history of store operations, every name and network", "why_tests_cant": "The difference between stores must be known for all reachable states.", "anchors": ["wander/src/prelude.rs: let_command, read_command, filter_command", "ligature-graph/src/lib.rs: LigatureGraph::from_trips"]}
{"id": "C60", "title": "The only effect of a script is a sequence of lets", "statement": "Whatever calls are run over whatever store, and however they end (result, error or panic), the store is left as some sequence of `let` stores leaves it, each for a collection that some let in the calls or in their quotes targets. Hence every property of the store that all lets preserve is preserved by every script, and no script ever deletes a collection. On the persistent stores no script takes an entry away from a collection: whatever it held before the script it holds afterwards, however the script ends; on the in-memory store a second let of a name replaces its contents.", "quantifier": "every store implementation, every state, every list of calls at every nesting depth, every outcome", "why_tests_cant": "Quantifies over all programs and all stores.", "anchors": ["wander/src/lib.rs: run_calls, run_quote", "wander/src/prelude.rs: let_command, read_command, filter_command, union_command", "ligature-graph/src/lib.rs: LigatureGraph"]}
{"id": "C61", "title": "A script leaves collections it does not let untouched", "statement": "Over the in-memory, LMDB-backed or DuckDB-backed store, in every reachable state, running any calls leaves the triples of every collection that no let in the calls (or in their quotes) targets exactly as they were, whatever the outcome.", "quantifier": "every history of store operations, every list of calls, every collection name", "why_tests_cant": "A frame property over all programs and states.", "anchors": ["wander/src/prelude.rs: let_command", "trips/src/mem.rs", "trips/src/heed.rs", "trips/src/duckdb.rs"]}
{"id": "C62", "title": "A script depends only on the collections it names, and scripts on disjoint collections commute", "statement": "Over each of the three stores, the result of running calls, and the named collections afterwards, depend on the store only through the collections the calls name (also inside quotes), and so not on what the store went through before (on LMDB: for legal names and as long as identifiers do not run out). Over the in-memory, the DuckDB-backed and the LMDB-backed stores, two scripts naming disjoint collections can be run in either order: each gives the same outcome as when run alone, and the same content is stored at the end (on LMDB: for legal names and as long as identifiers do not run out).", "quantifier": "every pair of call lists, every reachable state of the three stores", "why_tests_cant": "All pairs of programs and all states.", "anchors": ["wander/src/lib.rs: run_calls, run_quote", "wander/src/prelude.rs", "ligature-graph/src/lib.rs: LigatureGraph", "trips/src/mem.rs", "trips/src/duckdb.rs", "trips/src/heed.rs"]}
{"id": "C63", "title": "Scripts can be joined with a comma", "statement": "If a script is well formed, has at least one call, does not end in a comma and leaves no comment open, then the script, a comma and a second well-formed script with calls run as the first and then the second from the store the first leaves (a failure of the first being the outcome); if the second is blank the result is that of the first; if the second is malformed nothing of the first is run, the store is unchanged and the outcome is that of the second alone. So any number of such scripts with commas between them run as the scripts in turn up to the first that fails, and a client that sends them as one request gets the last of the replies it would have got one by one, and the same store. A newline is no separator: what stands on the next line without a comma before it is more arguments of the last call.", "quantifier": "every pair and every list of scripts, every store, every command table; every history of the server", "why_tests_cant": "All pairs of texts.", "anchors": ["wander/src/lib.rs: run, run_calls", "wander/src/parser.rs: parse", "wander/src/lexer.rs: tokenize_and_filter"]}
{"id": "C64", "title": "Scripts have exactly the meaning given by a small set of rules", "statement": "There is a set of declarative rules, one or a few per command, giving for a call, from a store state, its outcome (result, error with message, panic) and the state it leaves: unknown name, host function, id, ignore, docs, union, read, filter, let, assert-equal, assert-fail, quotes as arguments, and sequencing. Running calls (or a well-formed script) has an outcome and final state exactly when the rules derive them; the rules are total and deterministic.", "quantifier": "every list of calls, every nesting of quotes, every store implementation and state, every command table with distinct names", "why_tests_cant": "An if-and-only-if over all programs.", "anchors": ["wander/src/lib.rs: run_calls, run_quote, run", "wander/src/prelude.rs: common"]}
{"id": "C65", "title": "A store can be saved as a script and loaded again", "statement": "Write, for each collection a store lists, a `let` with its displayed name and the displayed network that reading it gives, joined by commas. If no name and no text has a character JSON escapes, running that script over an in-memory store succeeds, gives every saved collection exactly its triples and leaves all others as they are; over a new in-memory store it gives back an in-memory store exactly; over a new LMDB-backed or DuckDB-backed store (names of 1 to 511 bytes, at most 2^64 identifiers) it gives a store with the same collections and triples. The saved store may be of any kind, after any history. With an escaped character in a text this fails (witness).", "quantifier": "all stores of any kind that show a map from names to sets, all target in-memory stores, all texts without characters JSON escapes", "why_tests_cant": "It composes printing, tokenizing, parsing, evaluating and three stores for stores of any size and content.", "anchors": ["wander/src/lib.rs: run, write_network, Display for WanderValue", "wander/src/prelude.rs: let_command", "ligature-graph/src/lib.rs: collections, entries, add_entries", "trips/src/mem.rs: TripsMem", "trips/src/heed.rs: TripsHeed", "trips/src/duckdb.rs: TripsDuckDB"]}
{"id": "C66", "title": "The lig crate's tokenizer: longest match, byte offsets, and names that panic", "statement": "lig::lexer::tokenize succeeds exactly when the whole text is a run of longest matches none of which is a name; the tokens then spell the text again and each carries the number of UTF-8 bytes before it. It fails, always with the same message, exactly when such a run leaves text at which no token fits, and it panics exactly when such a run leaves text that begins with a name (the callback is todo!()). tokenize_and_filter gives the same tokens and offsets without white space and comments, read::tokenize the same tokens without offsets. write gives the empty text for every network and read panics on every text, so no network survives a round trip through the crate. A string written with the crate's write_string is one string token of the crate, at offset 0 and standing for the string, exactly if it has no control character but newline, carriage return and tab; otherwise tokenize rejects it.", "quantifier": "all texts, all token lists, all networks, all strings", "why_tests_cant": "It is about every text: no set of examples shows that offsets stay right after multi-byte characters everywhere, or that a panic needs a name.", "anchors": ["lig/src/lexer.rs: Token, tokenize, tokenize_and_filter, name", "lig/src/read.rs: tokenize, read", "lig/src/write.rs: write", "lig/src/lib.rs: write_string"]}
{"id": "C67", "title": "Names carry no meaning beyond the reserved ones", "statement": "Renaming texts consistently changes nothing but the names. Take any one-to-one renaming of texts that leaves `:`, `\u00ac:`, `?`, the standard command names and their documentation alone and maps named variables to named variables. If one in-memory store shows the renamed contents of another, then running the renamed calls (or a script that means them) on it gives the renamed outcome of the original calls: the renamed value where the original gives a value, an error where it gives an error, a panic where it panics; and afterwards the stores still show renamed contents. Reading and filtering through the graph interface, and whole histories of store updates, commute with renaming in the same way. On the LMDB-backed and DuckDB-backed stores the same holds from any reachable contents, for scripts that keep to what every store supports and renamings that do not turn a text LMDB accepts as a key into one it refuses, whatever the two stores' histories. Renaming a reserved text does change outcomes.", "quantifier": "all one-to-one renamings with the stated fixed points, all lists of calls (any nesting of quotes), all pairs of related in-memory stores, all pairs of histories leading to related LMDB-backed or DuckDB-backed stores, all patterns, all update histories", "why_tests_cant": "A test uses particular names; an implementation that treats some further text specially (a prefix, a keyword, an ordering accident) passes every test that does not happen to use that text.", "anchors": ["wander/src/prelude.rs: common", "wander/src/lib.rs: run_calls, run_quote", "ligature-graph/src/lib.rs: LigatureGraph, check_value", "trips/src/mem.rs: TripsMem", "trips/src/heed.rs: TripsHeed", "trips/src/duckdb.rs: TripsDuckDB"]}
{"id": "C68", "title": "When the LMDB map runs full, an operation happens entirely or not at all", "statement": "If during an operation of the LMDB-backed store a write finds no room in the memory map, at whichever of its writes, then nothing of the operation is stored, and the call panics or reports Ok; otherwise it reports and stores what it does with unlimited room. What is stored at any moment in between is the state before or the state after. Over whole histories with shortages, failed commits and crashes, the store answers as the history explains: an operation that had room and was reported Ok has its whole effect, a refused one none, one reported Ok while room was short all of it or none. What the caller is told is fixed by the number W of writes the operation makes (3 for a new collection, 0 for an existing one, 2 to remove one, 7 to 13 per triple added, 6 per triple removed): with room for W it reports Ok and everything is stored, with room for W-1 it reports Ok and nothing is stored, with less it panics; an operation that panics with room panics without. Ok alone is no promise: in every reachable state, adding a new collection reports Ok and stores nothing if exactly the last of its writes finds no room.", "quantifier": "all stored states and operations, every number of writes that find room, every commit outcome, every history and crash point", "why_tests_cant": "The write at which space runs out depends on the history and the page layout; a test cannot visit every one, and the call still reports Ok in some of them.", "anchors": ["trips/src/heed.rs: add_collection, remove_collection, add_triples, remove_triples"]}
{"id": "C69", "title": "Concurrent use of one LMDB environment is equivalent to sequential use", "statement": "However the operations of any number of TripsHeed handles on one environment interleave, and wherever threads or processes die, there is a sequential order in which every operation takes its turn between its call and its return, the answers are those given, and the stored state is the one found; listings and reads thus show exactly the collections and triples of the updates earlier in that order. An operation never gets stuck because of others. The graph layer's let is two such operations and not one: another user can read the empty collection in between.", "quantifier": "all schedules of all finite sets of concurrent operations, all commit outcomes, all points of death, all initial stored states", "why_tests_cant": "The number of interleavings is unbounded, and a test observes the few its scheduler happens to produce.", "anchors": ["trips/src/heed.rs: TripsHeed, collections, add_collection, remove_collection, triples, add_triples, remove_triples", "wander/src/prelude.rs: let_command"]}
{"id": "C70", "title": "A script cut off in the middle on the LMDB-backed store", "statement": "If the process ends at any moment while a script runs on LigatureGraph over the LMDB-backed store, what is found when the environment is opened again is the work of the first few of the script's lets, each complete, or those and the still empty collection of the next let; every collection stored before is still there with all its triples. A script consisting of lets (legal names, identifiers enough for two runs) can simply be run again from the start: it succeeds, and the store then shows what it would show had it run once without interruption.", "quantifier": "all reachable stores, all scripts (any nesting), every moment at which the process may end", "why_tests_cant": "The moment of the crash ranges over every write of every transaction of every script.", "anchors": ["wander/src/prelude.rs: let_command", "wander/src/lib.rs: run_calls", "ligature-graph/src/lib.rs: add_collection, add_entries", "trips/src/heed.rs: add_collection, add_triples"]}
{"id": "C71", "title": "A value written as JSON and read back is the same value", "statement": "Serializing any Wander value (element with tags, network, quote), entry, element, call or error with serde_json and deserializing the text gives back exactly the same thing, as long as the text nests brackets at most 127 deep (quotes up to 61 deep always qualify); deeper values serialize but cannot be read back. The text written is fixed: no white space, fields in the order of declaration, network entries in order, shortest escapes. Distinct values (entries, elements, calls, errors, tokens) have distinct texts, network items may come in any order or repeated, and fields in any order, among unknown fields whose values can be any JSON (numbers, booleans, half surrogate pairs, any depth). What is accepted is exact: a text is read as a value if and only if it is a JSON text in the grammar of RFC 8259 (any white space, any escapes, either case of hexadecimal digits, surrogate pairs) of a tree standing for that value, nested at most 127 deep not counting unknown fields.", "quantifier": "all values, calls, entries, elements, messages; all orders of items and fields; all texts", "why_tests_cant": "there are unboundedly many strings (every escape), nestings and orders; the depth limit only shows on values no one writes by hand", "anchors": ["ligature/src/lib.rs: derive(Deserialize, Serialize) of LangTag, Namespace, Element, Entry", "wander/src/lib.rs: derive(Deserialize, Serialize) of WanderError, Call, Quote, WanderValue", "wander/src/lexer.rs: derive(Serialize) of Token"]}
{"id": "C72", "title": "Equal values hash equally", "statement": "Two equal Wander values hash equally with any hasher, as HashMap and HashSet require; the hash depends on the kind of the value alone, so all values of one kind collide.", "quantifier": "all pairs of values, all hashers", "why_tests_cant": "the Hash/Eq contract is about all pairs of values", "anchors": ["wander/src/lib.rs: impl core::hash::Hash for WanderValue"]}
{"id": "C73", "title": "Scripts on disjoint collections can run at the same time", "statement": "Several scripts run at the same time on one store, their store operations interleaved in any way. If no two of them name the same collection, every script that finishes has the result it has when run alone, the collections it names are then, and stay whatever the others do, as it leaves them when run alone, and collections no script names are unchanged (on LMDB: legal names, identifiers do not run out). No script ever waits for another. Scripts that name the same collection are not isolated: in every reachable LMDB state, a read that runs at the same time as a let of a new collection can return the empty network, which neither order of the two gives.", "quantifier": "any number of scripts, all interleavings at the granularity of store operations, all reachable states of the three stores", "why_tests_cant": "All interleavings and all scripts; a racy result shows up in few schedules.", "anchors": ["wander/src/lib.rs: run, run_calls, run_quote", "wander/src/prelude.rs", "ligature-graph/src/lib.rs", "trips/src/heed.rs: TripsHeed"]}
{"id": "C74", "title": "Commands supplied by a host may call back into the evaluator", "statement": "A host command may, any number of times and depending on the answers, use the store's methods, look at the command table and run calls itself, which may run further host commands. Running calls then has at most one outcome. A command that runs fixed calls can be replaced, anywhere in a script, by those calls (and behaves as they do also when they fail, panic or never end). A command that runs itself never returns. If calls can be weighed so that whatever a command runs weighs less than the call it runs for, every script ends on every store. If no host command runs calls, every script ends with the outcome the evaluator for plain commands gives.", "quantifier": "all tables, host commands, arguments, scripts, stores and nesting depths", "why_tests_cant": "Quantifies over all programs a host can write as commands, and over non-termination, which no test observes.", "anchors": ["wander/src/lib.rs: Command, run_calls, run_quote", "wander/src/prelude.rs: common"]}
{"id": "C75", "title": "Host commands cannot break or distinguish stores", "statement": "Whatever commands a host supplies and whatever they run: a script cannot tell apart two implementations of the store interface whose methods give the same answers; what no method of the store breaks, no script breaks; over LigatureGraph a script leaves the triple store in a state that some sequence of the store's own operations leads to; and a script that uses the store only in ways all three stores support alike has the same result on the in-memory, LMDB and DuckDB stores and leaves the same collections with the same triples.", "quantifier": "all tables, host commands, scripts, stores and states", "why_tests_cant": "Quantifies over all programs a host can write as commands and over all stores and states.", "anchors": ["wander/src/lib.rs: Command, run_calls", "ligature/src/lib.rs: Ligature", "ligature-graph/src/lib.rs: LigatureGraph", "trips/src/mem.rs", "trips/src/heed.rs", "trips/src/duckdb.rs"]}
{"id": "C76", "title": "What the REPL shows says what the result is", "statement": "For a line that is not a command the REPL shows: a network between braces with one line per entry, an element as its plain text, an error as its name and message in a string literal, and nothing if the script panics or results in a quote. Lines of networks and errors never contain line breaks or other control characters, whatever is stored. Two networks look alike exactly if they differ at most in namespaces and language tags, different error messages look different, and no error looks like a network; but for every network and every error there is an element that looks just like it. A shown network of at most one entry can be given to a command in a script and means the network (as C10 says); one of two or more entries makes every script that uses it panic, because the commas are missing.", "quantifier": "all sessions, lines, stored networks, texts and error messages", "why_tests_cant": "Ranges over all texts, including control characters and quotes, and over all networks.", "anchors": ["wander-repl/src/lib.rs: start_repl", "wander/src/lib.rs: WanderError", "wander/src/parser.rs: read_network"]}
{"id": "C77", "title": "What a web page gets from run", "statement": "Whatever script a page runs and whatever order the hash map iterates in: if the script fails the page gets the string that spells exactly the error message; if it succeeds it gets a Map whose keys spell exactly the names of the collections, each once, and looking up a name gives an object with an array of nodes (one per text that is subject or object of an entry of that collection) and an array of edges (one per subject, role and object), sorted and without repetitions; a panicking script gives nothing. The iteration order shows only in the order in which the Map lists its keys. Two runs the page cannot tell apart failed with the same message, or both succeeded and left the same collections with the same entries.", "quantifier": "all scripts, all hash map iteration orders, all characters including those outside the basic plane", "why_tests_cant": "Hash map iteration order is random per run, and faithfulness ranges over all scripts and texts.", "anchors": ["ligature-wasm/src/lib.rs: run, ligature_to_graphology, graph_to_graphology, GraphologyResult, NodeResult, EdgeResult"]}
{"id": "C78", "title": "Scripts ask the store a bounded number of things", "statement": "Whatever the store contains and answers, and whatever other scripts do on it at the same time, a script makes at most two store operations (method calls of the Ligature interface) per call and quote in it, so at most 2n for a script of n characters; any number of scripts started together are all finished after at most the sum of their bounds, in every schedule. The bound is reached.", "quantifier": "all scripts, all stores and contents, all schedules of any number of scripts", "why_tests_cant": "A bound over every store answer and every interleaving cannot be exhausted by running examples.", "anchors": ["wander/src/lib.rs: run, run_calls, run_quote", "wander/src/prelude.rs: common, let_command, read_command, filter_command, assert_equal_command, assert_fail_command"]}
{"id": "C79", "title": "Scripts invent no data", "statement": "On the in-memory, LMDB and DuckDB stores, in every reachable state, for any number of scripts at the same time: every entry found in any collection afterwards or at any moment in between, and every entry of a network a script returns, was in some collection before, or is written in a network literal in one of the scripts, or documents a standard command and one of the scripts calls docs (in each case as it is, or without tags and with the roles : and \u00ac: read as extends entries). A script that returns something else than a network returns a value written in it. A script with no entries written in it that does not call docs, run on a new store, leaves every collection empty and returns no entries.", "quantifier": "all scripts, all reachable store states, all schedules", "why_tests_cant": "Absence of data from nowhere is a claim about every script, state and interleaving.", "anchors": ["wander/src/prelude.rs: all commands", "ligature-graph/src/lib.rs: entries, add_entries, filter", "trips/src/mem.rs", "trips/src/heed.rs", "trips/src/duckdb.rs"]}
{"id": "C80", "title": "Scripts that pass a static check never panic", "statement": "There is a check on the text of a script, given the names of the collections it can count on, that needs no store: read and filter name a collection that is known at that point (known at the start, or given by an earlier let), union gets two networks, filter has no named variables, a quote given to let surely yields a network, and so on. On the in-memory store a script that passes never panics, in any state that lists the known names; for single calls without quotes the check is exact (for filter without named variables): a call that does not pass panics. A script that passes the stricter check for any store (no filter, let only of new legal names, read only of known names) panics on none of the three stores, from any reachable states that show the same data with room for its identifiers, has the same result on all three and leaves them showing the same.", "quantifier": "all scripts that pass, all reachable store states", "why_tests_cant": "Absence of panics for a whole class of scripts and every state is not a finite check.", "anchors": ["wander/src/prelude.rs: all commands", "wander/src/lib.rs: run, run_calls, run_quote", "ligature-graph/src/lib.rs", "trips/src/mem.rs", "trips/src/heed.rs", "trips/src/duckdb.rs"]}
{"id": "C81", "title": "Scripts on a failing LMDB store", "statement": "A script runs on a reachable LMDB-backed store while its updates are struck by faults: any of them may find no room after any number of writes, any commit may fail, and the process may end at any moment. Whatever is then found in the environment is what some of the store operations of the script's lets, in order and without fault, leave, so it is an ordinary reachable state, and every collection stored before is there with all its triples. A let that succeeds leaves its collection listed, holding what it held before or that and all of the network (nothing between), and every other collection as it was; but success does not mean stored: if only the second commit fails, let succeeds and the collection is empty. A script that ends with assert-equal (read c) N and succeeds has N stored under c. A script of lets under legal names that was struck can be run again from the start, and then shows what one run without faults shows.", "quantifier": "all reachable stores, scripts, sequences of faults and crash points", "why_tests_cant": "Faults can strike any write of any update of any script; their combinations cannot be enumerated.", "anchors": ["trips/src/heed.rs: add_collection, add_triples", "wander/src/prelude.rs: let_command, assert_equal_command, read_command", "ligature-graph/src/lib.rs: add_collection, add_entries"]}
{"id": "C82", "title": "What the graph interface answers, and which of its documented promises hold", "statement": "For LigatureGraph over each of the three stores and after any history of updates, whether the next update is acknowledged is fixed by the collections and entries present (and, over LMDB, by which texts were written): everything else panics, and no update, listing or filter ever returns an error. Of the promises documented on the Ligature trait: adding an existing collection does nothing only over LMDB; removing a missing one does nothing over the in-memory and DuckDB stores but panics over LMDB; writing to a missing collection is documented to return an error but panics, without effect, over every store; adding entries that are there does nothing over every store; removing entries that are not there does nothing over the in-memory and DuckDB stores but can panic over LMDB.", "quantifier": "every history of updates through the Ligature interface, every next update, every store", "why_tests_cant": "All histories of updates on three stores.", "anchors": ["ligature/src/lib.rs: trait Ligature", "ligature-graph/src/lib.rs: impl Ligature for LigatureGraph", "trips/src/mem.rs", "trips/src/heed.rs", "trips/src/duckdb.rs"]}
{"id": "C83", "title": "An LMDB environment with too few database slots", "statement": "The host opens the LMDB environment with some number of named-database slots; TripsHeed::new needs eleven and reports nothing when it gets fewer. Whatever the number, every operation does one of two things: exactly what it does with plenty of slots, or it panics and nothing is stored at any moment of it. Which one is determined: listing needs two slots, reading a collection six, adding or removing a collection three (two if the collection to add is there), adding or removing triples eleven (two and four for an empty set). If processes with different numbers of slots use one environment one after the other, the contents at the end are those of a map from names to sets after exactly the updates reported Ok. A script on a graph over the store either panics or gives the same result and leaves the same contents as with plenty of slots.", "quantifier": "every number of slots, every state reachable in an environment (including after crashes and failed commits), every operation, every sequence of processes, every script", "why_tests_cant": "The tests open the environment with 24 slots; that a shortage never leaves half of an update behind has to hold for every operation, at each of its opens, on every stored state.", "anchors": ["trips/src/heed.rs: TripsHeed::new, impl Trips for TripsHeed", "trips/tests/tests.rs: initialize"]}
{"id": "C84", "title": "What the test suite runner prints", "statement": "For any value of LIGATURE_TEST_SUITE and any directory under it: if the variable is set, the directory can be listed, all names are Unicode and every file named *.wander can be read and has a script that does not panic, the runner prints the banner with the location, then for each such file, in the order of the listing, its name and whether it succeeded or failed with which error (each run on a fresh store), then a last line with the number of files that succeeded and the number of files, in decimal. Otherwise it panics and prints no count: after the first line without the variable, after the banner without the directory, or else at the first thing listed that cannot be listed, has a name that is not Unicode, or is a test that cannot be read or panics, after the complete lines about the tests before it. The order of the listing does not change the last line or whether the runner panics.", "quantifier": "every environment variable, directory, file name, file content and order of the listing, however terminal colours are rendered", "why_tests_cant": "There are no tests of the runner; the transcript depends on an unbounded number of files and on where the first bad one stands.", "anchors": ["ligature-test-suite/src/main.rs: main"]}
{"id": "C85", "title": "Error messages are a closed list from which the cause can be told", "statement": "A script run with the standard commands fails, if it fails without a panic, with one of thirteen kinds of message: tokenizing, parsing (at the end, or naming the next token), unknown command (naming it, and it is no standard command), wrong arguments of docs, union, id, let, assert-equal or assert-fail, values that are not equal (printing both), no failure where one was expected, or what the store said to read; on the in-memory graph the last is always that a named collection is missing. The cause, with the names and printed values in it, can be told from the message. A reply of the server begins with a double quote, an opening brace or an opening parenthesis exactly if the request succeeded, so equal replies are the same error or values equal up to tags. A line that the REPL takes as a command of its own would have failed as a script and left the store as it was.", "quantifier": "every script, every store, every line, every pair of requests", "why_tests_cant": "All scripts and nested quotes, all texts inside messages.", "anchors": ["wander/src/lib.rs: run, run_calls, run_quote", "wander/src/prelude.rs", "wander/src/parser.rs: parse", "wander/src/lexer.rs: tokenize", "trips/src/mem.rs: triples", "ligature-zeromq/src/main.rs: main", "wander-repl/src/lib.rs: start_repl, handle_command"]}
{"id": "C86", "title": "How much the database-backed stores keep, and what they never free", "statement": "After any history of names and texts of 1 to 511 bytes the LMDB environment holds exactly one record for the counter (once a collection was created), two per listed collection, two per distinct text ever stored in an acknowledged addition, and six per triple shown and per triple that a collection held at the moment it was removed. So removing a collection frees two records however much it held, what it held stays for good, and a store that lists nothing can hold any amount of data. The counter stands at the number of collections created plus texts ever stored, less one, and add_collection of a new name panics exactly when that number is 2^64. Adding a collection that is listed, or triples it holds already, leaves the environment identical, record for record. An unacceptable collection name costs a record each time it is added and is never listed; an unacceptable text (empty or over 511 bytes) costs at least seven records each time its triple is added, even if the triple is there already and nothing visible changes. In the DuckDB store the trip table is, row by row, the log of acknowledged additions minus those removed since: a triple added again takes another row, removing it once removes all of them; there is one row per listed collection and one per text ever stored.", "quantifier": "every history of operations, every collection, batch and number of rounds", "why_tests_cant": "Growth is a property of all histories; a test sees a few sizes.", "anchors": ["trips/src/heed.rs: add_collection, remove_collection, add_triples, remove_triples", "trips/src/duckdb.rs: add_part, add_trip, remove_trip, add_triples, remove_triples, remove_collection"]}
{"id": "C87", "title": "When a script can be run again", "statement": "In the in-memory store a script cannot tell apart two stores that differ only in collections it writes before it touches them otherwise, and leaves both the same; so a script that reads no collection before writing it can be run again, from the start, after any number of its store operations, with the result and store of a single run. In the LMDB store a script that writes no collection after reading it (names and texts of 1 to 511 bytes) can be run again after any number of its store operations, after all of them, and from whatever is found after the process ended in the middle: result and environment are, record for record, those of one uninterrupted run. In the DuckDB store such a script cannot be run again once it has written something: the second run panics at the let of a name that exists and changes nothing. Whether the condition holds can be told from the script alone: nothing a call reads is written by that call or a later one. The condition is needed (a script that reads what it writes later leaves something else the second time), and a script that writes, reads and writes again can be rerun in memory but not on LMDB.", "quantifier": "every script, every history before it, every number of operations done, every crash state", "why_tests_cant": "All scripts and all points at which they can be interrupted.", "anchors": ["wander/src/lib.rs: run_calls, run_quote", "wander/src/prelude.rs: let_command, read_command", "trips/src/heed.rs: add_collection, add_triples", "trips/src/mem.rs: add_collection, add_triples", "trips/src/duckdb.rs: add_collection"]}
{"id": "C88", "title": "What SQL leaves open does not show in the DuckDB-backed store", "statement": "Whatever order DuckDB keeps and returns rows in, whatever identifiers its sequence skips, and whichever statements or commits fail: after any history the listing names each collection of the plain map (updated by the acknowledged operations) once, in some order, and reading gives exactly its triples. An operation happens entirely or not at all: it ends as it would without failure, or it panics; if it does not end with Ok everything read afterwards is as before. If no statement fails, all outcomes and all later answers except the order of the listing are determined. A script gives the same result and leaves the same contents whatever DuckDB chooses; if statements may fail, the only other possibility is a panic that leaves what the script's first few store operations would have left.", "quantifier": "every history, every arrangement of rows and choice of identifiers between any two statements, every failing statement or commit, every script", "why_tests_cant": "A test sees the row order and identifiers of one DuckDB version and hardly ever a failing statement.", "anchors": ["trips/src/duckdb.rs: new, get_collection_id, add_part, add_trip, remove_trip, collections, add_collection, remove_collection, triples, add_triples, remove_triples", "ligature-graph/src/lib.rs", "wander/src/lib.rs: run_calls"]}
{"id": "C89", "title": "Texts inserted into a script cannot change its shape", "statement": "A program builds a script from fixed pieces, each ending between tokens, writing a text after each piece with Display of an element (or with write_string). Then one of three things holds for ALL texts at once: the script is the same sequence of calls with each text standing as exactly one element (the text escaped) in its place; or it always ends with an error before any command; or it always panics before any command. With write_string this holds for texts without control characters other than newline, carriage return and tab; with such a character the whole script is refused with a tokenizing error and changes nothing. If no place is a command or the collection of a let, the texts cannot choose which collections are written. Bare quotation marks around the text are not enough.", "quantifier": "every list of pieces, every text in every place, every store and history", "why_tests_cant": "An injection needs one particular text among infinitely many; the claim is about all texts and all positions at once.", "anchors": ["wander/src/lib.rs: write_string, Display for WanderValue", "ligature/src/lib.rs: Display for Element", "wander/src/lexer.rs: Token, tokenize_and_filter", "wander/src/parser.rs: parse, read_network", "wander/src/lib.rs: run"]}
{"id": "C90", "title": "Copying a store's contents makes the smallest store with those contents", "statement": "Create every collection a store lists in a new store and add its triples (which is what loading the backup script of C65 does, record by record): every operation is acknowledged, and the copy lists the same collections and returns the same triples. For the LMDB-backed store the copy holds one record for the counter, two per collection, two per different text and six per triple; the original held exactly six more per triple left behind when its collection was removed, two more per text no longer shown, and the counter if no collection is left; so no environment showing the same holds fewer records. The copy depends on what is shown only, not on the history, and the copy of the copy is identical to the copy. For the DuckDB-backed store the copy has one row per collection, text and triple, and no store showing the same has fewer rows in any table.", "quantifier": "every history of operations with names and texts of 1 to 511 bytes (any history for the view, the canonical form and DuckDB), as long as 2^64 identifiers suffice", "why_tests_cant": "It compares the copy with every store that shows the same, over all histories.", "anchors": ["trips/src/heed.rs: add_collection, add_triples, remove_collection, remove_triples", "trips/src/duckdb.rs: add_collection, add_triples", "wander/src/prelude.rs: let_command", "ligature-graph/src/lib.rs: add_entries, entries"]}
{"id": "C91", "title": "Opening redb databases never loses a table, and leaves all tables or none", "statement": "LigatureRedb::create at a path succeeds, if nothing fails underneath, exactly when nobody has that database open, the file is missing, empty or a redb database, and it has no table named IDS, DATASETS_ID, ID_DATASETS, IDENTIFIER_ID, ID_IDENTIFIER or EAV of other types than the crate's. After success all six tables are there, every table that was there has its rows, the others are new and empty, no other file is touched, and the database is open: opening it again before it is closed fails and changes nothing, opening it after closing succeeds and changes no file. Whatever call fails, create returns an error and never panics, opens nothing and leaves the tables as they were (if the commit itself fails, possibly all six are there); wherever it is cut off, the missing tables are all there or all missing. The default and temporary instances do the same at ~/.ligature/redb/ligature.redb and ~/.ligature/redb/ligature-<suffix>.redb, which are different files for different suffixes, but every failure is a panic, although temp's type promises an error. Over any history of opening, closing, failures and crashes, no file loses or changes a table, tables gained are among the six and empty, files that are not databases stay as they are, and no database is open twice.", "quantifier": "all disks, paths, contents of files, faults at each call, crash points, and all histories of opening, closing and crashing", "why_tests_cant": "A test opens a fresh temporary file; it cannot try every prior content, every fault and crash point, and every sequence of openings.", "anchors": ["ligature-redb/src/lib.rs: LigatureRedb::create", "ligature-redb/src/lib.rs: LigatureRedb::temp", "ligature-redb/src/lib.rs: Default for LigatureRedb", "ligature-redb/src/lib.rs: mod tables"]}
{"id": "C92", "title": "What can be said in Wander", "statement": "A list of calls is what some script means exactly if everything in it is sayable: elements have no tags and their texts can stand between the quotes of a string literal as they are (no control character, no bare quote, no backslash that does not begin an escape), no role entry is spelled with the role ':' or '\u00ac:', and no quote stands inside a quote. A value is returned by some script on a new store (any of the three kinds) exactly if it is sayable. After any scripts run one after the other on a new store, well-formed or not and whatever their outcomes, every collection name, every text and every value a further script returns is sayable. An in-memory store is what scripts make of a new one exactly if its names and texts are sayable, and then one script is enough; sayable contents with legal LMDB names that need at most 2^64 identifiers can be built by one script in each of the three stores. Whatever a script says, a collection with an unsayable name keeps its entries and its existence in all three stores, and no script can tell whether it is there (on LMDB: no script whose collection names are legal keys, as long as identifiers do not run out).", "quantifier": "all lists of calls, values, scripts, sequences of scripts, in-memory stores, histories of store operations and collection names", "why_tests_cant": "An exact description of everything the language can express, in both directions: no set of scripts shows that a value or a store is out of reach of every script.", "anchors": ["wander/src/lexer.rs: tokenize_and_filter", "wander/src/parser.rs: parse", "wander/src/lib.rs: run", "wander/src/prelude.rs: let_command, id_command, read_command", "ligature-graph/src/lib.rs"]}
{"id": "C93", "title": "Quoted calls can be replaced by equivalent calls and by their values", "statement": "If two quotes have the same outcome and leave the same store from every state (of a set of states that calls do not leave), either can replace the other wherever quotes are run: as the second argument of let, as an argument of assert-equal or assert-fail, inside quotes at any depth, or as a whole call; the script's outcome and the store it leaves stay the same. A quote can be moved out: `let c (f ...)` does what `f ...` followed by `let c n` does, n being the network f returns there; `assert-equal (f ...) y` does what `f ...` followed by `assert-equal v y` does if the value v is not itself a quote, and likewise for the second argument if the first is not a quote. A value that is a quote cannot be put in place of the call (it would be run once more). No other command runs its quotes: id hands the quote back (so id can tell equivalent quotes apart), ignore drops it, docs and let in first position refuse it, union, read and filter panic. In the in-memory store, once a collection exists, `read c` and `filter c ? ? ?` replace each other in every script.", "quantifier": "every store implementation, command table with distinct names, script, nesting depth, pair of equivalent quotes and state", "why_tests_cant": "Replacement in every context, at every depth, over every store.", "anchors": ["wander/src/lib.rs: run_quote, run_calls", "wander/src/prelude.rs: let_command, assert_equal_command, assert_fail_command, id_command, union_command, read_command, filter_command"]}
{"id": "C94", "title": "More in the store, more in the result", "statement": "Take two stores such that the second lists every collection of the first, with at least its entries (the second may list more). Calls that contain no assert-equal, no assert-fail and no filter with a named variable (?x), at top level or in a quote run by let, and that succeed on the first store, succeed on the second; the network they return has at least the entries of the first result (other values are equal), and the second store still has every collection of the first with at least its entries. For the in-memory store this holds from any two states; for the LMDB-backed store from any two reachable states as long as identifiers do not run out on the second; for the DuckDB store if no let writes a collection that only the second lists. The exclusions are needed: more entries can make assert-equal fail, make assert-fail fail, and make a filter with a named variable panic.", "quantifier": "every pair of states so related (reachable ones for the persistent stores), every list of calls, every nesting depth", "why_tests_cant": "Relates two runs over every pair of stores and every script.", "anchors": ["wander/src/lib.rs: run_calls, run_quote", "wander/src/prelude.rs: let_command, read_command, filter_command, union_command, assert_equal_command, assert_fail_command", "trips/src/mem.rs: collections, triples, add_collection, add_triples", "trips/src/heed.rs: collections, triples, add_collection, add_triples", "trips/src/duckdb.rs: collections, triples, add_collection, add_triples"]}
{"id": "C95", "title": "Calls that can be left out, moved, or computed in advance", "statement": "(1) On any store, a call that succeeds where it stands and leaves the store as it is can be left out of a script unless it is the last call; with the standard commands this holds of every succeeding call in which no let occurs, and always of ignore ..., id v, docs and union n m. (2) A succeeding call without let can be moved down over any calls that let no collection it reads, whether or not those succeed, unless it becomes the last (all three stores). (3) On the in-memory store a let can be left out if the rest of the script writes the collection before reading it; in particular if only succeeding calls that do not read the collection come before the next let of it. On the LMDB-backed store two successive lets of a collection leave what one let of the union of the networks leaves instead. (4) As long as nothing lets a collection, every read of it, as a call or in a quote that is run at any depth, can be replaced by the network read gives at the beginning (all three stores), e.g. the literal of a preceding let. In each case outcome, messages and store stay the same. Without the conditions each of these changes what a script does.", "quantifier": "every script (any calls before, between and after, any nesting of quotes), every state of the in-memory store and every reachable state of the persistent ones", "why_tests_cant": "Program equivalences over all scripts and all stores.", "anchors": ["wander/src/lib.rs: run_calls, run_quote", "wander/src/prelude.rs: let_command, read_command, filter_command, id_command, ignore_command, docs_command, union_command", "trips/src/mem.rs: add_collection, add_triples, triples", "trips/src/heed.rs: add_collection, add_triples, triples", "trips/src/duckdb.rs: add_collection, add_triples, triples"]}
{"id": "C96", "title": "Preparing the npm package overlays the template on the generated description", "statement": "When template_package.json and pkg/package.json both hold a JSON object, merge_template.ts leaves the template as it is and makes the package description the generated one overlaid with the template: every member of the template with the template's value (with the repository's template: name @ligature/ligature, version 0.2.0, private, module, ...), every other member unchanged, new members after the old ones. The one exception is a template member named __proto__, which is not added. Otherwise nothing is written. Running the script again writes the same text. It is not safe against being cut off: the description can be left as any beginning of its new text, after which the script fails until the package is generated anew; the template always survives.", "quantifier": "all contents of the two files, all JSON objects in them, all points at which the script is cut off", "why_tests_cant": "A test runs the script on one generated description; the claims are about every description, every template and every point of being cut off.", "anchors": ["ligature-wasm/merge_template.ts", "ligature-wasm/template_package.json"]}
{"id": "C97", "title": "What is stored under a name is a snapshot, and filters compose", "statement": "`let d (read c)` stores what c holds at that moment: afterwards, whatever calls run, as long as none lets d, d reads the same, even if c is changed; c itself is not changed, also when d is c. On the in-memory store this holds for every d; on the LMDB-backed store a d that exists gets the entries of c in addition; on the DuckDB-backed store d must be new (C59). On the in-memory store `filter c ? ? ?` is `read c`; `let d (filter c p)` stores exactly the matching entries (with d being c it narrows the collection in place) and touches no other collection; filtering in two steps gives the entries matching both patterns, in either order, and is a single filter with the more particular text at each position, or empty when the patterns ask for different texts at one position; filtering again by the same pattern changes nothing.", "quantifier": "all states of the stores (reachable ones for the persistent stores), all collections, all patterns without named variables, all calls that run afterwards", "why_tests_cant": "Tests copy one collection and read it at once; the claims are about every later script and every pair of patterns.", "anchors": ["wander/src/prelude.rs let_command", "wander/src/prelude.rs read_command", "wander/src/prelude.rs filter_command", "trips/src/mem.rs add_collection", "trips/src/mem.rs filter", "trips/src/heed.rs add_triples", "trips/src/duckdb.rs add_collection"]}
{"id": "C98", "title": "One script means the same in every application", "statement": "Give one script to a new ZeroMQ server, to WanderPad, to a web page and, as a file, to the test runner: one crashes exactly if all do; otherwise the server's reply is the pad's result, the page gets a Map exactly if the test passes and a text exactly if it fails, and that text is the server's reply. Give the same scripts one by one to the REPL and to the server: the REPL is still running exactly if the server is and has never replied with a quote (a reply beginning with an opening parenthesis); then both have the same store, and what the REPL has shown is, reply by reply, determined by what the server replied. After a script that gives a page a Map, a server that ran the script replies to a read of any collection with the network the page has drawn under that name, or that there is none; and scripts that succeed one by one on a server, joined by commas, give a page exactly the collections the server has.", "quantifier": "all scripts, all sequences of scripts, all collection names without characters that JSON escapes, every iteration order of the hash map", "why_tests_cant": "No test compares two applications, and the claim ranges over every script and every session.", "anchors": ["ligature-zeromq/src/main.rs main", "wander-pad/src/lib.rs WanderPad::update", "ligature-wasm/src/lib.rs run", "ligature-test-suite/src/main.rs main", "wander-repl/src/lib.rs start_repl"]}
{"id": "C99", "title": "Scripts can only grow a store in proportion to their text", "statement": "However it ends, a script of n characters run on any store in any reachable state lists at most K new collections, and no collection ends up with more triples than there were different entries in the whole store before, plus D, plus the nine entries of the command documentation, where 2K + 4D is at most n. So after any scripts of N characters together on a new store there are at most N/2 collections of at most (N+36)/4 triples each, and at most (N+36)^2/32 triples in all; the same holds of the ZeroMQ server after any requests, whether it is alive or dead. The total can exceed the number of characters.", "quantifier": "all histories of store operations, all script texts, all sequences of scripts and of requests, the three stores", "why_tests_cant": "A bound on what every script can make a store hold is a claim about every text; no test suite can try them.", "anchors": ["wander/src/lib.rs: run, run_calls, run_quote", "wander/src/prelude.rs: let_command, docs_command, union_command, common", "wander/src/parser.rs: parse, read_network, read_quote", "ligature-graph/src/lib.rs: add_collection, add_entries", "ligature-zeromq/src/main.rs: main"]}
{"id": "C100", "title": "What scripts can tell apart", "statement": "Two in-memory stores, or two DuckDB stores in reachable states, answer every script alike exactly if every collection whose name a script can write is missing from both or is in both with the same entries. Stores that no script tells apart remain so whatever scripts run on both. Two scripts can be exchanged anywhere in any session on a new in-memory store without any answer changing exactly if on every store that scripts can make they give the same answer and leave the same store; on a new DuckDB store exactly if after any scripts they give the same answer and leave stores that list the same collections with the same triples. On any store, the LMDB store too, stores that no script tells apart give the same entries for every name a script can write.", "quantifier": "all pairs of stores, all pairs of scripts, all sessions before and after", "why_tests_cant": "That nothing tells two stores or two scripts apart is a claim about every script and every session; a test tries a few.", "anchors": ["wander/src/lib.rs: run, run_calls, run_quote", "wander/src/prelude.rs: let_command, read_command, common", "ligature-graph/src/lib.rs: add_collection, add_entries, entries", "trips/src/duckdb.rs: add_collection, triples", "trips/src/mem.rs: add_collection, triples"]}
{"id": "C101", "title": "What a session can turn a store into, and what it can undo", "statement": "Take contents all of whose names and texts scripts can write. Scripts can make an in-memory store show these contents exactly if the contents have every collection the store has; an LMDB store exactly if they also have, in each of these, every triple the store has there (names being legal keys, and identifiers enough being left); a DuckDB store exactly if each collection the store has is in them with the same triples. Whenever scripts can, one script that succeeds can. So on the two database-backed stores nothing can be undone: if scripts bring back what the store showed before earlier scripts ran, it has shown that in between, too. On the in-memory store any sayable contents can be brought back exactly unless a collection has been added.", "quantifier": "all histories of store operations, all contents that can be written, all scripts and sequences of scripts, the three stores", "why_tests_cant": "That no script at all leads from one store to another is a claim about every sequence of scripts; a test can only show scripts that do.", "anchors": ["wander/src/lib.rs: run, run_calls", "wander/src/prelude.rs: let_command, common", "ligature-graph/src/lib.rs: add_collection, add_entries", "trips/src/mem.rs: add_collection, add_triples, triples", "trips/src/heed.rs: add_collection, add_triples, triples", "trips/src/duckdb.rs: add_collection, add_triples, triples"]}
{"id": "C102", "title": "What no session finds out", "statement": "No session, of however many scripts and with each script chosen by any rule from the answers of the earlier ones, finds out what collections a store has, since scripts have no command that lists them. For every session on every in-memory store and every reachable DuckDB store there is a name scripts can write, of a collection the store has not, such that every store that differs from it only under that name gives the same answers throughout; such stores that have the collection exist, and after the session a further script still tells the two apart. LMDB accepts names of at most 511 bytes only, so there it is otherwise: one session of reads, which changes nothing, is answered alike by two stores in reachable states exactly if they have the same entries under all names scripts can write.", "quantifier": "all stores in reachable states of the three kinds, all rules choosing the next script from the answers so far, all numbers of scripts", "why_tests_cant": "It denies the existence of a session; testing can only try some sessions and fail to find one.", "anchors": ["wander/src/lib.rs: run, run_calls, run_quote", "wander/src/prelude.rs: common, let_command, read_command", "ligature-graph/src/lib.rs: collections, entries", "trips/src/mem.rs: add_collection, triples", "trips/src/duckdb.rs: add_collection, triples", "trips/src/heed.rs: add_collection, triples"]}
{"id": "C103", "title": "A script is a simultaneous assignment", "statement": "Whatever a script that succeeds on the in-memory store does, with all its lets, reads, filters and unions one after another, amounts to one assignment to several collections at the same time: each collection it assigns gets either a network that is the same on every store or the part, by a fixed test, of what one collection held at the start; the others keep what they hold; and its answer is of the same kind. The assignment and the kind of answer are the same for all stores on which the script succeeds. Scripts run one after another do one such assignment together if all succeed, and one of finitely many whatever happens. Conversely any rearrangement, in which each of some collections (with names scripts can write) gets what another had, is done by one script, which uses spare collections whose names can be kept from any given ones. Calls handed to run_calls directly, which unlike those of a script may nest quotes, do one of finitely many such assignments however they end, and the same one whenever they succeed if assert-fail is not among them; with it the assignment can depend on the store.", "quantifier": "all script texts, all sequences of them, all lists of calls, all in-memory stores", "why_tests_cant": "One assignment that explains a script on every store there is cannot be found from the stores a test tries.", "anchors": ["wander/src/lib.rs: run, run_calls, run_quote", "wander/src/prelude.rs: let_command, read_command, filter_command, assert_equal_command, assert_fail_command, common", "wander/src/parser.rs: read_quote", "ligature-graph/src/lib.rs: add_collection, add_entries, entries, filter", "trips/src/mem.rs: add_collection, add_triples, triples, filter"]}
{"id": "C104", "title": "No script combines two collections", "statement": "On the in-memory store, for a script and a collection there is one collection whose content at the start alone decides what the former holds after the script has succeeded, and there is one that alone decides what the script answers. The same holds of scripts run one after another that all succeed, and of calls without assert-fail. So whatever a script answers with, or stores, as a function of what two collections hold, on all stores that have both, it makes from one of them and ignores the other; in particular no script answers with everything that is in one collection or the other, or stores it, although there is a command that unites networks. Over LMDB, where a let of a collection that is there adds to it, one script does, as long as identifiers are left. Calls handed to run_calls directly that nest quotes inside the quote of an assert-fail are not bound by this.", "quantifier": "all script texts, all pairs of collections, all functions of two contents, all in-memory stores on which the script succeeds", "why_tests_cant": "It denies the existence of a script; tests can only try some.", "anchors": ["wander/src/lib.rs: run, run_calls, run_quote", "wander/src/prelude.rs: union_command, let_command, read_command, filter_command, assert_fail_command, common", "ligature-graph/src/lib.rs: add_entries, entries, filter", "trips/src/mem.rs: add_collection, add_triples, triples, filter", "trips/src/heed.rs: add_collection, add_triples, triples"]}
