# Formal model of ligature-rs in Lean 4 — design

## 1. What is modelled

`/repo` is a Rust workspace.  Its logic is in five crates: `ligature` (data model and
store interface), `trips` (triple stores: in-memory, heed/LMDB, DuckDB), `ligature-graph`
(the `Ligature` interface on top of a `Trips` store), `wander` (lexer, parser, evaluator,
printer, standard commands) and thin front ends (`wander-repl`, `ligature-zeromq`,
`wander-pad`, `ligature-wasm`, `ligature-test-suite`).  `ligature-redb` opens
databases and has one more live function (`next_id`), `lig` a tokenizer and `write_string`.

Lean modules (all under `lean/Verif/`):

| module | contents |
| --- | --- |
| `Base/Order`, `Base/BSet`, `Base/BMap` | strict total orders, `BTreeSet` and `BTreeMap` as sorted lists |
| `Base/Res` | outcomes: `ok`, `err`, `panic` |
| `Model/Ligature` | `Element`, `Entry`, the `Ligature` trait as a record of operations |
| `Model/Trips`, `Model/TripsMem`, `Model/TripsHeed`, `Model/TripsDuckDB` | `trips` crate |
| `Model/DuckSql` | the DuckDB store again, statement by statement, with row order, identifiers and failures left open (C88) |
| `Model/TripsHeedFull` | the heed store again, in a transaction whose writes may find no room (C68) |
| `Model/HeedShared` | many concurrent operations on one LMDB environment (C69) |
| `Model/LigatureGraph` | `ligature-graph` crate |
| `Model/Regex`, `Model/Lexer`, `Model/Parser`, `Model/Display`, `Model/Eval` | `wander` crate |
| `Model/EvalRec` | the evaluator again, with the mutual recursion of the source and a nesting limit (C16) |
| `Model/Debug` | `{:?}` of tokens, in the parser's error messages |
| `Model/EvalHost` | the evaluator with host commands that use the store, the table and the evaluator itself, with a limit on nesting (C74, C75) |
| `Model/EvalSteps` | the evaluator one store operation at a time; several scripts interleaved on one store (C73) |
| `Model/LigLexer` | `lig` crate: tokenizers, `read`, `write` |
| `Model/Serde` | derived `Serialize`/`Deserialize` of the data types as JSON text, `Hash for WanderValue` |
| `Model/Frontends`, `Model/SuiteRun`, `Model/Redb`, `Model/RedbOpen` | the rest |
| `Conformance/RepoTests` | the repository's own unit tests, evaluated in the model by the kernel |
| `Spec/Store`, `Spec/Graph`, `Spec/Heed` | ideal stores: partial maps from names to sets; what the LMDB and graph layers add to that |
| `Spec/Lexer`, `Spec/LigLexer`, `Spec/Parser`, `Spec/Print` | token forms and longest match, grammar, escaping and re-reading |
| `Spec/Eval`, `Spec/Semantics`, `Spec/Script`, `Spec/Strict`, `Spec/Effects` | reading of results, big-step rules, whole scripts, what all stores support alike, what a script can touch |
| `Spec/Order`, `Spec/Apps` | orders of elements, entries and networks; what the front ends should do |
| `Spec/Host` | ending, stores that answer alike, bodies that never call back, macros |
| `Spec/Steps` | names and identifiers used by a script's store operations |
| `Spec/Serde` | nesting depth of values and JSON texts |
| `Spec/JsonText` | the grammar of JSON texts and which JSON stands for which value |
| `Spec/Screen`, `Spec/DebugText` | the lines a REPL answer should consist of; the text of `{:?}` on values |
| `Spec/GraphContract` | the promises documented on `trait Ligature`, for any implementation |
| `Spec/Suite` | what the test suite runner should print |
| `Spec/Js` | JavaScript strings and maps as results of the wasm package |
| `Spec/Provenance` | size of scripts; where entries can come from |
| `Spec/StaticCheck` | rules for scripts that cannot panic |
| `Spec/Faulty` | the LMDB-backed store with a list of faults, scripts on it, what can be found afterwards |
| `Spec/Again` | the store operations a script makes, reading before writing |
| `Spec/DuckSql` | what operations of the DuckDB store come to |
| `Spec/Footprint`, `Spec/Messages`, `Spec/Rename`, `Spec/Backup`, `Spec/Crash`, `Spec/Slots`, `Spec/Linear`, `Spec/InTurn`, `Spec/Copy`, `Spec/RedbOpen`, `Spec/Sayable`, `Spec/Replace`, `Spec/Monotone` | vocabulary of C86, C85, C67, C65, C45/C70, C83, C69, C73, C90, C91, C92, C93, C94 |
| `Proofs/*` | helper lemmas |
| `Props/*` | the property theorems with their non-vacuity examples |

Conventions.  A Rust `String`/`&str` is a list of Unicode scalar values (`Str = List Char`);
Rust compares strings bytewise, which on UTF-8 is the lexicographic order of scalar values.
A function taking `&mut self` returns the new state.  `Result` is data, `todo!()`, `panic!`,
`unwrap` on `None`/`Err` and failed `assert_eq!` are the explicit outcome `panic`; the state
returned beside `panic` is what is left behind (for a transactional store: the state before).
`BTreeSet`/`BTreeMap` are sorted duplicate-free lists (subtype, as in Rust an unsorted
`BTreeSet` cannot be built through the API).  `HashMap<String, Command>` is a list of pairs with distinct
keys in arbitrary order.

### The pinned commit does not compile

`ligature/src/lib.rs:25` declares `Element(String, Option<Namespace>, Option<LangTag>)`, but
`wander`, `ligature-graph`, `wander-repl` and `ligature-wasm` all build elements with
`Element(x)` and match them with `Element(x)`.  (`lig/src/read.rs` moreover uses `LigatureError` and `Role` without importing them.)  The model takes the declaration as it stands
(three fields) and reads a one-argument construction as `Element(x, None, None)` and a
one-argument pattern as matching the first field.  All `.0` accesses are as written; the graph layer
therefore drops namespace and language tag, which C35 states.

## 2. Trusted base

* Lean 4.33.0's kernel, and the axioms `propext`, `Quot.sound`, `Classical.choice` (no others; checked by
  `vcheck`).  No axioms of our own, no compiled evaluation.
* The reading of the Rust source (each definition cites file and lines).
* Assumed behaviour of libraries, modelled rather than verified:
  * `logos` 0.13: at each position the longest match over all patterns, ties by pattern priority
    (literal char 2, class 1, sums over concatenation, repetition/option 0), an error item if nothing matches.
    The priorities matter only where a bare word ties with `[`, `]`, or a comment that ends the script (`C02_ties`,
    `C02_comment_tie_at_end`), and not at all in the `lig` lexer (`C66_no_ties`).
  * Simplifications: a command supplied by a host program (`Command.fun`) is an arbitrary function of its arguments and the store, but does not get the
    command table, so it cannot call back into the evaluator. `Model/EvalHost` is the evaluator for commands that do (C74, C75); the two are
    proved to agree when no command calls back (`C74_conservative`). There, a host command runs calls with the table it was given, and what it does between two
    interactions terminates.
  * `{:?}` of tokens (derived `Debug`, `str` escaping); which characters outside ASCII are escaped is left open (an uninterpreted function).
  * `gaze` 0.5: a cursor over a vector (`next`, `is_complete`, `peek`).
  * `serde_json::json!(string)` printing: JSON escapes of `"`, `\`, and U+0000–U+001F, nothing else.  For C71 also the shape serde's derive gives to structs,
    tuples and enums, the compact writer, and the reader: its limit of 127 nested brackets for what it needs, and the laxer rules by which
    it skips the values of unknown fields.
  * `BTreeSet`/`BTreeMap`/`HashMap` of the standard library.
  * LMDB through heed: a transaction is atomic, a dropped write transaction is aborted, keys must be 1–511 bytes (put
    fails otherwise), iteration in bytewise key order; databases were created (at least 11 allowed; `Model/HeedSlots`, C83, is about
    environments with fewer: LMDB gives the slots to the first databases created and refuses to open any other, without harm to the transaction).  When the map is
    full (only in `Model/TripsHeedFull`, C68): the `put`/`delete` errs and the transaction is failed, so later `get`/`put`/`delete`/`open_database` in
    it err and `commit` errs without storing anything; elsewhere the map is not full.
    Concurrent use (`Model/HeedShared`, C69): one write transaction at a time, begun on the last committed state, private until commit; a read transaction sees the
    state committed when it began; the lock of a dead owner is released and its transaction dropped.
  * `serde_wasm_bindgen` 0.4 (`Model/JsValue`, C77): strings become JavaScript strings in UTF-16, sequences arrays, structs plain objects, maps `Map`s filled in
    iteration order, newtype structs what they wrap; it never fails on these types.
  * DuckDB: SQL semantics of the few statements used; UNIQUE and foreign-key violations make `execute` fail (`unwrap` panics); a dropped transaction is rolled back. Row order,
    gaps in the sequence and other failures are left open in `Model/DuckSql` (C88) and fixed in `Model/TripsDuckDB`.
  * redb 1.0 (`Model/RedbOpen`, C91): `Database::create` makes a database in a missing or empty file, opens a valid one, and errs on anything else and on a
    database that is open; `open_table` makes a missing table and errs on one of other types; a commit is atomic. Any call may also fail. Error texts are not modelled.
  * Deno and JavaScript (`Model/PackageMerge`, C96): the order of properties, what assigning to a property does, `writeTextFile` empties the file and then writes;
    `JSON.parse`/`stringify` are a parameter, assumed (as a hypothesis of the theorems, with an instance proved) to give each name once, in order, and to read back what was written.
* Not modelled: performance, memory limits, I/O (`println!`, rustyline, zmq sockets, egui), stack overflow,
  commented-out code, `utils.rs` (panic hook), the private and unused `extract_select_pattern` of `trips/src/duckdb.rs`,
  the crates with no code (`ligature-in-memory`, `ligature-sqlite`, `ligature-nushell`, `tiny-dl`, `ligature-cli`, `ligature-repl`, `ligature-benchmark`).

## 3. Plan per property

* **C01–C05 (lexer).** The logos attributes are transcribed as regular expressions over `Char` with a denotational
  semantics and an executable derivative matcher proved equivalent to it.  The tokenizer is generic longest match.
  C01: induction over the tokenizer.  C02: an inductive specification (`Spec/Lexer`: `Fits`, longest match) proved equivalent to the
  executable tokenizer in both the success and failure case.  C03: the string pattern's language starts and ends with `"` and has length ≥ 2.
  C04/C05: concatenation lemmas for longest match at separators.
* **C06–C09 (parser).** Inductive grammar relation on token lists, equivalence by induction on the parser's recursion.  C07 by rendering;
  C08 from set extensionality.  C09: "malformed input is always rejected with an error" is false; the exact set of inputs that give an
  error and that panic is characterised, with witnesses.
* **C10–C12 (printer).** `Display` is transcribed; read-back composes the lexer, filter and parser theorems.  Nested quotes do not parse at all
  (the parser has no rule for them), so C10 excludes them.
* **C13–C26 (evaluator).** `run_quote`/commands are structurally recursive over values, generic in the store interface and the command table.
  C16 uses the literal mutual recursion with a nesting limit (`Model/EvalRec`).  C26 is relational parametricity, proved by induction.
* **C27–C38 (stores, graph).** `TripsMem` refined to `Spec/Store` (partial map from names to sets of triples), induction over histories.
  Where the code violates the documentation (C28–C31, C37) the negation is proved with a witness, and what the code does instead is proved for all
  reachable states.  C36: `filter` is `todo!()` on the LMDB and DuckDB stores, so it is about the in-memory one.
* **C39–C46 (heed).** Model with identifier counter, four dictionary tables and six byte-key tables; representation invariant; refinement to the same `Spec`;
  crash model: an operation is a transaction whose writes become durable at commit.
* **C47–C48 (DuckDB, cross-store).** Relational tables as lists of rows; invariant; refinement; agreement as corollary of three refinements.
* **C49–C55 (front ends).** Folds over inputs, outputs as data.  C54: a script that panics ends the runner, so nothing is printed; the counting clause is for runs
  that reach the end.
* **C56.** Order laws of the derived orders and extensionality of `BSet`.
* **C57.** An explanation of a history with crash points is a choice, for each cut-off operation, of all or nothing; by induction over the history on top of C39/C45.
* **C58–C59.** A forward simulation between stores as long as one of them does not panic (`Spec/Strict`), lifted to scripts by the same induction as C26,
  and instantiated with the refinements of C39 and C47; exact behaviour of `let`/`read`/`filter` per store.
* **C60–C62.** Induction over calls: every script's effect is a composition of `let` stores (`Spec/Effects`); frame and dependency theorems follow per store.
* **C63.** Token level: joining two token lists with a comma against the grammar of C06; text level: longest match at the comma.
  Lists of scripts by induction; the server by induction over the requests; the newline by gluing two derivations.
* **C64.** Inductive rules in `Spec/Semantics`, one or a few per command, proved sound and complete for the evaluator; determinism and totality follow.
* **C65.** Composition of C10, C17 and C18.
* **C66.** As C01–C02 for the `lig` lexer, with byte offsets as `String.utf8ByteSize` of the text before the token.
* **C67.** A relation between stores (renamed contents under renamed names); every in-memory operation and the graph conversions preserve it, and the induction of
  C26 is repeated with "renamed outcome" in place of "equal outcome" (`Spec/Rename`, `Proofs/Rename`).
  For the LMDB and DuckDB stores the renaming is proved of the guarded store of C58 and carried over by C58's simulation (`Props/RenamingAll`).
* **C68.** The functions of `heed.rs` again with a count of writes that still find room and a failed flag; simulation between the limited and the unlimited
  transaction until the first failed write, after which nothing can be stored.  The finding that `Ok` is no promise (results of `put` and `commit` are discarded)
  is proved for every reachable state.  What is answered at each shortage: every step of an operation is metered (number of writes, strictness in the failed flag) and
  meters compose (`Proofs/HeedMeter`).
* **C69.** Small-step machine with any number of operations, each one transaction as in the source; ghost linearization order with the invariant that the stored state is
  that of the order and a writer's snapshot is current; writers take their turn at the end of the transaction, readers at its beginning.  `let` of the graph layer is two
  transactions; that it is not atomic is proved as a finding.
* **C70.** The heed store with a record of what is stored at each write of each transaction (`Spec/Crash.watched`), shown by C26 to be the store itself; C60 on it gives the
  crash states as prefixes of the script's lets.  Running a script of lets again after a crash: closed form of the world after lets, worlds in between have the same one.

No property is out of reach of a model altogether; the runtime parts that stay out (real thread/socket/file behaviour, LMDB and DuckDB internals)
are the assumptions listed above.
* **C71–C72.** JSON trees; writer and reader as functions, the text written is in the grammar and so is read back; typed reading by
  cases with the depth limit as an exact condition, permutations of fields by uniqueness of the field name.  C72 quantifies over what the hasher does with the variant.
  That the reader accepts exactly the grammar (`Spec/JsonText`, inductive) by mutual induction on derivations one way and on the step bound the other.  The texts written are compared with
  templates (`Spec/JsonWritten`).
* **C73.** The evaluator once more as a tree of store operations (`Model/EvalSteps`), proved to be the evaluator when run undisturbed (`C73_steps_are_run`); any number of such
  trees interleaved; invariant: each tree is where it would be alone, and the stored state agrees with the lonely one on its names.  Footprint of the tree from C62.  The same
  lemmas, run one after the other, give C62 for LMDB.
* **C74.** A host command is a tree of interactions (return; call a method of the store; look at the table; run calls), with arbitrary dependence on the answers
  (`Model/EvalHost`); the evaluator is transcribed with a limit on nested invocations. A simulation between two runs with different limits and stores (`Proofs/Host`)
  gives determinism; macros by unfolding one invocation; divergence by induction on the limit; termination by induction on a weight; agreement with `Model/Eval` through
  `Model/EvalRec` (C16).
* **C75.** The same simulation with `R s u := s = u ∧ P s` (invariants, histories), and a forward simulation up to panics (`Proofs/HostFollow`) from the guarded store of C58.
* **C76.** Lines of the REPL by case analysis against `Spec/Screen`; that answers of different kinds or contents look different by prefix-freeness of the JSON and `Debug`
  escapes (the table of escaped characters of `Debug` stays uninterpreted); that shown calls can be pasted back by tokenising the shown text.
* **C77.** JavaScript values as trees; strings as UTF-16 against a relation (`Spec/Js.Spells`) proved functional and injective; the hash map's order is any permutation, `Map.set`
  by induction over it; the contents from C49/C50.
* **C78.** On the trees of C73: the depth of the tree of a script is at most twice its number of calls and quotes, by the mutual induction of the footprint; interleavings by
  induction; texts through the grammar of C06 and the longest-match lexer of C02 (a token is at least one character).
* **C79.** A property of entries closed under parser form is kept: trees only write entries they got from the store, from the script or from `docs`; each store's triples come
  only from `add_triples` (from the refinements C27/C39/C47), and `filter` answers with a part of the collection.

* **C80.** A rule system (`Spec/StaticCheck`) for scripts and the names they may count on; by induction on derivations, over an abstract store interface instantiated with
  the in-memory store and with the guarded store of C58, whose simulation carries the result to the three stores.
* **C81.** `Spec/Faulty` makes the store of C68 (room and commits that fail) a store for scripts, one fault per update, recording every stored state. Invariant: the stored state, and every recorded
  one, is the work of a sublist of the lets' operations (C60, C68); the consequences follow from the history theorems of the LMDB store. Re-running: the world found lies between the worlds before and after.
* **C82.** A graph operation is a store operation on the translated entries with errors turned into panics; the answers of C27, C39 and C47 and the contract clauses
  C28–C31 are carried over along that translation, and stated on entries (`Spec/GraphContract`).
* **C83.** The functions of `heed.rs` once more with a check at each `open_database`; equality with the full model where the slots suffice, nothing stored where they
  do not (`Proofs/HeedSlots`); processes by induction, scripts by the simulation of C58.

* **C84.** `Model/SuiteRun`: the runner with everything it prints and every `unwrap`; what the operating system answers is data, colours are left open. The files that are
  tests and the things that stop the runner are inductive relations in `Spec/Suite`; induction over the listing.
* **C85.** `Spec/Messages` lists causes and their messages; every error is one of them by the mutual induction over the evaluator, with the tokenizer's and parser's messages from C02 and
  C09. That the cause can be read off the message: first differing characters, and prefix-freeness of printed values (C11). REPL lines: the first token of such a line (C02) is a word
  no standard command is called.
* **C86.** `Spec/Footprint` counts from outside (listing, sizes returned just before each removal, acknowledged operations). LMDB: invariant `Clean` (both directions of
  the text and name tables are inverse, all texts legal) and a duplicate-free list `Dead` of the triples under identifiers of no listed collection, whose length is the
  count of triples orphaned; each index is in bijection with shown + dead triples; identifiers are counted through the loop of `add_triples`. DuckDB: the table decoded row
  by row equals the log (`linesAfter`), by induction over the history. Illegal names and texts by following the single transaction. LMDB's own page structure is not
  modelled: records, not bytes, are counted.
* **C87.** `Spec/Again`: the operations a script makes when undisturbed (`asksOf`), the store after the first `i` (`afterAsks`), and when a trace writes nothing after
  reading it. Induction over the shape of programs (`Tame`: read, filter, a whole `let`, end). In memory: two stores equal outside the collections written first. LMDB: every state
  along the way contains what the `let`s so far wrote, so repeating them is the identity (C86, `again_nothing`); crash states are such states. DuckDB: the name exists, so `let` panics.
* **C88.** `Model/DuckSql`: the DuckDB store as a relation, statement by statement: between any two statements rows may be rearranged and the sequence may skip; any statement or
  commit may fail. The invariant and world of the simple model are stable under rearranging; success of a transaction is followed statement by statement, failure is a rollback.
  Scripts: induction over the program, which stops at a panic. The simple model is one possible behaviour (`C88_possible`).
* **C89.** Pieces that end between tokens (`Complete`) lex independently of what follows; an inserted text is one element token with the escaped text. The parser never looks
  at the text of an element except the role of an entry, so it commutes with replacing blank elements (`fillTok`, `parse_fill`: induction over the token list with the state of
  the parser). Blanks are elements with a namespace, which no script denotes. The frame is C61 for the filled calls.
* **C90.** `copyOps` on a new store: induction over the collections with the world of the store and the room left as invariant, for LMDB and DuckDB at once (`copy_acked`). The
  counts are C86 for the copying history and for the original history; the difference is the sum of the leftovers. The listing of the LMDB store is sorted, so what is shown
  determines the copy.
* **C91.** `create` as a case analysis (`create_cases`) with an arbitrary fault at each call; the six `open_table` calls by induction over the list of tables. Histories of opening,
  closing, failing and crashing: induction with the relation `Kept` between the first and the current state of each file.
* **C92.** From scripts to calls: the pieces of a tokenized script have the form of their kind (C02), so words and string bodies are sayable, and the grammar (C06) only
  puts them together. Back: every token is written as a string literal or punctuation mark, which the tokenizer reads one by one, and C07. Values and stores: where
  entries come from (C79), which names a script can use (C60, C61, C62), and the lets of C65.
* **C93.** `Spec/Replace`: when one script is another with `q'` in place of some of the quotes `q` that are run. Mutual induction over this relation, on top of the evaluator's
  equations; the state stays in the set `I` between the two quotes of `assert-equal`. Moving a quote out: unfolding one call and C13.
* **C94.** `Spec/Monotone`: one store below another, values below values, calls that compare nothing. The evaluator is shown to keep the relation, by induction over the depth
  budget and the calls, from what each command does to related arguments; the store operations keep it because all three stores refine the same abstract world (C01–C03 machinery).
  `C94_needed` gives the counterexamples for the excluded commands.
* **C95.** Leaving out: C13's append law and C19. Moving: the programs of calls without `let` only read (`Tame` with no writes), and C61's frame theorem says what they read is the same.
  Overwritten lets: C87's blindness theorem. Known values: the replacement induction of C93 restricted to scripts that do not `let` the collection. `C95_needed`: witnesses that the
  conditions cannot be dropped.
* **C96.** `Model/PackageMerge` is `merge_template.ts` over JavaScript objects as lists of properties. Lookup after one assignment, then induction over the template's members; the
  second run changes nothing because every assignment finds its value there. An actual reader and writer meeting the hypotheses is built on the JSON texts of C71.
* **C97.** `let` of a quote is the `let` of its value (C17), what `let` stores reads back (C17, C59) and stays by the frame theorem behind C61; filters by C21 and set extensionality.
* **C98.** The applications' models on one script by C52, C53, C54 and C77; REPL and server by a simulation over the list of scripts (C51, C76, C85); reading what a page has by C77 and C10; joined scripts by C63.
* **C99.** Names after `let` and entries written in a script are counted against its tokens by induction on the grammar (C06), and tokens against characters (C02). New names come
  from `let` (C61), new entries from the script or the documentation (C79), unchanged because scripts write parser form (C17). Composed over sequences; the total by (a + b)² ≥ 4ab.
* **C100.** Adequacy: the script `read c` and, on DuckDB, `let c {}` (which panics exactly on an existing collection) are texts by C92, so equal answers give equal entries and listings.
  The converse is the frame and dependence theorem of C61/C62, kept by every script and so by every session (induction over it); stores that scripts make hold sayable names only (C92),
  so being alike is being equal there.
* **C101.** Only if: what every `let` keeps every script keeps (C60), and on the abstract worlds a `let` keeps the listing (in memory), what each collection holds (LMDB), each collection as it is
  (DuckDB, where a `let` of an existing name panics before anything is written). If: the script of `let`s of the contents (on DuckDB of the missing collections only), which can be written by
  C92, run on the worlds. Undoing is the same statement read backwards, by antisymmetry.
* **C102.** The names a script uses (C61/C62) have bounded length, by recursion on its values; by induction over the session, whose next script is the same on both stores as long as the answers are,
  a name longer than the sum of the bounds is used by none, so the frame and dependence theorems keep the stores alike but for it. That a further script tells them apart is C100. On LMDB the strings of at most 511 bytes are finitely many,
  and a session reads them all.
* **C103.** Symbolic execution, as an existence proof by mutual induction on values: everything that runs has a finite list of paths, each an assignment and an answer, one of which applies on every
  store; sequencing composes assignments by substitution. `assert-equal` adds a failing path, so one path at most succeeds; only `assert-fail` of nested quotes adds succeeding ones, and scripts have
  no nested quotes (C92), so that a call failing inside `assert-fail` has done nothing. Sequences of scripts compose the same way. For the converse, a script that copies
  every source to a spare collection (its name a long run of letters before the target's) and then every spare to its target.
* **C104.** From C103: each collection after the script, and the answer, comes from one origin, and two stores that agree on the collection of that origin give the same. For a function of two contents take stores that
  have just the two collections. That calls with nested quotes escape is shown by a list of calls and three stores; that LMDB does, by `let a (read b), read a` and C59.
