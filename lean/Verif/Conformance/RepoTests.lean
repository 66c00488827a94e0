import Verif.Model.Eval
import Verif.Model.TripsHeed
import Verif.Model.TripsDuckDB
/-!
# The repository's own unit tests, replayed on the model

Every live `#[test]` of `/repo` whose code is modelled, evaluated by the kernel on the model and compared with the result the
Rust test expects.  These are checks of the model's fidelity on literals, not claims; no theorem depends on them.
Constructors `Element(s)` of the tests are `Element.of s` (see `Model/Ligature.lean`).
-/
namespace Verif
namespace RepoTests

/-- A token list of elements. -/
private def els (l : List String) : List Token := l.map (fun s => .element (.of (lit s)))
private def e (s : String) : Element := .of (lit s)
private def v (s : String) : Value := .element (e s)
private def toks (s : String) : Res (List Token) := Lexer.tokenizeAndFilter (lit s)

/-! ## `wander/tests/lexer_tests.rs` -/

/-- `tokenize_true` (lines 8-18) -/
example : toks "true" = .ok (els ["true"]) := by decide +kernel
/-- `tokenize_booleans` (lines 20-34) -/
example : toks "true false false" = .ok (els ["true", "false", "false"]) := by decide +kernel
/-- `tokenize_integer` (lines 36-45) -/
example : toks "123450" = .ok (els ["123450"]) := by decide +kernel
/-- `tokenize_integers` (lines 47-61) -/
example : toks "0 -100 4200" = .ok (els ["0", "-100", "4200"]) := by decide +kernel
/-- `tokenize_strings` (lines 63-69) -/
example : toks "\"Hello, world\"" = .ok (els ["Hello, world"]) := by decide +kernel
/-- `tokenize_strings_with_quotes` (lines 71-77) -/
example : toks "\"\\\"Hello, world\\\"\"" = .ok (els ["\\\"Hello, world\\\""]) := by decide +kernel
/-- `tokenize_name` (lines 79-85) -/
example : toks "hello123" = .ok (els ["hello123"]) := by decide +kernel
/-- `tokenize_function_call` (lines 87-100) -/
example : toks "not false" = .ok (els ["not", "false"]) := by decide +kernel
/-- `tokenize_comment` (lines 116-122) -/
example : toks "-- hello" = .ok [] := by decide +kernel
/-- `tokenize_complex_comment` (lines 124-130) -/
example : toks "-- <<<>>> () {} }{ )( ><" = .ok [] := by decide +kernel
/-- `multiline_comment` (lines 132-142) -/
example : toks "-- <<<>>> () {} }{ )( ><\n5 -- five\n-- comment" = .ok (els ["5"]) := by decide +kernel

/-! ## `wander/tests/parser_tests.rs` -/

/-- `parse_str` (lines 10-15) -/
private def parseStr (s : String) : Res (List Call) :=
  match toks s with
  | .ok ts => Parser.parse ts
  | _ => .panic

/-- `no_arg_command` (lines 17-25) -/
example : parseStr "true" = .ok [⟨e "true", []⟩] := by decide +kernel
/-- `parse_integers` (lines 27-35) -/
example : parseStr "-100" = .ok [⟨e "-100", []⟩] := by decide +kernel
/-- `parse_strings` (lines 37-45) -/
example : parseStr "\"Hello\"" = .ok [⟨e "Hello", []⟩] := by decide +kernel
/-- `parse_call_with_args` (lines 47-58) -/
example : parseStr "Bool.and x true" = .ok [⟨e "Bool.and", [v "x", v "true"]⟩] := by decide +kernel
/-- `parse_applications` (lines 60-74) -/
example : parseStr "Bool.not x, true" = .ok [⟨e "Bool.not", [v "x"]⟩, ⟨e "true", []⟩] := by decide +kernel
/-- `parse_empty_network_as_` (lines 76-84) -/
example : parseStr "test {}" = .ok [⟨e "test", [.network ∅]⟩] := by decide +kernel
/-- `parse_network_with_single_entry` (lines 86-98) -/
example : parseStr "test {a b c}" = .ok [⟨e "test", [.network (BSet.ofList [.role (e "a") (e "c") (e "b")])]⟩] := by decide +kernel
/-- `parse_network_with_single_entry_and_trailing_comma` (lines 100-112) -/
example : parseStr "test {a b c,}" = .ok [⟨e "test", [.network (BSet.ofList [.role (e "a") (e "c") (e "b")])]⟩] := by decide +kernel
/-- `parse_network_with_two_entries_and_trailing_comma` (lines 114-133) -/
example : parseStr "test {a b c, a : A,}" =
    .ok [⟨e "test", [.network (BSet.ofList [.role (e "a") (e "c") (e "b"), .ext (e "a") (e "A")])]⟩] := by decide +kernel
/-- `parse_nested_function_calls` (lines 135-146) -/
example : parseStr "Bool.not (Bool.not false)" = .ok [⟨e "Bool.not", [.quote [v "Bool.not", v "false"]]⟩] := by decide +kernel

/-! ## `wander/tests/preludes_tests.rs` -/

private def runNew (s : String) : Res Value := (Eval.run Graph.memOps Eval.common (lit s) Graph.memNew).1

/-- `calling_ignore` (lines 10-16) -/
example : runNew "ignore" = .ok (.network ∅) := by decide +kernel
/-- `calling_ignore_with_args` (lines 18-24) -/
example : runNew "ignore test (test {test test test}) {test test test}" = .ok (.network ∅) := by decide +kernel
/-- `passing_assert_eq_call` (lines 26-32) -/
example : runNew "assert-equal true true" = .ok (.network ∅) := by decide +kernel
/-- `failing_assert_eq_call` (lines 34-39): `res.is_err()` -/
example : runNew "assert-equal true bug" = .err (lit "Assertion failed, \"true\" != \"bug\"") := by decide +kernel

/-! ## `trips/tests/tests.rs`, on each of the three stores `initialize` can return (lines 18-33) -/

section
variable {σ : Type} (T : TripsOps σ)

private def trip (a b c : String) : Trip := ⟨lit a, lit b, lit c⟩

/-- `store_should_start_empty` (lines 35-41) -/
private def startEmpty (s : σ) : Prop := T.collections s = .ok []
/-- `add_collection_to_store` (lines 43-50) -/
private def addColl (s : σ) : Prop := T.collections (T.addCollection s (lit "T")).2 = .ok [lit "T"]
/-- `remove_collection_from_store` (lines 52-61) -/
private def removeColl (s : σ) : Prop :=
  T.collections (T.removeCollection (T.addCollection (T.addCollection s (lit "T")).2 (lit "S")).2 (lit "T")).2 = .ok [lit "S"]
/-- `triples_should_start_empty` (lines 63-70) -/
private def triplesEmpty (s : σ) : Prop := T.triples (T.addCollection s (lit "T")).2 (lit "T") = .ok ∅
/-- `add_triples_to_collection` (lines 72-84) -/
private def addTrips (s : σ) : Prop :=
  T.triples (T.addTriples (T.addCollection s (lit "T")).2 (lit "T") (BSet.ofList [trip "1" "2" "3"])).2.1 (lit "T") =
    .ok (BSet.ofList [trip "1" "2" "3"])
/-- The store of lines 88-97 and 113-122. -/
private def three (s : σ) : σ :=
  (T.addTriples (T.addCollection s (lit "T")).2 (lit "T")
    (BSet.ofList [trip "1" "2" "3", trip "1" "2" "6", trip "1" "2" "5"])).2.1
/-- `remove_triples_from_collection` (lines 86-108) -/
private def removeTrips (s : σ) : Prop :=
  T.triples (T.removeTriples (three T s) (lit "T") (BSet.ofList [trip "1" "2" "3"])).2.1 (lit "T") =
    .ok (BSet.ofList [trip "1" "2" "5", trip "1" "2" "6"])
/-- `basic_filter` (lines 110-131): the filter must not panic (its result is ignored), then the triples are read -/
private def basicFilter (s : σ) : Prop :=
  T.filter (three T s) (lit "T") ⟨.any, .any, .any⟩ ≠ .panic ∧
  T.triples (three T s) (lit "T") = .ok (BSet.ofList [trip "1" "2" "3", trip "1" "2" "5", trip "1" "2" "6"])
end

example : startEmpty Mem.ops Mem.new ∧ addColl Mem.ops Mem.new ∧ removeColl Mem.ops Mem.new ∧ triplesEmpty Mem.ops Mem.new ∧
    addTrips Mem.ops Mem.new ∧ removeTrips Mem.ops Mem.new ∧ basicFilter Mem.ops Mem.new := by
  unfold startEmpty addColl removeColl triplesEmpty addTrips removeTrips basicFilter; decide +kernel

/-- On the heed store all but `basic_filter`, which the code cannot pass (`filter` is `todo!()`). -/
example : startEmpty Heed.ops Heed.new ∧ addColl Heed.ops Heed.new ∧ removeColl Heed.ops Heed.new ∧
    triplesEmpty Heed.ops Heed.new ∧ addTrips Heed.ops Heed.new ∧ removeTrips Heed.ops Heed.new ∧
    ¬ basicFilter Heed.ops Heed.new := by
  unfold startEmpty addColl removeColl triplesEmpty addTrips removeTrips basicFilter; decide +kernel

/-- On the DuckDB store all but `basic_filter`, which the code cannot pass (`filter` is `todo!()`). -/
example : startEmpty Duck.ops Duck.new ∧ addColl Duck.ops Duck.new ∧ removeColl Duck.ops Duck.new ∧
    triplesEmpty Duck.ops Duck.new ∧ addTrips Duck.ops Duck.new ∧ removeTrips Duck.ops Duck.new ∧
    ¬ basicFilter Duck.ops Duck.new := by
  unfold startEmpty addColl removeColl triplesEmpty addTrips removeTrips basicFilter; decide +kernel

/-! ## `ligature-graph/tests/lib_tests.rs` (`search_empty_graph`, lines 16-24, calls a `query` that no longer exists) -/

/-- `empty_graph` (lines 10-14) -/
example : Graph.memOps.collections Graph.memNew = .ok [] := by decide +kernel
/-- `single_element_graph` (lines 76-84) -/
example :
    let st : Entry := .role (e "a") (e "b") (e "c")
    let s1 := (Graph.memOps.addCollection Graph.memNew (e "test")).2
    let s2 := (Graph.memOps.addEntries s1 (e "test") (BSet.ofList [st])).2.1
    Graph.memOps.entries s2 (e "test") = .ok (BSet.ofList [st]) := by decide +kernel

end RepoTests
end Verif
