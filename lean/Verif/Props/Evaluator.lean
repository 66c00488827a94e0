import Verif.Proofs.EvalMore
import Verif.Props.GraphLayer
import Verif.Proofs.Parser
import Verif.Spec.Script
/-!
# C13–C26: running calls

`L : LigOps σ` is any implementation of the store interface with state `σ`; `cmds` is any command table (standard commands and host
functions).
-/
namespace Verif
namespace Props
open Spec Eval

variable {σ : Type u} {τ : Type v}

/-- Calls used in the examples. -/
def exLet : Call := call "let" [.element (.of (lit "G")), .network sampleNet]
def exRead : Call := call "read" [.element (.of (lit "G"))]
def exBad : Call := call "nope" []

/-! ## C13: calls run in order and the first failure stops the script -/

/-- C13: running `xs` then `ys` is running `xs` and, if that succeeded, running `ys` on the resulting store. -/
theorem C13_append (L : LigOps σ) (cmds : Commands σ) (xs ys : List Call) (s : σ) :
    runCalls L cmds (xs ++ ys) s =
      match runCalls L cmds xs s with
      | (.ok w, s1) => if ys = [] then (.ok w, s1) else runCalls L cmds ys s1
      | (.err m, s1) => (.err m, s1)
      | (.panic, s1) => (.panic, s1) := runCalls_append L cmds xs ys s

/-- C13: if a script does not succeed, there is a first call that failed: the calls before it succeeded, the outcome and the store
are those of that call run on the store they left, and would be the same whatever calls come after it. -/
theorem C13_first_failure (L : LigOps σ) (cmds : Commands σ) (calls : List Call) (s s' : σ) (r : Res Value)
    (h : runCalls L cmds calls s = (r, s')) (hr : ∀ v, r ≠ .ok v) :
    ∃ before c after w s1, calls = before ++ c :: after ∧ runCalls L cmds before s = (.ok w, s1) ∧
      runCalls L cmds [c] s1 = (r, s') ∧ ∀ after', runCalls L cmds (before ++ c :: after') s = (r, s') := by
  suffices H : ∀ (calls before : List Call) (w : Value) (s1 : σ), runCalls L cmds before s = (.ok w, s1) →
      runCalls L cmds (before ++ calls) s = (r, s') →
      ∃ before' c after w s1, before ++ calls = before' ++ c :: after ∧ runCalls L cmds before' s = (.ok w, s1) ∧
        runCalls L cmds [c] s1 = (r, s') ∧ ∀ after', runCalls L cmds (before' ++ c :: after') s = (r, s') by
    simpa using H calls [] emptyNet s rfl h
  intro calls
  induction calls with
  | nil =>
    intro before w s1 hb hc
    rw [List.append_nil, hb] at hc
    cases hc; exact absurd rfl (hr w)
  | cons c cs ih =>
    intro before w s1 hb hc
    have hone : ∀ after', runCalls L cmds (before ++ c :: after') s = match runCalls L cmds [c] s1 with
        | (.ok w, s1) => if after' = [] then (.ok w, s1) else runCalls L cmds after' s1
        | (.err m, s1) => (.err m, s1)
        | (.panic, s1) => (.panic, s1) := by
      intro after'
      rw [runCalls_append, hb]
      simp only [reduceCtorEq, if_false]
      exact runCalls_append L cmds [c] after' s1
    rcases h1 : runCalls L cmds [c] s1 with ⟨x, s2⟩
    cases x with
    | ok v =>
      have := ih (before ++ [c]) v s2 (by rw [hone [], h1]; simp) (by simpa using hc)
      simpa using this
    | err m =>
      have := hone cs; rw [h1] at this
      rw [this] at hc; cases hc
      exact ⟨before, c, cs, w, s1, rfl, hb, h1, fun a => by rw [hone a, h1]⟩
    | panic =>
      have := hone cs; rw [h1] at this
      rw [this] at hc; cases hc
      exact ⟨before, c, cs, w, s1, rfl, hb, h1, fun a => by rw [hone a, h1]⟩

/-- `C13_first_failure` applies to a script whose second call is unknown. -/
example := C13_first_failure Graph.memOps common [exLet, exBad, exRead] Graph.memNew (runCalls Graph.memOps common [exLet, exBad, exRead] Graph.memNew).2
  (.err (lit "Could not find command: nope")) (by decide +kernel) nofun

/-- C13: a call is its command applied to its arguments.  Whatever a host command answers (a value, an error, a panic) is the answer, and
whatever it did to the store stays, also when it failed; and that is the end of the script unless it answered a value. -/
theorem C13_command_outcome (L : LigOps σ) (cmds : Commands σ) (hw : cmds.WF) (name : Element) (args : List Value) (doc : Str)
    (f : List Value → σ → Res Value × σ) (h : (name.text, ⟨doc, .host f⟩) ∈ cmds) (rest : List Call) (s : σ) :
    runCalls L cmds [⟨name, args⟩] s = f args s ∧
    runCalls L cmds (⟨name, args⟩ :: rest) s =
      match f args s with
      | (.ok w, s1) => if rest = [] then (.ok w, s1) else runCalls L cmds rest s1
      | (.err m, s1) => (.err m, s1)
      | (.panic, s1) => (.panic, s1) := by
  have hg : cmds.get? name.text = some ⟨doc, .host f⟩ := lookup_of_mem hw h
  have h1 : runCalls L cmds [⟨name, args⟩] s = f args s := by
    rw [runCalls_single, runCall, hg]
    cases args <;> simp only [runFun]
  refine ⟨h1, ?_⟩
  rw [show (⟨name, args⟩ :: rest : List Call) = [⟨name, args⟩] ++ rest from rfl, runCalls_append, h1]
  rcases f args s with ⟨r, s1⟩
  cases r <;> rfl

/-- A host command that writes and then fails, in a table with the standard commands. -/
def exHostTable : Commands Mem :=
  (lit "wreck", ⟨[], .host fun _ s => (.err (lit "no"), (Graph.memOps.addCollection s (.of (lit "X"))).2)⟩) :: common
example : exHostTable.WF := by unfold Commands.WF; decide
example : runCalls Graph.memOps exHostTable [⟨.of (lit "wreck"), []⟩, exLet] Graph.memNew =
    (.err (lit "no"), (Graph.memOps.addCollection Graph.memNew (.of (lit "X"))).2) := by decide +kernel

example : (runCalls Graph.memOps common [exLet, exBad, exLet] Graph.memNew).1 = .err (lit "Could not find command: nope") ∧
    (runCalls Graph.memOps common [exLet, exBad, exLet] Graph.memNew).2 ≠ Graph.memNew := by decide +kernel

theorem run_means (L : LigOps σ) (cmds : Commands σ) {script : Str} {calls : List Call} (h : Means script calls) (s : σ) :
    run L cmds script s = runCalls L cmds calls s := by
  obtain ⟨ts, h1, h2⟩ := h
  rw [run, h1]
  simp only [Parser.program_parse h2]

/-- C13: on the text of a script: a well-formed script of some calls followed by more runs the former, and if they succeed the latter on the
store they left; the first failure is the outcome of the script.  A script that is not well formed runs no call: it fails or panics and the
store stays as it was. -/
theorem C13_script (L : LigOps σ) (cmds : Commands σ) (script : Str) (s : σ) :
    (∀ calls, Means script calls → run L cmds script s = runCalls L cmds calls s) ∧
    (∀ c rest, Means script (c :: rest) →
      run L cmds script s =
        match runCalls L cmds [c] s with
        | (.ok w, s1) => if rest = [] then (.ok w, s1) else runCalls L cmds rest s1
        | (.err m, s1) => (.err m, s1)
        | (.panic, s1) => (.panic, s1)) ∧
    ((¬ ∃ calls, Means script calls) → (run L cmds script s).2 = s ∧ ∀ v, (run L cmds script s).1 ≠ .ok v) := by
  refine ⟨fun calls h => run_means L cmds h s, ?_, ?_⟩
  · intro c rest h
    rw [run_means L cmds h, show c :: rest = [c] ++ rest from rfl, runCalls_append]
    rcases runCalls L cmds [c] s with ⟨r, s1⟩
    cases r <;> rfl
  · intro h
    rw [run]
    cases ht : Lexer.tokenizeAndFilter script with
    | err m => exact ⟨rfl, fun v => nofun⟩
    | panic => exact ⟨rfl, fun v => nofun⟩
    | ok ts =>
      simp only
      cases hp : Parser.parse ts with
      | err m => exact ⟨rfl, fun v => nofun⟩
      | panic => exact ⟨rfl, fun v => nofun⟩
      | ok calls => exact absurd ⟨calls, ts, ht, Parser.parse_ok_iff.mp hp⟩ h

example : Means (lit "let G {}, nope") [call "let" [.element (.of (lit "G")), .network ∅], exBad] ∧ ¬ ∃ calls, Means (lit "{") calls := by
  constructor
  · exact ⟨_, by decide +kernel, Parser.parse_ok_iff.mp (by decide +kernel : Parser.parse [.element (.of (lit "let")), .element (.of (lit "G")), .openBrace,
      .closeBrace, .comma, .element (.of (lit "nope"))] = _)⟩
  · rintro ⟨calls, ts, h1, h2⟩
    have h2 := Parser.program_parse h2
    have : Lexer.tokenizeAndFilter (lit "{") = .ok [.openBrace] := by decide +kernel
    rw [this] at h1
    cases h1
    have : Parser.parse [.openBrace] = .panic := by decide +kernel
    rw [this] at h2
    cases h2

/-! ## C14: a script's value is the value of its last call -/

/-- C14: a script that succeeds yields the value its last call returned, run on the store the calls before left. -/
theorem C14_last_value (L : LigOps σ) (cmds : Commands σ) (cs : List Call) (c : Call) (s s' : σ) (v : Value)
    (h : runCalls L cmds (cs ++ [c]) s = (.ok v, s')) :
    ∃ w s1, runCalls L cmds cs s = (.ok w, s1) ∧ runCalls L cmds [c] s1 = (.ok v, s') := by
  rw [runCalls_append] at h
  rcases h1 : runCalls L cmds cs s with ⟨x, s1⟩
  rw [h1] at h
  cases x with
  | ok w => exact ⟨w, s1, rfl, by simpa using h⟩
  | err m => simp at h
  | panic => simp at h

/-- `C14_last_value` applies to a `let` followed by a `read`. -/
example := C14_last_value Graph.memOps common [exLet] exRead Graph.memNew (runCalls Graph.memOps common [exLet] Graph.memNew).2
  (.network (sampleNet.map canon)) (by decide +kernel)

/-- C14: a script ending in a host command answers exactly what that command answers when called on the store the calls before left. -/
theorem C14_last_command (L : LigOps σ) (cmds : Commands σ) (hw : cmds.WF) (before : List Call) (name : Element) (args : List Value)
    (doc : Str) (f : List Value → σ → Res Value × σ) (h : (name.text, ⟨doc, .host f⟩) ∈ cmds) (s s1 : σ) (w : Value)
    (hb : runCalls L cmds before s = (.ok w, s1)) :
    runCalls L cmds (before ++ [⟨name, args⟩]) s = f args s1 := by
  rw [runCalls_append, hb]
  simp only [List.cons_ne_nil, if_false]
  exact (C13_command_outcome L cmds hw name args doc f h [] s1).1

example : (runCalls Graph.memOps ((lit "count", ⟨[], .host fun args s => (.ok (.quote args), s)⟩) :: common)
    [exLet, call "count" [.element (.of (lit "a"))]] Graph.memNew).1 = .ok (.quote [.element (.of (lit "a"))]) := by decide +kernel

/-- C14: on the text of a script: the value is that of the last call, on the store the calls before left; a script with no call yields the
empty network and changes nothing. -/
theorem C14_script (L : LigOps σ) (cmds : Commands σ) (script : Str) (s : σ) :
    (∀ cs c v s', Means script (cs ++ [c]) → run L cmds script s = (.ok v, s') →
      ∃ w s1, runCalls L cmds cs s = (.ok w, s1) ∧ runCalls L cmds [c] s1 = (.ok v, s')) ∧
    (Means script [] → run L cmds script s = (.ok (.network ∅), s)) := by
  refine ⟨fun cs c v s' hm h => ?_, fun hm => run_means L cmds hm s⟩
  rw [run_means L cmds hm] at h
  exact C14_last_value L cmds cs c s s' v h

example : Means (lit " -- nothing") [] := ⟨[], by decide +kernel, Parser.parse_ok_iff.mp (by decide +kernel)⟩

/-- C14: no call at all: the empty network, and the store is untouched. -/
theorem C14_no_calls (L : LigOps σ) (cmds : Commands σ) (s : σ) : runCalls L cmds [] s = (.ok (.network ∅), s) := rfl

example : (runCalls Graph.memOps common ([exLet] ++ [exRead]) Graph.memNew).1 =
    .ok (.network (sampleNet.map canon)) := by decide +kernel

/-! ## C15: an unknown command -/

/-- C15: a call of a name not in the table fails with the message naming it and leaves the store alone. -/
theorem C15_unknown_command (L : LigOps σ) (cmds : Commands σ) (c : Call) (s : σ) (h : Unknown cmds c.name.text) :
    runCalls L cmds [c] s = (.err (lit "Could not find command: " ++ c.name.text), s) := by
  have : cmds.get? c.name.text = none := lookup_none_iff.mpr h
  rw [runCalls_single, runCall, this]; rfl

/-- C15, the other way round: the standard table knows exactly the nine documented names. -/
theorem C15_standard_names (name : Str) : ¬ Unknown (common : Commands σ) name ↔
    name ∈ [lit "assert-equal", lit "assert-fail", lit "ignore", lit "let", lit "read", lit "id", lit "docs", lit "union",
      lit "filter"] := by
  have hu : Unknown (common : Commands σ) name ↔ name ∉ (common : Commands σ).map Prod.fst := by
    simp only [Unknown, List.mem_map, not_exists, not_and]
  rw [hu, Classical.not_not]
  rfl

example : Unknown (common : Commands Mem) exBad.name.text := by
  apply Classical.byContradiction
  rw [C15_standard_names]; decide

/-! ## C16: running always terminates, in depth bounded by quote nesting -/

/-- C16: with one more nested command invocation than quotes are nested in the arguments, every script runs to its end, whatever
the store, the table and the arguments (`EvalRec.runCalls` is the evaluator with the recursion of the code, giving `none` when it
would nest more than `limit` invocations); the result is that of `runCalls`. -/
theorem C16_depth_bounded (L : LigOps σ) (cmds : Commands σ) (calls : List Call) (s : σ) (limit : Nat)
    (h : ∀ c ∈ calls, depthList c.args + 1 ≤ limit) :
    EvalRec.runCalls L cmds limit calls s = some (runCalls L cmds calls s) :=
  runCallsRec_eq L cmds limit calls h emptyNet s

/-- A call with a quote in a quote, which the bound is exact for. -/
def exNested : Call :=
  call "assert-fail" [.quote [.element (.of (lit "assert-fail")), .quote [.element (.of (lit "id")), .element (.of (lit "x"))]]]
example : depthList exNested.args = 2 ∧
    (EvalRec.runCalls Graph.memOps common 3 [exNested] Graph.memNew).isSome = true ∧
    EvalRec.runCalls Graph.memOps common 2 [exNested] Graph.memNew = none := by
  refine ⟨by simp [exNested, call, depthList, depth], by decide +kernel, by decide +kernel⟩

/-! ## C17, C18: let and read -/

theorem common_let (L : LigOps σ) (name : Element) (n : Network) (s : σ) :
    runCalls L common [call "let" [.element name, .network n]] s = letStore L name n s := by
  rw [runCalls_single, runCall]
  have : (common : Commands σ).get? (call "let" [.element name, .network n]).name.text =
    some ⟨lit "Set a named network.", .builtin .let_⟩ := by
      apply lookup_of_mem common_wf; simp [common, call, Element.of]
  rw [this]; simp [call, runFun]

theorem common_let_quote (L : LigOps σ) (name : Element) (q : List Value) (s : σ) :
    runCalls L common [call "let" [.element name, .quote q]] s =
      match argValue L common (.quote q) s with
      | (.ok (.network res), s1) => letStore L name res s1
      | (_, s1) => (.panic, s1) := by
  rw [runCalls_single, runCall]
  have : (common : Commands σ).get? (call "let" [.element name, .quote q]).name.text =
    some ⟨lit "Set a named network.", .builtin .let_⟩ := by
      apply lookup_of_mem common_wf; simp [common, call, Element.of]
  rw [this]; simp only [call, runFun, evalArg_eq]
  rcases argValue L common (.quote q) s with ⟨r, s1⟩
  cases r with
  | ok v => cases v <;> rfl
  | err m => rfl
  | panic => rfl

theorem common_read (L : LigOps σ) (name : Element) (s : σ) :
    runCalls L common [call "read" [.element name]] s = (Eval.read L [.element name] s, s) := by
  rw [runCalls_single, runCall]
  have : (common : Commands σ).get? (call "read" [.element name]).name.text =
    some ⟨lit "Read a network.", .builtin .read⟩ := by
      apply lookup_of_mem common_wf; simp [common, call, Element.of]
  rw [this]; simp [call, runFun]

theorem memLet (name : Element) (n : Network) (s : Mem) :
    letStore Graph.memOps name n s =
      (.ok (.network ∅), ⟨s.colls.insert name.text (BSet.union ∅ (n.map Graph.entryToTrip))⟩) := by
  unfold letStore
  simp only [Graph.memOps, Graph.ops, Graph.addCollection, Graph.addEntries, Mem.ops, Mem.addCollection, Res.errTodo, Mem.addTriples,
    BMap.get?_insert_self, emptyNet]
  congr 2
  exact BMap.ext_get fun k => by
    by_cases e : k = name.text
    · subst e; simp
    · rw [BMap.get?_insert_ne _ _ e, BMap.get?_insert_ne _ _ e, BMap.get?_insert_ne _ _ e]

theorem map_trip_canon (n : Network) : (BSet.union ∅ (n.map Graph.entryToTrip)).map Graph.tripToEntry = n.map canon := by
  apply BSet.ext; intro e
  simp only [BSet.mem_map, BSet.mem_union, BSet.not_mem_empty, false_or]
  constructor
  · rintro ⟨t, ⟨x, hx, rfl⟩, rfl⟩; exact ⟨x, hx, Graph.canon_eq x⟩
  · rintro ⟨x, hx, rfl⟩; exact ⟨_, ⟨x, hx, rfl⟩, (Graph.canon_eq x).symm⟩

/-- C17: `let name network` always succeeds on the in-memory graph, and `read name` (the name with any tags) then returns the network
with every entry brought to parser form. -/
theorem C17_let_read (s : Mem) (name name' : Element) (n : Network) (hname : name'.text = name.text) :
    ∃ s', runCalls Graph.memOps common [call "let" [.element name, .network n]] s = (.ok (.network ∅), s') ∧
      runCalls Graph.memOps common [call "read" [.element name']] s' = (.ok (.network (n.map canon)), s') := by
  refine ⟨_, by rw [common_let, memLet], ?_⟩
  rw [common_read]
  simp only [Eval.read, Graph.memOps, Graph.ops, Graph.entries, Mem.ops, Mem.triples, hname, BMap.get?_insert_self, Res.map, map_trip_canon]

/-- `C17_let_read` applies to a name written with and without a language tag. -/
example := C17_let_read Graph.memNew (.of (lit "G")) ⟨lit "G", none, some (lit "en")⟩ sampleNet rfl

/-- C17: a network whose entries are in parser form comes back unchanged. -/
theorem C17_parser_form_unchanged (n : Network) (h : ∀ e ∈ n, ParserForm e) : n.map canon = n := by
  apply BSet.ext; intro e
  rw [BSet.mem_map]
  constructor
  · rintro ⟨x, hx, rfl⟩; rw [show canon x = x from h x hx]; exact hx
  · intro he; exact ⟨e, he, h e he⟩

/-- C17: a second `let` of the same name replaces the first. -/
theorem C17_let_replaces (s : Mem) (name name' : Element) (n n' : Network) (hname : name'.text = name.text) :
    runCalls Graph.memOps common [call "let" [.element name, .network n], call "let" [.element name', .network n']] s =
      runCalls Graph.memOps common [call "let" [.element name', .network n']] s := by
  rw [show [call "let" [.element name, .network n], call "let" [.element name', .network n']] =
    [call "let" [.element name, .network n]] ++ [call "let" [.element name', .network n']] from rfl, runCalls_append]
  simp only [common_let, memLet, hname]
  simp only [List.cons_ne_self, if_false]
  simp
  exact BMap.ext_get fun k => by
    by_cases e : k = name.text
    · subst e; simp
    · rw [BMap.get?_insert_ne _ _ e, BMap.get?_insert_ne _ _ e, BMap.get?_insert_ne _ _ e]

/-- `C17_let_replaces` applies to two lets of one name. -/
example := C17_let_replaces Graph.memNew (.of (lit "G")) (.of (lit "G")) sampleNet ∅ rfl

/-- C17: `let name (quote)` runs the quote and stores the network it yields, as `let name network` would on the store it left; a
quote that errs or yields no network makes `let` panic. -/
theorem C17_let_quote (L : LigOps σ) (s : σ) (name : Element) (q : List Value) :
    runCalls L common [call "let" [.element name, .quote q]] s =
      match argValue L common (.quote q) s with
      | (.ok (.network n), s1) => runCalls L common [call "let" [.element name, .network n]] s1
      | (_, s1) => (.panic, s1) := by
  rw [common_let_quote]
  split <;> simp [common_let]

example : (∀ e ∈ sampleNet.map canon, ParserForm e) ∧ sampleNet.map canon ≠ sampleNet := by
  refine ⟨?_, by decide +kernel⟩
  intro e he
  rw [BSet.mem_map] at he
  obtain ⟨x, _, rfl⟩ := he
  exact (C35_parser_form x).2.1

/-- C18: `let` of one name leaves the entries of every other collection, and whether it is listed, unchanged. -/
theorem C18_let_isolated (s s' : Mem) (name d : Element) (n : Network) (r : Res Value)
    (h : runCalls Graph.memOps common [call "let" [.element name, .network n]] s = (r, s')) (hd : d.text ≠ name.text) :
    Graph.memOps.entries s' d = Graph.memOps.entries s d ∧
    (Listed Mem.ops s' d.text ↔ Listed Mem.ops s d.text) := by
  rw [common_let, memLet] at h
  cases h
  constructor
  · simp only [Graph.memOps, Graph.ops, Graph.entries, Mem.ops, Mem.triples, BMap.get?_insert_ne _ _ hd]
  · rw [(Mem.agrees _).listed, (Mem.agrees _).listed]
    simp only [Mem.world, BMap.get?_insert_ne _ _ hd]

/-- `C18_let_isolated` applies to two names. -/
example := C18_let_isolated (runCalls Graph.memOps common [exLet] Graph.memNew).2 _ (.of (lit "H")) (.of (lit "G")) ∅ _ rfl (by decide)

/-- C18: the collection names after `let` are those before and the name itself. -/
theorem C18_let_listing (s s' : Mem) (name : Element) (n : Network) (r : Res Value)
    (h : runCalls Graph.memOps common [call "let" [.element name, .network n]] s = (r, s')) (d : Str) :
    Listed Mem.ops s' d ↔ d = name.text ∨ Listed Mem.ops s d := by
  rw [common_let, memLet] at h
  cases h
  rw [(Mem.agrees _).listed, (Mem.agrees _).listed]
  by_cases hd : d = name.text
  · subst hd; simp [Mem.world]
  · simp only [Mem.world, BMap.get?_insert_ne _ _ hd, hd, false_or]

example : lit "H" ≠ exLet.name.text ∧
    Graph.memOps.entries (runCalls Graph.memOps common [exLet, call "let" [.element (.of (lit "H")), .network ∅]] Graph.memNew).2
      (.of (lit "G")) = .ok (sampleNet.map canon) := by decide +kernel

/-! ## C19: only let writes -/

/-- C19: with the standard commands, on any store, a script whose calls and quotes never call `let` leaves the store unchanged,
whether it succeeds, errs or panics. -/
theorem C19_only_let_writes (L : LigOps σ) (calls : List Call) (s : σ)
    (h : ∀ c ∈ calls, ¬ CallMentions (lit "let") c) : (runCalls L common calls s).2 = s :=
  runCallsLoop_frozen L (fun n c => common_get n c) calls h emptyNet s

/-- C19: `ignore`, `read`, `id`, `docs`, `union` and `filter` never run their arguments: they leave any store unchanged even when an
argument is a quote that calls `let`. -/
theorem C19_commands_that_never_write (L : LigOps σ) (name : String) (args : List Value) (s : σ)
    (hn : lit name ∈ [lit "ignore", lit "read", lit "id", lit "docs", lit "union", lit "filter"]) :
    (runCalls L common [call name args] s).2 = s := by
  rw [runCalls_single, runCall]
  cases h : (common : Commands σ).get? (call name args).name.text with
  | none => rfl
  | some c =>
    have hm := mem_of_lookup h
    simp only [call, Element.of] at hm
    simp only [common, List.mem_cons, Prod.mk.injEq, List.not_mem_nil, or_false] at hm hn
    rcases hm with ⟨h, rfl⟩ | ⟨h, rfl⟩ | ⟨h, rfl⟩ | ⟨h, rfl⟩ | ⟨h, rfl⟩ | ⟨h, rfl⟩ | ⟨h, rfl⟩ | ⟨h, rfl⟩ | ⟨h, rfl⟩ <;>
      first
        | (simp only [runFun]; done)
        | (exfalso; rename_i h'; rw [h'] at hn; revert hn; decide)

example : ¬ CallMentions (lit "let") exRead ∧ CallMentions (lit "let")
    (call "assert-fail" [.quote [.element (.of (lit "let")), .element (.of (lit "x"))]]) := by
  constructor
  · rw [CallMentions, not_or]
    exact ⟨by decide, by simp [exRead, call, MentionsList, Mentions]⟩
  · right
    simp only [call, MentionsList, Mentions]
    exact .inl (.inl ⟨_, _, rfl, rfl⟩)

/-- C19 is about `let` alone: without the condition a quote can write. -/
example : (runCalls Graph.memOps common [call "assert-equal" [.quote [.element (.of (lit "let")), .element (.of (lit "G")),
    .network ∅], .network ∅]] Graph.memNew).2 ≠ Graph.memNew := by decide +kernel

end Props
end Verif
