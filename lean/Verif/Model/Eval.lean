import Verif.Model.Display
/-!
# Model of `wander/src/lib.rs` (running) and `wander/src/prelude.rs` (standard commands)

Everything is generic in the store: a state type `σ` and a record `L : LigOps σ` (Rust: `state: &mut dyn Ligature`).
-/
namespace Verif
namespace Eval

/-- The function pointers registered by `prelude::common` (`wander/src/prelude.rs:11-78`). -/
inductive Builtin where
  | assertEqual | assertFail | ignore | let_ | read | id | docs | union | filter
deriving DecidableEq, Repr

/-- `Command::fun` (`wander/src/lib.rs:38-42`): a standard command, or a function supplied by the host application.
Simplification: a host function gets the arguments and the store; it does not get the command table, so it cannot run quotes itself. -/
inductive CmdFun (σ : Type u) where
  | builtin (b : Builtin)
  | host (f : List Value → σ → Res Value × σ)

/-- `wander/src/lib.rs:33-43` `struct Command`. -/
structure Command (σ : Type u) where
  doc : Str
  fn : CmdFun σ

/-- `HashMap<String, Command>`: pairs with distinct keys (see `Commands.WF`), in the (arbitrary) iteration order. -/
abbrev Commands (σ : Type u) := List (Str × Command σ)

/-- A hash map holds each key once. -/
def Commands.WF (cmds : Commands σ) : Prop := (cmds.map Prod.fst).Nodup

/-- `HashMap::get`. -/
def Commands.get? (cmds : Commands σ) (name : Str) : Option (Command σ) := cmds.lookup name

/-- The empty network, `WanderValue::Network(BTreeSet::new())`. -/
def emptyNet : Value := .network ∅

/-- `wander/src/lib.rs:201-205` -/
def notFound (name : Element) : Str := lit "Could not find command: " ++ name.text

/-- `prelude.rs:85-98` `docs_command`. -/
def docs (cmds : Commands σ) (args : List Value) : Res Value :=
  match args with
  | [] => .ok (.network (cmds.foldl (fun results p =>
      results.insert (.role (.of p.1) (.of p.2.doc) (.of (lit "docString")))) ∅))
  | _ => .err (lit "docs takes no arguments.")

/-- `prelude.rs:106-122` `union_command` (both arguments are checked left to right; a non-network is `todo!()`). -/
def union (args : List Value) : Res Value :=
  match args with
  | [left, right] =>
    match left with
    | .network l =>
      match right with
      | .network r => .ok (.network (l.union r))
      | _ => .panic
    | _ => .panic
  | _ => .err (lit "union takes two arguments.")

/-- `prelude.rs:130-133` `id_command`. -/
def idCmd (args : List Value) : Res Value :=
  match args with
  | [value] => .ok value
  | _ => .err (lit "Id requires a single argument.")

/-- `prelude.rs:228-234` `read_command`. -/
def read (L : LigOps σ) (args : List Value) (s : σ) : Res Value :=
  match args with
  | [.element name] =>
    match L.entries s name with
    | .ok entries => .ok (.network entries)
    | .err e => .err (lit "Error " ++ e)
    | .panic => .panic
  | _ => .panic

/-- `prelude.rs:242-261` `filter_command`: `filter collection first second third`, where `second` is the role. -/
def filterCmd (L : LigOps σ) (args : List Value) (s : σ) : Res Value :=
  match args with
  | [.element collection, .element first, .element second, .element third] =>
    match L.filter s collection (.role first third second) with
    | .ok entries => .ok (.network entries)
    | _ => .panic
  | _ => .panic

/-- `prelude.rs:206-207` (and `212-213`, then `220`): store the network under the name.  The two results are discarded,
so an `Err` of the store is ignored and only a panic shows. -/
def letStore (L : LigOps σ) (name : Element) (n : Network) (s : σ) : Res Value × σ :=
  match L.addCollection s name with
  | (.panic, s1) => (.panic, s1)
  | (_, s1) =>
    match L.addEntries s1 name n with
    | (.panic, s2, _) => (.panic, s2)
    | (_, s2, _) => (.ok emptyNet, s2)

/-- `prelude.rs:167-174`: the comparison at the end of `assert_equal_command`. -/
def assertEqualResult (left right : Value) : Res Value :=
  if left = right then .ok emptyNet
  else .err (lit "Assertion failed, " ++ Display.value left ++ lit " != " ++ Display.value right)

variable {σ : Type u} (L : LigOps σ) (cmds : Commands σ)

mutual
/-- `prelude.rs:150-157` (and `158-165`): an argument of `assert-equal`; a quote is run, anything else is taken as is. -/
def evalArg (v : Value) (s : σ) : Res Value × σ :=
  match v with
  | .quote q => runQuote q s
  | .element e => (.ok (.element e), s)
  | .network n => (.ok (.network n), s)
termination_by structural v

/-- `wander/src/lib.rs:164-185` `pub fn run_quote`; the single call goes through the body of `run_calls` (lines 195-205). -/
def runQuote (q : List Value) (s : σ) : Res Value × σ :=
  match q with
  | [] => (.ok emptyNet, s)
  | first :: arguments =>
    match first with
    | .element name =>
      match cmds.get? name.text with
      | some c => runFun c.fn arguments s
      | none => (.err (notFound name), s)
    | .quote _ => (.panic, s)
    | .network _ => (.panic, s)
termination_by structural q

/-- Apply a command to its arguments: the bodies of the nine commands of `prelude.rs`. -/
def runFun (f : CmdFun σ) (args : List Value) (s : σ) : Res Value × σ :=
  match f with
  | .host h => h args s
  | .builtin .docs => (docs cmds args, s)
  | .builtin .union => (union args, s)
  | .builtin .id => (idCmd args, s)
  | .builtin .ignore => (.ok emptyNet, s)                       -- prelude.rs:136-142
  | .builtin .read => (read L args s, s)
  | .builtin .filter => (filterCmd L args s, s)
  | .builtin .assertEqual =>                                      -- prelude.rs:144-180
    match args with
    | [left, right] =>
      match evalArg left s with
      | (.ok l, s1) =>
        match evalArg right s1 with
        | (.ok r, s2) => (assertEqualResult l r, s2)
        | (.err m, s2) => (.err m, s2)
        | (.panic, s2) => (.panic, s2)
      | (.err m, s1) => (.err m, s1)
      | (.panic, s1) => (.panic, s1)
    | _ => (.err (lit "`assertEq` function requires two parameters."), s)
  | .builtin .assertFail =>                                       -- prelude.rs:182-197
    match args with
    | [v] =>
      match v with
      | .quote _ =>
        match evalArg v s with
        | (.ok _, s1) => (.err (lit "Expected failure."), s1)
        | (.err _, s1) => (.ok emptyNet, s1)
        | (.panic, s1) => (.panic, s1)
      | .element _ => (.err (lit "`assert-fail` function expected to be passed a Quote."), s)
      | .network _ => (.err (lit "`assert-fail` function expected to be passed a Quote."), s)
    | _ => (.err (lit "`assert-fail` function expected to be passed a Quote."), s)
  | .builtin .let_ =>                                             -- prelude.rs:199-221
    match args with
    | [n, v] =>
      match n with
      | .element name =>
        match v with
        | .network net => letStore L name net s
        | .quote _ =>
          match evalArg v s with
          | (.ok (.network res), s1) => letStore L name res s1
          | (_, s1) => (.panic, s1)
        | .element _ => (.err (lit "Invalid call to let."), s)
      | .quote _ => (.err (lit "Invalid call to let."), s)
      | .network _ => (.err (lit "Invalid call to let."), s)
    | _ => (.err (lit "Invalid call to let."), s)
termination_by structural args
end

/-- The body of the loop in `run_calls` (`wander/src/lib.rs:195-206`). -/
def runCall (c : Call) (s : σ) : Res Value × σ :=
  match cmds.get? c.name.text with
  | some cmd => runFun L cmds cmd.fn c.args s
  | none => (.err (notFound c.name), s)

/-- `wander/src/lib.rs:194-208`: the loop with the current `result`. -/
def runCallsLoop : List Call → Value → σ → Res Value × σ
  | [], result, s => (.ok result, s)
  | c :: cs, _, s =>
    match runCall L cmds c s with
    | (.ok res, s1) => runCallsLoop cs res s1
    | (.err m, s1) => (.err m, s1)
    | (.panic, s1) => (.panic, s1)

/-- `wander/src/lib.rs:188-208` `pub fn run_calls`. -/
def runCalls (calls : List Call) (s : σ) : Res Value × σ := runCallsLoop L cmds calls emptyNet s

/-- `wander/src/lib.rs:211-225` `pub fn run`. -/
def run (script : Str) (s : σ) : Res Value × σ :=
  match Lexer.tokenizeAndFilter script with
  | .err m => (.err m, s)
  | .panic => (.panic, s)
  | .ok tokens =>
    match Parser.parse tokens with
    | .err m => (.err m, s)
    | .panic => (.panic, s)
    | .ok calls => runCalls L cmds calls s

/-- `prelude.rs:11-78` `pub fn common` (in insertion order; the real iteration order is arbitrary). -/
def common : Commands σ := [
  (lit "assert-equal", ⟨lit "Check if two arguments are equal (quotes are evaluated before comparing) and fail if they are not equal.", .builtin .assertEqual⟩),
  (lit "assert-fail", ⟨lit "Accept a quote and run it. If the quote results in a failure continue otherwise fail.", .builtin .assertFail⟩),
  (lit "ignore", ⟨lit "Ignore all arguments to this command and return an empty network.", .builtin .ignore⟩),
  (lit "let", ⟨lit "Set a named network.", .builtin .let_⟩),
  (lit "read", ⟨lit "Read a network.", .builtin .read⟩),
  (lit "id", ⟨lit "Return a value.", .builtin .id⟩),
  (lit "docs", ⟨lit "Get a list of commands and a description.", .builtin .docs⟩),
  (lit "union", ⟨lit "Combine two networks.", .builtin .union⟩),
  (lit "filter", ⟨lit "Filter a network.", .builtin .filter⟩)]

end Eval
end Verif
