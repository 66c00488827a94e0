import Verif.Model.Eval
/-!
# Host commands that call back into the evaluator

`Command::fun` (`wander/src/lib.rs:33-43`) gets the arguments, the store (`&mut dyn Ligature`) and the command table, so a command supplied by a
host application can use the store's methods, look at the table, and run quotes and calls itself (`run_quote`, `run_calls` and `run` are public).
`Model/Eval.lean` takes host commands as arbitrary functions of the store that do not call back.  Here a host command is a sequence of
such interactions, each depending on the answers so far, and the evaluator is transcribed with the recursion of the source and a limit on
how many command invocations may be nested (`none`: the limit is exceeded).

Simplifications: between interactions a host command always terminates; it runs calls with the table it is given, not with another one.
-/
namespace Verif
namespace EvalHost
open Eval

/-- The methods of `trait Ligature` (`ligature/src/lib.rs:66-109`). -/
inductive Ask where
  | collections
  | addCollection (c : Element)
  | removeCollection (c : Element)
  | entries (c : Element)
  | addEntries (c : Element) (es : Network)
  | removeEntries (c : Element) (es : Network)
  | filter (c : Element) (p : Entry)

/-- What they return; `changed` also has the caller's set after the call (`&mut BTreeSet<Entry>`). -/
inductive Ans where
  | elements (r : Except Str (List Element))
  | unit (r : Except Str Unit)
  | network (r : Except Str Network)
  | changed (r : Except Str Unit) (after : Network)

/-- A `Result`, if the call returned at all. -/
def returned : Res α → Option (Except Str α)
  | .ok a => some (.ok a)
  | .err m => some (.error m)
  | .panic => none

/-- Call the method; `none` if it panics. -/
def perform (L : LigOps σ) (s : σ) : Ask → Option Ans × σ
  | .collections => ((returned (L.collections s)).map .elements, s)
  | .addCollection c => ((returned (L.addCollection s c).1).map .unit, (L.addCollection s c).2)
  | .removeCollection c => ((returned (L.removeCollection s c).1).map .unit, (L.removeCollection s c).2)
  | .entries c => ((returned (L.entries s c)).map .network, s)
  | .addEntries c es => ((returned (L.addEntries s c es).1).map (.changed · (L.addEntries s c es).2.2), (L.addEntries s c es).2.1)
  | .removeEntries c es => ((returned (L.removeEntries s c es).1).map (.changed · (L.removeEntries s c es).2.2), (L.removeEntries s c es).2.1)
  | .filter c p => ((returned (L.filter s c p)).map .network, s)

/-- The body of a host command: return (or panic); use the store; look at the names and documentation in the table; run calls with the
table (`run_quote` of a quote that begins with an element is a run of one call, `wander/src/lib.rs:172-180`; `run` is a run of the calls the text
means, lines 211-225) and go on with the `Result`. -/
inductive Host where
  | ret (r : Res Value)
  | store (q : Ask) (k : Ans → Host)
  | commands (k : List (Str × Str) → Host)
  | run (calls : List Call) (k : Except Str Value → Host)

/-- `Command::fun`. -/
inductive Fun where
  | builtin (b : Builtin)
  | host (body : List Value → Host)

/-- `wander/src/lib.rs:33-43` `struct Command`. -/
structure Cmd where
  doc : Str
  fn : Fun

/-- `HashMap<String, Command>`. -/
abbrev Table := List (Str × Cmd)

/-- `HashMap::get`. -/
def Table.get? (t : Table) (name : Str) : Option Cmd := t.lookup name

/-- `prelude.rs:85-98` `docs_command`. -/
def docs (t : Table) (args : List Value) : Res Value :=
  match args with
  | [] => .ok (.network (t.foldl (fun results p => results.insert (.role (.of p.1) (.of p.2.doc) (.of (lit "docString")))) ∅))
  | _ => .err (lit "docs takes no arguments.")

variable {σ : Type u} (L : LigOps σ) (t : Table)

/-- `wander/src/lib.rs:194-208`: the loop of `run_calls`, with `invoke` for the call of the function pointer in line 196. -/
def runCallsWith (invoke : Fun → List Value → σ → Option (Res Value × σ)) : List Call → Value → σ → Option (Res Value × σ)
  | [], result, s => some (.ok result, s)
  | c :: cs, _, s =>
    match t.get? c.name.text with
    | none => some (.err (notFound c.name), s)
    | some cmd =>
      match invoke cmd.fn c.args s with
      | none => none
      | some (.ok res, s1) => runCallsWith invoke cs res s1
      | some (.err m, s1) => some (.err m, s1)
      | some (.panic, s1) => some (.panic, s1)

/-- `wander/src/lib.rs:164-185` `run_quote`. -/
def runQuoteWith (invoke : Fun → List Value → σ → Option (Res Value × σ)) (q : List Value) (s : σ) : Option (Res Value × σ) :=
  match q with
  | [] => some (.ok emptyNet, s)
  | .element name :: arguments => runCallsWith t invoke [⟨name, arguments⟩] emptyNet s
  | _ => some (.panic, s)

/-- `prelude.rs:150-157` -/
def evalArgWith (invoke : Fun → List Value → σ → Option (Res Value × σ)) (v : Value) (s : σ) : Option (Res Value × σ) :=
  match v with
  | .quote q => runQuoteWith t invoke q s
  | v => some (.ok v, s)

/-- Run the body of a host command, with `invoke` for the commands it runs. -/
def hostRun (invoke : Fun → List Value → σ → Option (Res Value × σ)) : Host → σ → Option (Res Value × σ)
  | .ret r, s => some (r, s)
  | .store q k, s =>
    match perform L s q with
    | (none, s1) => some (.panic, s1)
    | (some a, s1) => hostRun invoke (k a) s1
  | .commands k, s => hostRun invoke (k (t.map fun p => (p.1, p.2.doc))) s
  | .run calls k, s =>
    match runCallsWith t invoke calls emptyNet s with
    | none => none
    | some (.ok v, s1) => hostRun invoke (k (.ok v)) s1
    | some (.err m, s1) => hostRun invoke (k (.error m)) s1
    | some (.panic, s1) => some (.panic, s1)

/-- One command invocation, allowing `limit` further nested ones (`wander/src/lib.rs:196`, `prelude.rs:80-261`). -/
def invoke : Nat → Fun → List Value → σ → Option (Res Value × σ)
  | 0, _, _, _ => none
  | limit + 1, f, args, s =>
    match f with
    | .host body => hostRun L t (invoke limit) (body args) s
    | .builtin .docs => some (docs t args, s)
    | .builtin .union => some (union args, s)
    | .builtin .id => some (idCmd args, s)
    | .builtin .ignore => some (.ok emptyNet, s)
    | .builtin .read => some (read L args s, s)
    | .builtin .filter => some (filterCmd L args s, s)
    | .builtin .assertEqual =>
      match args with
      | [left, right] =>
        match evalArgWith t (invoke limit) left s with
        | none => none
        | some (.err m, s1) => some (.err m, s1)
        | some (.panic, s1) => some (.panic, s1)
        | some (.ok l, s1) =>
          match evalArgWith t (invoke limit) right s1 with
          | none => none
          | some (.err m, s2) => some (.err m, s2)
          | some (.panic, s2) => some (.panic, s2)
          | some (.ok r, s2) => some (assertEqualResult l r, s2)
      | _ => some (.err (lit "`assertEq` function requires two parameters."), s)
    | .builtin .assertFail =>
      match args with
      | [.quote q] =>
        match runQuoteWith t (invoke limit) q s with
        | none => none
        | some (.ok _, s1) => some (.err (lit "Expected failure."), s1)
        | some (.err _, s1) => some (.ok emptyNet, s1)
        | some (.panic, s1) => some (.panic, s1)
      | _ => some (.err (lit "`assert-fail` function expected to be passed a Quote."), s)
    | .builtin .let_ =>
      match args with
      | [.element name, .network n] => some (letStore L name n s)
      | [.element name, .quote q] =>
        match runQuoteWith t (invoke limit) q s with
        | none => none
        | some (.ok (.network res), s1) => some (letStore L name res s1)
        | some (_, s1) => some (.panic, s1)
      | _ => some (.err (lit "Invalid call to let."), s)

/-- `wander/src/lib.rs:188-208` `run_calls` with at most `limit` nested command invocations. -/
def runCalls (limit : Nat) (calls : List Call) (s : σ) : Option (Res Value × σ) :=
  runCallsWith t (invoke L t limit) calls emptyNet s

/-- The standard commands (`prelude.rs:11-78`). -/
def common : Table := (Eval.common : Commands Unit).map fun p =>
  (p.1, ⟨p.2.doc, match p.2.fn with | .builtin b => .builtin b | .host _ => .builtin .ignore⟩)

end EvalHost
end Verif
