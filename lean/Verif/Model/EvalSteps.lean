import Verif.Model.Eval
import Verif.Model.LigatureGraph
/-!
# The evaluator one store operation at a time, and several scripts on one store

`Model/Eval.lean` gives the result of a script that nobody disturbs.  Here the same functions of `wander/src/lib.rs` and
`wander/src/prelude.rs` are transcribed so that each call of a method of `state: &mut dyn Ligature` is a visible step, which is what matters
when several threads or processes run scripts on stores that share their data (several `TripsHeed` handles on one LMDB environment,
`trips/src/heed.rs:17-19,35`).  Each store operation is one step (on LMDB it is one transaction; see C69).  Simplification: only the
standard commands (`prelude.rs:11-78`), no host functions.
-/
namespace Verif
namespace Steps
open Eval

/-- The methods of `Ligature` (`ligature/src/lib.rs:61-109`) that the standard commands call. -/
inductive Ask where
  | entries (c : Element)
  | filter (c : Element) (p : Entry)
  | addCollection (c : Element)
  | addEntries (c : Element) (es : Network)
deriving DecidableEq

/-- What they return. -/
inductive Answer where
  | network (r : Res Network)
  | unit (r : Res Unit)

/-- Call the method. -/
def perform (L : LigOps σ) (s : σ) : Ask → Answer × σ
  | .entries c => (.network (L.entries s c), s)
  | .filter c p => (.network (L.filter s c p), s)
  | .addCollection c => (.unit (L.addCollection s c).1, (L.addCollection s c).2)
  | .addEntries c es => (.unit (L.addEntries s c es).1, (L.addEntries s c es).2.1)

/-- A script on its way: finished with a result, or about to call a method and to go on with its answer. -/
inductive Prog where
  | ret (r : Res Value)
  | ask (q : Ask) (k : Answer → Prog)

/-- Go on with the result. -/
def Prog.andThen : Prog → (Res Value → Prog) → Prog
  | .ret r, k => k r
  | .ask q f, k => .ask q (fun a => (f a).andThen k)

/-- Run undisturbed to the end. -/
def Prog.run (L : LigOps σ) : Prog → σ → Res Value × σ
  | .ret r, s => (r, s)
  | .ask q k, s => (k (perform L s q).1).run L (perform L s q).2

/-- `prelude.rs:228-234` `read_command`. -/
def readP (args : List Value) : Prog :=
  match args with
  | [.element name] => .ask (.entries name) fun a =>
    match a with
    | .network (.ok entries) => .ret (.ok (.network entries))
    | .network (.err e) => .ret (.err (lit "Error " ++ e))
    | _ => .ret .panic
  | _ => .ret .panic

/-- `prelude.rs:242-261` `filter_command`. -/
def filterP (args : List Value) : Prog :=
  match args with
  | [.element collection, .element first, .element second, .element third] =>
    .ask (.filter collection (.role first third second)) fun a =>
      match a with
      | .network (.ok entries) => .ret (.ok (.network entries))
      | _ => .ret .panic
  | _ => .ret .panic

/-- `prelude.rs:206-207` (and `212-213`, then `220`): two methods, their results discarded. -/
def letP (name : Element) (n : Network) : Prog :=
  .ask (.addCollection name) fun a =>
    match a with
    | .unit .panic => .ret .panic
    | _ => .ask (.addEntries name n) fun a =>
      match a with
      | .unit .panic => .ret .panic
      | _ => .ret (.ok emptyNet)

/-- The table of `prelude::common`. -/
def table : Commands Unit := common

mutual
/-- `prelude.rs:150-157` (and `158-165`). -/
def evalArgP (v : Value) : Prog :=
  match v with
  | .quote q => runQuoteP q
  | .element e => .ret (.ok (.element e))
  | .network n => .ret (.ok (.network n))
termination_by structural v

/-- `wander/src/lib.rs:164-185` `pub fn run_quote`. -/
def runQuoteP (q : List Value) : Prog :=
  match q with
  | [] => .ret (.ok emptyNet)
  | first :: arguments =>
    match first with
    | .element name =>
      match table.get? name.text with
      | some c => runFunP c.fn arguments
      | none => .ret (.err (notFound name))
    | .quote _ => .ret .panic
    | .network _ => .ret .panic
termination_by structural q

/-- The bodies of the nine commands of `prelude.rs` (`80-261`). -/
def runFunP (f : CmdFun Unit) (args : List Value) : Prog :=
  match f with
  | .host _ => .ret .panic
  | .builtin .docs => .ret (docs table args)
  | .builtin .union => .ret (union args)
  | .builtin .id => .ret (idCmd args)
  | .builtin .ignore => .ret (.ok emptyNet)
  | .builtin .read => readP args
  | .builtin .filter => filterP args
  | .builtin .assertEqual =>
    match args with
    | [left, right] =>
      (evalArgP left).andThen fun r =>
        match r with
        | .ok l => (evalArgP right).andThen fun r' =>
          match r' with
          | .ok r => .ret (assertEqualResult l r)
          | .err m => .ret (.err m)
          | .panic => .ret .panic
        | .err m => .ret (.err m)
        | .panic => .ret .panic
    | _ => .ret (.err (lit "`assertEq` function requires two parameters."))
  | .builtin .assertFail =>
    match args with
    | [v] =>
      match v with
      | .quote _ =>
        (evalArgP v).andThen fun r =>
          match r with
          | .ok _ => .ret (.err (lit "Expected failure."))
          | .err _ => .ret (.ok emptyNet)
          | .panic => .ret .panic
      | .element _ => .ret (.err (lit "`assert-fail` function expected to be passed a Quote."))
      | .network _ => .ret (.err (lit "`assert-fail` function expected to be passed a Quote."))
    | _ => .ret (.err (lit "`assert-fail` function expected to be passed a Quote."))
  | .builtin .let_ =>
    match args with
    | [n, v] =>
      match n with
      | .element name =>
        match v with
        | .network net => letP name net
        | .quote _ =>
          (evalArgP v).andThen fun r =>
            match r with
            | .ok (.network res) => letP name res
            | _ => .ret .panic
        | .element _ => .ret (.err (lit "Invalid call to let."))
      | .quote _ => .ret (.err (lit "Invalid call to let."))
      | .network _ => .ret (.err (lit "Invalid call to let."))
    | _ => .ret (.err (lit "Invalid call to let."))
termination_by structural args
end

/-- The body of the loop in `run_calls` (`wander/src/lib.rs:195-206`). -/
def callP (c : Call) : Prog :=
  match table.get? c.name.text with
  | some cmd => runFunP cmd.fn c.args
  | none => .ret (.err (notFound c.name))

/-- `wander/src/lib.rs:194-208`: the loop of `run_calls` with the current `result`. -/
def runLoopP : List Call → Value → Prog
  | [], result => .ret (.ok result)
  | c :: cs, _ =>
    (callP c).andThen fun r =>
      match r with
      | .ok res => runLoopP cs res
      | .err m => .ret (.err m)
      | .panic => .ret .panic

/-- `wander/src/lib.rs:188-208` `pub fn run_calls`. -/
def callsP (calls : List Call) : Prog := runLoopP calls emptyNet

/-- `wander/src/lib.rs:211-225` `pub fn run`. -/
def scriptP (script : Str) : Prog :=
  match Lexer.tokenizeAndFilter script with
  | .err m => .ret (.err m)
  | .panic => .ret .panic
  | .ok tokens =>
    match Parser.parse tokens with
    | .err m => .ret (.err m)
    | .panic => .ret .panic
    | .ok calls => callsP calls

/-- `Interleaved L s ps tr s' ps'`: several programs share the store, from state `s`; at any moment any one that has not finished makes its next
store operation.  After the operations `tr` (who, and what) the state is `s'` and the programs have got to `ps'`. -/
inductive Interleaved (L : LigOps σ) (s : σ) (ps : List Prog) : List (Nat × Ask) → σ → List Prog → Prop where
  | start : Interleaved L s ps [] s ps
  | step {tr : List (Nat × Ask)} {s1 : σ} {ps1 : List Prog} (i : Nat) (q : Ask) (k : Answer → Prog) :
      Interleaved L s ps tr s1 ps1 → ps1[i]? = some (.ask q k) →
      Interleaved L s ps (tr ++ [(i, q)]) (perform L s1 q).2 (ps1.set i (k (perform L s1 q).1))

end Steps
end Verif
