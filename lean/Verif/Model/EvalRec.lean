import Verif.Model.Eval
/-!
# The evaluator with its nesting of command invocations made explicit

`wander/src/lib.rs` and `wander/src/prelude.rs` call each other: a command (`assert-equal`, `assert-fail`, `let`) calls `run_quote`,
which calls `run_calls`, which calls a command.  `Model/Eval.lean` states the result by recursion on the argument.  Here the same
functions are transcribed with the recursion as the code has it and a limit on how many command invocations may be nested
(`none`: the limit is exceeded); used for C16 only.
-/
namespace Verif
namespace EvalRec
open Eval

variable {σ : Type u} (L : LigOps σ) (cmds : Commands σ)

/-- `wander/src/lib.rs:188-208` `run_calls`, with `invoke` for the call of the function pointer in line 196. -/
def runCallsWith (invoke : CmdFun σ → List Value → σ → Option (Res Value × σ)) :
    List Call → Value → σ → Option (Res Value × σ)
  | [], result, s => some (.ok result, s)
  | c :: cs, _, s =>
    match cmds.get? c.name.text with
    | none => some (.err (notFound c.name), s)
    | some cmd =>
      match invoke cmd.fn c.args s with
      | none => none
      | some (.ok res, s1) => runCallsWith invoke cs res s1
      | some (.err m, s1) => some (.err m, s1)
      | some (.panic, s1) => some (.panic, s1)

/-- `wander/src/lib.rs:164-185` `run_quote`. -/
def runQuoteWith (invoke : CmdFun σ → List Value → σ → Option (Res Value × σ)) (q : List Value) (s : σ) :
    Option (Res Value × σ) :=
  match q with
  | [] => some (.ok emptyNet, s)
  | .element name :: arguments => runCallsWith cmds invoke [⟨name, arguments⟩] emptyNet s
  | _ => some (.panic, s)

/-- `prelude.rs:150-157` -/
def evalArgWith (invoke : CmdFun σ → List Value → σ → Option (Res Value × σ)) (v : Value) (s : σ) : Option (Res Value × σ) :=
  match v with
  | .quote q => runQuoteWith cmds invoke q s
  | v => some (.ok v, s)

/-- One command invocation, allowing `limit` further nested ones (`wander/src/lib.rs:196`, `prelude.rs:80-261`). -/
def invoke : Nat → CmdFun σ → List Value → σ → Option (Res Value × σ)
  | 0, _, _, _ => none
  | limit + 1, f, args, s =>
    match f with
    | .host h => some (h args s)
    | .builtin .docs => some (docs cmds args, s)
    | .builtin .union => some (union args, s)
    | .builtin .id => some (idCmd args, s)
    | .builtin .ignore => some (.ok emptyNet, s)
    | .builtin .read => some (read L args s, s)
    | .builtin .filter => some (filterCmd L args s, s)
    | .builtin .assertEqual =>
      match args with
      | [left, right] =>
        match evalArgWith cmds (invoke limit) left s with
        | none => none
        | some (.err m, s1) => some (.err m, s1)
        | some (.panic, s1) => some (.panic, s1)
        | some (.ok l, s1) =>
          match evalArgWith cmds (invoke limit) right s1 with
          | none => none
          | some (.err m, s2) => some (.err m, s2)
          | some (.panic, s2) => some (.panic, s2)
          | some (.ok r, s2) => some (assertEqualResult l r, s2)
      | _ => some (.err (lit "`assertEq` function requires two parameters."), s)
    | .builtin .assertFail =>
      match args with
      | [.quote q] =>
        match runQuoteWith cmds (invoke limit) q s with
        | none => none
        | some (.ok _, s1) => some (.err (lit "Expected failure."), s1)
        | some (.err _, s1) => some (.ok emptyNet, s1)
        | some (.panic, s1) => some (.panic, s1)
      | _ => some (.err (lit "`assert-fail` function expected to be passed a Quote."), s)
    | .builtin .let_ =>
      match args with
      | [.element name, .network n] => some (letStore L name n s)
      | [.element name, .quote q] =>
        match runQuoteWith cmds (invoke limit) q s with
        | none => none
        | some (.ok (.network res), s1) => some (letStore L name res s1)
        | some (_, s1) => some (.panic, s1)
      | _ => some (.err (lit "Invalid call to let."), s)

/-- `run_calls` with at most `limit` nested command invocations. -/
def runCalls (limit : Nat) (calls : List Call) (s : σ) : Option (Res Value × σ) :=
  runCallsWith cmds (invoke L cmds limit) calls emptyNet s

end EvalRec
end Verif
