import Verif.Spec.Eval
/-!
# The meaning of calls, as rules

`Calls L cmds name args s r s'`: the call `name args`, from store state `s`, has the outcome `r` and leaves the state `s'`.
Written from the documentation of the commands and the text of `wander/src/prelude.rs`; no function of the evaluator is used (only the
store operations `L`, the table `cmds`, and the display of values in one error message).
-/
namespace Verif
namespace Spec
open Eval

/-- The table has the function under the name. -/
def Has (cmds : Commands σ) (name : Str) (f : CmdFun σ) : Prop := ∃ doc, (name, Command.mk doc f) ∈ cmds

/-- The outcome is an error or a panic. -/
def Fails (r : Res Value) : Prop := ∀ v, r ≠ .ok v

/-- Commands that run no quotes. -/
inductive Plain (L : LigOps σ) (cmds : Commands σ) : Builtin → List Value → σ → Res Value → σ → Prop where
  | id (v s) : Plain L cmds .id [v] s (.ok v) s
  | idArgs {args s} : args.length ≠ 1 → Plain L cmds .id args s (.err (lit "Id requires a single argument.")) s
  | ignore (args s) : Plain L cmds .ignore args s (.ok (.network ∅)) s
  | docs {n s} : (∀ e, e ∈ n ↔ ∃ p ∈ cmds, e = .role ⟨p.1, none, none⟩ ⟨p.2.doc, none, none⟩ ⟨lit "docString", none, none⟩) →
      Plain L cmds .docs [] s (.ok (.network n)) s
  | docsArgs {args s} : args ≠ [] → Plain L cmds .docs args s (.err (lit "docs takes no arguments.")) s
  | union {a b n s} : (∀ e, e ∈ n ↔ e ∈ a ∨ e ∈ b) → Plain L cmds .union [.network a, .network b] s (.ok (.network n)) s
  | unionKind {x y s} : (¬ ∃ a b, x = .network a ∧ y = .network b) → Plain L cmds .union [x, y] s .panic s
  | unionArgs {args s} : args.length ≠ 2 → Plain L cmds .union args s (.err (lit "union takes two arguments.")) s
  | read {c n s} : L.entries s c = .ok n → Plain L cmds .read [.element c] s (.ok (.network n)) s
  | readErr {c m s} : L.entries s c = .err m → Plain L cmds .read [.element c] s (.err (lit "Error " ++ m)) s
  | readPanic {c s} : L.entries s c = .panic → Plain L cmds .read [.element c] s .panic s
  | readArgs {args s} : (¬ ∃ c, args = [.element c]) → Plain L cmds .read args s .panic s
  | filter {c a r b n s} : L.filter s c (.role a b r) = .ok n →
      Plain L cmds .filter [.element c, .element a, .element r, .element b] s (.ok (.network n)) s
  | filterFail {c a r b s} : (∀ n, L.filter s c (.role a b r) ≠ .ok n) →
      Plain L cmds .filter [.element c, .element a, .element r, .element b] s .panic s
  | filterArgs {args s} : (¬ ∃ c a r b, args = [.element c, .element a, .element r, .element b]) → Plain L cmds .filter args s .panic s
  | let_ {c n s s1 s2 r1 r2 rest} : L.addCollection s c = (r1, s1) → r1 ≠ .panic → L.addEntries s1 c n = (r2, s2, rest) → r2 ≠ .panic →
      Plain L cmds .let_ [.element c, .network n] s (.ok (.network ∅)) s2
  | letPanic {c n s s1} : L.addCollection s c = (.panic, s1) → Plain L cmds .let_ [.element c, .network n] s .panic s1
  | letPanic' {c n s s1 s2 r1 rest} : L.addCollection s c = (r1, s1) → r1 ≠ .panic → L.addEntries s1 c n = (.panic, s2, rest) →
      Plain L cmds .let_ [.element c, .network n] s .panic s2
  | letArgs {args s} : (¬ ∃ c n, args = [.element c, .network n]) → (¬ ∃ c q, args = [.element c, .quote q]) →
      Plain L cmds .let_ args s (.err (lit "Invalid call to let.")) s

mutual
/-- The value of an argument that is run if it is a quote. -/
inductive Arg (L : LigOps σ) (cmds : Commands σ) : Value → σ → Res Value → σ → Prop where
  | element (e s) : Arg L cmds (.element e) s (.ok (.element e)) s
  | network (n s) : Arg L cmds (.network n) s (.ok (.network n)) s
  | empty (s) : Arg L cmds (.quote []) s (.ok (.network ∅)) s
  | call {name args s r s'} : Calls L cmds name args s r s' → Arg L cmds (.quote (.element name :: args)) s r s'
  | noCall {v args s} : (∀ e, v ≠ .element e) → Arg L cmds (.quote (v :: args)) s .panic s

/-- One call. -/
inductive Calls (L : LigOps σ) (cmds : Commands σ) : Element → List Value → σ → Res Value → σ → Prop where
  | unknown {name args s} : Unknown cmds name.text → Calls L cmds name args s (.err (lit "Could not find command: " ++ name.text)) s
  | host {name f args s r s'} : Has cmds name.text (.host f) → f args s = (r, s') → Calls L cmds name args s r s'
  | plain {name b args s r s'} : Has cmds name.text (.builtin b) → Plain L cmds b args s r s' → Calls L cmds name args s r s'
  | equal {name x y s s1 s2 v} : Has cmds name.text (.builtin .assertEqual) → Arg L cmds x s (.ok v) s1 → Arg L cmds y s1 (.ok v) s2 →
      Calls L cmds name [x, y] s (.ok (.network ∅)) s2
  | differ {name x y s s1 s2 v w} : Has cmds name.text (.builtin .assertEqual) → Arg L cmds x s (.ok v) s1 → Arg L cmds y s1 (.ok w) s2 →
      v ≠ w → Calls L cmds name [x, y] s
        (.err (lit "Assertion failed, " ++ Display.value v ++ lit " != " ++ Display.value w)) s2
  | equalLeft {name x y s s1 r} : Has cmds name.text (.builtin .assertEqual) → Arg L cmds x s r s1 → Fails r →
      Calls L cmds name [x, y] s r s1
  | equalRight {name x y s s1 s2 v r} : Has cmds name.text (.builtin .assertEqual) → Arg L cmds x s (.ok v) s1 → Arg L cmds y s1 r s2 →
      Fails r → Calls L cmds name [x, y] s r s2
  | equalArgs {name args s} : Has cmds name.text (.builtin .assertEqual) → args.length ≠ 2 →
      Calls L cmds name args s (.err (lit "`assertEq` function requires two parameters.")) s
  | failed {name q s s1 m} : Has cmds name.text (.builtin .assertFail) → Arg L cmds (.quote q) s (.err m) s1 →
      Calls L cmds name [.quote q] s (.ok (.network ∅)) s1
  | notFailed {name q s s1 v} : Has cmds name.text (.builtin .assertFail) → Arg L cmds (.quote q) s (.ok v) s1 →
      Calls L cmds name [.quote q] s (.err (lit "Expected failure.")) s1
  | failPanic {name q s s1} : Has cmds name.text (.builtin .assertFail) → Arg L cmds (.quote q) s .panic s1 →
      Calls L cmds name [.quote q] s .panic s1
  | failArgs {name args s} : Has cmds name.text (.builtin .assertFail) → (¬ ∃ q, args = [.quote q]) →
      Calls L cmds name args s (.err (lit "`assert-fail` function expected to be passed a Quote.")) s
  | letQuote {name c q n s s1 s2 r} : Has cmds name.text (.builtin .let_) → Arg L cmds (.quote q) s (.ok (.network n)) s1 →
      Plain L cmds .let_ [.element c, .network n] s1 r s2 → Calls L cmds name [.element c, .quote q] s r s2
  | letNoNetwork {name c q s s1 r} : Has cmds name.text (.builtin .let_) → Arg L cmds (.quote q) s r s1 → (∀ n, r ≠ .ok (.network n)) →
      Calls L cmds name [.element c, .quote q] s .panic s1
end

/-- Calls one after the other: the outcome of the last, or of the first that fails; without calls, the empty network. -/
inductive Runs (L : LigOps σ) (cmds : Commands σ) : List Call → σ → Res Value → σ → Prop where
  | nil (s) : Runs L cmds [] s (.ok (.network ∅)) s
  | last {c : Call} {s r s'} : Calls L cmds c.name c.args s r s' → Runs L cmds [c] s r s'
  | stop {c : Call} {cs s r s'} : Calls L cmds c.name c.args s r s' → Fails r → Runs L cmds (c :: cs) s r s'
  | more {c c' : Call} {cs s v s1 r s2} : Calls L cmds c.name c.args s (.ok v) s1 → Runs L cmds (c' :: cs) s1 r s2 →
      Runs L cmds (c :: c' :: cs) s r s2

end Spec
end Verif
