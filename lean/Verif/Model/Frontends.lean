import Verif.Model.Eval
/-!
# Models of the applications around Wander

`ligature-wasm/src/lib.rs`, `wander-repl/src/lib.rs`, `ligature-zeromq/src/main.rs`, `wander-pad/src/lib.rs`,
`ligature-test-suite/src/main.rs`.  All of them run scripts with `wander::prelude::common()` on a `LigatureGraph`
(the graph layer over the in-memory store).
-/
namespace Verif

/-- `wander::run(&script, &common(), &mut LigatureGraph)` as called by every application. -/
def runGraph (script : Str) (s : Mem) : Res Value × Mem := Eval.run Graph.memOps Eval.common script s

namespace Wasm

/-- `ligature-wasm/src/lib.rs:27-32` `struct EdgeResult`. -/
structure Edge where
  key : Str
  source : Str
  target : Str
deriving DecidableEq, Repr

/-- Derived `Ord` of `EdgeResult` (`lib.rs:27`). -/
instance : SOrd Edge :=
  SOrd.comap (fun e => (e.key, e.source, e.target)) (by intro a b h; cases a; cases b; simp_all)

/-- `lib.rs:16-20` `struct GraphologyResult`; `NodeResult` (`lib.rs:22-25`) is its only field. -/
structure Graphology where
  nodes : BSet Str
  edges : BSet Edge
deriving DecidableEq

/-- One round of the loop of `graph_to_graphology` (`lib.rs:37-83`). -/
def step (g : Graphology) : Entry → Graphology
  | .ext e c => ⟨(g.nodes.insert e.text).insert c.text, g.edges.insert ⟨colonS, e.text, c.text⟩⟩
  | .notExt e c => ⟨(g.nodes.insert e.text).insert c.text, g.edges.insert ⟨notColonS, e.text, c.text⟩⟩
  | .role f s r => ⟨(g.nodes.insert f.text).insert s.text, g.edges.insert ⟨r.text, f.text, s.text⟩⟩

/-- `lib.rs:34-88` `fn graph_to_graphology`. -/
def graphToGraphology (graph : Network) : Graphology := graph.toList.foldl step ⟨∅, ∅⟩

/-- The loop of `ligature_to_graphology` (`lib.rs:94-103`). -/
def exportLoop {σ : Type u} (L : LigOps σ) (s : σ) : List Element → BMap Str Graphology → Res (BMap Str Graphology)
  | [], res => .ok res
  | c :: cs, res =>
    match L.entries s c with
    | .ok entries => exportLoop L s cs (res.insert c.text (graphToGraphology entries))
    | _ => .panic

/-- `lib.rs:90-106` `pub fn ligature_to_graphology`.  The `HashMap` handed to JavaScript is modelled by its contents;
the conversion to `JsValue` is in `Verif.Model.JsValue`. -/
def ligatureToGraphology {σ : Type u} (L : LigOps σ) (s : σ) : Res (BMap Str Graphology) :=
  match L.collections s with
  | .ok cs => exportLoop L s cs ∅
  | _ => .panic

/-- `lib.rs:108-116` `pub fn run`: `ok` carries the exported store, `err` the message of the Wander error. -/
def run (script : Str) : Res (BMap Str Graphology) :=
  match runGraph script Graph.memNew with
  | (.ok _, s) => ligatureToGraphology Graph.memOps s
  | (.err m, _) => .err m
  | (.panic, _) => .panic

end Wasm

namespace Repl

/-- What `rl.readline("> ")` returns (`wander-repl/src/lib.rs:31-32,74-85`). -/
inductive Input where
  | line (s : Str)
  | interrupted
  | eof
  | error (msg : Str)
deriving DecidableEq, Repr

/-- A line printed by the session; `debug` stands for a prefix and the `{:?}` rendering of an error of the line reader. -/
inductive Out where
  | text (s : Str)
  | debug (pre msg : Str)
deriving DecidableEq, Repr

/-- How a session stands. -/
inductive Status where
  | running | ended | panicked
deriving DecidableEq, Repr

/-- Unicode `White_Space`, as used by `str::trim` and `str::split_whitespace`. -/
def isUniWs (c : Char) : Bool :=
  let n := c.toNat
  (9 ≤ n && n ≤ 13) || n == 0x20 || n == 0x85 || n == 0xA0 || n == 0x1680 || (0x2000 ≤ n && n ≤ 0x200A) ||
  n == 0x2028 || n == 0x2029 || n == 0x202F || n == 0x205F || n == 0x3000

/-- `str::trim` (`lib.rs:35`); only its first character is looked at, so the end need not be trimmed. -/
def trimStart (s : Str) : Str := s.dropWhile isUniWs

/-- `line.trim().starts_with(':')` (`lib.rs:35`). -/
def isCommand (line : Str) : Bool := (trimStart line).head? == some ':'

/-- `input.split_whitespace().next()` (`lib.rs:99-100`). -/
def firstWord (s : Str) : Option Str :=
  match trimStart s with
  | [] => none
  | c :: cs => some ((c :: cs).takeWhile (fun x => !isUniWs x))

/-- `lib.rs:98-132` `fn handle_command`: whether to go on, and what is printed; `none` is the `unwrap` on an empty line. -/
def handleCommand (input : Str) : Option (Bool × List Out) :=
  match firstWord input with
  | none => none
  | some w =>
    if w = lit ":status" ∨ w = lit ":s" then some (true, [.text (lit "...")])
    else if w = lit ":quit" ∨ w = lit ":q" then some (false, [])
    else if w = lit ":help" ∨ w = lit ":h" then some (true, [])
    else if w = lit ":broadcast" then some (true, [])
    else some (true, [.text (lit "Unknown command - " ++ w)])

/-- One entry as printed by the REPL (`lib.rs:53-63`). -/
def showEntry : Entry → Out
  | .ext e c => .text (lit "  " ++ Display.element e ++ lit " : " ++ Display.element c)
  | .role f s r => .text (lit "  " ++ Display.element f ++ lit " " ++ Display.element r ++ lit " " ++ Display.element s)
  | .notExt e c => .text (lit "  " ++ Display.element e ++ lit " ¬: " ++ Display.element c)

/-- `lib.rs:42-67`: printing a result; `none` is the `todo!()` for a quote. -/
def showValue : Value → Option (List Out)
  | .element e => some [.text e.text]
  | .quote _ => none
  | .network n =>
    if n.isEmpty then some [.text (lit "{}")]
    else some ([.text (lit "{")] ++ n.toList.map showEntry ++ [.text (lit "}")])

/-- `println!("{err:?}")` (`lib.rs:70`): the derived `Debug` of `WanderError` (`wander/src/lib.rs:28-29`). -/
def showError (m : Str) : Str := lit "WanderError(" ++ Debug.str m ++ lit ")"

/-- The state of a session. -/
structure Session where
  store : Mem
  out : List Out
  status : Status
deriving DecidableEq

/-- A fresh session (`wander-repl/src/main.rs:11-16`). -/
def Session.new : Session := ⟨Graph.memNew, [], .running⟩

/-- One round of the loop of `start_repl` (`lib.rs:30-87`).  Not modelled: the banner, the history file. -/
def step (st : Session) (inp : Input) : Session :=
  match st.status with
  | .running =>
    match inp with
    | .line line =>
      if isCommand line then
        match handleCommand line with
        | none => { st with status := .panicked }
        | some (cont, out) => ⟨st.store, st.out ++ out, if cont then .running else .ended⟩
      else
        match runGraph line st.store with
        | (.ok v, s1) =>
          match showValue v with
          | some out => ⟨s1, st.out ++ out, .running⟩
          | none => ⟨s1, st.out, .panicked⟩
        | (.err m, s1) => ⟨s1, st.out ++ [.text (showError m)], .running⟩
        | (.panic, s1) => ⟨s1, st.out, .panicked⟩
    | .interrupted => ⟨st.store, st.out ++ [.text (lit "Good Bye!")], .ended⟩
    | .eof => ⟨st.store, st.out ++ [.text (lit "Good Bye!")], .ended⟩
    | .error m => ⟨st.store, st.out ++ [.debug (lit "Error: ") m], .ended⟩
  | _ => st

/-- A session given all its inputs. -/
def session (inputs : List Input) : Session := inputs.foldl step .new

end Repl

namespace Zmq

/-- The server's state: its store, the replies sent so far, and whether it has died. -/
structure Server where
  store : Mem
  replies : List Str
  dead : Bool
deriving DecidableEq

/-- `ligature-zeromq/src/main.rs:13-18`. -/
def Server.new : Server := ⟨Graph.memNew, [], false⟩

/-- One round of the loop (`main.rs:19-27`).  A request that is not UTF-8 is `none` (the `unwrap` of line 21 panics).
Socket errors are not modelled. -/
def step (sv : Server) (req : Option Str) : Server :=
  if sv.dead then sv
  else
    match req with
    | none => { sv with dead := true }
    | some query =>
      match runGraph query sv.store with
      | (.ok v, s1) => ⟨s1, sv.replies ++ [Display.value v], false⟩
      | (.err m, s1) => ⟨s1, sv.replies ++ [m], false⟩
      | (.panic, s1) => ⟨s1, sv.replies, true⟩

/-- The server after a sequence of requests. -/
def serve (reqs : List (Option Str)) : Server := reqs.foldl step .new

end Zmq

namespace Pad

/-- What the user does: change the text of the script, or press Run. -/
inductive Event where
  | edit (script : Str)
  | run
deriving DecidableEq, Repr

/-- `wander-pad/src/lib.rs:21-24` `struct WanderPad`; `crashed` records a panic of `run`. -/
structure Pad where
  script : Str
  result : Str
  crashed : Bool
deriving DecidableEq, Repr

/-- `lib.rs:26-33` `Default for WanderPad`. -/
def Pad.new : Pad := ⟨[], [], false⟩

/-- `lib.rs:36-48` `update`, for one user event (drawing is not modelled). -/
def step (p : Pad) (ev : Event) : Pad :=
  if p.crashed then p
  else
    match ev with
    | .edit s => { p with script := s }
    | .run =>
      match (runGraph p.script Graph.memNew).1 with
      | .ok v => { p with result := Display.value v }
      | .err m => { p with result := m }
      | .panic => { p with crashed := true }

end Pad

namespace Suite

/-- `ends_with(".wander")` (`ligature-test-suite/src/main.rs:18`). -/
def isTest (name : Str) : Bool := (lit ".wander").isSuffixOf name

/-- The counters `total` and `failed` (`main.rs:11-12`). -/
structure Counts where
  total : Int
  failed : Int
deriving DecidableEq, Repr

/-- The loop over the directory (`main.rs:16-34`); `none` is a panic of a script.
Not modelled: unreadable files, file names that are not Unicode, overflow of the `i32` counters. -/
def loop : List (Str × Str) → Counts → Option Counts
  | [], c => some c
  | (name, script) :: rest, c =>
    if isTest name then
      match (runGraph script Graph.memNew).1 with
      | .ok _ => loop rest ⟨c.total + 1, c.failed⟩
      | .err _ => loop rest ⟨c.total + 1, c.failed + 1⟩
      | .panic => none
    else loop rest c

/-- `main.rs:10-36`: the two numbers of the last line printed, "Completed {total - failed} out of {total} tests." -/
def main (files : List (Str × Str)) : Option (Int × Int) :=
  match loop files ⟨0, 0⟩ with
  | some c => some (c.total - c.failed, c.total)
  | none => none

end Suite
end Verif
