import Verif.Model.Debug
import Verif.Model.LigatureGraph
/-!
# Model of `wander/src/parser.rs` and of the value types of `wander/src/lib.rs`
-/
namespace Verif

/-- `wander/src/lib.rs:63-71` `enum WanderValue`; the wrapper `Quote(Vec<WanderValue>)` (lines 54-59) is inlined. -/
inductive Value where
  | element (e : Element)
  | quote (values : List Value)
  | network (n : Network)

mutual
/-- Derived `PartialEq`/`Eq` of `WanderValue` (`wander/src/lib.rs:63`): structural. -/
def Value.decEq : (a b : Value) → Decidable (a = b)
  | .element a, .element b =>
    if h : a = b then isTrue (by rw [h]) else isFalse (by intro e; cases e; exact h rfl)
  | .network a, .network b =>
    if h : a = b then isTrue (by rw [h]) else isFalse (by intro e; cases e; exact h rfl)
  | .quote a, .quote b =>
    match Value.decEqList a b with
    | isTrue h => isTrue (by rw [h])
    | isFalse h => isFalse (by intro e; cases e; exact h rfl)
  | .element _, .quote _ => isFalse (by intro e; cases e)
  | .element _, .network _ => isFalse (by intro e; cases e)
  | .quote _, .element _ => isFalse (by intro e; cases e)
  | .quote _, .network _ => isFalse (by intro e; cases e)
  | .network _, .element _ => isFalse (by intro e; cases e)
  | .network _, .quote _ => isFalse (by intro e; cases e)
/-- Structural equality of argument lists. -/
def Value.decEqList : (a b : List Value) → Decidable (a = b)
  | [], [] => isTrue rfl
  | [], _ :: _ => isFalse (by intro e; cases e)
  | _ :: _, [] => isFalse (by intro e; cases e)
  | a :: as, b :: bs =>
    match Value.decEq a b, Value.decEqList as bs with
    | isTrue h, isTrue h' => isTrue (by rw [h, h'])
    | isFalse h, _ => isFalse (by intro e; cases e; exact h rfl)
    | _, isFalse h => isFalse (by intro e; cases e; exact h rfl)
end

instance : DecidableEq Value := Value.decEq

/-- `wander/src/lib.rs:45-52` `struct Call`. -/
structure Call where
  name : Element
  args : List Value
deriving DecidableEq

namespace Parser

/-- `parser.rs:120-136`: the entry denoted by three elements inside braces. -/
def mkEntry (first second third : Element) : Entry :=
  if second = .of colonS then .ext first third
  else if second = .of notColonS then .notExt first third
  else .role first third second

/-- `parser.rs:102-146` `fn read_network`: reads after the opening brace; returns the network and the unread tokens.
`todo!()` branches (lines 109, 113, 117) are `panic`. -/
def readNetwork : List Token → Network → Res (Network × List Token)
  | .closeBrace :: rest, result => .ok (result, rest)
  | .element first :: .element second :: .element third :: .comma :: rest, result =>
    readNetwork rest (result.insert (mkEntry first second third))
  | .element first :: .element second :: .element third :: .closeBrace :: rest, result =>
    .ok (result.insert (mkEntry first second third), rest)
  | .element _ :: .element _ :: .element _ :: _, _ => .err (lit "Error parsing Network.")
  | _, _ => .panic

/-- `parser.rs:148-165` `fn read_quote`: reads after the opening parenthesis.  `fuel` bounds the number of loop rounds;
every round consumes a token, so one more than the number of tokens suffices. -/
def readQuote : Nat → List Token → List Value → Res (List Value × List Token)
  | 0, _, _ => .panic
  | fuel + 1, tokens, values =>
    match tokens with
    | .element e :: rest => readQuote fuel rest (values ++ [.element e])
    | .closeParen :: rest => .ok (values, rest)
    | .openBrace :: rest =>
      match readNetwork rest ∅ with
      | .ok (res, rest') => readQuote fuel rest' (values ++ [.network res])
      | .err m => .err m
      | .panic => .panic
    | _ => .panic

/-- `parser.rs:60-84`: the inner loop, collecting the values of one call up to a comma or the end.
An error of `read_network` or `read_quote` is `todo!()` here (lines 73, 79).
Lines 81-82: the token was consumed by `next`, so `peek` is the token after it. -/
def readCall : Nat → List Token → List Value → Res (List Value × List Token)
  | 0, _, _ => .panic
  | fuel + 1, tokens, current =>
    match tokens with
    | [] => .ok (current, [])
    | .string value :: rest => readCall fuel rest (current ++ [.element (.of value)])
    | .element value :: rest => readCall fuel rest (current ++ [.element value])
    | .comma :: rest => .ok (current, rest)
    | .openBrace :: rest =>
      match readNetwork rest ∅ with
      | .ok (res, rest') => readCall fuel rest' (current ++ [.network res])
      | _ => .panic
    | .openParen :: rest =>
      match readQuote (rest.length + 1) rest [] with
      | .ok (vs, rest') => readCall fuel rest' (current ++ [.quote vs])
      | _ => .panic
    | _ :: rest => .err (lit "Error parsing " ++ Debug.option Debug.token rest.head?)

/-- `parser.rs:57-99`: the outer loop over calls. -/
def parseLoop : Nat → List Token → List Call → Res (List Call)
  | 0, _, _ => .panic
  | fuel + 1, tokens, calls =>
    match tokens with
    | [] => .ok calls
    | t :: ts =>
      match readCall ((t :: ts).length + 1) (t :: ts) [] with
      | .panic => .panic
      | .err m => .err m
      | .ok (current, rest) =>
        match current with
        | .element name :: args => parseLoop fuel rest (calls ++ [⟨name, args⟩])   -- lines 86-95
        | _ => .panic                                                               -- line 96

/-- `parser.rs:54-100` `pub fn parse`. -/
def parse (tokens : List Token) : Res (List Call) := parseLoop (tokens.length + 1) tokens []

end Parser
end Verif
