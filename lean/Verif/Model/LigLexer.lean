import Verif.Model.Lexer
/-!
# Model of `lig/src/lexer.rs`, `lig/src/read.rs` and `lig/src/write.rs`

The patterns that are letter for letter those of `wander/src/lexer.rs` reuse its character classes (`isWs`, `strBodyRe`).
-/
namespace Verif
namespace Lig

/-- `lig/src/lexer.rs:11-44` `enum Token`. -/
inductive Token where
  | ws (s : Str)
  | string (s : Str)
  | name (e : Element)
  | openParen
  | closeParen
  | openBrace
  | closeBrace
  | openSquare
  | closeSquare
  | comment (s : Str)
deriving DecidableEq, Repr

/-- The alternatives of `enum Token`, without payload. -/
inductive Kind where
  | ws | string | name | openParen | closeParen | openBrace | closeBrace | openSquare | closeSquare | comment
deriving DecidableEq, Repr

/-- `lexer.rs:18`: class `[_a-zA-Z]`. -/
def isNameStart (c : Char) : Bool := c == '_' || Lexer.inRange 0x61 0x7A c || Lexer.inRange 0x41 0x5A c

/-- `lexer.rs:18`: class `[_a-zA-Z0-9.?]`. -/
def isNameRest (c : Char) : Bool := isNameStart c || Lexer.inRange 0x30 0x39 c || c == '.' || c == '?'

open Re in
/-- The pattern of each token kind (`lexer.rs:12-43`). -/
def Kind.re : Kind → Re
  | .ws => plus (cls Lexer.isWs)                                       -- line 12
  | .string => cat (chr '"') (cat Lexer.strBodyRe (chr '"'))           -- line 15
  | .name => cat (plus (cls isNameStart)) (star (cls isNameRest))      -- line 18
  | .openParen => chr '('                                              -- line 24
  | .closeParen => chr ')'                                             -- line 27
  | .openBrace => chr '{'                                              -- line 30
  | .closeBrace => chr '}'                                             -- line 33
  | .openSquare => chr '['                                             -- line 36
  | .closeSquare => chr ']'                                            -- line 39
  | .comment =>                                                        -- line 42: "--.*\n?"
    cat (chr '-') (cat (chr '-') (cat (star (cls (fun c => c != '\n'))) (opt (chr '\n'))))

/-- `logos` priorities (`name` has an explicit one, `lexer.rs:18`). -/
def Kind.prio : Kind → Nat
  | .ws => 1
  | .string => 4
  | .name => 2
  | .comment => 4
  | _ => 2

/-- All rules in declaration order. -/
def kinds : List Kind :=
  [.ws, .string, .name, .openParen, .closeParen, .openBrace, .closeBrace, .openSquare, .closeSquare, .comment]

/-- Keep the better of the current best match and rule `k` (longer, then higher priority). -/
def better (s : Str) (best : Option (Kind × Nat)) (k : Kind) : Option (Kind × Nat) :=
  match k.re.longest s with
  | none => best
  | some 0 => best
  | some (n + 1) =>
    match best with
    | none => some (k, n + 1)
    | some (k', m) => if m < n + 1 || (m == n + 1 && k'.prio < k.prio) then some (k, n + 1) else best

/-- One step of the `logos` automaton. -/
def lexStep (s : Str) : Option (Kind × Nat) := kinds.foldl (better s) none

/-- The callbacks of `lexer.rs:46-75` on the matched slice; `none` is a panic.  `fn name` (line 61) is `todo!()`. -/
def mkToken (k : Kind) (slice : Str) : Option Token :=
  match k with
  | .ws => some (.ws slice)
  | .string => (Lexer.trimString slice).map .string
  | .name => none
  | .openParen => some .openParen
  | .closeParen => some .closeParen
  | .openBrace => some .openBrace
  | .closeBrace => some .closeBrace
  | .openSquare => some .openSquare
  | .closeSquare => some .closeSquare
  | .comment => some (.comment slice)

/-- Number of bytes of a text in UTF-8: `range.start` counts bytes. -/
def bytes (s : Str) : Nat := (s.map Char.utf8Size).sum

/-- `lexer.rs:80-85`: the loop of `tokenize`; `pos` is the byte position of the input left.  `Location(token, range.start)` is a pair.
`fuel` bounds the number of items, of which each takes at least one character. -/
def tokenizeLoop : Nat → Str → Nat → List (Token × Nat) → Res (List (Token × Nat))
  | _, [], _, results => .ok results
  | 0, _ :: _, _, _ => .panic
  | fuel + 1, c :: cs, pos, results =>
    match lexStep (c :: cs) with
    | none => .err (lit "Error tokenizing input.")
    | some (k, n) =>
      match mkToken k ((c :: cs).take n) with
      | none => .panic
      | some t => tokenizeLoop fuel ((c :: cs).drop n) (pos + bytes ((c :: cs).take n)) (results ++ [(t, pos)])

/-- `lexer.rs:77-87` `pub fn tokenize`. -/
def tokenize (script : Str) : Res (List (Token × Nat)) := tokenizeLoop script.length script 0 []

/-- `lexer.rs:93`: the predicate of `retain`. -/
def significant : Token × Nat → Bool
  | (.comment _, _) => false
  | (.ws _, _) => false
  | _ => true

/-- `lexer.rs:89-96` `pub fn tokenize_and_filter`. -/
def tokenizeAndFilter (script : Str) : Res (List (Token × Nat)) := (tokenize script).map (·.filter significant)

/-- `read.rs:8-18` `pub fn tokenize`: the same items without their positions. -/
def readTokenize (script : Str) : Res (List Token) := (tokenize script).map (·.map Prod.fst)

/-- `read.rs:20-24` `pub fn read`: `todo!()`. -/
def read (_script : Str) : Res (List Entry) := .panic

/-- `write.rs:9-11` `pub fn write`. -/
def write (_value : Network) : Str := []

end Lig
end Verif
