import Verif.Model.Regex
import Verif.Model.Ligature
/-!
# Model of `wander/src/lexer.rs`
-/
namespace Verif

/-- `wander/src/lexer.rs:11-50` `enum Token`. -/
inductive Token where
  | ws (s : Str)
  | string (s : Str)
  | openParen
  | closeParen
  | openBrace
  | closeBrace
  | openSquare
  | closeSquare
  | element (e : Element)
  | pipe
  | comma
  | comment (s : Str)
deriving DecidableEq, Repr

namespace Lexer

/-- The alternatives of `enum Token`, without payload. -/
inductive Kind where
  | ws | string | openParen | closeParen | openBrace | closeBrace | openSquare | closeSquare
  | element | pipe | comma | comment
deriving DecidableEq, Repr

/-- `lexer.rs:14`: class `[ \t\n\r]`. -/
def isWs (c : Char) : Bool := c == ' ' || c == '\t' || c == '\n' || c == '\r'

/-- `lexer.rs:17`: class `[^\x00-\x1F"\\]`. -/
def isPlain (c : Char) : Bool := !(c.toNat ≤ 0x1F) && c != '"' && c != '\\'

/-- `lexer.rs:17`: class `["\\/bfnrt]`. -/
def isEscChar (c : Char) : Bool :=
  c == '"' || c == '\\' || c == '/' || c == 'b' || c == 'f' || c == 'n' || c == 'r' || c == 't'

/-- `lexer.rs:17`: class `[0-9a-fA-F]`. -/
def isHex (c : Char) : Bool :=
  (0x30 ≤ c.toNat && c.toNat ≤ 0x39) || (0x61 ≤ c.toNat && c.toNat ≤ 0x66) || (0x41 ≤ c.toNat && c.toNat ≤ 0x46)

/-- `lo-hi` inside a character class. -/
def inRange (lo hi : Nat) (c : Char) : Bool := lo ≤ c.toNat && c.toNat ≤ hi

/-- `lexer.rs:39`: the identifier class `[a-zA-Z0-9-._~:/?#\[\]@!$&'*+;%=\x{00A0}-\x{D7FF}...]`. -/
def isIdent (c : Char) : Bool :=
  inRange 0x61 0x7A c || inRange 0x41 0x5A c || inRange 0x30 0x39 c ||
  "-._~:/?#[]@!$&'*+;%=".toList.contains c ||
  inRange 0x00A0 0xD7FF c || inRange 0xF900 0xFDCF c || inRange 0xFDF0 0xFFEF c ||
  inRange 0x10000 0x1FFFD c || inRange 0x20000 0x2FFFD c || inRange 0x30000 0x3FFFD c ||
  inRange 0x40000 0x4FFFD c || inRange 0x50000 0x5FFFD c || inRange 0x60000 0x6FFFD c ||
  inRange 0x70000 0x7FFFD c || inRange 0x80000 0x8FFFD c || inRange 0x90000 0x9FFFD c ||
  inRange 0xA0000 0xAFFFD c || inRange 0xB0000 0xBFFFD c || inRange 0xC0000 0xCFFFD c ||
  inRange 0xD0000 0xDFFFD c || inRange 0xE1000 0xEFFFD c

open Re in
/-- `lexer.rs:17`: the part of the string pattern between the quotes,
`(([^\x00-\x1F"\\]|\\["\\/bfnrt]|\\u[0-9a-fA-F]{4})*)`. -/
def strBodyRe : Re :=
  star (alt (cls isPlain)
       (alt (cat (chr '\\') (cls isEscChar))
            (cat (chr '\\') (cat (chr 'u') (cat (cls isHex) (cat (cls isHex) (cat (cls isHex) (cls isHex))))))))

open Re in
/-- The pattern of each token kind (`lexer.rs:14-49`, the `#[regex]`/`#[token]` attributes). -/
def Kind.re : Kind → Re
  | .ws => plus (cls isWs)                                             -- line 14
  | .string => cat (chr '"') (cat strBodyRe (chr '"'))                 -- line 17
  | .openParen => chr '('                                              -- line 20
  | .closeParen => chr ')'                                             -- line 23
  | .openBrace => chr '{'                                              -- line 26
  | .closeBrace => chr '}'                                             -- line 29
  | .openSquare => chr '['                                             -- line 32
  | .closeSquare => chr ']'                                            -- line 35
  | .element => plus (cls isIdent)                                     -- line 39
  | .pipe => chr '|'                                                   -- line 42
  | .comma => chr ','                                                  -- line 45
  | .comment =>                                                        -- line 48: "--.*\n?"
    cat (chr '-') (cat (chr '-') (cat (star (cls (fun c => c != '\n'))) (opt (chr '\n'))))

/-- `logos` 0.13 priority of each pattern (literal character 2, class 1, repetition and option 0, summed over concatenation). -/
def Kind.prio : Kind → Nat
  | .ws => 1
  | .string => 4
  | .openParen => 2
  | .closeParen => 2
  | .openBrace => 2
  | .closeBrace => 2
  | .openSquare => 2
  | .closeSquare => 2
  | .element => 1
  | .pipe => 2
  | .comma => 2
  | .comment => 4

/-- All rules in declaration order. -/
def kinds : List Kind :=
  [.ws, .string, .openParen, .closeParen, .openBrace, .closeBrace, .openSquare, .closeSquare,
   .element, .pipe, .comma, .comment]

/-- Keep the better of the current best match and rule `k` (longer, then higher priority).  An empty match does not count. -/
def better (s : Str) (best : Option (Kind × Nat)) (k : Kind) : Option (Kind × Nat) :=
  match k.re.longest s with
  | none => best
  | some 0 => best
  | some (n + 1) =>
    match best with
    | none => some (k, n + 1)
    | some (k', m) => if m < n + 1 || (m == n + 1 && k'.prio < k.prio) then some (k, n + 1) else best

/-- One step of the `logos` automaton: kind and length of the best match at the start of the input (`Token::lexer`). -/
def lexStep (s : Str) : Option (Kind × Nat) := kinds.foldl (better s) none

/-- `lexer.rs:52-57` `fn trim_string`; `none` is a failed `assert_eq!` or `unwrap`. -/
def trimString (value : Str) : Option Str :=
  match value with
  | [] => none
  | c :: rest =>
    if c = '"' then
      match rest.getLast? with
      | none => none
      | some d => if d = '"' then some rest.dropLast else none
    else none

/-- The callbacks of `lexer.rs:59-73` applied to the matched slice; `none` is a panic. -/
def mkToken (k : Kind) (slice : Str) : Option Token :=
  match k with
  | .ws => some (.ws slice)
  | .string => (trimString slice).map .string
  | .openParen => some .openParen
  | .closeParen => some .closeParen
  | .openBrace => some .openBrace
  | .closeBrace => some .closeBrace
  | .openSquare => some .openSquare
  | .closeSquare => some .closeSquare
  | .element => some (.element (.of slice))
  | .pipe => some .pipe
  | .comma => some .comma
  | .comment => some (.comment slice)

/-- `lexer.rs:75-85`: the loop of `tokenize` over the lexer's items.  `fuel` bounds the number of items
(each item consumes at least one character, so the length of the input suffices: `tokenize_unfold`). -/
def tokenizeLoop : Nat → Str → List Token → Res (List Token)
  | _, [], results => .ok results
  | 0, _ :: _, _ => .panic
  | fuel + 1, c :: cs, results =>
    match lexStep (c :: cs) with
    | none => .err (lit "Error tokenizing input.")
    | some (k, n) =>
      match mkToken k ((c :: cs).take n) with
      | none => .panic
      | some t => tokenizeLoop fuel ((c :: cs).drop n) (results ++ [t])

/-- `lexer.rs:75-85` `pub fn tokenize`. -/
def tokenize (script : Str) : Res (List Token) := tokenizeLoop script.length script []

/-- `lexer.rs:91`: the predicate of `retain`. -/
def significant : Token → Bool
  | .comment _ => false
  | .ws _ => false
  | _ => true

/-- `lexer.rs:94-97`: string literals become elements. -/
def stringToElement : Token → Token
  | .string value => .element (.of value)
  | t => t

/-- `lexer.rs:87-100` `pub fn tokenize_and_filter`. -/
def tokenizeAndFilter (script : Str) : Res (List Token) :=
  (tokenize script).map (fun tokens => (tokens.filter significant).map stringToElement)

end Lexer
end Verif
