import Verif.Model.Lexer
/-!
# `{:?}` of tokens

The derived `Debug` of `Token` (`wander/src/lexer.rs:11`) and `Element`, `Namespace`, `LangTag` (`ligature/src/lib.rs:16-25`), as used by the
error messages of `wander/src/parser.rs:81-82`.
-/
namespace Verif
namespace Debug

/-- Rust's table of characters outside ASCII that `{:?}` escapes (unprintable ones and those that extend the one before).  Which they are is left
open: nothing is known about this function, so theorems hold for any table. -/
opaque escaped : Char → Bool

/-- Lower-case hexadecimal digits. -/
def hex (n : Nat) : Str := Nat.toDigits 16 n

/-- `char::escape_debug` as used for `str`: a single quote stays, a double quote is escaped. -/
def char (c : Char) : Str :=
  if c = '\x00' then ['\\', '0']
  else if c = '\t' then ['\\', 't']
  else if c = '\r' then ['\\', 'r']
  else if c = '\n' then ['\\', 'n']
  else if c = '"' then ['\\', '"']
  else if c = '\\' then ['\\', '\\']
  else if 0x20 ≤ c.toNat ∧ c.toNat < 0x7F then [c]
  else if c.toNat ≤ 0x7F ∨ escaped c = true then ['\\', 'u', '{'] ++ hex c.toNat ++ ['}']
  else [c]

/-- `Debug for str`. -/
def str (s : Str) : Str := ['"'] ++ s.flatMap char ++ ['"']

/-- `Debug for Option<T>` with the rendering of what is in it. -/
def option (f : α → Str) : Option α → Str
  | none => lit "None"
  | some a => lit "Some(" ++ f a ++ lit ")"

/-- Derived `Debug for Element`. -/
def element (e : Element) : Str :=
  lit "Element(" ++ str e.text ++ lit ", " ++ option (fun n => lit "Namespace(" ++ str n ++ lit ")") e.ns ++ lit ", " ++
    option (fun n => lit "LangTag(" ++ str n ++ lit ")") e.lang ++ lit ")"

/-- Derived `Debug for Token`. -/
def token : Token → Str
  | .ws s => lit "WS(" ++ str s ++ lit ")"
  | .string s => lit "String(" ++ str s ++ lit ")"
  | .openParen => lit "OpenParen"
  | .closeParen => lit "CloseParen"
  | .openBrace => lit "OpenBrace"
  | .closeBrace => lit "CloseBrace"
  | .openSquare => lit "OpenSquare"
  | .closeSquare => lit "CloseSquare"
  | .element e => lit "Element(" ++ element e ++ lit ")"
  | .pipe => lit "Pipe"
  | .comma => lit "Comma"
  | .comment s => lit "Comment(" ++ str s ++ lit ")"

end Debug
end Verif
