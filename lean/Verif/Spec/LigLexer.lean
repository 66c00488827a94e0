import Verif.Spec.Lexer
import Verif.Model.LigLexer
/-!
# Specification of the tokens of the `lig` crate
-/
namespace Verif
namespace Lig
open Spec

/-- A character a name can begin with. -/
def NameStart (c : Char) : Prop := c = '_' ∨ ('a' ≤ c ∧ c ≤ 'z') ∨ ('A' ≤ c ∧ c ≤ 'Z')

/-- A character a name can go on with. -/
def NameRest (c : Char) : Prop := NameStart c ∨ ('0' ≤ c ∧ c ≤ '9') ∨ c = '.' ∨ c = '?'

/-- The text has the form of a token of this kind. -/
def Fits (k : Kind) (w : Str) : Prop :=
  match k with
  | .ws => w ≠ [] ∧ ∀ c ∈ w, WsChar c
  | .string => ∃ b, w = '"' :: (b ++ ['"']) ∧ StringBody b
  | .name => ∃ c t, w = c :: t ∧ NameStart c ∧ ∀ d ∈ t, NameRest d
  | .openParen => w = ['(']
  | .closeParen => w = [')']
  | .openBrace => w = ['{']
  | .closeBrace => w = ['}']
  | .openSquare => w = ['[']
  | .closeSquare => w = [']']
  | .comment => ∃ b, '\n' ∉ b ∧ (w = '-' :: '-' :: b ∨ w = '-' :: '-' :: (b ++ ['\n']))

/-- The next token has kind `k` and length `n`: the first `n` characters have the form, and no form fits a longer prefix. -/
def Best (s : Str) (k : Kind) (n : Nat) : Prop :=
  0 < n ∧ n ≤ s.length ∧ Fits k (s.take n) ∧ ∀ k' m, m ≤ s.length → Fits k' (s.take m) → m ≤ n

/-- No form fits a prefix. -/
def NoMatch (s : Str) : Prop := ∀ k m, m ≤ s.length → ¬ Fits k (s.take m)

/-- The token for a piece that is not a name. -/
inductive Denotes : Kind × Str → Token → Prop where
  | ws (w) : Denotes (.ws, w) (.ws w)
  | string (t) : Denotes (.string, '"' :: (t ++ ['"'])) (.string t)
  | openParen (w) : Denotes (.openParen, w) .openParen
  | closeParen (w) : Denotes (.closeParen, w) .closeParen
  | openBrace (w) : Denotes (.openBrace, w) .openBrace
  | closeBrace (w) : Denotes (.closeBrace, w) .closeBrace
  | openSquare (w) : Denotes (.openSquare, w) .openSquare
  | closeSquare (w) : Denotes (.closeSquare, w) .closeSquare
  | comment (w) : Denotes (.comment, w) (.comment w)

/-- Reading the text `pre ++ s`, of which `pre` is done, as best matches that are not names, each with the number of bytes before it,
up to the text `rest`. -/
inductive Reads : (pre s : Str) → List (Token × Nat) → (rest : Str) → Prop where
  | stop (pre s) : Reads pre s [] s
  | step {pre s k n t ts rest} : Best s k n → Denotes (k, s.take n) t → Reads (pre ++ s.take n) (s.drop n) ts rest →
      Reads pre s ((t, (String.ofList pre).utf8ByteSize) :: ts) rest

/-- The piece of text a token stands for. -/
def tokenText : Token → Str
  | .ws s => s
  | .string s => lit "\"" ++ s ++ lit "\""
  | .name e => e.text
  | .openParen => lit "("
  | .closeParen => lit ")"
  | .openBrace => lit "{"
  | .closeBrace => lit "}"
  | .openSquare => lit "["
  | .closeSquare => lit "]"
  | .comment s => s

end Lig
end Verif
