import Verif.Model.Lexer
/-!
# Specification of tokenizing

The forms of the tokens are written down here from the documentation, character by character, without the patterns of the model.
-/
namespace Verif
namespace Spec
open Lexer

/-- A white-space character of a script. -/
def WsChar (c : Char) : Prop := c = ' ' ∨ c = '\t' ∨ c = '\n' ∨ c = '\r'

/-- The ranges of non-ASCII word characters (inclusive). -/
def wordRanges : List (Nat × Nat) :=
  [(0x00A0, 0xD7FF), (0xF900, 0xFDCF), (0xFDF0, 0xFFEF), (0x10000, 0x1FFFD), (0x20000, 0x2FFFD), (0x30000, 0x3FFFD),
   (0x40000, 0x4FFFD), (0x50000, 0x5FFFD), (0x60000, 0x6FFFD), (0x70000, 0x7FFFD), (0x80000, 0x8FFFD), (0x90000, 0x9FFFD),
   (0xA0000, 0xAFFFD), (0xB0000, 0xBFFFD), (0xC0000, 0xCFFFD), (0xD0000, 0xDFFFD), (0xE1000, 0xEFFFD)]

/-- A character of a bare word: an ASCII letter or digit, one of the listed marks, or a character of `wordRanges`. -/
def WordChar (c : Char) : Prop :=
  ('a' ≤ c ∧ c ≤ 'z') ∨ ('A' ≤ c ∧ c ≤ 'Z') ∨ ('0' ≤ c ∧ c ≤ '9') ∨ c ∈ "-._~:/?#[]@!$&'*+;%=".toList ∨
  ∃ r ∈ wordRanges, r.1 ≤ c.toNat ∧ c.toNat ≤ r.2

/-- A hexadecimal digit. -/
def HexChar (c : Char) : Prop := ('0' ≤ c ∧ c ≤ '9') ∨ ('a' ≤ c ∧ c ≤ 'f') ∨ ('A' ≤ c ∧ c ≤ 'F')

/-- What may stand between the quotes of a string literal: characters other than controls, quote and backslash; a backslash and one
of eight escape letters; `\u` and four hexadecimal digits. -/
inductive StringBody : Str → Prop where
  | nil : StringBody []
  | plain {c s} : 0x20 ≤ c.toNat → c ≠ '"' → c ≠ '\\' → StringBody s → StringBody (c :: s)
  | escape {c s} : c ∈ ['"', '\\', '/', 'b', 'f', 'n', 'r', 't'] → StringBody s → StringBody ('\\' :: c :: s)
  | unicode {a b c d s} : HexChar a → HexChar b → HexChar c → HexChar d → StringBody s →
      StringBody ('\\' :: 'u' :: a :: b :: c :: d :: s)

/-- The text has the form of a token of this kind. -/
def Fits (k : Kind) (w : Str) : Prop :=
  match k with
  | .ws => w ≠ [] ∧ ∀ c ∈ w, WsChar c
  | .string => ∃ b, w = '"' :: (b ++ ['"']) ∧ StringBody b
  | .openParen => w = ['(']
  | .closeParen => w = [')']
  | .openBrace => w = ['{']
  | .closeBrace => w = ['}']
  | .openSquare => w = ['[']
  | .closeSquare => w = [']']
  | .element => w ≠ [] ∧ ∀ c ∈ w, WordChar c
  | .pipe => w = ['|']
  | .comma => w = [',']
  | .comment => ∃ b, '\n' ∉ b ∧ (w = '-' :: '-' :: b ∨ w = '-' :: '-' :: (b ++ ['\n']))

/-- The ties: a comment and the square brackets are preferred to a bare word. -/
def Beats (k k' : Kind) : Prop := k' = .element ∧ (k = .comment ∨ k = .openSquare ∨ k = .closeSquare)

/-- The next token has kind `k` and length `n`: the first `n` characters have the form of a `k`, no form fits a longer prefix, and
any other form fitting the same prefix loses the tie. -/
def Best (s : Str) (k : Kind) (n : Nat) : Prop :=
  0 < n ∧ n ≤ s.length ∧ Fits k (s.take n) ∧ (∀ k' m, m ≤ s.length → Fits k' (s.take m) → m ≤ n) ∧
  (∀ k', Fits k' (s.take n) → k' = k ∨ Beats k k')

/-- No form fits a nonempty prefix. -/
def NoMatch (s : Str) : Prop := ∀ (k : Kind) m, 0 < m → m ≤ s.length → ¬ Fits k (s.take m)

/-- After some best matches there is text left that no pattern matches. -/
inductive Stuck : Str → Prop where
  | here {s} : s ≠ [] → NoMatch s → Stuck s
  | later {s k n} : Best s k n → Stuck (s.drop n) → Stuck s

/-- The token for a piece: white space, comments and words carry their text, a string carries what is between its quotes. -/
inductive Denotes : Kind × Str → Token → Prop where
  | ws (w) : Denotes (.ws, w) (.ws w)
  | string (t) : Denotes (.string, '"' :: (t ++ ['"'])) (.string t)
  | openParen (w) : Denotes (.openParen, w) .openParen
  | closeParen (w) : Denotes (.closeParen, w) .closeParen
  | openBrace (w) : Denotes (.openBrace, w) .openBrace
  | closeBrace (w) : Denotes (.closeBrace, w) .closeBrace
  | openSquare (w) : Denotes (.openSquare, w) .openSquare
  | closeSquare (w) : Denotes (.closeSquare, w) .closeSquare
  | element (w) : Denotes (.element, w) (.element ⟨w, none, none⟩)
  | pipe (w) : Denotes (.pipe, w) .pipe
  | comma (w) : Denotes (.comma, w) .comma
  | comment (w) : Denotes (.comment, w) (.comment w)

/-- The text cut into best matches, each given as its token. -/
inductive Tokenized : Str → List Token → Prop where
  | nil : Tokenized [] []
  | cons {s k n t ts} : Best s k n → Denotes (k, s.take n) t → Tokenized (s.drop n) ts → Tokenized s (t :: ts)

/-- The piece of script a token stands for. -/
def tokenText : Token → Str
  | .ws s => s
  | .string s => lit "\"" ++ s ++ lit "\""
  | .openParen => lit "("
  | .closeParen => lit ")"
  | .openBrace => lit "{"
  | .closeBrace => lit "}"
  | .openSquare => lit "["
  | .closeSquare => lit "]"
  | .element e => e.text
  | .pipe => lit "|"
  | .comma => lit ","
  | .comment s => s

/-- White space and finished comments: what may be put between two parts of a script. -/
inductive Gap : Str → Prop where
  | nil : Gap []
  | ws {c w} : WsChar c → Gap w → Gap (c :: w)
  | comment {body w} : '\n' ∉ body → Gap w → Gap (lit "--" ++ body ++ ('\n' :: w))

/-- The text is a whole number of tokens and does not end in a comment that is still open. -/
def Complete (s : Str) : Prop :=
  ∃ ts, Tokenized s ts ∧ ∀ c, ts.getLast? = some (.comment c) → c.getLast? = some '\n'

/-- The text ends in a word character. -/
def WordEnd (s : Str) : Prop := ∃ c, s.getLast? = some c ∧ WordChar c

/-- The text begins with a word character. -/
def WordStart (s : Str) : Prop := ∃ c, s.head? = some c ∧ WordChar c

/-- A text that is one bare word: word characters, not beginning like a comment, and not a lone square bracket. -/
def BareWord (t : Str) : Prop := t ≠ [] ∧ (∀ c ∈ t, WordChar c) ∧ ¬ lit "--" <+: t ∧ t ≠ lit "[" ∧ t ≠ lit "]"

/-- What the parser gets for a token: nothing for white space and comments, an element for a string or a word. -/
def kept : Token → Option Token
  | .ws _ => none
  | .comment _ => none
  | .string t => some (.element ⟨t, none, none⟩)
  | t => some t

end Spec
end Verif
