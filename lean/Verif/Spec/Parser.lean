import Verif.Model.Parser
import Verif.Spec.DebugText
/-!
# The grammar of scripts

    program  ::= ε | call | call ',' program
    call     ::= word value*
    value    ::= word | network | quote
    network  ::= '{' entries
    entries  ::= '}' | word word word '}' | word word word ',' entries
    quote    ::= '(' items
    items    ::= ')' | ELEMENT items | network items
    word     ::= ELEMENT | STRING          (STRING only outside networks and quotes)
-/
namespace Verif
namespace Spec

/-- The entry three words in a network stand for. -/
inductive ReadsEntry : Element → Element → Element → Entry → Prop where
  | extends (a c) : ReadsEntry a ⟨lit ":", none, none⟩ c (.ext a c)
  | notExtends (a c) : ReadsEntry a ⟨lit "¬:", none, none⟩ c (.notExt a c)
  | role (a b c) : b ≠ ⟨lit ":", none, none⟩ → b ≠ ⟨lit "¬:", none, none⟩ → ReadsEntry a b c (.role a c b)

/-- The inside of a network literal with its closing brace, and the entries listed. -/
inductive Entries : List Token → List Entry → Prop where
  | close : Entries [.closeBrace] []
  | last {a b c e} : ReadsEntry a b c e → Entries [.element a, .element b, .element c, .closeBrace] [e]
  | more {a b c e ts es} : ReadsEntry a b c e → Entries ts es →
      Entries (.element a :: .element b :: .element c :: .comma :: ts) (e :: es)

/-- A network literal: the set of the entries listed. -/
def NetworkLit (ts : List Token) (n : Network) : Prop :=
  ∃ body es, ts = .openBrace :: body ∧ Entries body es ∧ ∀ e, e ∈ n ↔ e ∈ es

/-- The inside of a quote with its closing parenthesis, and the values listed. -/
inductive Items : List Token → List Value → Prop where
  | close : Items [.closeParen] []
  | element {e ts vs} : Items ts vs → Items (.element e :: ts) (.element e :: vs)
  | network {net n ts vs} : NetworkLit net n → Items ts vs → Items (net ++ ts) (.network n :: vs)

/-- One value. -/
inductive ValueLit : List Token → Value → Prop where
  | element (e) : ValueLit [.element e] (.element e)
  | string (s) : ValueLit [.string s] (.element ⟨s, none, none⟩)
  | network {ts n} : NetworkLit ts n → ValueLit ts (.network n)
  | quote {ts vs} : Items ts vs → ValueLit (.openParen :: ts) (.quote vs)

/-- A sequence of values. -/
inductive Values : List Token → List Value → Prop where
  | nil : Values [] []
  | cons {ts v us vs} : ValueLit ts v → Values us vs → Values (ts ++ us) (v :: vs)

/-- A call: an element as its name, then the arguments. -/
def CallLit (ts : List Token) (c : Call) : Prop := Values ts (.element c.name :: c.args)

/-- A program. -/
inductive Program : List Token → List Call → Prop where
  | nil : Program [] []
  | last {ts c} : CallLit ts c → Program ts [c]
  | more {ts c us cs} : CallLit ts c → Program us cs → Program (ts ++ .comma :: us) (c :: cs)

/-- A sequence of calls, each ended by a comma: what is read before the call in progress. -/
inductive Done : List Token → Prop where
  | nil : Done []
  | more {ts c us} : CallLit ts c → Done us → Done (ts ++ .comma :: us)

/-- A token that cannot begin or continue a call. -/
def Foreign : Token → Prop
  | .closeParen | .closeBrace | .openSquare | .closeSquare | .pipe | .ws _ | .comment _ => True
  | _ => False

/-- After complete calls and complete values of a further one comes a foreign token, and after it `rest`. -/
def ForeignThen (ts rest : List Token) : Prop :=
  ∃ done cur vs t, ts = done ++ cur ++ t :: rest ∧ Done done ∧ Values cur vs ∧ Foreign t

/-- After complete calls and complete values of a further one comes a foreign token. -/
def HasForeign (ts : List Token) : Prop := ∃ rest, ForeignThen ts rest

/-- What error messages call a token: punctuation by its name, anything else by its kind and its text in quotes. -/
inductive Called : Token → Str → Prop where
  | openParen : Called .openParen (lit "OpenParen")
  | closeParen : Called .closeParen (lit "CloseParen")
  | openBrace : Called .openBrace (lit "OpenBrace")
  | closeBrace : Called .closeBrace (lit "CloseBrace")
  | openSquare : Called .openSquare (lit "OpenSquare")
  | closeSquare : Called .closeSquare (lit "CloseSquare")
  | pipe : Called .pipe (lit "Pipe")
  | comma : Called .comma (lit "Comma")
  | ws {text q} : ShownText text q → Called (.ws text) (lit "WS(" ++ q ++ lit ")")
  | string {text q} : ShownText text q → Called (.string text) (lit "String(" ++ q ++ lit ")")
  | comment {text q} : ShownText text q → Called (.comment text) (lit "Comment(" ++ q ++ lit ")")
  | element {text ns lang q n l} : ShownText text q → ShownTag (lit "Namespace") ns n → ShownTag (lit "LangTag") lang l →
      Called (.element ⟨text, ns, lang⟩) (lit "Element(Element(" ++ q ++ lit ", " ++ n ++ lit ", " ++ l ++ lit "))")

/-- A network or quote is opened and does not go on as one. -/
def BadLiteral (ts : List Token) : Prop :=
  (∃ r, ts = .openBrace :: r ∧ ¬ ∃ body es rest, r = body ++ rest ∧ Entries body es) ∨
  (∃ r, ts = .openParen :: r ∧ ¬ ∃ body vs rest, r = body ++ rest ∧ Items body vs)

/-- The values stand for a call. -/
def Named (vs : List Value) : Prop := ∃ e args, vs = .element e :: args

/-- After complete calls and complete values of a further one, either a bad network or quote begins, or the call ends without having
begun with an element (for instance an empty call between two commas). -/
def HasBadCall (ts : List Token) : Prop :=
  ∃ done cur vs rest, ts = done ++ cur ++ rest ∧ Done done ∧ Values cur vs ∧
    (BadLiteral rest ∨
      (¬ Named vs ∧ ((rest = [] ∧ cur ≠ []) ∨ ∃ r, rest = .comma :: r)))

/-! ## Writing programs -/

/-- The three words of an entry. -/
def entryTokens : Entry → List Token
  | .ext a c => [.element a, .element ⟨lit ":", none, none⟩, .element c]
  | .notExt a c => [.element a, .element ⟨lit "¬:", none, none⟩, .element c]
  | .role a c r => [.element a, .element r, .element c]

/-- Entries with commas between them, and the closing brace. -/
def entriesTokens : List Entry → List Token
  | [] => [.closeBrace]
  | [e] => entryTokens e ++ [.closeBrace]
  | e :: es => entryTokens e ++ .comma :: entriesTokens es

mutual
/-- A value as tokens. -/
def valueTokens : Value → List Token
  | .element e => [.element e]
  | .network n => .openBrace :: entriesTokens n.toList
  | .quote vs => .openParen :: (valuesTokens vs ++ [.closeParen])
/-- Values one after the other. -/
def valuesTokens : List Value → List Token
  | [] => []
  | v :: vs => valueTokens v ++ valuesTokens vs
end

/-- A call as tokens. -/
def callTokens (c : Call) : List Token := .element c.name :: valuesTokens c.args

/-- Calls with commas between them. -/
def programTokens : List Call → List Token
  | [] => []
  | [c] => callTokens c
  | c :: cs => callTokens c ++ .comma :: programTokens cs

/-- A role entry that is not spelled like the other two kinds. -/
def PlainEntry : Entry → Prop
  | .role _ _ r => r ≠ ⟨lit ":", none, none⟩ ∧ r ≠ ⟨lit "¬:", none, none⟩
  | _ => True

/-- A value that can be written inside a quote: an element, or a network of plain entries. -/
def FlatValue : Value → Prop
  | .element _ => True
  | .network n => ∀ e ∈ n, PlainEntry e
  | .quote _ => False

/-- A value that can be written: quotes do not nest. -/
def WritableValue : Value → Prop
  | .quote vs => ∀ v ∈ vs, FlatValue v
  | v => FlatValue v

/-- A call that can be written. -/
def WritableCall (c : Call) : Prop := ∀ v ∈ c.args, WritableValue v

/-- `x` is the value or a value somewhere inside it. -/
inductive Within : Value → Value → Prop where
  | self (v) : Within v v
  | quote {x v vs} : v ∈ vs → Within x v → Within x (.quote vs)

end Spec
end Verif
