import Verif.Spec.Print
/-!
# Specification of the JSON text the public data types are written as (C71)

One template per type: no white space, fields in the order of declaration, strings as in the display code (`literal`).
-/
namespace Verif
namespace Spec
namespace Written

/-- A string or nothing. -/
def opt : Option Str → Str
  | none => lit "null"
  | some s => literal s

def elem (e : Element) : Str := lit "[" ++ literal e.text ++ lit "," ++ opt e.ns ++ lit "," ++ opt e.lang ++ lit "]"

def ent : Entry → Str
  | .role f s r => lit "{\"Role\":{\"first\":" ++ elem f ++ lit ",\"second\":" ++ elem s ++ lit ",\"role\":" ++ elem r ++ lit "}}"
  | .ext e c => lit "{\"Extends\":{\"element\":" ++ elem e ++ lit ",\"concept\":" ++ elem c ++ lit "}}"
  | .notExt e c => lit "{\"NotExtends\":{\"element\":" ++ elem e ++ lit ",\"concept\":" ++ elem c ++ lit "}}"

mutual
/-- The entries of a network in the order of `Entry`. -/
def val : Value → Str
  | .element e => lit "{\"Element\":" ++ elem e ++ lit "}"
  | .network n => lit "{\"Network\":[" ++ separated (lit ",") (n.toList.map ent) ++ lit "]}"
  | .quote vs => lit "{\"Quote\":[" ++ separated (lit ",") (vals vs) ++ lit "]}"
def vals : List Value → List Str
  | [] => []
  | v :: vs => val v :: vals vs
end

def call (c : Call) : Str := lit "{\"name\":" ++ elem c.name ++ lit ",\"arguments\":[" ++ separated (lit ",") (vals c.args) ++ lit "]}"

/-- A token: its name alone, or its name with what it holds. -/
def tok : Token → Str
  | .ws s => lit "{\"WS\":" ++ literal s ++ lit "}"
  | .string s => lit "{\"String\":" ++ literal s ++ lit "}"
  | .comment s => lit "{\"Comment\":" ++ literal s ++ lit "}"
  | .element e => lit "{\"Element\":" ++ elem e ++ lit "}"
  | .openParen => lit "\"OpenParen\""
  | .closeParen => lit "\"CloseParen\""
  | .openBrace => lit "\"OpenBrace\""
  | .closeBrace => lit "\"CloseBrace\""
  | .openSquare => lit "\"OpenSquare\""
  | .closeSquare => lit "\"CloseSquare\""
  | .pipe => lit "\"Pipe\""
  | .comma => lit "\"Comma\""

end Written
end Spec
end Verif
