import Verif.Model.Serde
/-!
# Specification vocabulary for JSON texts of values (C71)
-/
namespace Verif
namespace Spec

mutual
/-- How deep quotes are nested in a value: 0 for an element or network, 1 for a quote of those, and so on. -/
def quoteNesting : Value → Nat
  | .element _ => 0
  | .network _ => 0
  | .quote vs => 1 + quoteNestings vs
def quoteNestings : List Value → Nat
  | [] => 0
  | v :: vs => max (quoteNesting v) (quoteNestings vs)
end

mutual
/-- How deep brackets and braces are nested in the JSON text of a value: an element is `{"Element":[..]}`, an empty network
`{"Network":[]}`, an entry `{"Role":{"first":[..],..}}` inside a network two brackets further in, a quote `{"Quote":[..]}`. -/
def jsonNesting : Value → Nat
  | .element _ => 2
  | .network n => if n = ∅ then 2 else 5
  | .quote vs => 2 + jsonNestings vs
def jsonNestings : List Value → Nat
  | [] => 0
  | v :: vs => max (jsonNesting v) (jsonNestings vs)
end

/-- `n` more quotes around an empty quote. -/
def nestedQuote : Nat → Value
  | 0 => .quote []
  | n + 1 => .quote [nestedQuote n]

end Spec

end Verif
