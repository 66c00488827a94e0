import Verif.Base.Res
/-!
# Regular expressions

The `#[regex(..)]` / `#[token(..)]` attributes of `wander/src/lexer.rs` are transcribed as values of `Re`.
`Re.Matches` is the textbook meaning; `Re.longest` is an executable longest-prefix matcher (by Brzozowski derivatives),
standing for the automaton that `logos` generates.
-/
namespace Verif

inductive Re where
  /-- matches nothing -/
  | void
  /-- matches the empty string -/
  | eps
  /-- matches one character of the class -/
  | cls (p : Char → Bool)
  | cat (a b : Re)
  | alt (a b : Re)
  | star (a : Re)

namespace Re

/-- The language of a regular expression. -/
inductive Matches : Re → Str → Prop where
  | eps : Matches eps []
  | cls {p c} : p c = true → Matches (cls p) [c]
  | cat {a b s t} : Matches a s → Matches b t → Matches (cat a b) (s ++ t)
  | altL {a b s} : Matches a s → Matches (alt a b) s
  | altR {a b s} : Matches b s → Matches (alt a b) s
  | starNil {a} : Matches (star a) []
  | starCons {a s t} : Matches a s → Matches (star a) t → Matches (star a) (s ++ t)

/-- Does the expression match the empty string? -/
def nullable : Re → Bool
  | void => false
  | eps => true
  | cls _ => false
  | cat a b => nullable a && nullable b
  | alt a b => nullable a || nullable b
  | star _ => true

/-- `cat` with `void`/`eps` simplified away. -/
def mkCat (a b : Re) : Re :=
  match a with
  | void => void
  | eps => b
  | a => cat a b

/-- `alt` with `void` simplified away. -/
def mkAlt (a b : Re) : Re :=
  match a, b with
  | void, b => b
  | a, void => a
  | a, b => alt a b

/-- Brzozowski derivative. -/
def deriv (c : Char) : Re → Re
  | void => void
  | eps => void
  | cls p => if p c then eps else void
  | cat a b => if nullable a then mkAlt (mkCat (deriv c a) b) (deriv c b) else mkCat (deriv c a) b
  | alt a b => mkAlt (deriv c a) (deriv c b)
  | star a => mkCat (deriv c a) (star a)

/-- Length of the longest prefix of the input matched by the expression. -/
def longest (r : Re) : Str → Option Nat
  | [] => if nullable r then some 0 else none
  | c :: cs =>
    match longest (deriv c r) cs with
    | some n => some (n + 1)
    | none => if nullable r then some 0 else none

/-- one given character -/
def chr (c : Char) : Re := cls (fun x => x == c)
/-- `r+` -/
def plus (r : Re) : Re := cat r (star r)
/-- `r?` -/
def opt (r : Re) : Re := alt r eps

end Re
end Verif
