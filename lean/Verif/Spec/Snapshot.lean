import Verif.Spec.Effects
import Verif.Spec.Eval
/-!
# Specification vocabulary: storing what was read (C97)
-/
namespace Verif
namespace Spec

/-- `let d (read c)`. -/
def copyTo (d c : Element) : Call := call "let" [.element d, .quote [.element (.of (lit "read")), .element c]]

/-- A pattern of `filter`: first, role, third. -/
structure Pattern where
  first : Element
  role : Element
  third : Element

/-- `filter c p`. -/
def filterBy (c : Element) (p : Pattern) : Call := call "filter" [.element c, .element p.first, .element p.role, .element p.third]

/-- `let d (filter c p)`. -/
def pickTo (d c : Element) (p : Pattern) : Call :=
  call "let" [.element d, .quote [.element (.of (lit "filter")), .element c, .element p.first, .element p.role, .element p.third]]

/-- Nothing named is to be bound. -/
def Pattern.Plain (p : Pattern) : Prop := ¬ IsVar p.first.text ∧ ¬ IsVar p.role.text ∧ ¬ IsVar p.third.text

/-- The entry matches, part by part. -/
def Pattern.Matches (p : Pattern) (e : Entry) : Prop :=
  TextMatches p.first.text (parts e).1 ∧ TextMatches p.role.text (parts e).2.1 ∧ TextMatches p.third.text (parts e).2.2

/-- One position of two patterns: the more particular one. -/
def narrower (x y : Element) : Element := if x.text = lit "?" then y else x
/-- Both at once. -/
def Pattern.both (p q : Pattern) : Pattern := ⟨narrower p.first q.first, narrower p.role q.role, narrower p.third q.third⟩

/-- One position of two patterns asks for two different texts. -/
def Clashing (x y : Element) : Prop := x.text ≠ lit "?" ∧ y.text ≠ lit "?" ∧ x.text ≠ y.text
def Pattern.Clash (p q : Pattern) : Prop := Clashing p.first q.first ∨ Clashing p.role q.role ∨ Clashing p.third q.third

/-- No `let` in the calls, or in their quotes, is of this collection. -/
def NeverLets (d : Element) (calls : List Call) : Prop := ∀ c ∈ calls, ∀ name : Element, CallLets name c → name.text ≠ d.text

end Spec
end Verif
