import Verif.Spec.Steps
import Verif.Spec.Graph
/-!
# Specification vocabulary: how much a script asks of the store, and where data comes from
-/
namespace Verif
namespace Spec
open Eval Steps

mutual
/-- The quotes in a value, at any depth. -/
def quotesIn : Value → Nat
  | .quote vs => 1 + quotesInAll vs
  | .element _ => 0
  | .network _ => 0
def quotesInAll : List Value → Nat
  | [] => 0
  | v :: vs => quotesIn v + quotesInAll vs
end

/-- The number of calls of a script, plus the number of quotes in it. -/
def scriptSize (calls : List Call) : Nat := (calls.map fun c => 1 + quotesInAll c.args).sum

/-- How many of the operations were made by the `i`-th script. -/
def opsBy (i : Nat) (tr : List (Nat × Ask)) : Nat := (tr.filter fun e => e.1 == i).length

mutual
/-- The entry is written in a network in the value, at any depth. -/
def WrittenIn (e : Entry) : Value → Prop
  | .network n => e ∈ n
  | .element _ => False
  | .quote vs => WrittenInAny e vs
def WrittenInAny (e : Entry) : List Value → Prop
  | [] => False
  | v :: vs => WrittenIn e v ∨ WrittenInAny e vs
end

mutual
/-- The value is the other value or occurs in it, at any depth. -/
def PartOf (v : Value) : Value → Prop
  | .quote vs => v = .quote vs ∨ PartOfAny v vs
  | .element e => v = .element e
  | .network n => v = .network n
def PartOfAny (v : Value) : List Value → Prop
  | [] => False
  | w :: ws => PartOf v w ∨ PartOfAny v ws
end

mutual
/-- A quote somewhere in the value (at any depth) calls the command. -/
def InvokedIn (name : Str) : Value → Prop
  | .quote vs => (∃ e args, vs = .element e :: args ∧ e.text = name) ∨ InvokedInAny name vs
  | .element _ => False
  | .network _ => False
def InvokedInAny (name : Str) : List Value → Prop
  | [] => False
  | v :: vs => InvokedIn name v ∨ InvokedInAny name vs
end

/-- The script, or a quote in it, calls the command. -/
def Invokes (calls : List Call) (name : Str) : Prop := ∃ c ∈ calls, c.name.text = name ∨ InvokedInAny name c.args

/-- The entry is written in a network of the script, at any depth. -/
def Written (calls : List Call) (e : Entry) : Prop := ∃ c ∈ calls, WrittenInAny e c.args

/-- The value is written in the script as an argument, at any depth. -/
def WrittenValue (calls : List Call) (v : Value) : Prop := ∃ c ∈ calls, PartOfAny v c.args

/-- The entry is in some collection. -/
def HeldIn (L : LigOps σ) (s : σ) (e : Entry) : Prop := ∃ (c : Element) (n : Network), L.entries s c = .ok n ∧ e ∈ n

/-- The entry documents one of the standard commands. -/
def DocEntry (e : Entry) : Prop :=
  ∃ p ∈ [
    ("assert-equal", "Check if two arguments are equal (quotes are evaluated before comparing) and fail if they are not equal."),
    ("assert-fail", "Accept a quote and run it. If the quote results in a failure continue otherwise fail."),
    ("ignore", "Ignore all arguments to this command and return an empty network."),
    ("let", "Set a named network."), ("read", "Read a network."), ("id", "Return a value."),
    ("docs", "Get a list of commands and a description."), ("union", "Combine two networks."), ("filter", "Filter a network.")],
    e = .role (.of (lit p.1)) (.of (lit p.2)) (.of (lit "docString"))

/-- Where an entry can come from: a collection of the store, a network in one of the scripts, or the documentation if one of them calls `docs`. -/
def Source (L : LigOps σ) (s : σ) (scripts : List (List Call)) (x : Entry) : Prop :=
  HeldIn L s x ∨ ∃ calls ∈ scripts, Written calls x ∨ (Invokes calls (lit "docs") ∧ DocEntry x)

/-- The entry is one from a source, as it is or in parser form. -/
def Traceable (L : LigOps σ) (s : σ) (scripts : List (List Call)) (e : Entry) : Prop :=
  ∃ x, Source L s scripts x ∧ (e = x ∨ e = canon x)

end Spec
end Verif
