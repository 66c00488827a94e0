import Verif.Spec.Eval
/-!
# Specification vocabulary for what scripts do to the store
-/
namespace Verif
namespace Spec
open Eval

mutual
/-- A quote somewhere in the value (at any depth) is a call `let name …`. -/
def LetsIn (name : Element) : Value → Prop
  | .quote vs => (∃ e rest, vs = .element e :: .element name :: rest ∧ e.text = lit "let") ∨ LetsInList name vs
  | .element _ => False
  | .network _ => False
def LetsInList (name : Element) : List Value → Prop
  | [] => False
  | v :: vs => LetsIn name v ∨ LetsInList name vs
end

/-- The call, or a quote in its arguments, is a call `let name …`. -/
def CallLets (name : Element) (c : Call) : Prop :=
  (c.name.text = lit "let" ∧ ∃ rest, c.args = .element name :: rest) ∨ LetsInList name c.args

/-- The store after `let name network`. -/
def afterLet (L : LigOps σ) (s : σ) (w : Element × Network) : σ :=
  (runCalls L common [call "let" [.element w.1, .network w.2]] s).2

/-- The store after a sequence of lets. -/
def afterLets (L : LigOps σ) (s : σ) (ws : List (Element × Network)) : σ := ws.foldl (afterLet L) s

/-- The call names a command of the store (`let`, `read` or `filter`) with this collection as its first argument. -/
def NamesCollection (name : Element) (cmd : Element) (args : List Value) : Prop :=
  cmd.text ∈ [lit "let", lit "read", lit "filter"] ∧ ∃ rest, args = .element name :: rest

mutual
/-- A quote somewhere in the value (at any depth) writes, reads or filters the collection. -/
def UsesIn (name : Element) : Value → Prop
  | .quote vs => (∃ e args, vs = .element e :: args ∧ NamesCollection name e args) ∨ UsesInList name vs
  | .element _ => False
  | .network _ => False
def UsesInList (name : Element) : List Value → Prop
  | [] => False
  | v :: vs => UsesIn name v ∨ UsesInList name vs
end

/-- The call, or a quote in its arguments, writes, reads or filters the collection. -/
def CallUses (name : Element) (c : Call) : Prop := NamesCollection name c.name c.args ∨ UsesInList name c.args

end Spec
end Verif
