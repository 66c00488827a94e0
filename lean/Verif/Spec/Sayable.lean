import Verif.Spec.Lexer
import Verif.Spec.Script
import Verif.Spec.Store
import Verif.Model.Eval
/-!
# Specification vocabulary: what can be said in a script
-/
namespace Verif
namespace Spec
open Eval

/-- An element that can be written in a script: it has no tags, and its text can stand between the quotes of a string literal as it is. -/
def SayableElement (e : Element) : Prop := e.ns = none ∧ e.lang = none ∧ StringBody e.text

/-- An entry that can be written: all its parts can, and a role entry is not spelled like one of the other two kinds. -/
def SayableEntry : Entry → Prop
  | .ext a c => SayableElement a ∧ SayableElement c
  | .notExt a c => SayableElement a ∧ SayableElement c
  | .role a c r => SayableElement a ∧ SayableElement c ∧ SayableElement r ∧ r.text ≠ lit ":" ∧ r.text ≠ lit "¬:"

/-- A value that can be written inside a quote. -/
def SayableItem : Value → Prop
  | .element e => SayableElement e
  | .network n => ∀ e ∈ n, SayableEntry e
  | .quote _ => False

/-- A value that can be written: quotes do not nest. -/
def SayableValue : Value → Prop
  | .quote vs => ∀ v ∈ vs, SayableItem v
  | .element e => SayableElement e
  | .network n => ∀ e ∈ n, SayableEntry e

/-- A call that can be written. -/
def SayableCall (c : Call) : Prop := SayableElement c.name ∧ ∀ v ∈ c.args, SayableValue v

/-- Every name and every text in the store could be written in a script. -/
def SayableStore (T : TripsOps σ) (s : σ) : Prop :=
  (∀ c, Listed T s c → StringBody c) ∧ ∀ c ts, T.triples s c = .ok ts → ∀ t ∈ ts, ∀ x ∈ tripTexts t, StringBody x

/-- The store after scripts run one after the other, whatever their outcomes. -/
def afterScripts (L : LigOps σ) : List Str → σ → σ
  | [], s => s
  | script :: rest, s => afterScripts L rest (run L common script s).2

end Spec
end Verif
