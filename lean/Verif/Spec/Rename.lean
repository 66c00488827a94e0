import Verif.Spec.Eval
import Verif.Model.TripsMem
/-!
# Specification vocabulary for renaming texts
-/
namespace Verif
namespace Spec
open Eval

/-- Replace the text, keep the tags. -/
def renElement (f : Str → Str) (e : Element) : Element := ⟨f e.text, e.ns, e.lang⟩

/-- Replace every text of an entry. -/
def renEntry (f : Str → Str) : Entry → Entry
  | .role a b r => .role (renElement f a) (renElement f b) (renElement f r)
  | .ext a b => .ext (renElement f a) (renElement f b)
  | .notExt a b => .notExt (renElement f a) (renElement f b)

/-- Replace every text of a network. -/
def renNetwork (f : Str → Str) (n : Network) : Network := n.map (renEntry f)

/-- Replace every text of a triple. -/
def renTrip (f : Str → Str) (t : Trip) : Trip := ⟨f t.fst, f t.snd, f t.thd⟩

mutual
/-- Replace every text of a value, at any depth. -/
def renValue (f : Str → Str) : Value → Value
  | .element e => .element (renElement f e)
  | .network n => .network (renNetwork f n)
  | .quote q => .quote (renValues f q)
def renValues (f : Str → Str) : List Value → List Value
  | [] => []
  | v :: vs => renValue f v :: renValues f vs
end

/-- Replace the command name and every text of the arguments. -/
def renCall (f : Str → Str) (c : Call) : Call := ⟨renElement f c.name, renValues f c.args⟩

/-- A one-to-one renaming that leaves alone the reserved role texts and the wildcard, and turns named variables into named variables
and nothing else into one. -/
structure Renames (f : Str → Str) : Prop where
  inj : ∀ x y, f x = f y → x = y
  colon : f (lit ":") = lit ":"
  notColon : f (lit "¬:") = lit "¬:"
  any : f (lit "?") = lit "?"
  var : ∀ x, IsVar (f x) ↔ IsVar x

/-- It also leaves alone the names and documentation of the commands. -/
structure RenamesFor (cmds : Commands σ) (f : Str → Str) : Prop extends Renames f where
  name : ∀ p ∈ cmds, f p.1 = p.1
  doc : ∀ p ∈ cmds, f p.2.doc = p.2.doc
  docString : f (lit "docString") = lit "docString"

/-- The same kind of outcome, with the second value the image of the first.  Error messages may quote texts and are not compared. -/
def ResRen (g : α → α) : Res α → Res α → Prop
  | .ok a, .ok b => b = g a
  | .err _, .err _ => True
  | .panic, .panic => True
  | _, _ => False

/-- The second store shows the renamed collections and, in each, exactly the renamed triples. -/
def RenamedView (f : Str → Str) (T : TripsOps σ) (s t : σ) : Prop :=
  (∀ d, Listed T t d ↔ ∃ c, Listed T s c ∧ f c = d) ∧
  (∀ c ts, Listed T s c → T.triples s c = .ok ts → ∃ us, T.triples t (f c) = .ok us ∧ ∀ u, u ∈ us ↔ ∃ x ∈ ts, renTrip f x = u)

/-- Replace every text of an update. -/
def renOp (f : Str → Str) : Op → Op
  | .addCollection c => .addCollection (f c)
  | .removeCollection c => .removeCollection (f c)
  | .addTriples c ts => .addTriples (f c) (ts.map (renTrip f))
  | .removeTriples c ts => .removeTriples (f c) (ts.map (renTrip f))

end Spec
end Verif
