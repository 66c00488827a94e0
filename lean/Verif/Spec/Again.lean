import Verif.Spec.Steps
import Verif.Spec.Footprint
/-!
# Specification vocabulary: running a script again
-/
namespace Verif
namespace Spec
open Steps

/-- The store operations a program makes, in order, when nobody disturbs it. -/
def asksOf (L : LigOps σ) : Prog → σ → List Ask
  | .ret _, _ => []
  | .ask q k, s => q :: asksOf L (k (perform L s q).1) (perform L s q).2

/-- The store after the first `i` of them (or at the end, if there are fewer). -/
def afterAsks (L : LigOps σ) : Nat → Prog → σ → σ
  | 0, _, s => s
  | _ + 1, .ret _, s => s
  | i + 1, .ask q k, s => afterAsks L i (k (perform L s q).1) (perform L s q).2

/-- The operation reads a collection. -/
def Reading : Ask → Prop
  | .entries _ => True
  | .filter _ _ => True
  | _ => False

/-- The operation writes a collection. -/
def Writing : Ask → Prop
  | .addCollection _ => True
  | .addEntries _ _ => True
  | _ => False

/-- No collection is read and written later. -/
def NoReadThenWrite (tr : List Ask) : Prop :=
  ∀ a q b q', tr = a ++ q :: b → q' ∈ b → Reading q → Writing q' → askName q' ≠ askName q

/-- No collection is read and written later, except after it was written before. -/
def NoReadBeforeWrite (tr : List Ask) : Prop :=
  ∀ a q b q', tr = a ++ q :: b → q' ∈ b → Reading q → Writing q' → askName q' = askName q →
    ∃ q0 ∈ a, Writing q0 ∧ askName q0 = askName q

/-- The first operation on the collection is a write. -/
def FirstWritten (c : Str) (tr : List Ask) : Prop :=
  ∃ a q b, tr = a ++ q :: b ∧ Writing q ∧ askName q = c ∧ ∀ x ∈ a, askName x ≠ c

/-- Names created and texts stored have 1 to 511 bytes. -/
def LegalAsk : Ask → Prop
  | .addCollection c => Heed.lmdbKey c.text = true
  | .addEntries _ es => ∀ e ∈ es, ∀ v ∈ tripTexts (Graph.entryToTrip e), Heed.lmdbKey v = true
  | _ => True

mutual
/-- A quote somewhere in the value (at any depth) is a call `read name …` or `filter name …`. -/
def ReadsIn (name : Element) : Value → Prop
  | .quote vs => (∃ e rest, vs = .element e :: .element name :: rest ∧ (e.text = lit "read" ∨ e.text = lit "filter")) ∨ ReadsInList name vs
  | .element _ => False
  | .network _ => False
def ReadsInList (name : Element) : List Value → Prop
  | [] => False
  | v :: vs => ReadsIn name v ∨ ReadsInList name vs
end

/-- The call, or a quote in its arguments, is a call `read name …` or `filter name …`. -/
def CallReads (name : Element) (c : Call) : Prop :=
  ((c.name.text = lit "read" ∨ c.name.text = lit "filter") ∧ ∃ rest, c.args = .element name :: rest) ∨ ReadsInList name c.args

/-- Nothing a call reads is written by that call or a later one; this can be seen from the script alone. -/
def WritesBeforeReads (calls : List Call) : Prop :=
  ∀ (i j : Nat) (c d : Call) (n m : Element), i ≤ j → calls[i]? = some c → calls[j]? = some d → CallReads n c → CallLets m d → n.text ≠ m.text

end Spec
end Verif
