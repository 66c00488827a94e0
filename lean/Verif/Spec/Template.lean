import Verif.Spec.Script
import Verif.Spec.Print
import Verif.Spec.Effects
/-!
# Specification of inserting texts into a script

A program that builds scripts writes fixed pieces of script with other people's texts between them.
-/
namespace Verif
namespace Spec

/-- The pieces with a written text after each of them, and `b` at the end: piece, text 0, piece, text 1, …, `b`. -/
def filled (write : Str → Str) : List Str → (Nat → Str) → Str → Str
  | [], _, b => b
  | a :: parts, texts, b => a ++ write (texts 0) ++ filled write parts (fun i => texts (i + 1)) b

/-- What is put in for text `i`: one element, its text escaped. -/
def inserted (texts : Nat → Str) (i : Nat) : Element := ⟨escaped (texts i), none, none⟩

/-- Blank number `i`.  No script denotes an element with a namespace, so a blank is different from all elements of scripts. -/
def blank (i : Nat) : Element := ⟨[], some (List.replicate i '_'), none⟩

/-- Fill in a blank; other elements stay. -/
def fillElement (x : Nat → Element) (e : Element) : Element :=
  match e.ns with
  | none => e
  | some l => if e = blank l.length then x l.length else e

/-- The entry three words stand for. -/
def spelled (first second third : Element) : Entry :=
  if second = ⟨lit ":", none, none⟩ then .ext first third
  else if second = ⟨lit "¬:", none, none⟩ then .notExt first third
  else .role first third second

/-- Fill in the blanks of an entry.  (A blank that is the role can turn the entry into one of the other two kinds.) -/
def fillEntry (x : Nat → Element) : Entry → Entry
  | .ext a c => .ext (fillElement x a) (fillElement x c)
  | .notExt a c => .notExt (fillElement x a) (fillElement x c)
  | .role a c r => spelled (fillElement x a) (fillElement x r) (fillElement x c)

mutual
/-- Fill in the blanks of a value. -/
def fillValue (x : Nat → Element) : Value → Value
  | .element e => .element (fillElement x e)
  | .network n => .network (n.map (fillEntry x))
  | .quote vs => .quote (fillValues x vs)
/-- Fill in the blanks of a list of values. -/
def fillValues (x : Nat → Element) : List Value → List Value
  | [] => []
  | v :: vs => fillValue x v :: fillValues x vs
end

/-- Fill in the blanks of a call. -/
def fillCall (x : Nat → Element) (c : Call) : Call := ⟨fillElement x c.name, fillValues x c.args⟩

/-- How often blank `i` occurs in an element, entry, value, list of values, list of calls. -/
def inElement (i : Nat) (e : Element) : Nat := if e = blank i then 1 else 0
def inEntry (i : Nat) : Entry → Nat
  | .ext a c => inElement i a + inElement i c
  | .notExt a c => inElement i a + inElement i c
  | .role a c r => inElement i a + inElement i c + inElement i r
mutual
def inValue (i : Nat) : Value → Nat
  | .element e => inElement i e
  | .network n => (n.toList.map (inEntry i)).sum
  | .quote vs => inValues i vs
def inValues (i : Nat) : List Value → Nat
  | [] => 0
  | v :: vs => inValue i v + inValues i vs
end
def inCalls (i : Nat) (calls : List Call) : Nat := (calls.map fun c => inElement i c.name + inValues i c.args).sum

/-- Calls with the blanks 0 to n-1, each in exactly one place. -/
def HasBlanks (n : Nat) (calls : List Call) : Prop := ∀ i < n, inCalls i calls = 1

/-- The script is refused with an error, whatever the commands and the store, and nothing happens to the store. -/
def Errs (script : Str) : Prop :=
  ∃ m, ∀ (σ : Type) (L : LigOps σ) (cmds : Eval.Commands σ) (s : σ), Eval.run L cmds script s = (.err m, s)

/-- Reading the script panics, whatever the commands and the store, and nothing happens to the store. -/
def Panics (script : Str) : Prop :=
  ∀ (σ : Type) (L : LigOps σ) (cmds : Eval.Commands σ) (s : σ), Eval.run L cmds script s = (.panic, s)

/-- The element is a blank. -/
def IsBlank (e : Element) : Prop := ∃ i, e = blank i

/-- In a line `cmd args`, no blank is the command, or what follows `let`. -/
def SafeLine (cmd : Element) (args : List Value) : Prop :=
  ¬ IsBlank cmd ∧ (cmd.text = lit "let" → ∀ e rest, args = .element e :: rest → ¬ IsBlank e)

mutual
/-- In no quote inside the value is a blank the command, or the collection of a `let`. -/
def SafeValue : Value → Prop
  | .element _ => True
  | .network _ => True
  | .quote vs => (∀ e args, vs = .element e :: args → SafeLine e args) ∧ SafeValues vs
def SafeValues : List Value → Prop
  | [] => True
  | v :: vs => SafeValue v ∧ SafeValues vs
end

/-- No blank is a command, or the collection of a `let`, in the calls or their quotes. -/
def SafePlaces (calls : List Call) : Prop := ∀ c ∈ calls, SafeLine c.name c.args ∧ SafeValues c.args

end Spec
end Verif
