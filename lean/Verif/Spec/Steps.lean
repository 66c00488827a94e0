import Verif.Model.EvalSteps
import Verif.Spec.Heed
import Verif.Spec.Effects
/-!
# Specification vocabulary for several scripts on one store
-/
namespace Verif
namespace Spec
open Steps

/-- The collection a store operation is about. -/
def askName : Ask → Str
  | .entries c => c.text
  | .filter c _ => c.text
  | .addCollection c => c.text
  | .addEntries c _ => c.text

/-- How many identifiers a store operation can use up. -/
def askCost : Ask → Nat
  | .entries _ => 0
  | .filter _ _ => 0
  | .addCollection _ => 1
  | .addEntries _ es => 3 * es.toList.length

/-- How many identifiers the operations can use up. -/
def trCost (tr : List (Nat × Ask)) : Nat := (tr.map fun e => askCost e.2).sum

/-- How many identifiers a program run undisturbed can use up. -/
def progCost (L : LigOps σ) : Prog → σ → Nat
  | .ret _, _ => 0
  | .ask q k, s => askCost q + progCost L (k (perform L s q).1) (perform L s q).2

/-- Whatever the store answers, the program only uses collections whose names are in `N`. -/
def UsesOnly (N : Str → Prop) : Prog → Prop
  | .ret _ => True
  | .ask q k => N (askName q) ∧ ∀ a, UsesOnly N (k a)

/-- A collection some of the calls write, read or filter. -/
def CallsUse (calls : List Call) (x : Str) : Prop := ∃ c ∈ calls, ∃ n : Element, CallUses n c ∧ n.text = x

end Spec
end Verif
