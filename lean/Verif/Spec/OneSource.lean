import Verif.Model.Eval
import Verif.Spec.Store
/-!
# Specification of C104: what a script can make of two collections
-/
namespace Verif
namespace Spec
open Eval

/-- On every in-memory store that has the collections `a` and `b` the script succeeds and answers with the network `f` makes of their contents. -/
def AnswersFrom (script a b : Str) (f : BSet Trip → BSet Trip → Network) : Prop :=
  ∀ (s : Mem) (X Y : BSet Trip), Mem.ops.triples s a = .ok X → Mem.ops.triples s b = .ok Y →
    (run Graph.memOps common script s).1 = .ok (.network (f X Y))

/-- On every in-memory store that has the collections `a` and `b` the script succeeds, and then the collection `c` holds what `f` makes of their contents. -/
def StoresFrom (script a b c : Str) (f : BSet Trip → BSet Trip → BSet Trip) : Prop :=
  ∀ (s : Mem) (X Y : BSet Trip), Mem.ops.triples s a = .ok X → Mem.ops.triples s b = .ok Y →
    (∃ v, (run Graph.memOps common script s).1 = .ok v) ∧ Mem.ops.triples (run Graph.memOps common script s).2 c = .ok (f X Y)

/-- The function does not use both of its arguments. -/
def IgnoresOne {α β : Type} (f : α → α → β) : Prop := (∀ x x' y, f x y = f x' y) ∨ ∀ x y y', f x y = f x y'

end Spec
end Verif
