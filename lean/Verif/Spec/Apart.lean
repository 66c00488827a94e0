import Verif.Spec.Sayable
/-!
# Specification of C100: what scripts can tell apart
-/
namespace Verif
namespace Spec
open Eval

/-- No script can tell the two stores apart: every script text is answered alike. -/
def Alike (L : LigOps σ) (s t : σ) : Prop := ∀ script, (run L common script s).1 = (run L common script t).1

/-- Every collection whose name a script can write is missing in both stores, or in both with the same entries. -/
def SameSayable (T : TripsOps τ) (s t : τ) : Prop :=
  ∀ c : Element, StringBody c.text → (Listed T s c.text ↔ Listed T t c.text) ∧ (Graph.ops T).entries s c = (Graph.ops T).entries t c

/-- No session can tell the two scripts apart: after any scripts run before on a new store they are answered alike, and if one is run instead of
the other, whatever scripts come after it are answered alike. -/
def Interchangeable (L : LigOps σ) (new : σ) (a b : Str) : Prop :=
  (∀ before, (run L common a (afterScripts L before new)).1 = (run L common b (afterScripts L before new)).1) ∧
  ∀ before after last,
    (run L common last (afterScripts L (before ++ a :: after) new)).1 = (run L common last (afterScripts L (before ++ b :: after) new)).1

end Spec
end Verif
