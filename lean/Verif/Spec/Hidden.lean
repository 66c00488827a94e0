import Verif.Spec.Sayable
/-!
# Specification of C102: what no session finds out
-/
namespace Verif
namespace Spec
open Eval

/-- A session of so many scripts, in which each script is chosen by what the earlier ones answered: the answers and the store at the end. -/
def askAll (L : LigOps σ) (ask : List (Res Value) → Str) : Nat → σ → List (Res Value) × σ
  | 0, s => ([], s)
  | n + 1, s =>
    let before := askAll L ask n s
    let r := run L common (ask before.1) before.2
    (before.1 ++ [r.1], r.2)

/-- The stores show the same, except perhaps in the collection `d`. -/
def SameBut (T : TripsOps τ) (d : Str) (s t : τ) : Prop :=
  ∀ c, c ≠ d → (Listed T s c ↔ Listed T t c) ∧ T.triples s c = T.triples t c

end Spec
end Verif
