import Verif.Spec.Footprint
import Verif.Spec.Provenance
import Verif.Spec.Apps
import Verif.Spec.Sayable
/-!
# Specification of C99: how much scripts can add to a store

Counted from outside, by the number of characters of the scripts.
-/
namespace Verif
namespace Spec
open Eval

/-- From `s` to `s'`, text of `n` characters added at most `K` collections to the listing, and made no collection larger than the number of
different entries there were before in all collections together (the entries of `known`) plus `D` plus the 9 entries `docs` returns, where
each of the `K` names took two characters and each of the `D` entries four. -/
def GrewBy (T : TripsOps σ) (s s' : σ) (n : Nat) : Prop :=
  ∃ K D, 2 * K + 4 * D ≤ n ∧ listedCount T s' ≤ listedCount T s + K ∧
    ∀ known : Network, (∀ e, HeldIn (Graph.ops T) s e → e ∈ known) → ∀ c, sizeIn T s' c ≤ known.toList.length + D + 9

/-- The number of characters of all the scripts. -/
def totalLength (scripts : List Str) : Nat := (scripts.map List.length).sum

end Spec
end Verif
