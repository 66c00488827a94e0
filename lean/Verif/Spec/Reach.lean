import Verif.Spec.Sayable
/-!
# Specification of C101: what a session can turn a store into
-/
namespace Verif
namespace Spec
open Eval

/-- Some scripts, run one after the other on the store, make it show what the other store shows. -/
def Leads (T : TripsOps σ) (s : σ) (U : TripsOps τ) (u : τ) : Prop := ∃ scripts, SameView U u T (afterScripts (Graph.ops T) scripts s)

/-- One script that succeeds does. -/
def LeadsAtOnce (T : TripsOps σ) (s : σ) (U : TripsOps τ) (u : τ) : Prop :=
  ∃ script, (run (Graph.ops T) common script s).1 = .ok (.network ∅) ∧ SameView U u T (run (Graph.ops T) common script s).2

/-- With so many identifiers used, there are enough left for the contents of the store: one for each collection, three for each triple. -/
def RoomFor (used : Nat) (U : TripsOps τ) (u : τ) : Prop :=
  ∃ cs : List (Str × BSet Trip), U.collections u = .ok (cs.map Prod.fst) ∧ (∀ p ∈ cs, U.triples u p.1 = .ok p.2) ∧
    used + (cs.map fun p => 1 + 3 * p.2.toList.length).sum ≤ 2 ^ 64

end Spec
end Verif
