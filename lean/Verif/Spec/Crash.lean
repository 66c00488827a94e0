import Verif.Spec.Effects
import Verif.Spec.Heed
import Verif.Model.LigatureGraph
/-!
# Specification vocabulary: the end of the process while a script runs on the LMDB-backed store
-/
namespace Verif
namespace Spec
open Eval

/-- The transaction of an update on the store, and the list of stored states at each moment of it put behind those seen so far. -/
def watch (s : Heed × List Heed) (op : Op) : Res Unit × Heed × List Heed :=
  ((Heed.execTx true s.1 op).1, (Heed.execTx true s.1 op).2.durable, s.2 ++ (Heed.execTx true s.1 op).2.seen)

/-- The LMDB-backed store, with a record of what is stored at each moment of each of its transactions: these are the states that can be
found if the process ends then and the environment is opened again. -/
def watched : TripsOps (Heed × List Heed) where
  collections s := Heed.ops.collections s.1
  triples s c := Heed.ops.triples s.1 c
  filter s c q := Heed.ops.filter s.1 c q
  addCollection s c := let r := watch s (.addCollection c); (r.1, r.2)
  removeCollection s c := let r := watch s (.removeCollection c); (r.1, r.2)
  addTriples s c ts := let r := watch s (.addTriples c ts); (r.1, r.2, ts)
  removeTriples s c ts := let r := watch s (.removeTriples c ts); (r.1, r.2, ts)

/-- What can be found if the process ends while these calls run on a graph over the LMDB-backed store with stored state `s`. -/
def crashStates (calls : List Call) (s : Heed) : List Heed := (runCalls (Graph.ops watched) common calls (s, [])).2.2

/-- Every collection is still there, with all its triples. -/
def KeepsAll (s d : Heed) : Prop :=
  ∀ c ts, Heed.ops.triples s c = .ok ts → ∃ ts', Heed.ops.triples d c = .ok ts' ∧ ∀ t ∈ ts, t ∈ ts'

/-- The script `let name network, …`. -/
def letCalls (ws : List (Element × Network)) : List Call := ws.map fun w => call "let" [.element w.1, .network w.2]

/-- Identifiers that many lets use at most. -/
def letsCost (ws : List (Element × Network)) : Nat := (ws.map fun w => 1 + 3 * w.2.toList.length).sum

end Spec
end Verif
