import Verif.Spec.Crash
import Verif.Spec.HeedFull
/-!
# Specification vocabulary: scripts on an LMDB-backed store that runs out of room, or whose commits fail
-/
namespace Verif
namespace Spec
open Eval

/-- What goes wrong in one update: whether its commit succeeds, and how many of its writes find room (`none`: all). -/
abbrev Fault := Bool × Option Nat

/-- Nothing goes wrong. -/
def noFault : Fault := (true, none)

/-- An LMDB-backed store with the faults of the coming updates (nothing goes wrong in those beyond the list), and a record of what is stored
at each moment of the updates so far. -/
structure Faulty where
  stored : Heed
  faults : List Fault
  seen : List Heed

/-- One update, with the next of the faults. -/
def Faulty.update (s : Faulty) (op : Op) : Res Unit × Faulty :=
  let f := s.faults.headD noFault
  let r := Heed.execFull f.1 f.2 s.stored op
  (r.1, ⟨r.2.tx.durable, s.faults.tail, s.seen ++ r.2.tx.seen⟩)

/-- The store operations. -/
def faultyOps : TripsOps Faulty where
  collections s := Heed.ops.collections s.stored
  triples s c := Heed.ops.triples s.stored c
  filter s c q := Heed.ops.filter s.stored c q
  addCollection s c := s.update (.addCollection c)
  removeCollection s c := s.update (.removeCollection c)
  addTriples s c ts := let r := s.update (.addTriples c ts); (r.1, r.2, ts)
  removeTriples s c ts := let r := s.update (.removeTriples c ts); (r.1, r.2, ts)

/-- The calls run on a graph over the store with stored state `s`, with these faults. -/
def runFaulty (calls : List Call) (s : Heed) (faults : List Fault) : Res Value × Faulty :=
  runCalls (Graph.ops faultyOps) common calls ⟨s, faults, []⟩

/-- What can be found if the process ends at some moment of such a run, or after it. -/
def FoundAfter (calls : List Call) (s : Heed) (faults : List Fault) (d : Heed) : Prop :=
  d ∈ (runFaulty calls s faults).2.seen ∨ d = (runFaulty calls s faults).2.stored

/-- The two store operations of each let. -/
def letOps (ws : List (Element × Network)) : List Op :=
  ws.flatMap fun w => [.addCollection w.1.text, .addTriples w.1.text (w.2.map Graph.entryToTrip)]

end Spec
end Verif
