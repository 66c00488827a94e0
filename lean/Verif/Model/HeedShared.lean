import Verif.Spec.Heed
/-!
# Model of several `TripsHeed` handles on one LMDB environment

`TripsHeed::new` takes an `Env` (`heed.rs:17-19,35`), which can be shared by many handles, threads and processes.  Every operation is one
transaction: `add_collection`, `remove_collection`, `add_triples` and `remove_triples` open one write transaction (`heed.rs:73,131,238,397`), which
LMDB lets only one caller have at a time and whose writes nobody else sees before the commit; `collections` and `triples` open one read transaction
(`heed.rs:56,168`), which sees the environment as it was when the transaction began.  An operation here is identified by a number used once; the
operations of one thread follow each other.  Simplification: the private steps inside a transaction are one step (they have no effect on anybody
else); `query` and `match_query` are `todo!()` in the source and left out.
-/
namespace Verif
namespace Heed
open Spec

/-- A call of the `Trips` interface. -/
inductive Req where
  | update (op : Op)
  | collections
  | triples (c : Str)

/-- What a call returns. -/
inductive Ans where
  | done (r : Res Unit)
  | names (r : Res (List Str))
  | trips (r : Res (BSet Trip))

/-- Calls and returns, as seen from outside. -/
inductive Ev where
  | inv (i : Nat) (q : Req)
  | ret (i : Nat) (a : Ans)

/-- Where an operation is. -/
inductive Phase where
  /-- not called yet -/
  | fresh
  /-- called, no transaction yet -/
  | called (q : Req)
  /-- in its write transaction, which began on `snap` -/
  | writing (op : Op) (snap : Heed)
  /-- in its read transaction, which began on `snap` -/
  | reading (q : Req) (snap : Heed)
  /-- transaction over, answer not yet returned -/
  | ended (a : Ans)
  | returned
  /-- its thread or process has died -/
  | dead

/-- The environment and the operations on it. -/
structure Sys where
  durable : Heed
  /-- who holds the write lock -/
  owner : Option Nat
  phase : Nat → Phase

/-- Change where one operation is. -/
def Sys.put (s : Sys) (i : Nat) (p : Phase) : Nat → Phase := fun j => if j = i then p else s.phase j

/-- The answer of a read-only call (`heed.rs:54-70,167-231`). -/
def lookup (s : Heed) : Req → Ans
  | .update _ => .done .panic
  | .collections => .names (collections s)
  | .triples c => .trips (triples s c)

/-- No operation yet. -/
def Sys.start (d : Heed) : Sys := ⟨d, none, fun _ => .fresh⟩

/-- One step of the system, with the event it shows. -/
inductive Step : Sys → Option Ev → Sys → Prop where
  | call {s : Sys} (i : Nat) (q : Req) : s.phase i = .fresh → Step s (some (.inv i q)) { s with phase := s.put i (.called q) }
  | beginWrite {s : Sys} (i : Nat) (op : Op) : s.phase i = .called (.update op) → s.owner = none →
      Step s none ⟨s.durable, some i, s.put i (.writing op s.durable)⟩
  | endWrite {s : Sys} (i : Nat) (op : Op) (snap : Heed) (ok : Bool) : s.phase i = .writing op snap →
      Step s none ⟨(execTx ok snap op).2.durable, none, s.put i (.ended (.done (execTx ok snap op).1))⟩
  | beginRead {s : Sys} (i : Nat) (q : Req) : s.phase i = .called q → (∀ op, q ≠ .update op) →
      Step s none { s with phase := s.put i (.reading q s.durable) }
  | endRead {s : Sys} (i : Nat) (q : Req) (snap : Heed) : s.phase i = .reading q snap →
      Step s none { s with phase := s.put i (.ended (lookup snap q)) }
  | giveBack {s : Sys} (i : Nat) (a : Ans) : s.phase i = .ended a → Step s (some (.ret i a)) { s with phase := s.put i .returned }
  | die {s : Sys} (i : Nat) : s.phase i ≠ .fresh → s.phase i ≠ .returned →
      Step s none ⟨s.durable, if s.owner = some i then none else s.owner, s.put i .dead⟩

/-- Some schedule leads from `start d` to the system with these events, oldest first. -/
inductive Runs (d : Heed) : Sys → List Ev → Prop where
  | start : Runs d (Sys.start d) []
  | quiet {s t : Sys} {h : List Ev} : Runs d s h → Step s none t → Runs d t h
  | shown {s t : Sys} {h : List Ev} {e : Ev} : Runs d s h → Step s (some e) t → Runs d t (h ++ [e])

end Heed
end Verif
