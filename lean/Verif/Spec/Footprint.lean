import Verif.Spec.Heed
import Verif.Model.TripsDuckDB
/-!
# Specification vocabulary: how much a store keeps

Everything is counted from outside: what the listing and the collections return before and after each operation, and which
operations were acknowledged.
-/
namespace Verif
namespace Spec

/-- How many collections the store lists. -/
def listedCount (T : TripsOps σ) (s : σ) : Nat :=
  match T.collections s with
  | .ok l => l.length
  | _ => 0

/-- How many triples the store returns for a collection (0 if it returns none). -/
def sizeIn (T : TripsOps σ) (s : σ) (c : Str) : Nat :=
  match T.triples s c with
  | .ok ts => ts.toList.length
  | _ => 0

/-- How many triples the store shows, over all the collections it lists. -/
def shown (T : TripsOps σ) (s : σ) : Nat :=
  match T.collections s with
  | .ok l => (l.map (sizeIn T s)).sum
  | _ => 0

/-- How many triples were in collections at the moment these were (with acknowledgement) removed. -/
def orphaned (T : TripsOps σ) : σ → List Op → Nat
  | _, [] => 0
  | s, op :: l =>
    (match op, (exec T s op).1 with
      | .removeCollection c, .ok _ => sizeIn T s c
      | _, _ => 0) + orphaned T (exec T s op).2 l

/-- The name is in the listing. -/
def listedB (T : TripsOps σ) (s : σ) (c : Str) : Bool :=
  match T.collections s with
  | .ok l => l.contains c
  | _ => false

/-- How many collections were created: acknowledged additions of a name that was not listed just before. -/
def created (T : TripsOps σ) : σ → List Op → Nat
  | _, [] => 0
  | s, op :: l =>
    (match op, (exec T s op).1 with
      | .addCollection c, .ok _ => if listedB T s c then 0 else 1
      | _, _ => 0) + created T (exec T s op).2 l

/-- The texts of the triples of the acknowledged additions of a history. -/
def storedTexts (h : List Event) : BSet Str :=
  BSet.ofList (h.flatMap fun e =>
    match e with
    | (.addTriples _ ts, .ok _) => ts.toList.flatMap tripTexts
    | _ => [])

end Spec

namespace Heed
open Spec

/-- How many records the eleven LMDB databases hold together. -/
def records (s : Heed) : Nat :=
  (if s.ctr.isSome then 1 else 0) + s.collToId.toList.length + s.idToColl.toList.length +
  s.valToId.toList.length + s.idToVal.toList.length +
  (s.cfst.toList.length + s.cfts.toList.length + s.csft.toList.length + s.cstf.toList.length + s.ctfs.toList.length +
    s.ctsf.toList.length)

/-- The names an operation creates and the texts it stores have 1 to 511 bytes, as LMDB requires of keys. -/
def LegalIn : Op → Prop
  | .addCollection c => lmdbKey c = true
  | .addTriples _ ts => ∀ t ∈ ts, ∀ v ∈ tripTexts t, lmdbKey v = true
  | _ => True

end Heed
end Verif

namespace Verif
namespace Spec

/-- Create a collection, fill it, remove it: `n` times. -/
def churn (n : Nat) (c : Str) (ts : BSet Trip) : List Op :=
  (List.replicate n [Op.addCollection c, .addTriples c ts, .removeCollection c]).flatten

/-- The log of a history: every acknowledged addition appends one line per triple of its batch, whether or not the collection has that
triple already; every acknowledged removal of a triple strikes out all its lines. -/
def linesAfter (h : List Event) : List (Str × Trip) :=
  h.foldl (fun log e =>
    match e with
    | (.addTriples c ts, .ok _) => log ++ ts.toList.map fun t => (c, t)
    | (.removeTriples c ts, .ok _) => log.filter fun p => decide (¬ (p.1 = c ∧ p.2 ∈ ts))
    | _ => log) []

end Spec

namespace Duck

/-- What a row of table `trip` says: the name of its collection and its triple. -/
def says (s : Duck) (r : TripRow) : Option (Str × Trip) :=
  match textOf s.colls (some r.coll), textOf s.parts r.fst, textOf s.parts r.snd, textOf s.parts r.thd with
  | some c, some f, some se, some t => some (c, ⟨f, se, t⟩)
  | _, _, _, _ => none

end Duck
end Verif
