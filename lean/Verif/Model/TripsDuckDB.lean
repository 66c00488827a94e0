import Verif.Model.Trips
/-!
# Model of `trips/src/duckdb.rs`: the DuckDB-backed store

The three tables and the sequence of `duckdb.rs:24-43`, with the meaning of the SQL statements the code uses.
Not modelled: I/O errors, exhaustion of the sequence, other connections (the database is private, in memory).
A `SELECT` without `ORDER BY` is taken to return rows in insertion order; no theorem relies on that order.
-/
namespace Verif

/-- A row of table `trip` (`duckdb.rs:35-41`); a `SELECT` of a missing part is `NULL`. -/
structure TripRow where
  id : Nat
  coll : Nat
  fst : Option Nat
  snd : Option Nat
  thd : Option Nat
deriving DecidableEq, Repr

/-- `duckdb.rs:15-17` `struct TripsDuckDB`, the database behind the connection. -/
structure Duck where
  /-- next value of `seq` -/
  seq : Nat
  /-- table `part` (id, part) -/
  parts : List (Nat × Str)
  /-- table `collection` (id, name) -/
  colls : List (Nat × Str)
  /-- table `trip` -/
  trips : List TripRow
deriving DecidableEq, Repr

namespace Duck

/-- `duckdb.rs:21-46` `TripsDuckDB::new`. -/
def new : Duck := ⟨1, [], [], []⟩

/-- `select id from .. where text = ?` on a table with a unique text column. -/
def idOf (rows : List (Nat × Str)) (text : Str) : Option Nat := (rows.find? (fun r => r.2 = text)).map Prod.fst

/-- The joined text of an id column (`left join .. on x.id = trip.col`). -/
def textOf (rows : List (Nat × Str)) (id : Option Nat) : Option Str :=
  match id with
  | none => none
  | some i => (rows.find? (fun r => r.1 = i)).map Prod.snd

/-- `duckdb.rs:49-60` `fn get_collection_id`. -/
def getCollectionId (s : Duck) (c : Str) : Res Nat :=
  match idOf s.colls c with
  | some id => .ok id
  | none => .err (lit "Collection " ++ c ++ lit " not found.")

/-- `duckdb.rs:62-69` `fn add_part`: `insert .. on conflict do nothing` (the sequence advances anyway). -/
def addPart (s : Duck) (part : Str) : Duck :=
  match idOf s.parts part with
  | some _ => { s with seq := s.seq + 1 }
  | none => { s with seq := s.seq + 1, parts := s.parts ++ [(s.seq, part)] }

/-- `duckdb.rs:71-76` `fn add_trip`. -/
def addTrip (s : Duck) (cid : Nat) (t : Trip) : Duck :=
  { s with
    seq := s.seq + 1
    trips := s.trips ++ [⟨s.seq, cid, idOf s.parts t.fst, idOf s.parts t.snd, idOf s.parts t.thd⟩] }

/-- SQL `col = (select ..)`: true only if neither side is `NULL`. -/
def sqlEq (a b : Option Nat) : Bool :=
  match a, b with
  | some x, some y => x == y
  | _, _ => false

/-- `duckdb.rs:78-83` `fn remove_trip`. -/
def removeTrip (s : Duck) (cid : Nat) (t : Trip) : Duck :=
  { s with
    trips := s.trips.filter (fun r =>
      !(r.coll == cid && sqlEq r.fst (idOf s.parts t.fst) && sqlEq r.snd (idOf s.parts t.snd) &&
        sqlEq r.thd (idOf s.parts t.thd))) }

/-- `duckdb.rs:86-94` -/
def collections (s : Duck) : Res (List Str) := .ok (s.colls.map Prod.snd)

/-- `duckdb.rs:96-104`: a second row with the name violates `UNIQUE`, and the error is unwrapped. -/
def addCollection (s : Duck) (c : Str) : Res Unit × Duck :=
  match idOf s.colls c with
  | some _ => (.panic, s)
  | none => (.ok (), { s with seq := s.seq + 1, colls := s.colls ++ [(s.seq, c)] })

/-- `duckdb.rs:106-111`: deleting a row referenced from `trip` violates the foreign key, and the error is unwrapped. -/
def removeCollection (s : Duck) (c : Str) : Res Unit × Duck :=
  match idOf s.colls c with
  | none => (.ok (), s)
  | some id =>
    if s.trips.any (fun r => r.coll == id) then (.panic, s)
    else (.ok (), { s with colls := s.colls.filter (fun r => decide (r.2 ≠ c)) })

/-- The loop of `triples` (`duckdb.rs:113-139`) over the rows of `trip`: rows whose collection does not have the name are dropped
by the `where`; a `NULL` part makes `row.get(..).unwrap()` panic. -/
def triplesLoop (s : Duck) (c : Str) : List TripRow → BSet Trip → Res (BSet Trip)
  | [], results => .ok results
  | r :: rest, results =>
    if textOf s.colls (some r.coll) = some c then
      match textOf s.parts r.fst, textOf s.parts r.snd, textOf s.parts r.thd with
      | some f, some se, some t => triplesLoop s c rest (results.insert ⟨f, se, t⟩)
      | _, _, _ => .panic
    else triplesLoop s c rest results

/-- `duckdb.rs:113-139`; no such collection gives no rows. -/
def triples (s : Duck) (c : Str) : Res (BSet Trip) := triplesLoop s c s.trips ∅

/-- The body of the loop of `add_triples` (`duckdb.rs:148-153`). -/
def addOne (cid : Nat) (s : Duck) (t : Trip) : Duck :=
  addTrip (addPart (addPart (addPart s t.fst) t.snd) t.thd) cid t

/-- `duckdb.rs:141-156`: one transaction; `?` drops it, which rolls it back. -/
def addTriples (s : Duck) (c : Str) (trips : BSet Trip) : Res Unit × Duck × BSet Trip :=
  match getCollectionId s c with
  | .ok id => (.ok (), trips.toList.foldl (addOne id) s, trips)
  | .err m => (.err m, s, trips)
  | .panic => (.panic, s, trips)

/-- `duckdb.rs:158-170` -/
def removeTriples (s : Duck) (c : Str) (trips : BSet Trip) : Res Unit × Duck × BSet Trip :=
  match getCollectionId s c with
  | .ok id => (.ok (), trips.toList.foldl (fun s t => removeTrip s id t) s, trips)
  | .err m => (.err m, s, trips)
  | .panic => (.panic, s, trips)

/-- `duckdb.rs:172-174`: `todo!()`. -/
def filter (_s : Duck) (_c : Str) (_pattern : Query) : Res (BSet Trip) := .panic

/-- `impl Trips for TripsDuckDB` (`duckdb.rs:85-205`). -/
def ops : TripsOps Duck where
  collections := collections
  addCollection := addCollection
  removeCollection := removeCollection
  triples := triples
  addTriples := addTriples
  removeTriples := removeTriples
  filter := filter

end Duck
end Verif
