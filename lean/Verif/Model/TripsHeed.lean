import Verif.Model.Trips
/-!
# Model of `trips/src/heed.rs`: the LMDB-backed store

An LMDB environment is modelled by the contents of its eleven named databases.  All effects of an operation happen in one
write transaction: `Tx` carries the durable contents, the transaction's private working copy, and the list of durable contents
seen after each single write (the crash points).  A panic drops the transaction, i.e. aborts it.

Not modelled here: the size limit of the memory map (see `Model/TripsHeedFull`), I/O errors other than a failing commit, several users of one
environment (see `Model/HeedShared`), the `println!` of `triples`.
-/
namespace Verif

/-- Contents of the databases created by `TripsHeed::new` (`heed.rs:21-31,35-50`). -/
structure Heed where
  /-- `ids`: the value under the only key `"id"` -/
  ctr : Option Nat
  /-- `collection_to_id` -/
  collToId : BMap Str Nat
  /-- `id_to_collection` -/
  idToColl : BMap Nat Str
  /-- `value_to_id` -/
  valToId : BMap Str Nat
  /-- `id_to_value` -/
  idToVal : BMap Nat Str
  /-- the six index databases, keys of 32 bytes -/
  cfst : BSet (List UInt8)
  cfts : BSet (List UInt8)
  csft : BSet (List UInt8)
  cstf : BSet (List UInt8)
  ctfs : BSet (List UInt8)
  ctsf : BSet (List UInt8)
deriving DecidableEq

namespace Heed

/-- `heed.rs:35-50` `TripsHeed::new` on an empty environment. -/
def new : Heed := ⟨none, ∅, ∅, ∅, ∅, ∅, ∅, ∅, ∅, ∅, ∅⟩

/-- Number of bytes of the UTF-8 encoding of a character. -/
def utf8Len (c : Char) : Nat :=
  if c.toNat < 0x80 then 1 else if c.toNat < 0x800 then 2 else if c.toNat < 0x10000 then 3 else 4

/-- LMDB accepts keys of 1 to 511 bytes; `put` of another key fails (and `heed.rs` discards the result),
`get` of another key is reported as an error or as absent (both fall into the `_` branches of `heed.rs`). -/
def legalKey (k : Str) : Bool :=
  let n := (k.map utf8Len).sum
  1 ≤ n && n ≤ 511

/-- `Database<Str, U64>::get`. -/
def getStr (db : BMap Str Nat) (k : Str) : Option Nat := if legalKey k then db.get? k else none

/-- `Database<Str, U64>::put` with its result discarded. -/
def putStr (db : BMap Str Nat) (k : Str) (v : Nat) : BMap Str Nat := if legalKey k then db.insert k v else db

/-- `u64::to_be_bytes`. -/
def beBytes (n : Nat) : List UInt8 :=
  [UInt8.ofNat (n / 256 ^ 7), UInt8.ofNat (n / 256 ^ 6), UInt8.ofNat (n / 256 ^ 5), UInt8.ofNat (n / 256 ^ 4),
   UInt8.ofNat (n / 256 ^ 3), UInt8.ofNat (n / 256 ^ 2), UInt8.ofNat (n / 256), UInt8.ofNat n]

/-- `heed.rs:621-629` `fn read_id`: copy into an array of eight zero bytes, then `u64::from_be_bytes`. -/
def readId (encoded : List UInt8) : Nat :=
  ((encoded ++ List.replicate 8 0).take 8).foldl (fun (acc : Nat) (b : UInt8) => acc * 256 + b.toNat) 0

/-- `heed.rs:631-651` `fn merge_arrays`. -/
def mergeArrays (a b c d : List UInt8) : List UInt8 := a ++ b ++ c ++ d

/-- One write transaction in progress. -/
structure Tx where
  /-- what is stored if the process stops now -/
  durable : Heed
  /-- what the transaction reads -/
  work : Heed
  /-- durable contents after each step so far, newest first -/
  seen : List Heed

namespace Tx
/-- `env.write_txn().unwrap()` (`heed.rs:73,131,238,397`). -/
def begin (s : Heed) : Tx := ⟨s, s, [s]⟩
/-- One `put` or `delete`. -/
def write (f : Heed → Heed) (t : Tx) : Tx := ⟨t.durable, f t.work, t.durable :: t.seen⟩
/-- `tx.commit()`; its result is discarded by `heed.rs`, `ok = false` is a failed commit. -/
def commit (ok : Bool) (t : Tx) : Tx :=
  let d := if ok then t.work else t.durable
  ⟨d, t.work, d :: t.seen⟩
end Tx

/-- `u64` addition; `none` is the overflow panic of a debug build. -/
def inc (n : Nat) : Option Nat := if n + 1 < 2 ^ 64 then some (n + 1) else none

/-- `heed.rs:54-70`: the keys of `collection_to_id` in key order. -/
def collections (s : Heed) : Res (List Str) := .ok s.collToId.keys

/-- `heed.rs:72-128` -/
def addCollectionTx (ok : Bool) (s : Heed) (c : Str) : Res Unit × Tx :=
  let tx := Tx.begin s
  match getStr tx.work.collToId c with
  | some _ => (.ok (), tx)                                                        -- lines 80-82: return without commit
  | none =>
    let next : Option (Nat × Tx) :=                                               -- lines 87-105
      match tx.work.ctr with
      | some v =>
        match inc v with
        | some id => some (id, tx.write (fun w => { w with ctr := some id }))
        | none => none
      | none => some (0, tx.write (fun w => { w with ctr := some 0 }))
    match next with
    | none => (.panic, tx)
    | some (id, tx) =>
      let tx := tx.write (fun w => { w with collToId := putStr w.collToId c id }) -- lines 106-115
      let tx := tx.write (fun w => { w with idToColl := w.idToColl.insert id c }) -- lines 116-125
      (.ok (), tx.commit ok)

/-- `heed.rs:130-165` -/
def removeCollectionTx (ok : Bool) (s : Heed) (c : Str) : Res Unit × Tx :=
  let tx := Tx.begin s
  match getStr tx.work.collToId c with
  | none => (.panic, tx)                                                          -- line 139: todo!()
  | some id =>
    let tx := tx.write (fun w => { w with collToId := w.collToId.erase c })       -- lines 143-152
    let tx := tx.write (fun w => { w with idToColl := w.idToColl.erase id })      -- lines 153-162
    (.ok (), tx.commit ok)

/-- The loop of `triples` (`heed.rs:183-226`) over the keys of `cfst`; a value missing from `id_to_value` is `todo!()`. -/
def triplesLoop (s : Heed) (cid : Nat) : List (List UInt8) → BSet Trip → Res (BSet Trip)
  | [], results => .ok results
  | entry :: rest, results =>
    let eid := readId (entry.take 8)
    let fid := readId ((entry.drop 8).take 8)
    let sid := readId ((entry.drop 16).take 8)
    let tid := readId ((entry.drop 24).take 8)
    if cid = eid then
      match s.idToVal.get? fid, s.idToVal.get? sid, s.idToVal.get? tid with
      | some f, some se, some t => triplesLoop s cid rest (results.insert ⟨f, se, t⟩)
      | _, _, _ => .panic
    else triplesLoop s cid rest results

/-- `heed.rs:167-231` (read transaction) -/
def triples (s : Heed) (c : Str) : Res (BSet Trip) :=
  match getStr s.collToId c with
  | none => .panic
  | some cid => triplesLoop s cid s.cfst.toList ∅

/-- `heed.rs:268-285` (and `286-303`, `304-321`): the id of a value, allocating a new one if it is unknown.
State: the transaction and the variable `value_id`; `none` is the overflow panic. -/
def valueId (v : Str) (st : Tx × Nat) : Option Nat × Tx × Nat :=
  match getStr st.1.work.valToId v with
  | some id => (some id, st)
  | none =>
    match inc st.2 with
    | none => (none, st)
    | some vid =>
      let tx := st.1.write (fun w => { w with valToId := putStr w.valToId v vid })
      let tx := tx.write (fun w => { w with idToVal := w.idToVal.insert vid v })
      (some vid, tx, vid)

/-- `heed.rs:339-386`: the six `put`s of one triple. -/
def putIndexes (c f s t : Nat) (tx : Tx) : Tx :=
  let cb := beBytes c
  let fb := beBytes f
  let sb := beBytes s
  let tb := beBytes t
  let tx := tx.write (fun w => { w with cfst := w.cfst.insert (mergeArrays cb fb sb tb) })
  let tx := tx.write (fun w => { w with cfts := w.cfts.insert (mergeArrays cb fb tb sb) })
  let tx := tx.write (fun w => { w with csft := w.csft.insert (mergeArrays cb sb fb tb) })
  let tx := tx.write (fun w => { w with cstf := w.cstf.insert (mergeArrays cb sb tb fb) })
  let tx := tx.write (fun w => { w with ctfs := w.ctfs.insert (mergeArrays cb tb fb sb) })
  tx.write (fun w => { w with ctsf := w.ctsf.insert (mergeArrays cb tb sb fb) })

/-- The body of the loop of `add_triples` for one triple (`heed.rs:262-386`); `false` is a panic. -/
def addTrip (cid : Nat) (trip : Trip) (st : Tx × Nat) : Bool × Tx × Nat :=
  match valueId trip.fst st with
  | (none, st) => (false, st)
  | (some fid, st) =>
    match valueId trip.snd st with
    | (none, st) => (false, st)
    | (some sid, st) =>
      match valueId trip.thd st with
      | (none, st) => (false, st)
      | (some tid, tx, vid) =>
        let tx := tx.write (fun w => { w with ctr := some vid })                  -- lines 327-337
        (true, putIndexes cid fid sid tid tx, vid)

/-- The loop of `add_triples` (`heed.rs:261-387`); `false` is a panic. -/
def addTripsLoop (cid : Nat) : List Trip → Tx × Nat → Bool × Tx × Nat
  | [], st => (true, st)
  | trip :: rest, st =>
    match addTrip cid trip st with
    | (false, st) => (false, st)
    | (true, st) => addTripsLoop cid rest st

/-- `heed.rs:233-390`; the argument set is only iterated. -/
def addTriplesTx (ok : Bool) (s : Heed) (c : Str) (trips : BSet Trip) : Res Unit × Tx :=
  let tx := Tx.begin s
  match getStr tx.work.collToId c with
  | none => (.panic, tx)                                                          -- line 246
  | some cid =>
    match tx.work.ctr with
    | none => (.panic, tx)                                                        -- line 257
    | some vid =>
      match addTripsLoop cid trips.toList (tx, vid) with
      | (false, tx, _) => (.panic, tx)
      | (true, tx, _) => (.ok (), tx.commit ok)                                   -- lines 388-389

/-- `heed.rs:430-477`: the six `delete`s of one triple. -/
def delIndexes (c f s t : Nat) (tx : Tx) : Tx :=
  let cb := beBytes c
  let fb := beBytes f
  let sb := beBytes s
  let tb := beBytes t
  let tx := tx.write (fun w => { w with cfst := w.cfst.erase (mergeArrays cb fb sb tb) })
  let tx := tx.write (fun w => { w with cfts := w.cfts.erase (mergeArrays cb fb tb sb) })
  let tx := tx.write (fun w => { w with csft := w.csft.erase (mergeArrays cb sb fb tb) })
  let tx := tx.write (fun w => { w with cstf := w.cstf.erase (mergeArrays cb sb tb fb) })
  let tx := tx.write (fun w => { w with ctfs := w.ctfs.erase (mergeArrays cb tb fb sb) })
  tx.write (fun w => { w with ctsf := w.ctsf.erase (mergeArrays cb tb sb fb) })

/-- The loop of `remove_triples` (`heed.rs:416-478`); an unknown value is `todo!()`, reported as `false`. -/
def removeTripsLoop (cid : Nat) : List Trip → Tx → Bool × Tx
  | [], tx => (true, tx)
  | trip :: rest, tx =>
    match getStr tx.work.valToId trip.fst, getStr tx.work.valToId trip.snd, getStr tx.work.valToId trip.thd with
    | some fid, some sid, some tid => removeTripsLoop cid rest (delIndexes cid fid sid tid tx)
    | _, _, _ => (false, tx)

/-- `heed.rs:392-484` -/
def removeTriplesTx (ok : Bool) (s : Heed) (c : Str) (trips : BSet Trip) : Res Unit × Tx :=
  let tx := Tx.begin s
  match getStr tx.work.collToId c with
  | none => (.panic, tx)
  | some cid =>
    match removeTripsLoop cid trips.toList tx with
    | (false, tx) => (.panic, tx)
    | (true, tx) => (.ok (), tx.commit ok)

/-- `heed.rs:486-487`: `todo!()`. -/
def filter (_s : Heed) (_c : Str) (_pattern : Query) : Res (BSet Trip) := .panic

/-- `impl Trips for TripsHeed` (`heed.rs:53-605`) when commits succeed as `ok` says. -/
def opsWith (ok : Bool) : TripsOps Heed where
  collections := collections
  addCollection s c := let (r, tx) := addCollectionTx ok s c; (r, tx.durable)
  removeCollection s c := let (r, tx) := removeCollectionTx ok s c; (r, tx.durable)
  triples := triples
  addTriples s c trips := let (r, tx) := addTriplesTx ok s c trips; (r, tx.durable, trips)
  removeTriples s c trips := let (r, tx) := removeTriplesTx ok s c trips; (r, tx.durable, trips)
  filter := filter

/-- `impl Trips for TripsHeed` with successful commits. -/
def ops : TripsOps Heed := opsWith true

end Heed
end Verif
