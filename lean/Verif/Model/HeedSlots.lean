import Verif.Model.TripsHeed
/-!
# Model of `trips/src/heed.rs` over an environment with too few database slots

The host application opens the LMDB environment and says how many named databases it may have (`EnvOpenOptions::max_dbs`, see
`trips/tests/tests.rs:22`); `TripsHeed::new` (`heed.rs:35-50`) creates eleven and discards the results.  LMDB hands out slots in the order of
creation and refuses further databases without harming the transaction, so with `n` slots the first `n` of the eleven are available.
Opening another one later errs (`open_database(..).unwrap()` panics; in `triples` lines 190-193 and 222 the error is `todo!()`).
The same functions as in `Model/TripsHeed` with that check at each `open_database`.  What an earlier process with more slots stored stays stored.
-/
namespace Verif
namespace Heed

/-- The databases in the order of creation (`heed.rs:37-47`). -/
inductive Db where
  | ids | collToId | idToColl | valToId | idToVal | cfst | cfts | csft | cstf | ctfs | ctsf
deriving DecidableEq, Repr

/-- How many databases are created before this one (`heed.rs:37-47`). -/
def Db.index : Db → Nat
  | .ids => 0 | .collToId => 1 | .idToColl => 2 | .valToId => 3 | .idToVal => 4
  | .cfst => 5 | .cfts => 6 | .csft => 7 | .cstf => 8 | .ctfs => 9 | .ctsf => 10

/-- `env.open_database(&tx, name)` with `n` slots finds the database. -/
def opens (n : Nat) (db : Db) : Bool := db.index < n

/-- `heed.rs:54-70` -/
def collectionsN (n : Nat) (s : Heed) : Res (List Str) := if opens n .collToId then collections s else .panic

/-- `heed.rs:72-128` -/
def addCollectionN (n : Nat) (ok : Bool) (s : Heed) (c : Str) : Res Unit × Tx :=
  let tx := Tx.begin s
  if opens n .collToId then                                                        -- lines 74-78
    match getStr tx.work.collToId c with
    | some _ => (.ok (), tx)
    | none =>
      if opens n .ids then                                                         -- lines 87-91
        let next : Option (Nat × Tx) :=
          match tx.work.ctr with
          | some v =>
            match inc v with
            | some id => some (id, tx.write (fun w => { w with ctr := some id }))
            | none => none
          | none => some (0, tx.write (fun w => { w with ctr := some 0 }))
        match next with
        | none => (.panic, tx)
        | some (id, tx) =>
          if opens n .collToId then                                                -- lines 106-110
            let tx := tx.write (fun w => { w with collToId := putStr w.collToId c id })
            if opens n .idToColl then                                              -- lines 116-120
              let tx := tx.write (fun w => { w with idToColl := w.idToColl.insert id c })
              (.ok (), tx.commit ok)
            else (.panic, tx)
          else (.panic, tx)
      else (.panic, tx)
  else (.panic, tx)

/-- `heed.rs:130-165` -/
def removeCollectionN (n : Nat) (ok : Bool) (s : Heed) (c : Str) : Res Unit × Tx :=
  let tx := Tx.begin s
  if opens n .collToId then                                                        -- lines 132-136
    match getStr tx.work.collToId c with
    | none => (.panic, tx)
    | some id =>
      if opens n .collToId then                                                    -- lines 143-147
        let tx := tx.write (fun w => { w with collToId := w.collToId.erase c })
        if opens n .idToColl then                                                  -- lines 153-157
          let tx := tx.write (fun w => { w with idToColl := w.idToColl.erase id })
          (.ok (), tx.commit ok)
        else (.panic, tx)
      else (.panic, tx)
  else (.panic, tx)

/-- The loop of `triples` (`heed.rs:183-226`); `id_to_value` is opened for every triple of the collection (lines 192-195). -/
def triplesLoopN (n : Nat) (s : Heed) (cid : Nat) : List (List UInt8) → BSet Trip → Res (BSet Trip)
  | [], results => .ok results
  | entry :: rest, results =>
    let eid := readId (entry.take 8)
    let fid := readId ((entry.drop 8).take 8)
    let sid := readId ((entry.drop 16).take 8)
    let tid := readId ((entry.drop 24).take 8)
    if cid = eid then
      if opens n .idToVal then
        match s.idToVal.get? fid, s.idToVal.get? sid, s.idToVal.get? tid with
        | some f, some se, some t => triplesLoopN n s cid rest (results.insert ⟨f, se, t⟩)
        | _, _, _ => .panic
      else .panic
    else triplesLoopN n s cid rest results

/-- `heed.rs:167-231` -/
def triplesN (n : Nat) (s : Heed) (c : Str) : Res (BSet Trip) :=
  if opens n .collToId then                                                        -- lines 170-174
    match getStr s.collToId c with
    | none => .panic
    | some cid => if opens n .cfst then triplesLoopN n s cid s.cfst.toList ∅ else .panic   -- line 182
  else .panic

/-- `heed.rs:268-285` (and `286-303`, `304-321`): `id_to_value` is opened only for an unknown value (lines 271-275); `none` is a panic. -/
def valueIdN (n : Nat) (v : Str) (st : Tx × Nat) : Option Nat × Tx × Nat :=
  match getStr st.1.work.valToId v with
  | some id => (some id, st)
  | none =>
    if opens n .idToVal then
      match inc st.2 with
      | none => (none, st)
      | some vid =>
        let tx := st.1.write (fun w => { w with valToId := putStr w.valToId v vid })
        let tx := tx.write (fun w => { w with idToVal := w.idToVal.insert vid v })
        (some vid, tx, vid)
    else (none, st)

/-- One `put` into, or `delete` from, an index (`heed.rs:351-356` and the like); `false` is a panic. -/
def indexN (n : Nat) (db : Db) (f : Heed → Heed) (r : Bool × Tx) : Bool × Tx :=
  match r with
  | (false, tx) => (false, tx)
  | (true, tx) => if opens n db then (true, tx.write f) else (false, tx)

/-- `heed.rs:339-386`: the six `put`s of one triple. -/
def putIndexesN (n : Nat) (c f s t : Nat) (tx : Tx) : Bool × Tx :=
  let cb := beBytes c
  let fb := beBytes f
  let sb := beBytes s
  let tb := beBytes t
  let r := indexN n .cfst (fun w => { w with cfst := w.cfst.insert (mergeArrays cb fb sb tb) }) (true, tx)
  let r := indexN n .cfts (fun w => { w with cfts := w.cfts.insert (mergeArrays cb fb tb sb) }) r
  let r := indexN n .csft (fun w => { w with csft := w.csft.insert (mergeArrays cb sb fb tb) }) r
  let r := indexN n .cstf (fun w => { w with cstf := w.cstf.insert (mergeArrays cb sb tb fb) }) r
  let r := indexN n .ctfs (fun w => { w with ctfs := w.ctfs.insert (mergeArrays cb tb fb sb) }) r
  indexN n .ctsf (fun w => { w with ctsf := w.ctsf.insert (mergeArrays cb tb sb fb) }) r

/-- The body of the loop of `add_triples` for one triple (`heed.rs:262-386`); `false` is a panic. -/
def addTripN (n : Nat) (cid : Nat) (trip : Trip) (st : Tx × Nat) : Bool × Tx × Nat :=
  if opens n .valToId then                                                         -- lines 262-266
    match valueIdN n trip.fst st with
    | (none, st) => (false, st)
    | (some fid, st) =>
      match valueIdN n trip.snd st with
      | (none, st) => (false, st)
      | (some sid, st) =>
        match valueIdN n trip.thd st with
        | (none, st) => (false, st)
        | (some tid, tx, vid) =>
          if opens n .ids then                                                     -- lines 327-331
            let tx := tx.write (fun w => { w with ctr := some vid })
            match putIndexesN n cid fid sid tid tx with
            | (false, tx) => (false, tx, vid)
            | (true, tx) => (true, tx, vid)
          else (false, tx, vid)
  else (false, st)

/-- The loop of `add_triples` (`heed.rs:261-387`); `false` is a panic. -/
def addTripsLoopN (n : Nat) (cid : Nat) : List Trip → Tx × Nat → Bool × Tx × Nat
  | [], st => (true, st)
  | trip :: rest, st =>
    match addTripN n cid trip st with
    | (false, st) => (false, st)
    | (true, st) => addTripsLoopN n cid rest st

/-- `heed.rs:233-390` -/
def addTriplesN (n : Nat) (ok : Bool) (s : Heed) (c : Str) (trips : BSet Trip) : Res Unit × Tx :=
  let tx := Tx.begin s
  if opens n .collToId then                                                        -- lines 239-243
    match getStr tx.work.collToId c with
    | none => (.panic, tx)
    | some cid =>
      if opens n .ids then                                                         -- lines 250-254
        match tx.work.ctr with
        | none => (.panic, tx)
        | some vid =>
          match addTripsLoopN n cid trips.toList (tx, vid) with
          | (false, tx, _) => (.panic, tx)
          | (true, tx, _) => (.ok (), tx.commit ok)
      else (.panic, tx)
  else (.panic, tx)

/-- `heed.rs:430-477`: the six `delete`s of one triple. -/
def delIndexesN (n : Nat) (c f s t : Nat) (tx : Tx) : Bool × Tx :=
  let cb := beBytes c
  let fb := beBytes f
  let sb := beBytes s
  let tb := beBytes t
  let r := indexN n .cfst (fun w => { w with cfst := w.cfst.erase (mergeArrays cb fb sb tb) }) (true, tx)
  let r := indexN n .cfts (fun w => { w with cfts := w.cfts.erase (mergeArrays cb fb tb sb) }) r
  let r := indexN n .csft (fun w => { w with csft := w.csft.erase (mergeArrays cb sb fb tb) }) r
  let r := indexN n .cstf (fun w => { w with cstf := w.cstf.erase (mergeArrays cb sb tb fb) }) r
  let r := indexN n .ctfs (fun w => { w with ctfs := w.ctfs.erase (mergeArrays cb tb fb sb) }) r
  indexN n .ctsf (fun w => { w with ctsf := w.ctsf.erase (mergeArrays cb tb sb fb) }) r

/-- The loop of `remove_triples` (`heed.rs:416-478`); `false` is a panic. -/
def removeTripsLoopN (n : Nat) (cid : Nat) : List Trip → Tx → Bool × Tx
  | [], tx => (true, tx)
  | trip :: rest, tx =>
    match getStr tx.work.valToId trip.fst, getStr tx.work.valToId trip.snd, getStr tx.work.valToId trip.thd with
    | some fid, some sid, some tid =>
      match delIndexesN n cid fid sid tid tx with
      | (false, tx) => (false, tx)
      | (true, tx) => removeTripsLoopN n cid rest tx
    | _, _, _ => (false, tx)

/-- `heed.rs:392-484`; `value_to_id` is opened before the loop (lines 410-414). -/
def removeTriplesN (n : Nat) (ok : Bool) (s : Heed) (c : Str) (trips : BSet Trip) : Res Unit × Tx :=
  let tx := Tx.begin s
  if opens n .collToId then                                                        -- lines 399-403
    match getStr tx.work.collToId c with
    | none => (.panic, tx)
    | some cid =>
      if opens n .valToId then
        match removeTripsLoopN n cid trips.toList tx with
        | (false, tx) => (.panic, tx)
        | (true, tx) => (.ok (), tx.commit ok)
      else (.panic, tx)
  else (.panic, tx)

/-- `impl Trips for TripsHeed` (`heed.rs:53-605`) with `n` slots, when commits succeed as `ok` says. -/
def opsSlots (n : Nat) (ok : Bool) : TripsOps Heed where
  collections := collectionsN n
  addCollection s c := let (r, tx) := addCollectionN n ok s c; (r, tx.durable)
  removeCollection s c := let (r, tx) := removeCollectionN n ok s c; (r, tx.durable)
  triples := triplesN n
  addTriples s c trips := let (r, tx) := addTriplesN n ok s c trips; (r, tx.durable, trips)
  removeTriples s c trips := let (r, tx) := removeTriplesN n ok s c trips; (r, tx.durable, trips)
  filter := filter

end Heed
end Verif
