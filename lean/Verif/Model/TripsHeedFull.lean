import Verif.Model.TripsHeed
/-!
# Model of `trips/src/heed.rs` when the memory map runs full

The same functions as in `Model/TripsHeed`, in a transaction in which a `put` or `delete` may find no room.  LMDB then marks the
transaction as failed: the results of `put` and `delete` are discarded by `heed.rs`, every later `get`, `put` and `delete` in the
transaction errs, `open_database(..)` errs (and `heed.rs` unwraps it, a panic), and `commit` errs and stores nothing (its result is
discarded too).  `left` says how many more writes find room.  Simplification: a `put` whose key LMDB refuses also counts as a write.
-/
namespace Verif
namespace Heed

/-- A write transaction with a limit. -/
structure FTx where
  tx : Tx
  /-- writes that still find room (`none`: no limit) -/
  left : Option Nat
  /-- a write has failed -/
  bad : Bool

namespace FTx
/-- `env.write_txn().unwrap()` (`heed.rs:73,131,238,397`). -/
def begin (left : Option Nat) (s : Heed) : FTx := ⟨Tx.begin s, left, false⟩
/-- One `put` or `delete`, its result discarded. -/
def write (f : Heed → Heed) (t : FTx) : FTx :=
  if t.bad then t
  else
    match t.left with
    | none => ⟨t.tx.write f, none, false⟩
    | some 0 => ⟨t.tx, some 0, true⟩
    | some (n + 1) => ⟨t.tx.write f, some n, false⟩
/-- `tx.commit()`, its result discarded. -/
def commit (ok : Bool) (t : FTx) : FTx := ⟨t.tx.commit (ok && !t.bad), t.left, t.bad⟩
/-- `Database<Str, U64>::get` inside the transaction. -/
def get (db : Heed → BMap Str Nat) (t : FTx) (k : Str) : Option Nat := if t.bad then none else getStr (db t.tx.work) k
end FTx

/-- `heed.rs:72-128`; `if t.bad` is the unwrapped `open_database` of lines 106-109 and 116-119. -/
def addCollectionF (ok : Bool) (left : Option Nat) (s : Heed) (c : Str) : Res Unit × FTx :=
  let t := FTx.begin left s
  match t.get collToId c with
  | some _ => (.ok (), t)
  | none =>
    let next : Option (Nat × FTx) :=
      match t.tx.work.ctr with
      | some v =>
        match inc v with
        | some id => some (id, t.write (fun w => { w with ctr := some id }))
        | none => none
      | none => some (0, t.write (fun w => { w with ctr := some 0 }))
    match next with
    | none => (.panic, t)
    | some (id, t) =>
      if t.bad then (.panic, t)
      else
        let t := t.write (fun w => { w with collToId := putStr w.collToId c id })
        if t.bad then (.panic, t)
        else
          let t := t.write (fun w => { w with idToColl := w.idToColl.insert id c })
          (.ok (), t.commit ok)

/-- `heed.rs:130-165`; `if t.bad` is the unwrapped `open_database` of lines 153-156. -/
def removeCollectionF (ok : Bool) (left : Option Nat) (s : Heed) (c : Str) : Res Unit × FTx :=
  let t := FTx.begin left s
  match t.get collToId c with
  | none => (.panic, t)
  | some id =>
    let t := t.write (fun w => { w with collToId := w.collToId.erase c })
    if t.bad then (.panic, t)
    else
      let t := t.write (fun w => { w with idToColl := w.idToColl.erase id })
      (.ok (), t.commit ok)

/-- `heed.rs:268-285` (and `286-303`, `304-321`); `if` is the unwrapped `open_database` of lines 271-275 (a failed `get` takes that way). -/
def valueIdF (v : Str) (st : FTx × Nat) : Option Nat × FTx × Nat :=
  match st.1.get valToId v with
  | some id => (some id, st)
  | none =>
    if st.1.bad then (none, st)
    else
      match inc st.2 with
      | none => (none, st)
      | some vid =>
        let t := st.1.write (fun w => { w with valToId := putStr w.valToId v vid })
        let t := t.write (fun w => { w with idToVal := w.idToVal.insert vid v })
        (some vid, t, vid)

/-- Unwrap `open_database`, then write; `false` is a panic (`heed.rs:327-386,430-477`). -/
def openWrite (f : Heed → Heed) (st : Bool × FTx) : Bool × FTx :=
  if st.1 then (if st.2.bad then (false, st.2) else (true, st.2.write f)) else st

/-- `heed.rs:339-386`: the six `put`s of one triple. -/
def putIndexesF (c f s t : Nat) (st : Bool × FTx) : Bool × FTx :=
  let cb := beBytes c
  let fb := beBytes f
  let sb := beBytes s
  let tb := beBytes t
  let st := openWrite (fun w => { w with cfst := w.cfst.insert (mergeArrays cb fb sb tb) }) st
  let st := openWrite (fun w => { w with cfts := w.cfts.insert (mergeArrays cb fb tb sb) }) st
  let st := openWrite (fun w => { w with csft := w.csft.insert (mergeArrays cb sb fb tb) }) st
  let st := openWrite (fun w => { w with cstf := w.cstf.insert (mergeArrays cb sb tb fb) }) st
  let st := openWrite (fun w => { w with ctfs := w.ctfs.insert (mergeArrays cb tb fb sb) }) st
  openWrite (fun w => { w with ctsf := w.ctsf.insert (mergeArrays cb tb sb fb) }) st

/-- The body of the loop of `add_triples` for one triple (`heed.rs:262-386`); `false` is a panic.  The first `if` is the unwrapped
`open_database` of lines 262-266, the write of the counter is lines 327-337. -/
def addTripF (cid : Nat) (trip : Trip) (st : FTx × Nat) : Bool × FTx × Nat :=
  if st.1.bad then (false, st)
  else
    match valueIdF trip.fst st with
    | (none, st) => (false, st)
    | (some fid, st) =>
      match valueIdF trip.snd st with
      | (none, st) => (false, st)
      | (some sid, st) =>
        match valueIdF trip.thd st with
        | (none, st) => (false, st)
        | (some tid, t, vid) =>
          let r := putIndexesF cid fid sid tid (openWrite (fun w => { w with ctr := some vid }) (true, t))
          (r.1, r.2, vid)

/-- The loop of `add_triples` (`heed.rs:261-387`); `false` is a panic. -/
def addTripsLoopF (cid : Nat) : List Trip → FTx × Nat → Bool × FTx × Nat
  | [], st => (true, st)
  | trip :: rest, st =>
    match addTripF cid trip st with
    | (false, st) => (false, st)
    | (true, st) => addTripsLoopF cid rest st

/-- `heed.rs:233-390` -/
def addTriplesF (ok : Bool) (left : Option Nat) (s : Heed) (c : Str) (trips : BSet Trip) : Res Unit × FTx :=
  let t := FTx.begin left s
  match t.get collToId c with
  | none => (.panic, t)
  | some cid =>
    match t.tx.work.ctr with
    | none => (.panic, t)
    | some vid =>
      match addTripsLoopF cid trips.toList (t, vid) with
      | (false, t, _) => (.panic, t)
      | (true, t, _) => (.ok (), t.commit ok)

/-- `heed.rs:430-477`: the six `delete`s of one triple. -/
def delIndexesF (c f s t : Nat) (st : Bool × FTx) : Bool × FTx :=
  let cb := beBytes c
  let fb := beBytes f
  let sb := beBytes s
  let tb := beBytes t
  let st := openWrite (fun w => { w with cfst := w.cfst.erase (mergeArrays cb fb sb tb) }) st
  let st := openWrite (fun w => { w with cfts := w.cfts.erase (mergeArrays cb fb tb sb) }) st
  let st := openWrite (fun w => { w with csft := w.csft.erase (mergeArrays cb sb fb tb) }) st
  let st := openWrite (fun w => { w with cstf := w.cstf.erase (mergeArrays cb sb tb fb) }) st
  let st := openWrite (fun w => { w with ctfs := w.ctfs.erase (mergeArrays cb tb fb sb) }) st
  openWrite (fun w => { w with ctsf := w.ctsf.erase (mergeArrays cb tb sb fb) }) st

/-- The loop of `remove_triples` (`heed.rs:416-478`); `false` is a panic (an unknown value, or a `get` in a failed transaction). -/
def removeTripsLoopF (cid : Nat) : List Trip → FTx → Bool × FTx
  | [], t => (true, t)
  | trip :: rest, t =>
    match t.get valToId trip.fst, t.get valToId trip.snd, t.get valToId trip.thd with
    | some fid, some sid, some tid =>
      match delIndexesF cid fid sid tid (true, t) with
      | (false, t) => (false, t)
      | (true, t) => removeTripsLoopF cid rest t
    | _, _, _ => (false, t)

/-- `heed.rs:392-484` -/
def removeTriplesF (ok : Bool) (left : Option Nat) (s : Heed) (c : Str) (trips : BSet Trip) : Res Unit × FTx :=
  let t := FTx.begin left s
  match t.get collToId c with
  | none => (.panic, t)
  | some cid =>
    match removeTripsLoopF cid trips.toList t with
    | (false, t) => (.panic, t)
    | (true, t) => (.ok (), t.commit ok)

end Heed
end Verif
