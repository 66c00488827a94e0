import Verif.Model.Trips
/-!
# Model of `trips/src/mem.rs`: the in-memory store
-/
namespace Verif

/-- `trips/src/mem.rs:16-22` `struct TripsMem { collections: BTreeMap<String, BTreeSet<Trip>> }`. -/
structure Mem where
  colls : BMap Str (BSet Trip)
deriving DecidableEq

namespace Mem

/-- `mem.rs:26-32` `TripsMem::new`. -/
def new : Mem := ⟨∅⟩

/-- `mem.rs:43-46` -/
def collections (s : Mem) : Res (List Str) := .ok s.colls.keys

/-- `mem.rs:48-51`: inserts an empty set, replacing whatever was there. -/
def addCollection (s : Mem) (c : Str) : Res Unit × Mem := (.ok (), ⟨s.colls.insert c ∅⟩)

/-- `mem.rs:53-56` -/
def removeCollection (s : Mem) (c : Str) : Res Unit × Mem := (.ok (), ⟨s.colls.erase c⟩)

/-- `mem.rs:58-66` -/
def triples (s : Mem) (c : Str) : Res (BSet Trip) :=
  match s.colls.get? c with
  | some res => .ok res
  | none => .err (lit "Collection `" ++ c ++ lit "` not found.")

/-- `mem.rs:68-80`: `BTreeSet::append` moves the argument's elements, leaving it empty; a missing collection is `todo!()`. -/
def addTriples (s : Mem) (c : Str) (trips : BSet Trip) : Res Unit × Mem × BSet Trip :=
  match s.colls.get? c with
  | some res => (.ok (), ⟨s.colls.insert c (res.union trips)⟩, ∅)
  | none => (.panic, s, trips)

/-- `mem.rs:82-96`: removes the triples one by one; a missing collection is `todo!()`. -/
def removeTriples (s : Mem) (c : Str) (trips : BSet Trip) : Res Unit × Mem × BSet Trip :=
  match s.colls.get? c with
  | some res => (.ok (), ⟨s.colls.insert c (res.eraseAll trips.toList)⟩, trips)
  | none => (.panic, s, trips)

/-- What one `match pattern.i { .. }` of `mem.rs:140-172` does with the triple's component. -/
inductive SlotResult where
  /-- fall through to the next slot -/
  | go
  /-- `continue` with the next triple -/
  | skip
  /-- `todo!()` -/
  | todo
deriving DecidableEq

/-- `mem.rs:140-150` (and `151-161`, `162-172`): one slot against one component. -/
def slotStep (slot : Slot) (x : Str) : SlotResult :=
  match slot with
  | .any => .go
  | .val v => if v = x then .go else .skip
  | .var _ => .todo

/-- `mem.rs:138-175`: the loop of `filter` over the triples of the collection, with the accumulated result. -/
def filterLoop (pattern : Query) : List Trip → BSet Trip → Res (BSet Trip)
  | [], results => .ok results
  | trip :: rest, results =>
    match slotStep pattern.fst trip.fst with
    | .todo => .panic
    | .skip => filterLoop pattern rest results
    | .go =>
      match slotStep pattern.snd trip.snd with
      | .todo => .panic
      | .skip => filterLoop pattern rest results
      | .go =>
        match slotStep pattern.thd trip.thd with
        | .todo => .panic
        | .skip => filterLoop pattern rest results
        | .go => filterLoop pattern rest (results.insert trip)

/-- `mem.rs:135-179` -/
def filter (s : Mem) (c : Str) (pattern : Query) : Res (BSet Trip) :=
  match s.colls.get? c with
  | some coll => filterLoop pattern coll.toList ∅
  | none => .err (lit "Collection not found.")

/-- `impl Trips for TripsMem` (`mem.rs:42-180`). -/
def ops : TripsOps Mem where
  collections := collections
  addCollection := addCollection
  removeCollection := removeCollection
  triples := triples
  addTriples := addTriples
  removeTriples := removeTriples
  filter := filter

/-- `mem.rs:195-207`: the first slot against the first component, with no binding yet. -/
def matchFirst (slot : Slot) (x : Str) (result : BMap Str Str) : Option (BMap Str Str) :=
  match slot with
  | .var v => some (result.insert v x)
  | .val w => if w = x then some result else none
  | .any => some result

/-- `mem.rs:209-231` (and `232-254`): a later slot, where a bound variable must agree. -/
def matchNext (slot : Slot) (x : Str) (result : BMap Str Str) : Option (BMap Str Str) :=
  match slot with
  | .var v =>
    match result.get? v with
    | some w => if w = x then some result else none
    | none => some (result.insert v x)
  | .val w => if w = x then some result else none
  | .any => some result

/-- `mem.rs:193-256` `fn match_query_single` (private, currently unused by the public API). -/
def matchQuerySingle (q : Query) (t : Trip) : Option (BMap Str Str) :=
  match matchFirst q.fst t.fst ∅ with
  | none => none
  | some r1 =>
    match matchNext q.snd t.snd r1 with
    | none => none
    | some r2 => matchNext q.thd t.thd r2

/-- `mem.rs:182-191` `fn match_query`: the bindings of all matching triples, in iteration order. -/
def matchQuery (q : Query) (triples : BSet Trip) : List (BMap Str Str) :=
  triples.toList.foldl (fun results trip =>
    match matchQuerySingle q trip with
    | some res => results ++ [res]
    | none => results) []

end Mem
end Verif
