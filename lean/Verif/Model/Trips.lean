import Verif.Base.Res
/-!
# Model of `trips/src/lib.rs`: triples, queries and the store interface
-/
namespace Verif

/-- `trips/src/lib.rs:18-20` `struct Trip(String, String, String)`. -/
structure Trip where
  fst : Str
  snd : Str
  thd : Str
deriving DecidableEq, Repr

/-- Derived `Ord` of `Trip` (`trips/src/lib.rs:19`). -/
instance : SOrd Trip :=
  SOrd.comap (fun t => (t.fst, t.snd, t.thd)) (by
    intro a b h; cases a; cases b; simp_all)

/-- `trips/src/lib.rs:22-31` `enum Slot`. -/
inductive Slot where
  | var (name : Str)
  | val (value : Str)
  | any
deriving DecidableEq, Repr

/-- `trips/src/lib.rs:33-35` `struct Query(Slot, Slot, Slot)`. -/
structure Query where
  fst : Slot
  snd : Slot
  thd : Slot
deriving DecidableEq, Repr

/-- `trips/src/lib.rs:43-84` `trait Trips` as a record of operations on a state `σ`; `TripsError(String)` is the
message of `Res.err`.  `add_triples`/`remove_triples` also return the caller's set (an `&mut` parameter) after the call. -/
structure TripsOps (σ : Type u) where
  collections : σ → Res (List Str)
  addCollection : σ → Str → Res Unit × σ
  removeCollection : σ → Str → Res Unit × σ
  triples : σ → Str → Res (BSet Trip)
  addTriples : σ → Str → BSet Trip → Res Unit × σ × BSet Trip
  removeTriples : σ → Str → BSet Trip → Res Unit × σ × BSet Trip
  filter : σ → Str → Query → Res (BSet Trip)

end Verif
