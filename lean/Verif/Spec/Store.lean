import Verif.Model.Trips
/-!
# Specification of a triple store

What the documentation of `trait Trips` (`trips/src/lib.rs:43-84`) promises, stated without reference to any implementation:
a store is a partial map from collection names to sets of triples.
-/
namespace Verif
namespace Spec

/-- A collection is present (`some p`, holding exactly the triples satisfying `p`) or absent (`none`). -/
abbrev World := Str → Option (Trip → Prop)

/-- The store without collections. -/
def emptyWorld : World := fun _ => none

/-- The updating operations of the interface. -/
inductive Op where
  | addCollection (c : Str)
  | removeCollection (c : Str)
  | addTriples (c : Str) (ts : BSet Trip)
  | removeTriples (c : Str) (ts : BSet Trip)

/-- The collection an operation is about. -/
def Op.target : Op → Str
  | .addCollection c => c
  | .removeCollection c => c
  | .addTriples c _ => c
  | .removeTriples c _ => c

/-- Replace the entry of one name. -/
def World.set (w : World) (c : Str) (v : Option (Trip → Prop)) : World := fun d => if d = c then v else w d

/-- What each operation is documented to do.  With `clears`, adding a collection that exists empties it
(what the in-memory store does; the documentation says it does nothing). -/
def apply (clears : Bool) (w : World) : Op → World
  | .addCollection c =>
    match w c with
    | none => w.set c (some fun _ => False)
    | some _ => if clears then w.set c (some fun _ => False) else w
  | .removeCollection c => w.set c none
  | .addTriples c ts =>
    match w c with
    | none => w
    | some p => w.set c (some fun t => p t ∨ t ∈ ts)
  | .removeTriples c ts =>
    match w c with
    | none => w
    | some p => w.set c (some fun t => p t ∧ ¬ t ∈ ts)

/-- An operation together with the outcome the store reported. -/
abbrev Event := Op × Res Unit

/-- One event: only operations acknowledged with `Ok` count. -/
def applyEvent (clears : Bool) (w : World) (e : Event) : World :=
  match e.2 with
  | .ok _ => apply clears w e.1
  | _ => w

/-- The world after a history, oldest event first. -/
def worldAfter (clears : Bool) (h : List Event) : World := h.foldl (applyEvent clears) emptyWorld

/-- Run one operation on an implementation. -/
def exec (T : TripsOps σ) (s : σ) : Op → Res Unit × σ
  | .addCollection c => T.addCollection s c
  | .removeCollection c => T.removeCollection s c
  | .addTriples c ts => let r := T.addTriples s c ts; (r.1, r.2.1)
  | .removeTriples c ts => let r := T.removeTriples s c ts; (r.1, r.2.1)

/-- Run a list of operations, going on after errors and (caught) panics; returns the events and the final state. -/
def runOps (T : TripsOps σ) (s : σ) : List Op → List Event × σ
  | [] => ([], s)
  | op :: ops =>
    let r := exec T s op
    let rest := runOps T r.2 ops
    ((op, r.1) :: rest.1, rest.2)

/-- The answers of the store are those of the world: the listing names exactly the present collections, each once, and
reading a present collection returns exactly its triples. -/
def Agrees (T : TripsOps σ) (s : σ) (w : World) : Prop :=
  (∃ l, T.collections s = .ok l ∧ l.Nodup ∧ ∀ c, c ∈ l ↔ (w c).isSome) ∧
  (∀ c p, w c = some p → ∃ ts, T.triples s c = .ok ts ∧ ∀ t, t ∈ ts ↔ p t)

/-- A triple matches a query without named variables. -/
def SlotMatches : Slot → Str → Prop
  | .any, _ => True
  | .val v, x => v = x
  | .var _, _ => False

def QueryMatches (q : Query) (t : Trip) : Prop :=
  SlotMatches q.fst t.fst ∧ SlotMatches q.snd t.snd ∧ SlotMatches q.thd t.thd

/-- A query without named variables. -/
def NoVars (q : Query) : Prop :=
  (∀ v, q.fst ≠ .var v) ∧ (∀ v, q.snd ≠ .var v) ∧ (∀ v, q.thd ≠ .var v)

/-! ## Observations -/

/-- The store lists the collection. -/
def Listed (T : TripsOps σ) (s : σ) (c : Str) : Prop := ∃ l, T.collections s = .ok l ∧ c ∈ l

/-- Every question about the contents has the same answer in both states of one store. -/
def SameAnswers (T : TripsOps σ) (s s' : σ) : Prop :=
  T.collections s' = T.collections s ∧ ∀ c, T.triples s' c = T.triples s c

/-- Two stores (possibly of different kinds) show the same collections with the same triples. -/
def SameView (T : TripsOps σ) (s : σ) (T' : TripsOps τ) (s' : τ) : Prop :=
  (∀ c, Listed T s c ↔ Listed T' s' c) ∧
  ∀ c, Listed T s c → ∃ ts, T.triples s c = .ok ts ∧ T'.triples s' c = .ok ts

/-- The collection was added and not removed since, judged by the acknowledged operations alone. -/
def AddedNotRemoved (h : List Event) (c : Str) : Prop :=
  ∃ before after, h = before ++ (.addCollection c, .ok ()) :: after ∧ (.removeCollection c, .ok ()) ∉ after

/-- Every operation of the list is acknowledged when run from the state. -/
def Acked (T : TripsOps σ) (s : σ) (l : List Op) : Prop := ∀ e ∈ (runOps T s l).1, e.2 = .ok ()

/-- Adding a batch twice is adding it once; two batches may be added in either order, or as one (on the operations the store
acknowledges). -/
def AddLaws (T : TripsOps σ) (s : σ) (c : Str) (A B : BSet Trip) : Prop :=
  (Acked T s [.addTriples c A, .addTriples c A] → Acked T s [.addTriples c A] →
    SameView T (runOps T s [.addTriples c A, .addTriples c A]).2 T (runOps T s [.addTriples c A]).2) ∧
  (Acked T s [.addTriples c A, .addTriples c B] → Acked T s [.addTriples c B, .addTriples c A] →
    SameView T (runOps T s [.addTriples c A, .addTriples c B]).2 T (runOps T s [.addTriples c B, .addTriples c A]).2) ∧
  (Acked T s [.addTriples c A, .addTriples c B] → Acked T s [.addTriples c (A.union B)] →
    SameView T (runOps T s [.addTriples c A, .addTriples c B]).2 T (runOps T s [.addTriples c (A.union B)]).2)

/-! ## The documented contract, per store (`T`, fresh state `new`)

Each clause quantifies over all histories: `s` is the state after any list of operations. -/

/-- `trips/src/lib.rs:47-49` (`add_collection`): "Does nothing if Dataset already exists." -/
def AddExistingIsNoop (T : TripsOps σ) (new : σ) : Prop :=
  ∀ (l : List Op) (c : Str), Listed T (runOps T new l).2 c →
    (T.addCollection (runOps T new l).2 c).1 = .ok () ∧
    SameAnswers T (runOps T new l).2 (T.addCollection (runOps T new l).2 c).2

/-- `trips/src/lib.rs:51-53` (`remove_collection`): "Does nothing if Dataset doesn't exist." -/
def RemoveMissingIsNoop (T : TripsOps σ) (new : σ) : Prop :=
  ∀ (l : List Op) (c : Str), ¬ Listed T (runOps T new l).2 c →
    (T.removeCollection (runOps T new l).2 c).1 = .ok () ∧
    SameAnswers T (runOps T new l).2 (T.removeCollection (runOps T new l).2 c).2

/-- `trips/src/lib.rs:58-73` (`add_triples`, `remove_triples`): "Returns Error if Dataset doesn't exist." -/
def WriteMissingIsError (T : TripsOps σ) (new : σ) : Prop :=
  ∀ (l : List Op) (c : Str) (ts : BSet Trip), ¬ Listed T (runOps T new l).2 c →
    ((∃ m, (T.addTriples (runOps T new l).2 c ts).1 = .err m) ∧
      SameAnswers T (runOps T new l).2 (T.addTriples (runOps T new l).2 c ts).2.1) ∧
    ((∃ m, (T.removeTriples (runOps T new l).2 c ts).1 = .err m) ∧
      SameAnswers T (runOps T new l).2 (T.removeTriples (runOps T new l).2 c ts).2.1)

/-- `trips/src/lib.rs:66-73` (`remove_triples`): "Does nothing if Statement doesn't exist in Dataset." -/
def RemoveAbsentIsNoop (T : TripsOps σ) (new : σ) : Prop :=
  ∀ (l : List Op) (c : Str) (ts held : BSet Trip), Listed T (runOps T new l).2 c →
    T.triples (runOps T new l).2 c = .ok held → (∀ t ∈ ts, t ∉ held) →
    (T.removeTriples (runOps T new l).2 c ts).1 = .ok () ∧
    SameAnswers T (runOps T new l).2 (T.removeTriples (runOps T new l).2 c ts).2.1

/-! ## Histories every store supports -/

/-- The texts of a triple. -/
def tripTexts (t : Trip) : List Str := [t.fst, t.snd, t.thd]

/-- A well-behaved history on a world: a collection is added once before use, removed only when it exists and is empty, and
triples are removed only if all their texts were stored before (`K`: the texts stored so far).  `legal` restricts names and texts. -/
def Disciplined (legal : Str → Prop) : World → (Str → Prop) → List Op → Prop
  | _, _, [] => True
  | w, K, .addCollection c :: l => w c = none ∧ legal c ∧ Disciplined legal (apply false w (.addCollection c)) K l
  | w, K, .removeCollection c :: l =>
    (∃ p, w c = some p ∧ ∀ t, ¬ p t) ∧ Disciplined legal (apply false w (.removeCollection c)) K l
  | w, K, .addTriples c ts :: l =>
    (w c).isSome ∧ (∀ t ∈ ts, ∀ x ∈ tripTexts t, legal x) ∧
    Disciplined legal (apply false w (.addTriples c ts)) (fun x => K x ∨ ∃ t ∈ ts, x ∈ tripTexts t) l
  | w, K, .removeTriples c ts :: l =>
    (w c).isSome ∧ (∀ t ∈ ts, ∀ x ∈ tripTexts t, K x) ∧ Disciplined legal (apply false w (.removeTriples c ts)) K l

/-- How many identifiers an operation can use up. -/
def Op.cost : Op → Nat
  | .addTriples _ ts => 3 * ts.toList.length
  | _ => 1

/-- How many identifiers a history can use up. -/
def costOf (l : List Op) : Nat := (l.map Op.cost).sum

end Spec
end Verif
