import Verif.Model.Ligature
import Verif.Model.TripsMem
/-!
# Model of `ligature-graph/src/lib.rs`: the `Ligature` interface on top of any `Trips` store
-/
namespace Verif

/-- The reserved role text `":"` (`ligature-graph/src/lib.rs:56,87,159`). -/
def colonS : Str := lit ":"
/-- The reserved role text `"¬:"` (`ligature-graph/src/lib.rs:61,95,160`). -/
def notColonS : Str := lit "¬:"

namespace Graph

/-- `lib.rs:85-97` (and again `109-121`): an entry as a triple; only the first field of each element is kept. -/
def entryToTrip : Entry → Trip
  | .ext e c => ⟨e.text, colonS, c.text⟩
  | .role f s r => ⟨f.text, r.text, s.text⟩
  | .notExt e c => ⟨e.text, notColonS, c.text⟩

/-- `lib.rs:55-73` (and again `157-163`): a triple as an entry. -/
def tripToEntry (t : Trip) : Entry :=
  if t.snd = colonS then .ext (.of t.fst) (.of t.thd)
  else if t.snd = notColonS then .notExt (.of t.fst) (.of t.thd)
  else .role (.of t.fst) (.of t.thd) (.of t.snd)

/-- `lib.rs:201-211` `fn check_value`. -/
def checkValue (value : Str) : Slot :=
  if value = ['?'] then .any
  else
    match value with
    | '?' :: rest => .var rest
    | _ => .val value

/-- `lib.rs:132-153`: a pattern entry as a query. -/
def patternToQuery : Entry → Query
  | .ext e c => ⟨checkValue e.text, .val colonS, checkValue c.text⟩
  | .role f s r => ⟨checkValue f.text, checkValue r.text, checkValue s.text⟩
  | .notExt e c => ⟨checkValue e.text, .val notColonS, checkValue c.text⟩

variable {σ : Type u} (T : TripsOps σ)

/-- `lib.rs:33-38` -/
def collections (s : σ) : Res (List Element) := ((T.collections s).map (·.map Element.of)).errTodo

/-- `lib.rs:40-42` -/
def addCollection (s : σ) (c : Element) : Res Unit × σ :=
  let (r, s') := T.addCollection s c.text
  (r.errTodo, s')

/-- `lib.rs:44-48` -/
def removeCollection (s : σ) (c : Element) : Res Unit × σ :=
  let (r, s') := T.removeCollection s c.text
  (r.errTodo, s')

/-- `lib.rs:50-77`: here an error is passed on with its message. -/
def entries (s : σ) (c : Element) : Res Network := (T.triples s c.text).map (·.map tripToEntry)

/-- `lib.rs:79-101`: the triples are built in a local set, the caller's `entries` is only read. -/
def addEntries (s : σ) (c : Element) (es : Network) : Res Unit × σ × Network :=
  let triples : BSet Trip := es.map entryToTrip
  let (r, s', _) := T.addTriples s c.text triples
  (r.errTodo, s', es)

/-- `lib.rs:103-125` -/
def removeEntries (s : σ) (c : Element) (es : Network) : Res Unit × σ × Network :=
  let triples : BSet Trip := es.map entryToTrip
  let (r, s', _) := T.removeTriples s c.text triples
  (r.errTodo, s', es)

/-- `lib.rs:127-166` -/
def filter (s : σ) (c : Element) (pattern : Entry) : Res Network :=
  ((T.filter s c.text (patternToQuery pattern)).map (·.map tripToEntry)).errTodo

/-- `impl Ligature for LigatureGraph` (`lib.rs:32-199`). -/
def ops : LigOps σ where
  collections := collections T
  addCollection := addCollection T
  removeCollection := removeCollection T
  entries := entries T
  addEntries := addEntries T
  removeEntries := removeEntries T
  filter := filter T

/-- `LigatureGraph::new()` (`lib.rs:24-30`): the graph over an empty in-memory store. -/
def memNew : Mem := Mem.new
/-- The operations of `LigatureGraph::new()`. -/
def memOps : LigOps Mem := ops Mem.ops

end Graph
end Verif
