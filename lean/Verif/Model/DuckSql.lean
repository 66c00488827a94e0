import Verif.Model.TripsDuckDB
import Verif.Model.EvalSteps
import Verif.Spec.Store
/-!
# Model of `trips/src/duckdb.rs`, statement by statement, with what SQL leaves open left open

`Model/TripsDuckDB.lean` fixes what DuckDB is free to choose: rows in insertion order, identifiers without gaps except those it names,
no statement ever failing except by a violated constraint.  Here, between any two statements the rows of each table may be rearranged and the
sequence may skip values, and (with `mayFail`) any statement and any commit may fail, for whatever reason (the sequence exhausted, no
memory, an over-eager constraint check); the code unwraps the error, which is a panic, and the transaction is dropped, which rolls it back
(the sequence is not rolled back).
-/
namespace Verif
namespace DuckSql
open Duck

/-- The same rows in any order; the sequence has not gone back. -/
structure Rearranged (s t : Duck) : Prop where
  seq : s.seq ≤ t.seq
  parts : t.parts.Perm s.parts
  colls : t.colls.Perm s.colls
  trips : t.trips.Perm s.trips

/-- The statements that change something. -/
inductive Stmt where
  /-- `duckdb.rs:64`: `insert into part (part) values (?) ON CONFLICT DO NOTHING` -/
  | insertPart (text : Str)
  /-- `duckdb.rs:72`: `insert into trip (collection, first, second, third) values (?, (select ..), (select ..), (select ..))` -/
  | insertTrip (cid : Nat) (t : Trip)
  /-- `duckdb.rs:79`: `delete from trip where collection = ? and first = (select ..) and ..` -/
  | deleteTrip (cid : Nat) (t : Trip)
  /-- `duckdb.rs:99`: `insert into collection (name) values (?)` -/
  | insertCollection (name : Str)
  /-- `duckdb.rs:108`: `delete from collection where name = ?` -/
  | deleteCollection (name : Str)

/-- What the statement does; `none` is a violated constraint (`UNIQUE`, or a foreign key into `collection`). -/
def Stmt.run (s : Duck) : Stmt → Option Duck
  | .insertPart x => some (addPart s x)
  | .insertTrip cid t => some (addTrip s cid t)
  | .deleteTrip cid t => some (removeTrip s cid t)
  | .insertCollection c =>
    if (idOf s.colls c).isSome then none else some { s with seq := s.seq + 1, colls := s.colls ++ [(s.seq, c)] }
  | .deleteCollection c =>
    if (idOf s.colls c).any (fun id => s.trips.any (fun r => r.coll == id)) then none
    else some { s with colls := s.colls.filter (fun r => decide (r.2 ≠ c)) }

/-- The statements of one transaction one after the other, then its commit; `none`: one of them failed. -/
inductive Transacts (mayFail : Bool) : Duck → List Stmt → Option Duck → Prop where
  | commit {s t : Duck} : Rearranged s t → Transacts mayFail s [] (some t)
  | next {s t u : Duck} {st : Stmt} {l : List Stmt} {o : Option Duck} :
      Rearranged s t → st.run t = some u → Transacts mayFail u l o → Transacts mayFail s (st :: l) o
  | violated {s t : Duck} {st : Stmt} {l : List Stmt} : Rearranged s t → st.run t = none → Transacts mayFail s (st :: l) none
  | failed {s : Duck} {l : List Stmt} : mayFail = true → Transacts mayFail s l none

/-- `.unwrap()`: a failure is a panic, and what the transaction did is gone. -/
def unwrapped (s : Duck) (o : Option Duck) (r : Res Unit) (s' : Duck) : Prop :=
  match o with
  | some u => r = .ok () ∧ s' = u
  | none => r = .panic ∧ Rearranged s s'

/-- `duckdb.rs:148-153`: the statements for one triple. -/
def addStmts (cid : Nat) (t : Trip) : List Stmt :=
  [.insertPart t.fst, .insertPart t.snd, .insertPart t.thd, .insertTrip cid t]

/-- `duckdb.rs:146-147` (and `163-164`): `get_collection_id(..)?`, then the statements. -/
def withId (mayFail : Bool) (s : Duck) (c : Str) (l : Nat → List Stmt) (r : Res Unit) (s' : Duck) : Prop :=
  (mayFail = true ∧ r = .panic ∧ Rearranged s s') ∨
  ∃ t, Rearranged s t ∧
    match idOf t.colls c with
    | none => r = .err (lit "Collection " ++ c ++ lit " not found.") ∧ Rearranged t s'
    | some id => ∃ o, Transacts mayFail t (l id) o ∧ unwrapped t o r s'

/-- The updating operations (`duckdb.rs:96-111,141-170`): from `s`, outcome `r` and state `s'` are possible. -/
def Step (mayFail : Bool) (s : Duck) (op : Spec.Op) (r : Res Unit) (s' : Duck) : Prop :=
  match op with
  | .addCollection c => ∃ o, Transacts mayFail s [.insertCollection c] o ∧ unwrapped s o r s'
  | .removeCollection c => ∃ o, Transacts mayFail s [.deleteCollection c] o ∧ unwrapped s o r s'
  | .addTriples c ts => withId mayFail s c (fun id => ts.toList.flatMap (addStmts id)) r s'
  | .removeTriples c ts => withId mayFail s c (fun id => ts.toList.map (.deleteTrip id)) r s'

/-- A history: what was asked for, with the outcomes. -/
inductive History (mayFail : Bool) : Duck → List Spec.Event → Duck → Prop where
  | nil {s : Duck} : History mayFail s [] s
  | cons {s s1 s' : Duck} {op : Spec.Op} {r : Res Unit} {l : List Spec.Event} :
      Step mayFail s op r s1 → History mayFail s1 l s' → History mayFail s ((op, r) :: l) s'

/-- `duckdb.rs:86-94` `collections`: the rows come in any order. -/
def Lists (s : Duck) (names : List Str) : Prop := ∃ t, Rearranged s t ∧ Duck.collections t = .ok names

/-- `duckdb.rs:113-139` `triples`: the rows come in any order.  (A statement that fails is a panic.) -/
def Reads (s : Duck) (c : Str) (r : Res (BSet Trip)) : Prop := ∃ t, Rearranged s t ∧ r = Duck.triples t c

/-! ## Scripts

The graph layer (`ligature-graph/src/lib.rs`) over this store: as `Model/LigatureGraph.lean`, one request of a script at a time. -/

open Steps

/-- `ligature-graph/src/lib.rs`: `entries`, `filter`, `add_collection`, `add_entries` (errors are `todo!()`). -/
def Performs (mayFail : Bool) (s : Duck) : Ask → Answer → Duck → Prop
  | .entries c, a, s' => s' = s ∧
    ((mayFail = true ∧ a = .network .panic) ∨ ∃ r, Reads s c.text r ∧ a = .network (r.map fun ts => ts.map Graph.tripToEntry))
  | .filter _ _, a, s' => a = .network .panic ∧ s' = s
  | .addCollection c, a, s' => ∃ r, Step mayFail s (.addCollection c.text) r s' ∧ a = .unit r.errTodo
  | .addEntries c es, a, s' => ∃ r, Step mayFail s (.addTriples c.text (es.map Graph.entryToTrip)) r s' ∧ a = .unit r.errTodo

/-- A script run to its end: result and final state that are possible. -/
inductive Runs (mayFail : Bool) : Prog → Duck → Res Value → Duck → Prop where
  | ret {r : Res Value} {s : Duck} : Runs mayFail (.ret r) s r s
  | ask {q : Ask} {k : Answer → Prog} {s s1 s' : Duck} {a : Answer} {r : Res Value} :
      Performs mayFail s q a s1 → Runs mayFail (k a) s1 r s' → Runs mayFail (.ask q k) s r s'

end DuckSql
end Verif
