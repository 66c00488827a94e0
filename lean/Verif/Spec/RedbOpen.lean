import Verif.Model.RedbOpen
/-!
# Specification vocabulary: opening redb databases
-/
namespace Verif
namespace Spec
open Redb

/-- The six tables every instance finds. -/
def sixTables : List (Str × Ty × Ty) :=
  [(lit "IDS", .str, .u64), (lit "DATASETS_ID", .str, .u64), (lit "ID_DATASETS", .u64, .str),
   (lit "IDENTIFIER_ID", .str, .u64), (lit "ID_IDENTIFIER", .str, .u64), (lit "EAV", .bytes, .unit)]

/-- The tables of a file; a missing or empty file has none. -/
def tablesAt : File → Db
  | .db d => d
  | _ => ∅

/-- The database has a table of this name and it is an ordinary table with these types. -/
def HasTable (d : Db) (t : Str × Ty × Ty) : Prop :=
  ∃ u, d.get? t.1 = some u ∧ u.multi = false ∧ u.key = t.2.1 ∧ u.value = t.2.2

/-- A table of one of the six names that is not what it should be. -/
def Clash (d : Db) : Prop := ∃ t ∈ sixTables, (d.get? t.1).isSome ∧ ¬ HasTable d t

/-- `d'` is `d` with the missing ones of the six tables added, empty: nothing else is different. -/
def Completed (d d' : Db) : Prop :=
  (∀ name u, d.get? name = some u → d'.get? name = some u) ∧ (∀ t ∈ sixTables, HasTable d' t) ∧
  ∀ name u, d'.get? name = some u → d.get? name = none → u.rows = [] ∧ ∃ t ∈ sixTables, t.1 = name

/-- What a program does with databases: open one (with whatever goes wrong), open the default one, open a temporary one, close one, or be
cut off while opening one, at any of the states `create` passes through. -/
inductive RedbAct where
  | create (fl : Faults) (p : Path)
  | default (fl : Faults) (home : Option Path)
  | temp (fl : Faults) (home : Option Path) (suffix : Str)
  | drop (p : Path)
  | crash (fl : Faults) (p : Path) (i : Nat)

/-- The disk after an action.  A crash closes everything. -/
def RedbAct.run : RedbAct → Disk → Disk
  | .create fl p, k => (Redb.create fl p k).2.1
  | .default fl home, k => (Redb.openDefault fl home k).2
  | .temp fl home suffix, k => (Redb.openTemp fl home suffix k).2
  | .drop p, k => Redb.drop p k
  | .crash fl p i, k =>
    match (Redb.create fl p k).2.2[i]? with
    | none => { k with held := [] }
    | some f => { k.write p f with held := [] }

/-- The file of the default database in this home directory. -/
def defaultFile (home : Path) : Path := home ++ [lit ".ligature", lit "redb", lit "ligature.redb"]
/-- The file of a temporary database. -/
def tempFile (home : Path) (suffix : Str) : Path := home ++ [lit ".ligature", lit "redb", lit "ligature-" ++ suffix ++ lit ".redb"]

/-- What may happen to one file, over any history: it stays foreign or not; tables stay with their rows; new tables are empty and among
the six; of the six, those missing appear all at once. -/
def Kept (f g : File) : Prop :=
  (f = .foreign ↔ g = .foreign) ∧ (∀ name u, (tablesAt f).get? name = some u → (tablesAt g).get? name = some u) ∧
  (∀ name u, (tablesAt g).get? name = some u → (tablesAt f).get? name = none → u.rows = [] ∧ ∃ t ∈ sixTables, t.1 = name) ∧
  (∀ t ∈ sixTables, ∀ s ∈ sixTables, ((tablesAt f).get? t.1).isNone → ((tablesAt f).get? s.1).isNone →
    ((tablesAt g).get? t.1).isSome → ((tablesAt g).get? s.1).isSome)

end Spec
end Verif
