import Verif.Base.Res
/-!
# Model of `ligature-redb/src/lib.rs:18-120`: opening a database

The file behind a `redb` 1.0 database, as its documentation describes it: `Database::create` makes a new database in a missing or empty
file, opens a valid database, and fails on any other file or on a database that is open already; `open_table` creates a missing table
and fails on a table of another type; a write transaction takes effect at `commit`, all at once.  The texts of `redb` errors are not
modelled (`err` carries the empty text).
-/
namespace Verif
namespace Redb

/-- The types of the keys and values of tables (`TableDefinition<K, V>`); `other` stands for the types of foreign tables. -/
inductive Ty where
  | str | u64 | bytes | unit
  | other (name : Str)
deriving DecidableEq, Repr

/-- A stored table: its types, whether it is a multimap, its rows as bytes. -/
structure Table where
  key : Ty
  value : Ty
  multi : Bool
  rows : List (List UInt8 × List UInt8)
deriving DecidableEq, Repr

/-- A database: its tables by name. -/
abbrev Db := BMap Str Table

/-- What is found at a path; `foreign` is anything `redb` cannot open. -/
inductive File where
  | missing | empty | foreign
  | db (d : Db)
deriving DecidableEq

/-- A path, by its components. -/
abbrev Path := List Str

/-- The files, and the paths of the databases that are open. -/
structure Disk where
  file : Path → File
  held : List Path

/-- `TableDefinition::new` (`lib.rs:21-31`): name and types. -/
structure TableDef where
  name : Str
  key : Ty
  value : Ty

/-- `lib.rs:21` -/
def idsTable : TableDef := ⟨lit "IDS", .str, .u64⟩
/-- `lib.rs:23` -/
def datasetsIdTable : TableDef := ⟨lit "DATASETS_ID", .str, .u64⟩
/-- `lib.rs:24` -/
def idDatasetsTable : TableDef := ⟨lit "ID_DATASETS", .u64, .str⟩
/-- `lib.rs:26-27` -/
def identifierIdTable : TableDef := ⟨lit "IDENTIFIER_ID", .str, .u64⟩
/-- `lib.rs:28-29` (declared with the same types as its inverse) -/
def idIdentifierTable : TableDef := ⟨lit "ID_IDENTIFIER", .str, .u64⟩
/-- `lib.rs:31` -/
def eavTable : TableDef := ⟨lit "EAV", .bytes, .unit⟩

/-- What may go wrong underneath: each call to `redb` or the file system, and how a failed commit left the file. -/
structure Faults where
  /-- `create_dir_all` fails -/
  dirs : Bool
  /-- `Database::create` fails although the file is fine -/
  opening : Bool
  /-- `begin_write` fails -/
  beginning : Bool
  /-- the `i`-th `open_table` fails although the types are right -/
  table : Nat → Bool
  /-- `commit` fails, having written everything (`some true`) or nothing (`some false`) -/
  commit : Option Bool

/-- Nothing goes wrong. -/
def noFaults : Faults := ⟨false, false, false, fun _ => false, none⟩

/-- `Database::create` on a file that no one has open: the tables found; `none` is an error. -/
def openFile : File → Option Db
  | .missing => some ∅
  | .empty => some ∅
  | .foreign => none
  | .db d => some d

/-- `tx.open_table(def)` in a write transaction over the tables `d`; `none` is an error. -/
def openTable (d : Db) (t : TableDef) : Option Db :=
  match d.get? t.name with
  | none => some (d.insert t.name ⟨t.key, t.value, false, []⟩)
  | some u => if u.multi = false ∧ u.key = t.key ∧ u.value = t.value then some d else none

/-- The calls of `open_table` in a row (`lib.rs:99-105`); `i` counts them. -/
def openTables (fl : Faults) : Nat → List TableDef → Db → Option Db
  | _, [], d => some d
  | i, t :: ts, d =>
    if fl.table i then none
    else
      match openTable d t with
      | none => none
      | some d => openTables fl (i + 1) ts d

/-- Put `f` at the path. -/
def Disk.write (k : Disk) (p : Path) (f : File) : Disk := { k with file := fun q => if q = p then f else k.file q }

/-- `lib.rs:95-119` `LigatureRedb::create`.  Besides outcome and disk: the states of the file on the way, in order, in which a crash can
leave it.  An error drops the database, which closes it; success keeps it open. -/
def create (fl : Faults) (p : Path) (k : Disk) : Res Unit × Disk × List File :=
  if p ∈ k.held ∨ fl.opening = true then (.err [], k, [k.file p])                          -- line 96
  else
    match openFile (k.file p) with
    | none => (.err [], k, [k.file p])
    | some d =>
      let k1 := k.write p (.db d)
      if fl.beginning then (.err [], k1, [k.file p, .db d])                                -- line 98
      else
        match openTables fl 0 [idsTable, datasetsIdTable, idDatasetsTable, identifierIdTable, idIdentifierTable, eavTable] d with
        | none => (.err [], k1, [k.file p, .db d])                                         -- lines 99-105
        | some d' =>
          match fl.commit with
          | some false => (.err [], k1, [k.file p, .db d])                                 -- line 112
          | some true => (.err [], k1.write p (.db d'), [k.file p, .db d, .db d'])
          | none => (.ok (), { k1.write p (.db d') with held := p :: k.held }, [k.file p, .db d, .db d'])

/-- The last reference to an instance goes away (`Rc<Database>`): the database is closed. -/
def drop (p : Path) (k : Disk) : Disk := { k with held := k.held.filter fun q => decide (q ≠ p) }

/-- `lib.rs:55-74` `impl Default for LigatureRedb`. -/
def openDefault (fl : Faults) (home : Option Path) (k : Disk) : Res Unit × Disk :=
  match home with
  | none => (.panic, k)                                                                    -- line 72
  | some h =>
    if fl.dirs then (.panic, k)                                                            -- line 61
    else
      match create fl (h ++ [lit ".ligature", lit "redb", lit "ligature.redb"]) k with
      | (.ok u, k, _) => (.ok u, k)
      | (_, k, _) => (.panic, k)                                                           -- lines 65-68

/-- `lib.rs:77-93` `LigatureRedb::temp`; `suffix` is the random text. -/
def openTemp (fl : Faults) (home : Option Path) (suffix : Str) (k : Disk) : Res Unit × Disk :=
  match home with
  | none => (.panic, k)                                                                    -- line 91
  | some h =>
    if fl.dirs then (.panic, k)                                                            -- line 84
    else
      match create fl (h ++ [lit ".ligature", lit "redb", lit "ligature-" ++ suffix ++ lit ".redb"]) k with
      | (.ok u, k, _) => (.ok u, k)
      | (_, k, _) => (.panic, k)                                                           -- line 88

end Redb
end Verif
