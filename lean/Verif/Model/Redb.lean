import Verif.Base.Res
/-!
# Model of the live code of `ligature-redb/src/lib.rs`: the identifier counters

Everything else in that file is commented out (lines 122-153, 196-430) or opens files (`Model/RedbOpen`).
-/
namespace Verif
namespace Redb

/-- `ligature-redb/src/lib.rs:38-42` `enum IdTypes`. -/
inductive IdType where
  | datasets | identifiers | strings
deriving DecidableEq, Repr

/-- `lib.rs:155-161` `fn id_type_str`. -/
def idTypeStr : IdType → Str
  | .datasets => lit "Datasets"
  | .identifiers => lit "Identifiers"
  | .strings => lit "Strings"

/-- `lib.rs:163-182` `fn next_id` on the table `IDS` (`lib.rs:21`); storage errors (`?`) are not modelled;
overflow of `u64` is the panic of a debug build. -/
def nextId (ty : IdType) (table : BMap Str Nat) : Res Nat × BMap Str Nat :=
  let key := idTypeStr ty
  match table.get? key with
  | some value =>
    if value + 1 < 2 ^ 64 then
      let id := value + 1
      (.ok id, table.insert key id)
    else (.panic, table)
  | none => (.ok 0, table.insert key 0)

end Redb
end Verif
