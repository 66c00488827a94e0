import Verif.Spec.Heed
import Verif.Model.HeedSlots
/-!
# Specification vocabulary: an LMDB-backed store over an environment with few database slots
-/
namespace Verif
namespace Heed
open Spec

/-- An updating operation with `n` slots. -/
def execSlots (n : Nat) (ok : Bool) (s : Heed) : Op → Res Unit × Tx
  | .addCollection c => addCollectionN n ok s c
  | .removeCollection c => removeCollectionN n ok s c
  | .addTriples c ts => addTriplesN n ok s c ts
  | .removeTriples c ts => removeTriplesN n ok s c ts

/-- `n` slots are enough for the operation: three to add or remove a collection (two if the collection to add is there); eleven to add or remove
triples, but two to add none and four to remove none. -/
def Enough (n : Nat) (s : Heed) : Op → Prop
  | .addCollection c => 3 ≤ n ∨ (2 ≤ n ∧ Listed ops s c)
  | .removeCollection _ => 3 ≤ n
  | .addTriples _ ts => 11 ≤ n ∨ (2 ≤ n ∧ ∀ t, ¬ t ∈ ts)
  | .removeTriples _ ts => 11 ≤ n ∨ (4 ≤ n ∧ ∀ t, ¬ t ∈ ts)

/-- A process: the number of slots it opens the environment with, and its operations. -/
abbrev Session := Nat × List Op

/-- Processes one after the other on one environment: the outcomes they saw and what is stored at the end. -/
def runSessions (s : Heed) : List Session → List Event × Heed
  | [] => ([], s)
  | p :: ps =>
    let r := runOps (opsSlots p.1 true) s p.2
    let rest := runSessions r.2 ps
    (r.1 ++ rest.1, rest.2)

/-- The operations that were reported `Ok`. -/
def reportedOk : List Event → List Op
  | [] => []
  | (op, .ok _) :: h => op :: reportedOk h
  | _ :: h => reportedOk h

end Heed
end Verif
