import Verif.Model.TripsHeed
import Verif.Spec.Store
/-!
# Specification vocabulary for the LMDB-backed store: crashes, failed commits, legal names
-/
namespace Verif
namespace Heed
open Spec

/-- The transaction an operation runs (`ok = false`: its commit fails). -/
def execTx (ok : Bool) (s : Heed) : Op → Res Unit × Tx
  | .addCollection c => addCollectionTx ok s c
  | .removeCollection c => removeCollectionTx ok s c
  | .addTriples c ts => addTriplesTx ok s c ts
  | .removeTriples c ts => removeTriplesTx ok s c ts

/-- Texts LMDB accepts as keys: those of 1 to 511 bytes in UTF-8. -/
def lmdbKey (k : Str) : Bool := decide (1 ≤ (k.map Char.utf8Size).sum ∧ (k.map Char.utf8Size).sum ≤ 511)

/-- The collection name an operation creates has 1 to 511 bytes, as LMDB requires. -/
def LegalOp : Op → Prop
  | .addCollection c => lmdbKey c = true
  | _ => True

/-- The text has 1 to 511 bytes and was stored by an acknowledged `add_triples` of the history. -/
def StoredBy (h : List Event) (v : Str) : Prop :=
  lmdbKey v = true ∧ ∃ c ts, (Op.addTriples c ts, Res.ok ()) ∈ h ∧ ∃ t ∈ ts, v ∈ tripTexts t

/-- The stored states that can be found when the environment is opened: after any number of operations, each of which may
panic, have its commit fail (`ok = false`), or be cut off by the end of the process after any of its writes. -/
inductive Reach : Heed → Prop where
  | new : Reach new
  | step {s : Heed} (ok : Bool) (op : Op) : Reach s → Reach (execTx ok s op).2.durable
  | crash {s d : Heed} (ok : Bool) (op : Op) : Reach s → d ∈ (execTx ok s op).2.seen → Reach d

/-- From one stored state to a later one. -/
inductive Later : Heed → Heed → Prop where
  | refl (s : Heed) : Later s s
  | step {s t : Heed} (ok : Bool) (op : Op) : Later s t → Later s (execTx ok t op).2.durable
  | crash {s t d : Heed} (ok : Bool) (op : Op) : Later s t → d ∈ (execTx ok t op).2.seen → Later s d

/-- What can become of an operation: it completed and reported an outcome; it reported an outcome although its commit failed; or
the process ended during it, at any of its writes, before or after the commit, and no outcome was reported. -/
inductive Fate where
  | completed (op : Op) (r : Res Unit)
  | commitFailed (op : Op) (r : Res Unit)
  | cutOff (op : Op)

def Fate.op : Fate → Op
  | .completed op _ => op
  | .commitFailed op _ => op
  | .cutOff op => op

/-- `Lived h s`: the history `h` (oldest first) of completed, failed and cut-off operations, the environment being reopened
after each crash, can leave the stored state `s`. -/
inductive Lived : List Fate → Heed → Prop where
  | new : Lived [] new
  | completed {h : List Fate} {s : Heed} (op : Op) : Lived h s →
      Lived (h ++ [.completed op (execTx true s op).1]) (execTx true s op).2.durable
  | commitFailed {h : List Fate} {s : Heed} (op : Op) : Lived h s →
      Lived (h ++ [.commitFailed op (execTx false s op).1]) (execTx false s op).2.durable
  | cutOff {h : List Fate} {s d : Heed} (ok : Bool) (op : Op) : Lived h s → d ∈ (execTx ok s op).2.seen →
      Lived (h ++ [.cutOff op]) d

/-- `Explains h w`: the world `w` arises from the empty one by the operations of `h` that were reported `Ok` with a good commit,
in order, and for each cut-off operation either all of its effect or none; nothing else has any effect. -/
inductive Explains : List Fate → World → Prop where
  | nil : Explains [] emptyWorld
  | acknowledged {h : List Fate} {w : World} (op : Op) : Explains h w → Explains (h ++ [.completed op (.ok ())]) (apply false w op)
  | refused {h : List Fate} {w : World} (op : Op) (r : Res Unit) : r ≠ .ok () → Explains h w → Explains (h ++ [.completed op r]) w
  | commitFailed {h : List Fate} {w : World} (op : Op) (r : Res Unit) : Explains h w → Explains (h ++ [.commitFailed op r]) w
  | lost {h : List Fate} {w : World} (op : Op) : Explains h w → Explains (h ++ [.cutOff op]) w
  | kept {h : List Fate} {w : World} (op : Op) : Explains h w → Explains (h ++ [.cutOff op]) (apply false w op)

end Heed
end Verif
