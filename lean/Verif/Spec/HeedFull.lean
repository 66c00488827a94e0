import Verif.Spec.Heed
import Verif.Model.TripsHeedFull
/-!
# Specification vocabulary for an LMDB map that runs full
-/
namespace Verif
namespace Heed
open Spec

/-- An operation when `left` more writes find room (`none`: no limit). -/
def execFull (ok : Bool) (left : Option Nat) (s : Heed) : Op → Res Unit × FTx
  | .addCollection c => addCollectionF ok left s c
  | .removeCollection c => removeCollectionF ok left s c
  | .addTriples c ts => addTriplesF ok left s c ts
  | .removeTriples c ts => removeTriplesF ok left s c ts

/-- How many writes a successful operation makes: none or three to add a collection (it exists, or not), two to remove one; seven to thirteen per triple
added (six indexes and the counter, and two for each of its values not met before), six per triple removed. -/
def WriteCount : Op → Nat → Prop
  | .addCollection _, W => W = 0 ∨ W = 3
  | .removeCollection _, W => W = 2
  | .addTriples _ ts, W => 7 * ts.toList.length ≤ W ∧ W ≤ 13 * ts.toList.length
  | .removeTriples _ ts, W => W = 6 * ts.toList.length

/-- What can become of an operation when space may run out: it completed with room for everything and reported an outcome; it
reported an outcome while room may have been short, or its commit may have failed; or the process ended during it. -/
inductive FullFate where
  | roomy (op : Op) (r : Res Unit)
  | tight (op : Op) (r : Res Unit)
  | cutOff (op : Op)

def FullFate.op : FullFate → Op
  | .roomy op _ => op
  | .tight op _ => op
  | .cutOff op => op

/-- `LivedFull h s`: the history `h` (oldest first), in which each operation finds the room it finds, can leave the stored state `s`. -/
inductive LivedFull : List FullFate → Heed → Prop where
  | new : LivedFull [] new
  | roomy {h : List FullFate} {s : Heed} (op : Op) : LivedFull h s →
      LivedFull (h ++ [.roomy op (execFull true none s op).1]) (execFull true none s op).2.tx.durable
  | tight {h : List FullFate} {s : Heed} (ok : Bool) (left : Option Nat) (op : Op) : LivedFull h s →
      LivedFull (h ++ [.tight op (execFull ok left s op).1]) (execFull ok left s op).2.tx.durable
  | cutOff {h : List FullFate} {s d : Heed} (ok : Bool) (left : Option Nat) (op : Op) : LivedFull h s →
      d ∈ (execFull ok left s op).2.tx.seen → LivedFull (h ++ [.cutOff op]) d

/-- `ExplainsFull h w`: the world `w` arises from the empty one by the operations of `h`, in order: one with room that was reported
`Ok` has all of its effect; one that was refused has none; one that was reported `Ok` while room was short, or that was cut off, has
all of it or none. -/
inductive ExplainsFull : List FullFate → World → Prop where
  | nil : ExplainsFull [] emptyWorld
  | acknowledged {h : List FullFate} {w : World} (op : Op) : ExplainsFull h w → ExplainsFull (h ++ [.roomy op (.ok ())]) (apply false w op)
  | refused {h : List FullFate} {w : World} (op : Op) (r : Res Unit) : r ≠ .ok () → ExplainsFull h w → ExplainsFull (h ++ [.roomy op r]) w
  | tightAll {h : List FullFate} {w : World} (op : Op) : ExplainsFull h w → ExplainsFull (h ++ [.tight op (.ok ())]) (apply false w op)
  | tightNone {h : List FullFate} {w : World} (op : Op) (r : Res Unit) : ExplainsFull h w → ExplainsFull (h ++ [.tight op r]) w
  | lost {h : List FullFate} {w : World} (op : Op) : ExplainsFull h w → ExplainsFull (h ++ [.cutOff op]) w
  | kept {h : List FullFate} {w : World} (op : Op) : ExplainsFull h w → ExplainsFull (h ++ [.cutOff op]) (apply false w op)

end Heed
end Verif
