import Verif.Spec.Sayable
/-!
# Specification of C103: scripts as simultaneous assignments
-/
namespace Verif
namespace Spec
open Eval

/-- Where a network comes from: it is the same on every store, or it is the part that passes a test of what a collection holds at the start. -/
inductive Origin where
  | said (n : Network)
  | part (c : Str) (keep : Entry → Prop)

/-- On a store that is `s` at the start the network is `n`. -/
def Origin.Is (s : Mem) : Origin → Network → Prop
  | .said m, n => n = m
  | .part c keep, n => ∃ m, Graph.memOps.entries s (.of c) = .ok m ∧ ∀ e, e ∈ n ↔ e ∈ m ∧ keep e

/-- What is answered: a failure, the same value on every store, or a network. -/
inductive Reply where
  | fails
  | value (v : Value)
  | network (src : Origin)

/-- On a store that is `s` at the start the answer is `r`. -/
def Reply.Is (s : Mem) : Reply → Res Value → Prop
  | .fails, r => ∀ v, r ≠ .ok v
  | .value v, r => r = .ok v
  | .network src, r => ∃ n, r = .ok (.network n) ∧ src.Is s n

/-- The store `s'` is `s` after an assignment to some collections, all at once: what is assigned is read from `s`. -/
def Assigned (s s' : Mem) (A : List (Str × Origin)) : Prop :=
  ∀ c, match A.lookup c with
    | none => Graph.memOps.entries s' (.of c) = Graph.memOps.entries s (.of c)
    | some src => ∃ n, Graph.memOps.entries s' (.of c) = .ok n ∧ src.Is s n

mutual
/-- The value does not have the word in it, outside networks. -/
def Without (w : Str) : Value → Prop
  | .element e => e.text ≠ w
  | .network _ => True
  | .quote vs => WithoutAll w vs
def WithoutAll (w : Str) : List Value → Prop
  | [] => True
  | v :: vs => Without w v ∧ WithoutAll w vs
end

end Spec
end Verif
