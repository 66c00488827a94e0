import Verif.Model.PackageMerge
/-!
# Specification vocabulary: preparing the npm package (C96)
-/
namespace Verif
namespace Spec
open Pkg

/-- The name reads as a whole number below 2^32 - 1 in decimal, without leading zeros: JavaScript keeps such names first, in ascending order. -/
def IndexName (k : Str) (n : Nat) : Prop := n < 2 ^ 32 - 1 ∧ k = Nat.toDigits 10 n

/-- The order of the properties of an object that JavaScript has read: indexes first, ascending. -/
def InOrder (o : Obj) : Prop :=
  ∃ xs ys, o = xs ++ ys ∧ (∀ p ∈ ys, ∀ n, ¬ IndexName p.1 n) ∧
    ∃ ns : List Nat, ns.Pairwise (· < ·) ∧ ns.map (Nat.toDigits 10) = xs.map Prod.fst ∧ ∀ n ∈ ns, n < 2 ^ 32 - 1

/-- What JavaScript promises of its JSON: an object has each name once, and in order; writing an object made of values that were read
and reading it again gives it back. -/
structure Faithful (c : Codec) : Prop where
  proper : ∀ s o, c.parse s = some o → (o.map Prod.fst).Nodup ∧ InOrder o
  lossless : ∀ o : Obj, (o.map Prod.fst).Nodup → InOrder o → (∀ p ∈ o, ∃ s q, c.parse s = some q ∧ p.2 ∈ q.map Prod.snd) →
    c.parse (c.print o) = some o

/-- The file holds this object. -/
def Holds (c : Codec) (f : Found) (o : Obj) : Prop := ∃ s, f = .text s ∧ c.parse s = some o

/-- `m` is `p` overlaid with `t`.  The one name that cannot be added is `__proto__`. -/
def Overlaid (t p m : Obj) : Prop :=
  ∀ k, m.lookup k =
    if k = lit "__proto__" ∧ p.lookup k = none then none
    else match t.lookup k with
      | some v => some v
      | none => p.lookup k

end Spec
end Verif
