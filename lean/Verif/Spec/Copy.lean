import Verif.Spec.Footprint
/-!
# Specification vocabulary: copying what a store shows into a new store
-/
namespace Verif
namespace Spec

/-- What the store shows: its listing in the listed order, and the triples it returns for each name. -/
def Shows (T : TripsOps σ) (s : σ) (cs : List (Str × BSet Trip)) : Prop :=
  T.collections s = .ok (cs.map Prod.fst) ∧ ∀ p ∈ cs, T.triples s p.1 = .ok p.2

/-- Copying: create every collection and add its triples, in this order. -/
def copyOps : List (Str × BSet Trip) → List Op
  | [] => []
  | p :: cs => .addCollection p.1 :: .addTriples p.1 p.2 :: copyOps cs

/-- How many triples there are. -/
def tripCount (cs : List (Str × BSet Trip)) : Nat := (cs.map fun p => p.2.toList.length).sum

/-- The different texts in the triples. -/
def textsIn (cs : List (Str × BSet Trip)) : BSet Str :=
  BSet.ofList (cs.flatMap fun p => p.2.toList.flatMap tripTexts)

end Spec
end Verif
