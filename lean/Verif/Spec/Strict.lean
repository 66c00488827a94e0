import Verif.Spec.Eval
import Verif.Spec.Heed
import Verif.Model.LigatureGraph
/-!
# Specification vocabulary for scripts over different stores
-/
namespace Verif
namespace Spec
open Eval

/-- A guarded in-memory graph that refuses (by panicking) whatever the three stores do not do alike: adding a collection that
exists or whose name LMDB cannot hold, reading or writing one that does not exist, removing anything, filtering, and using more
identifiers than are left (second component of the state).  Everything else it does as the in-memory graph does. -/
def strictOps : LigOps (Mem × Nat) where
  collections s := Graph.memOps.collections s.1
  addCollection s c :=
    if (s.1.colls.get? c.text).isSome ∨ Heed.lmdbKey c.text = false ∨ s.2 < 1 then (.panic, s)
    else ((Graph.memOps.addCollection s.1 c).1, ((Graph.memOps.addCollection s.1 c).2, s.2 - 1))
  removeCollection s _ := (.panic, s)
  entries s c := if (s.1.colls.get? c.text).isSome then Graph.memOps.entries s.1 c else .panic
  addEntries s c es :=
    if (s.1.colls.get? c.text).isSome ∧ 3 * es.toList.length ≤ s.2 then
      ((Graph.memOps.addEntries s.1 c es).1, ((Graph.memOps.addEntries s.1 c es).2.1, s.2 - 3 * es.toList.length), es)
    else (.panic, s, es)
  removeEntries s _ es := (.panic, s, es)
  filter _ _ _ := .panic

/-- The store operation sequences of `L'` follow those of `L` as long as `L` does not panic: equal answers, related states after. -/
structure LigSim (R : σ → τ → Prop) (L : LigOps σ) (L' : LigOps τ) : Prop where
  entries : ∀ s t c, R s t → L.entries s c ≠ .panic → L'.entries t c = L.entries s c
  filter : ∀ s t c p, R s t → L.filter s c p ≠ .panic → L'.filter t c p = L.filter s c p
  addCollection : ∀ s t c, R s t → (L.addCollection s c).1 ≠ .panic → (L'.addCollection t c).1 = (L.addCollection s c).1 ∧
    R (L.addCollection s c).2 (L'.addCollection t c).2
  addEntries : ∀ s t c es, R s t → (L.addEntries s c es).1 ≠ .panic → (L'.addEntries t c es).1 = (L.addEntries s c es).1 ∧
    R (L.addEntries s c es).2.1 (L'.addEntries t c es).2.1

end Spec
end Verif
