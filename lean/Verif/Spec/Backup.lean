import Verif.Spec.Print
import Verif.Model.Display
/-!
# Specification vocabulary for backing up a store as a script
-/
namespace Verif
namespace Spec

/-- The script has one `let`, in the order of the listing, for each collection: its printed name and the printed network that
reading it gives. -/
def Backup (L : LigOps σ) (s : σ) (script : Str) : Prop :=
  ∃ cs : List (Element × Network), L.collections s = .ok (cs.map Prod.fst) ∧ (∀ p ∈ cs, L.entries s p.1 = .ok p.2) ∧
    script = printedScript (cs.map fun p => (lit "let", [.element p.1, .network p.2]))

/-- No name of a collection and no text of a triple has a character that JSON escapes. -/
def PlainTexts (T : TripsOps σ) (s : σ) : Prop :=
  ∀ c, Listed T s c → (∀ x ∈ c, ¬ Special x) ∧ ∀ ts, T.triples s c = .ok ts → ∀ t ∈ ts, ∀ v ∈ tripTexts t, ∀ x ∈ v, ¬ Special x

/-- The listing, and how many triples each collection holds; one identifier for each name and three for each triple. -/
def Fits64 (T : TripsOps σ) (s : σ) : Prop :=
  ∃ cs : List (Str × BSet Trip), T.collections s = .ok (cs.map Prod.fst) ∧ (∀ p ∈ cs, T.triples s p.1 = .ok p.2) ∧
    (cs.map fun p => 1 + 3 * p.2.toList.length).sum ≤ 2 ^ 64

end Spec
end Verif
