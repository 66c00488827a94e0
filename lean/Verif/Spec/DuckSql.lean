import Verif.Spec.Store
/-!
# Specification vocabulary: what operations of the DuckDB-backed store come to
-/
namespace Verif
namespace Spec

/-- What each operation of the DuckDB-backed store returns when no statement fails, from what the store shows. -/
def DuckOutcome (w : World) (op : Op) (r : Res Unit) : Prop :=
  match op with
  | .addCollection c => (w c = none ∧ r = .ok ()) ∨ (w c ≠ none ∧ r = .panic)
  | .removeCollection c => ((∃ p, w c = some p ∧ ∃ t, p t) ∧ r = .panic) ∨ ((¬ ∃ p, w c = some p ∧ ∃ t, p t) ∧ r = .ok ())
  | .addTriples c _ | .removeTriples c _ =>
    (w c ≠ none ∧ r = .ok ()) ∨ (w c = none ∧ r = .err (lit "Collection " ++ c ++ lit " not found."))

end Spec
end Verif
