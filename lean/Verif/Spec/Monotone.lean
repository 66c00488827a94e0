import Verif.Spec.Graph
import Verif.Spec.Store
import Verif.Model.Eval
import Verif.Model.LigatureGraph
/-!
# Specification vocabulary: more in the store, more in the result
-/
namespace Verif
namespace Spec
open Eval

/-- The second value has at least the entries of the first; values that are not networks are equal. -/
inductive AtMost : Value → Value → Prop where
  | same (v) : AtMost v v
  | network {a b : Network} : (∀ e ∈ a, e ∈ b) → AtMost (.network a) (.network b)

/-- The second store has the collections of the first, with at least their entries. -/
def Fewer (T : TripsOps σ) (s t : σ) : Prop :=
  ∀ c : Element, Listed T s c.text → Listed T t c.text ∧
    ∃ n n', (Graph.ops T).entries s c = .ok n ∧ (Graph.ops T).entries t c = .ok n' ∧ ∀ e ∈ n, e ∈ n'

/-- A quote (or call) that compares nothing: no `assert-equal`, no `assert-fail`, no named variable in a `filter`, here or in a quote that a `let`
runs. -/
inductive Positive : List Value → Prop where
  | nil : Positive []
  | noCall {v vs} : (∀ e, v ≠ .element e) → Positive (v :: vs)
  | call {name args} : name.text ≠ lit "assert-equal" → name.text ≠ lit "assert-fail" →
      (name.text = lit "filter" → ∀ e, .element e ∈ args → ¬ IsVar e.text) →
      (name.text = lit "let" → ∀ c q, args = [c, .quote q] → Positive q) → Positive (.element name :: args)

end Spec
end Verif
