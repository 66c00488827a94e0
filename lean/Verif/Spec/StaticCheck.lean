import Verif.Spec.Eval
import Verif.Spec.Heed
import Verif.Spec.Provenance
/-!
# A static check of scripts

Rules, read off the documentation of the commands, for scripts that cannot panic.  `Γ` is the list of collection names the script can count on.
No store and no function of the evaluator appears in the rules.
-/
namespace Verif
namespace Spec
open Eval

/-- What the check is for: running on the in-memory store, or on any of the three stores alike. -/
inductive Target where
  | memory | anyStore
deriving DecidableEq

/-- The name may be given to a network: over any store, it is a new one and can be a key of LMDB. -/
def MayLet (m : Target) (Γ : List Str) (c : Str) : Prop :=
  m = .anyStore → c ∉ Γ ∧ Heed.lmdbKey c = true

mutual
/-- The argument, run if it is a quote, cannot panic; if `net` is set it gives a network.  Afterwards, unless it failed, the names are `Γ'`. -/
inductive ArgPasses (m : Target) : (net : Bool) → (Γ : List Str) → Value → (Γ' : List Str) → Prop where
  | element (Γ e) : ArgPasses m false Γ (.element e) Γ
  | network (net Γ n) : ArgPasses m net Γ (.network n) Γ
  | empty (net Γ) : ArgPasses m net Γ (.quote []) Γ
  | call {net Γ name args Γ'} : CallPasses m net Γ name args Γ' → ArgPasses m net Γ (.quote (.element name :: args)) Γ'

/-- The call cannot panic; if `net` is set it gives a network.  Afterwards, unless it failed, the names are `Γ'`. -/
inductive CallPasses (m : Target) : (net : Bool) → (Γ : List Str) → Element → List Value → (Γ' : List Str) → Prop where
  -- calls that surely succeed with a network
  | docs {net Γ name} : name.text = lit "docs" → CallPasses m net Γ name [] Γ
  | union {net Γ name} (a b) : name.text = lit "union" → CallPasses m net Γ name [.network a, .network b] Γ
  | idNetwork {net Γ name} (n) : name.text = lit "id" → CallPasses m net Γ name [.network n] Γ
  | ignore {net Γ name} (args) : name.text = lit "ignore" → CallPasses m net Γ name args Γ
  | read {net Γ name} {c : Element} : name.text = lit "read" → c.text ∈ Γ → CallPasses m net Γ name [.element c] Γ
  | filter {net Γ name} {c a r b : Element} : m = .memory → name.text = lit "filter" → c.text ∈ Γ → ¬ IsVar a.text → ¬ IsVar r.text → ¬ IsVar b.text →
      CallPasses m net Γ name [.element c, .element a, .element r, .element b] Γ
  | let_ {net Γ name} {c : Element} (n) : name.text = lit "let" → MayLet m Γ c.text → CallPasses m net Γ name [.element c, .network n] (c.text :: Γ)
  | letQuote {net Γ Γ' name} {c : Element} {q} : name.text = lit "let" → ArgPasses m true Γ (.quote q) Γ' → MayLet m Γ' c.text →
      CallPasses m net Γ name [.element c, .quote q] (c.text :: Γ')
  -- calls that may fail with an error
  | id {Γ name} (args) : name.text = lit "id" → CallPasses m false Γ name args Γ
  | docsArgs {Γ name} (args) : name.text = lit "docs" → CallPasses m false Γ name args Γ
  | unionArgs {Γ name args} : name.text = lit "union" → args.length ≠ 2 → CallPasses m false Γ name args Γ
  | readMissing {Γ name} (c) : m = .memory → name.text = lit "read" → CallPasses m false Γ name [.element c] Γ
  | letArgs {Γ name args} : name.text = lit "let" → (¬ ∃ c n, args = [.element c, .network n]) → (¬ ∃ c q, args = [.element c, .quote q]) →
      CallPasses m false Γ name args Γ
  | unknown {Γ name} (args) : Unknown (common (σ := Unit)) name.text → CallPasses m false Γ name args Γ
  | equal {Γ Γ₁ Γ₂ name x y} : name.text = lit "assert-equal" → ArgPasses m false Γ x Γ₁ → ArgPasses m false Γ₁ y Γ₂ → CallPasses m false Γ name [x, y] Γ₂
  | equalArgs {Γ name args} : name.text = lit "assert-equal" → args.length ≠ 2 → CallPasses m false Γ name args Γ
  | fail {Γ Γ' name q} : name.text = lit "assert-fail" → ArgPasses m false Γ (.quote q) Γ' →
      (m = .anyStore → ¬ Mentions (lit "let") (.quote q)) → CallPasses m false Γ name [.quote q] Γ
  | failArgs {Γ name args} : name.text = lit "assert-fail" → (¬ ∃ q, args = [.quote q]) → CallPasses m false Γ name args Γ
end

/-- Every call of the script passes, with the names known where it stands. -/
inductive Passes (m : Target) : (Γ : List Str) → List Call → Prop where
  | nil (Γ) : Passes m Γ []
  | cons {Γ Γ' c cs} : CallPasses m false Γ c.name c.args Γ' → Passes m Γ' cs → Passes m Γ (c :: cs)

end Spec
end Verif
