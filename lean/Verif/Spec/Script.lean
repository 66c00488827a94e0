import Verif.Spec.Lexer
import Verif.Spec.Parser
/-!
# Specification vocabulary for whole scripts
-/
namespace Verif
namespace Spec
open Lexer

/-- The script is well formed and means the calls. -/
def Means (script : Str) (calls : List Call) : Prop := ∃ ts, tokenizeAndFilter script = .ok ts ∧ Program ts calls

/-- The script ends in the middle of a line of calls: it holds whole tokens, no open comment, at least one call, and no comma after
the last call. -/
def Joinable (script : Str) : Prop :=
  Complete script ∧ ∃ ts, tokenizeAndFilter script = .ok ts ∧ ts ≠ [] ∧ ts.getLast? ≠ some .comma

end Spec
end Verif
