import Verif.Spec.Semantics
/-!
# Specification vocabulary: replacing one quote by another
-/
namespace Verif
namespace Spec
open Eval

mutual
/-- The second quote is the first with `q'` in place of some of the quotes `q` that are run: the quote itself, or quotes in the arguments of its call. -/
inductive Swapped (cmds : Commands σ) (q q' : List Value) : List Value → List Value → Prop where
  | same (vs) : Swapped cmds q q' vs vs
  | here : Swapped cmds q q' q q'
  | inside {name args args'} : SwappedArgs cmds q q' name args args' → Swapped cmds q q' (.element name :: args) (.element name :: args')

/-- The same for the arguments of a call: the commands that run quotes are `let` (its second argument), `assert-equal` and `assert-fail`. -/
inductive SwappedArgs (cmds : Commands σ) (q q' : List Value) : Element → List Value → List Value → Prop where
  | same (name args) : SwappedArgs cmds q q' name args args
  | letQuote {name c v v'} : Has cmds name.text (.builtin .let_) → Swapped cmds q q' v v' →
      SwappedArgs cmds q q' name [c, .quote v] [c, .quote v']
  | left {name v v' y} : Has cmds name.text (.builtin .assertEqual) → Swapped cmds q q' v v' →
      SwappedArgs cmds q q' name [.quote v, y] [.quote v', y]
  | right {name x v v'} : Has cmds name.text (.builtin .assertEqual) → Swapped cmds q q' v v' →
      SwappedArgs cmds q q' name [x, .quote v] [x, .quote v']
  | both {name v v' w w'} : Has cmds name.text (.builtin .assertEqual) → Swapped cmds q q' v v' → Swapped cmds q q' w w' →
      SwappedArgs cmds q q' name [.quote v, .quote w] [.quote v', .quote w']
  | fail {name v v'} : Has cmds name.text (.builtin .assertFail) → Swapped cmds q q' v v' → SwappedArgs cmds q q' name [.quote v] [.quote v']
end

/-- The same for the calls of a script; a call can also be replaced as a whole. -/
inductive SwappedCalls (cmds : Commands σ) (q q' : List Value) : List Call → List Call → Prop where
  | nil : SwappedCalls cmds q q' [] []
  | cons {c c' : Call} {cs cs'} : Swapped cmds q q' (.element c.name :: c.args) (.element c'.name :: c'.args) → SwappedCalls cmds q q' cs cs' →
      SwappedCalls cmds q q' (c :: cs) (c' :: cs')

end Spec
end Verif
