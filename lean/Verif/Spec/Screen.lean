import Verif.Spec.Print
import Verif.Spec.Apps
/-!
# Specification of what the REPL shows
-/
namespace Verif
namespace Spec

/-- The lines that show a network: braces around it, one line for each entry, in order. -/
def networkLines (n : Network) : List Str :=
  match n.toList with
  | [] => [lit "{}"]
  | es => [lit "{"] ++ es.map (fun e => lit "  " ++ layoutEntry e) ++ [lit "}"]

/-- Lines as they appear on the terminal. -/
def screen (lines : List Str) : Str := lines.flatMap (· ++ ['\n'])

/-- No control character. -/
def OneLine (s : Str) : Prop := ∀ c ∈ s, 0x20 ≤ c.toNat

/-- The line shown for an error. -/
def errorLine (m : Str) : Str := lit "WanderError(" ++ Debug.str m ++ lit ")"

end Spec
end Verif
