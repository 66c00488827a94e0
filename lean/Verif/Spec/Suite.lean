import Verif.Model.SuiteRun
import Verif.Spec.Apps
/-!
# Specification vocabulary: what the test suite runner should print
-/
namespace Verif
namespace Suite

/-- A file that can be read: its name and its script. -/
structure Test where
  name : Str
  script : Str
deriving DecidableEq, Repr

/-- What a user reads about one test after its name: that it succeeded, or that it failed and why.  `none`: its script panics on a fresh store. -/
def verdict (paint : Colour → Str → Str) (t : Test) : Option Str :=
  match (runGraph t.script Graph.memNew).1 with
  | .ok _ => some (lit " 😀 " ++ paint .brightMagenta (lit "Success!"))
  | .err m => some (lit " 😅 " ++ paint .red (lit "Failed") ++ lit " " ++ m)
  | .panic => none

/-- The script runs without error on a fresh store. -/
def passes (t : Test) : Bool := (runGraph t.script Graph.memNew).1.isOk

/-- The name of a test ends in `.wander`. -/
def TestName (name : Str) : Prop := ∃ stem, name = stem ++ lit ".wander"

/-- A list of files has exactly these tests, in this order, and nothing that stops the runner: names are Unicode, and every file with the name of a
test can be read and has a script that does not panic. -/
inductive Tests : List (Option File) → List Test → Prop
  | nil : Tests [] []
  | other {fs ts name content} : ¬ TestName name → Tests fs ts → Tests (some ⟨some name, content⟩ :: fs) ts
  | test {fs ts name script} : TestName name → (runGraph script Graph.memNew).1 ≠ .panic → Tests fs ts →
      Tests (some ⟨some name, some script⟩ :: fs) (⟨name, script⟩ :: ts)

/-- What the directory lists here stops the runner, after these lines about it: it cannot be listed, its name is not Unicode, or it is a test (its name is
printed) that cannot be read or whose script panics. -/
inductive Stops (paint : Colour → Str → Str) : Option File → List Str → Prop
  | noEntry : Stops paint none []
  | noName {content} : Stops paint (some ⟨none, content⟩) []
  | unreadable {name} : TestName name → Stops paint (some ⟨some name, none⟩) [lit "🧪" ++ paint .cyan name]
  | panics {name script} : TestName name → (runGraph script Graph.memNew).1 = .panic →
      Stops paint (some ⟨some name, some script⟩) [lit "🧪" ++ paint .cyan name]

/-- The lines about tests: for each its name and the verdict. -/
def testLines (paint : Colour → Str → Str) (ts : List Test) : List Str :=
  ts.flatMap fun t => [lit "🧪" ++ paint .cyan t.name, (verdict paint t).getD []]

/-- A number in decimal. -/
def decimal (n : Nat) : Str := Nat.toDigits 10 n

/-- The last line. -/
def lastLine (ts : List Test) : Str :=
  lit "Completed " ++ decimal (ts.filter passes).length ++ lit " out of " ++ decimal ts.length ++ lit " tests."

/-- The first two lines. -/
def banner (location : Str) : List Str := [lit "👟 Running Ligature Test Suite!", lit "📁 Running tests in " ++ location ++ lit "."]

end Suite
end Verif
