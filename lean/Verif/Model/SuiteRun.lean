import Verif.Model.Frontends
/-!
# Model of a whole run of `ligature-test-suite/src/main.rs`

`Model/Frontends` (`Suite.main`) has the two numbers of the last line, for directories in which everything can be read.  Here is everything the
program prints, for any environment and directory.  Colours (`colored`) depend on the terminal, so `paint` is left open.
The counters are integers; overflow of `i32` is not modelled.
-/
namespace Verif
namespace Suite

/-- The colours used (`main.rs:20,27,30`). -/
inductive Colour where
  | cyan | brightMagenta | red
deriving DecidableEq, Repr

/-- What the program finds under one name in the directory: `name` is `none` if the name is not Unicode, `content` is `none` if
`read_to_string` fails (a directory, an unreadable file, one that is not UTF-8). -/
structure File where
  name : Option Str
  content : Option Str
deriving DecidableEq, Repr

/-- `std::env::var("LIGATURE_TEST_SUITE")` and, for `read_dir`, what each round of the loop gets (`main.rs:14,16-17`); `none` is an error. -/
structure World where
  var : Option Str
  dir : Str → Option (List (Option File))

/-- The lines printed so far; and whether the program panicked. -/
structure Report where
  lines : List Str
  panicked : Bool
deriving DecidableEq, Repr

/-- Decimal digits (`Display for i32`). -/
def showInt : Int → Str
  | .ofNat n => Nat.toDigits 10 n
  | .negSucc n => '-' :: Nat.toDigits 10 (n + 1)

/-- `main.rs:35` -/
def countLine (c : Counts) : Str :=
  lit "Completed " ++ showInt (c.total - c.failed) ++ lit " out of " ++ showInt c.total ++ lit " tests."

/-- The loop (`main.rs:16-35`) with the lines printed so far. -/
def runLoop (paint : Colour → Str → Str) : List (Option File) → Counts → List Str → Report
  | [], c, out => ⟨out ++ [countLine c], false⟩                                                   -- line 35
  | none :: _, _, out => ⟨out, true⟩                                                              -- line 17
  | some f :: rest, c, out =>
    match f.name with
    | none => ⟨out, true⟩                                                                         -- line 18
    | some name =>
      if isTest name then
        let out := out ++ [lit "🧪" ++ paint .cyan name]                                          -- line 20
        match f.content with
        | none => ⟨out, true⟩                                                                     -- line 21
        | some script =>
          match (runGraph script Graph.memNew).1 with
          | .ok _ => runLoop paint rest ⟨c.total + 1, c.failed⟩ (out ++ [lit " 😀 " ++ paint .brightMagenta (lit "Success!")])
          | .err m => runLoop paint rest ⟨c.total + 1, c.failed + 1⟩ (out ++ [lit " 😅 " ++ paint .red (lit "Failed") ++ lit " " ++ m])
          | .panic => ⟨out, true⟩
      else runLoop paint rest c out

/-- `main.rs:10-36` -/
def program (paint : Colour → Str → Str) (w : World) : Report :=
  let out := [lit "👟 Running Ligature Test Suite!"]
  match w.var with
  | none => ⟨out, true⟩                                                                           -- line 14
  | some v =>
    let location := v ++ lit "/core"
    let out := out ++ [lit "📁 Running tests in " ++ location ++ lit "."]
    match w.dir location with
    | none => ⟨out, true⟩                                                                         -- line 16
    | some files => runLoop paint files ⟨0, 0⟩ out

end Suite
end Verif
