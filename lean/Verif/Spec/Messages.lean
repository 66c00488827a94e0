import Verif.Spec.Parser
import Verif.Spec.Print
/-!
# Specification of the error messages of scripts run with the standard commands
-/
namespace Verif
namespace Spec

/-- The names of the standard commands. -/
def standardNames : List Str := [lit "assert-equal", lit "assert-fail", lit "ignore", lit "let", lit "read", lit "id", lit "docs",
  lit "union", lit "filter"]

/-- Why a script failed. -/
inductive Cause where
  /-- The text is not made of tokens. -/
  | tokenizing
  /-- A token that cannot stand where it stands, at the end of the script. -/
  | parsingAtEnd
  /-- A token that cannot stand where it stands, before the token with this name. -/
  | parsing (next : Str)
  /-- There is no command of this name. -/
  | unknown (name : Str)
  /-- The standard command of this name got arguments it does not take. -/
  | arguments (name : Str)
  /-- `assert-equal` found these two values, as printed. -/
  | notEqual (left right : Str)
  /-- `assert-fail` found no failure. -/
  | noFailure
  /-- `read` was told this by the store. -/
  | reading (why : Str)

/-- The message for each cause; `storeError` says which messages the store itself can give. -/
inductive Message (storeError : Str → Prop) : Cause → Str → Prop where
  | tokenizing : Message storeError .tokenizing (lit "Error tokenizing input.")
  | parsingAtEnd : Message storeError .parsingAtEnd (lit "Error parsing None")
  | parsing {token name} : Called token name → Message storeError (.parsing name) (lit "Error parsing Some(" ++ name ++ lit ")")
  | unknown {name} : name ∉ standardNames → Message storeError (.unknown name) (lit "Could not find command: " ++ name)
  | docs : Message storeError (.arguments (lit "docs")) (lit "docs takes no arguments.")
  | union : Message storeError (.arguments (lit "union")) (lit "union takes two arguments.")
  | id : Message storeError (.arguments (lit "id")) (lit "Id requires a single argument.")
  | let_ : Message storeError (.arguments (lit "let")) (lit "Invalid call to let.")
  | assertEqual : Message storeError (.arguments (lit "assert-equal")) (lit "`assertEq` function requires two parameters.")
  | assertFail : Message storeError (.arguments (lit "assert-fail")) (lit "`assert-fail` function expected to be passed a Quote.")
  | notEqual {left right : Value} : left ≠ right →
      Message storeError (.notEqual (layout left) (layout right)) (lit "Assertion failed, " ++ layout left ++ lit " != " ++ layout right)
  | noFailure : Message storeError .noFailure (lit "Expected failure.")
  | reading {why} : storeError why → Message storeError (.reading why) (lit "Error " ++ why)

/-- What the in-memory graph says when a collection is missing. -/
def MissingCollection (why : Str) : Prop := ∃ c, why = lit "Collection `" ++ c ++ lit "` not found."

/-- A text that begins the way printed values do. -/
def LooksPrinted (r : Str) : Prop := ∃ c ∈ ['"', '{', '('], r.head? = some c

end Spec
end Verif
