import Verif.Spec.Graph
import Verif.Model.Frontends
import Verif.Model.Redb
/-!
# Specification of the applications
-/
namespace Verif
namespace Spec

/-- The edge an entry is drawn as: labelled with the role (`:` and `¬:` for extends entries), from subject to object. -/
def edgeOf (e : Entry) : Wasm.Edge := ⟨(parts e).2.1, (parts e).1, (parts e).2.2⟩

/-- White space as Unicode defines it. -/
def Blank (c : Char) : Prop :=
  c.toNat ∈ [0x9, 0xA, 0xB, 0xC, 0xD, 0x20, 0x85, 0xA0, 0x1680, 0x2000, 0x2001, 0x2002, 0x2003, 0x2004, 0x2005, 0x2006, 0x2007, 0x2008,
    0x2009, 0x200A, 0x2028, 0x2029, 0x202F, 0x205F, 0x3000]

/-- The word is the first blank-separated word of the line. -/
def FirstWord (line word : Str) : Prop :=
  ∃ pre post, line = pre ++ word ++ post ∧ (∀ c ∈ pre, Blank c) ∧ word ≠ [] ∧ (∀ c ∈ word, ¬ Blank c) ∧ ∀ c, post.head? = some c → Blank c

/-- A line whose first non-blank character is a colon. -/
def CommandLine (line : Str) : Prop := ∃ pre rest, line = pre ++ ':' :: rest ∧ ∀ c ∈ pre, Blank c

/-- A line that ends the session. -/
def QuitLine (line : Str) : Prop := FirstWord line (lit ":q") ∨ FirstWord line (lit ":quit")

/-- What a command line makes the REPL print, by its first word. -/
inductive CommandPrints : Str → List Str → Prop where
  | status {w} : w ∈ [lit ":status", lit ":s"] → CommandPrints w [lit "..."]
  | nothing {w} : w ∈ [lit ":quit", lit ":q", lit ":help", lit ":h", lit ":broadcast"] → CommandPrints w []
  | unknown {w} : w ∉ [lit ":status", lit ":s", lit ":quit", lit ":q", lit ":help", lit ":h", lit ":broadcast"] →
      CommandPrints w [lit "Unknown command - " ++ w]

/-- The scripts among the inputs of a session, in order: the lines that are not commands. -/
inductive Scripts : List Repl.Input → List Str → Prop where
  | nil : Scripts [] []
  | command {l is ss} : CommandLine l → Scripts is ss → Scripts (.line l :: is) ss
  | script {l is ss} : ¬ CommandLine l → Scripts is ss → Scripts (.line l :: is) (l :: ss)

/-- The store after running scripts one after the other on it, each on what the one before left, whatever its outcome. -/
def storeAfter (scripts : List Str) (s : Mem) : Mem := scripts.foldl (fun s l => (runGraph l s).2) s

/-- The reply to a script on a store: the displayed value or the error message; none if it panics. -/
def replyTo (script : Str) (s : Mem) : Option Str :=
  match (runGraph script s).1 with
  | .ok v => some (Display.value v)
  | .err m => some m
  | .panic => none

/-- How many calls of a kind there are. -/
def callsOf (k : Redb.IdType) (h : List Redb.IdType) : Nat := (h.filter (· = k)).length

/-- The table after a sequence of calls, starting empty. -/
def tableAfter (h : List Redb.IdType) : BMap Str Nat := h.foldl (fun t k => (Redb.nextId k t).2) ∅

end Spec
end Verif
