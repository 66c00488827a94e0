import Verif.Base.BMap
/-!
# Outcomes of Rust functions
-/
namespace Verif

/-- The outcome of a Rust function returning `Result<α, E>` where `E` wraps a message:
`Ok`, `Err(message)`, or a panic (`todo!()`, `unwrap` on `Err`/`None`, failed `assert!`). -/
inductive Res (α : Type u) where
  | ok (a : α)
  | err (msg : Str)
  | panic
deriving DecidableEq, Repr

namespace Res
/-- `Result::map` (a panic stays a panic). -/
def map (f : α → β) : Res α → Res β
  | ok a => ok (f a)
  | err m => err m
  | panic => panic

/-- `.map_err(|e| todo!())`: an error becomes a panic. -/
def errTodo : Res α → Res α
  | ok a => ok a
  | err _ => panic
  | panic => panic

def isOk : Res α → Bool
  | ok _ => true
  | _ => false
end Res

/-- A string literal of the Rust source. -/
abbrev lit (s : String) : Str := s.toList
end Verif
