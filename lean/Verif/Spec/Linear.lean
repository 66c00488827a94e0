import Verif.Model.HeedShared
/-!
# Specification: a concurrent history is equivalent to a sequential one
-/
namespace Verif
namespace Heed
open Spec

/-- One operation in a sequential order: its number, the call, whether its commit (if it has one) succeeded, and the answer. -/
structure Turn where
  id : Nat
  req : Req
  ok : Bool
  ans : Ans

/-- One call on a store nobody else uses: the answer and the state afterwards. -/
def alone (ok : Bool) (s : Heed) : Req → Ans × Heed
  | .update op => (.done (execTx ok s op).1, (execTx ok s op).2.durable)
  | .collections => (.names ((opsWith ok).collections s), s)
  | .triples c => (.trips ((opsWith ok).triples s c), s)

/-- `OneByOne d S s`: making the calls of `S` one after the other, starting with stored state `d`, gives the answers in `S` and leaves `s`. -/
inductive OneByOne (d : Heed) : List Turn → Heed → Prop where
  | nil : OneByOne d [] d
  | snoc {S : List Turn} {s : Heed} (i : Nat) (ok : Bool) (q : Req) : OneByOne d S s →
      OneByOne d (S ++ [⟨i, q, ok, (alone ok s q).1⟩]) (alone ok s q).2

/-- `x` comes before `y` in the list. -/
def Before {α : Type} (l : List α) (x y : α) : Prop := List.Sublist [x, y] l

/-- The sequential order `S` accounts for the history `h`: every operation takes at most one turn; every operation that returned has a turn, with the
answer it returned; nothing has a turn that was not called; and an operation that returned before another was called has its turn earlier. -/
structure Accounts (h : List Ev) (S : List Turn) : Prop where
  once : (S.map Turn.id).Nodup
  returned : ∀ i a, Ev.ret i a ∈ h → ∃ t ∈ S, t.id = i ∧ t.ans = a
  called : ∀ t ∈ S, Ev.inv t.id t.req ∈ h
  realTime : ∀ i a j q, Before h (Ev.ret i a) (Ev.inv j q) → j ∈ S.map Turn.id → Before (S.map Turn.id) i j

/-- An update acknowledged with a good commit has its effect, any other turn none. -/
def turnEffect (w : World) (t : Turn) : World :=
  match t.req, t.ok, t.ans with
  | .update op, true, .done (.ok ()) => apply false w op
  | _, _, _ => w

/-- The world the turns leave: each update acknowledged with a good commit has had its effect, in order, and nothing else. -/
def worldOfTurns (S : List Turn) : World := S.foldl turnEffect emptyWorld

/-- The answer of a call in the light of a world: names listed once each and exactly those present; a present collection read exactly.
(The outcome of an update is not constrained here.) -/
def Fits (w : World) : Req → Ans → Prop
  | .update _, a => ∃ r, a = .done r
  | .collections, a => ∃ l, a = .names (.ok l) ∧ l.Nodup ∧ ∀ c, c ∈ l ↔ (w c).isSome
  | .triples c, a => ∃ r, a = .trips r ∧ ∀ p, w c = some p → ∃ ts, r = .ok ts ∧ ∀ t, t ∈ ts ↔ p t

/-- Calls with collection names of 1 to 511 bytes. -/
def LegalReq : Req → Prop
  | .update op => LegalOp op
  | _ => True

end Heed
end Verif
