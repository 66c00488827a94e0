import Verif.Spec.Graph
import Verif.Model.Eval
/-!
# Specification vocabulary for running Wander calls
-/
namespace Verif
namespace Spec
open Eval

/-- A call written as a name and its arguments. -/
def call (name : String) (args : List Value) : Call := ⟨.of (lit name), args⟩

/-- The table has no command of this name. -/
def Unknown (cmds : Commands σ) (name : Str) : Prop := ∀ p ∈ cmds, p.1 ≠ name

/-- The value of an argument of `assert-equal`, `assert-fail` and `let`: a quote is run as the call it spells (the empty quote is the
empty network; a quote not starting with an element is not implemented), anything else stands for itself. -/
def argValue (L : LigOps σ) (cmds : Commands σ) (v : Value) (s : σ) : Res Value × σ :=
  match v with
  | .quote [] => (.ok (.network ∅), s)
  | .quote (.element name :: args) => runCalls L cmds [⟨name, args⟩] s
  | .quote _ => (.panic, s)
  | v => (.ok v, s)

mutual
/-- A quote somewhere in the value (at any depth) is a call of the named command. -/
def Mentions (name : Str) : Value → Prop
  | .quote vs => (∃ e rest, vs = .element e :: rest ∧ e.text = name) ∨ MentionsList name vs
  | .element _ => False
  | .network _ => False
def MentionsList (name : Str) : List Value → Prop
  | [] => False
  | v :: vs => Mentions name v ∨ MentionsList name vs
end

/-- The call, or a quote in its arguments, calls the named command. -/
def CallMentions (name : Str) (c : Call) : Prop := c.name.text = name ∨ MentionsList name c.args

/-- The value is not a quote. -/
def NotQuote (v : Value) : Prop := ∀ q, v ≠ .quote q

mutual
/-- How deep quotes are nested in the value. -/
def depth : Value → Nat
  | .quote vs => depthList vs + 1
  | .element _ => 0
  | .network _ => 0
def depthList : List Value → Nat
  | [] => 0
  | v :: vs => max (depth v) (depthList vs)
end

/-- Two implementations of the store interface behave the same on related states: equal answers, and related states after. -/
structure LigRel (R : σ → τ → Prop) (L : LigOps σ) (L' : LigOps τ) : Prop where
  collections : ∀ s t, R s t → L.collections s = L'.collections t
  entries : ∀ s t c, R s t → L.entries s c = L'.entries t c
  filter : ∀ s t c p, R s t → L.filter s c p = L'.filter t c p
  addCollection : ∀ s t c, R s t → (L.addCollection s c).1 = (L'.addCollection t c).1 ∧
    R (L.addCollection s c).2 (L'.addCollection t c).2
  removeCollection : ∀ s t c, R s t → (L.removeCollection s c).1 = (L'.removeCollection t c).1 ∧
    R (L.removeCollection s c).2 (L'.removeCollection t c).2
  addEntries : ∀ s t c es, R s t → (L.addEntries s c es).1 = (L'.addEntries t c es).1 ∧
    R (L.addEntries s c es).2.1 (L'.addEntries t c es).2.1
  removeEntries : ∀ s t c es, R s t → (L.removeEntries s c es).1 = (L'.removeEntries t c es).1 ∧
    R (L.removeEntries s c es).2.1 (L'.removeEntries t c es).2.1

/-- Two commands are the same standard command, or host functions that behave the same on related states. -/
def FunRel (R : σ → τ → Prop) : CmdFun σ → CmdFun τ → Prop
  | .builtin b, .builtin b' => b = b'
  | .host f, .host g => ∀ args s t, R s t → (f args s).1 = (g args t).1 ∧ R (f args s).2 (g args t).2
  | _, _ => False

/-- Two command tables, in the same order, with the same names and documentation and related functions. -/
def TableRel (R : σ → τ → Prop) : Commands σ → Commands τ → Prop
  | [], [] => True
  | (n, c) :: l, (n', c') :: l' => n = n' ∧ c.doc = c'.doc ∧ FunRel R c.fn c'.fn ∧ TableRel R l l'
  | _, _ => False

/-- Equal answers and related states. -/
def OutRel (R : σ → τ → Prop) (a : Res α × σ) (b : Res α × τ) : Prop := a.1 = b.1 ∧ R a.2 b.2

/-- The network `union` yields for two networks on any store. -/
def IsUnion (a b n : Network) : Prop :=
  ∀ (σ : Type) (L : LigOps σ) (s : σ), runCalls L common [call "union" [.network a, .network b]] s = (.ok (.network n), s)

/-- The pattern text against a text under an assignment of the named variables: `?` matches anything, `?name` the value of the
name, anything else itself. -/
def PatInst (ρ : Str → Str) (p x : Str) : Prop :=
  p = lit "?" ∨ (∃ v, IsVar p ∧ p = '?' :: v ∧ ρ v = x) ∨ (¬ IsVar p ∧ p = x)

/-- The matching of the entry gets as far as a named variable of the pattern, left to right: subject, role, object. -/
def ReachesVar (a r b : Str) (e : Entry) : Prop :=
  IsVar a ∨ (TextMatches a (parts e).1 ∧ (IsVar r ∨ (TextMatches r (parts e).2.1 ∧ IsVar b)))

end Spec
end Verif
