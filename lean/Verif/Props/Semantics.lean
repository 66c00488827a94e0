import Verif.Proofs.Semantics
import Verif.Props.Joining
import Verif.Props.Evaluator
/-!
# C64: the evaluator has exactly the behaviour the rules of `Spec/Semantics.lean` give
-/
namespace Verif
namespace Props
open Spec Eval

/-- C64: running calls, over any store, from any state and with any command table, has an outcome and a final state exactly when the
rules give them. -/
theorem C64_semantics {σ : Type u} (L : LigOps σ) (cmds : Commands σ) (hw : cmds.WF) (calls : List Call) (s s' : σ) (r : Res Value) :
    runCalls L cmds calls s = (r, s') ↔ Runs L cmds calls s r s' := by
  constructor
  · intro h
    have := runs_complete (L := L) (cmds := cmds) calls s
    rw [h] at this
    exact this
  · exact runs_sound hw

/-- `C64_semantics` applies to the standard commands. -/
example (calls : List Call) (s s' : Mem) (r : Res Value) := C64_semantics Graph.memOps common common_wf calls s s' r

/-- C64, from the text: a well-formed script behaves as the rules say of the calls it means. -/
theorem C64_scripts {σ : Type u} (L : LigOps σ) (cmds : Commands σ) (hw : cmds.WF) (script : Str) (calls : List Call)
    (hm : Means script calls) (s s' : σ) (r : Res Value) : run L cmds script s = (r, s') ↔ Runs L cmds calls s r s' := by
  rw [← C64_semantics L cmds hw]
  obtain ⟨ts, h1, h2⟩ := hm
  rw [run, h1]
  show (match Parser.parse ts with | .err m => _ | .panic => _ | .ok calls => _) = _ ↔ _
  rw [Parser.program_parse h2]

/-- C64: so the rules are deterministic and total. -/
theorem C64_deterministic {σ : Type u} (L : LigOps σ) (cmds : Commands σ) (hw : cmds.WF) (calls : List Call) (s : σ) :
    ∃ r s', Runs L cmds calls s r s' ∧ ∀ r' s'', Runs L cmds calls s r' s'' → r' = r ∧ s'' = s' := by
  refine ⟨_, _, runs_complete calls s, ?_⟩
  intro r' s'' h
  rw [runs_sound hw h]
  exact ⟨rfl, rfl⟩

/-- A script whose `let` runs a quote, then an assertion that a quote fails: the rules derive its outcome without the evaluator. -/
example : Commands.WF (common (σ := Mem)) ∧ Means (lit "let x (id {a b c}), assert-fail (read y)")
      [call "let" [.element (.of (lit "x")), .quote [.element (.of (lit "id")), .network (BSet.ofList
        [.role (.of (lit "a")) (.of (lit "c")) (.of (lit "b"))])]],
       call "assert-fail" [.quote [.element (.of (lit "read")), .element (.of (lit "y"))]]] := by
  refine ⟨common_wf, means_of (ts := [.element (.of (lit "let")), .element (.of (lit "x")), .openParen, .element (.of (lit "id")), .openBrace,
    .element (.of (lit "a")), .element (.of (lit "b")), .element (.of (lit "c")), .closeBrace, .closeParen, .comma,
    .element (.of (lit "assert-fail")), .openParen, .element (.of (lit "read")), .element (.of (lit "y")), .closeParen])
    (by decide +kernel) (by decide +kernel)⟩

example (n : Network) (s s1 s2 : σ) (L : LigOps σ) (left : Network) (c : Element) (h1 : L.addCollection s c = (.ok (), s1))
    (h2 : L.addEntries s1 c n = (.ok (), s2, left)) :
    Runs L common [call "let" [.element c, .quote [.element (.of (lit "id")), .network n]]] s (.ok (.network ∅)) s2 := by
  have hl : Has (common (σ := σ)) (lit "let") (.builtin .let_) := ⟨lit "Set a named network.", by simp [common]⟩
  have hi : Has (common (σ := σ)) (lit "id") (.builtin .id) := ⟨lit "Return a value.", by simp [common]⟩
  exact .last (.letQuote (n := n) hl (.call (.plain (b := .id) hi (.id _ s))) (.let_ h1 (by simp) h2 (by simp)))

end Props
end Verif
