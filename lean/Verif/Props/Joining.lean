import Verif.Props.Lexing
import Verif.Props.Parsing
import Verif.Spec.Script
/-!
# C63: joining scripts with a comma
-/
namespace Verif
namespace Props
open Spec Lexer Parser

theorem program_done {ts : List Token} {cs : List Call} (h : Program ts cs) (hne : ts ≠ []) (hl : ts.getLast? ≠ some .comma) (us : List Token)
    (ds : List Call) (hu : Program us ds) : Program (ts ++ .comma :: us) (cs ++ ds) := by
  induction h with
  | nil => exact absurd rfl hne
  | last hc => exact .more hc hu
  | @more ts c us' cs' hc hp ih =>
    rw [List.append_assoc, List.cons_append, List.cons_append]
    refine .more hc ?_
    cases us' with
    | nil => exact absurd (by simp) hl
    | cons t us' =>
      refine ih (by simp) ?_
      rw [List.getLast?_append, List.getLast?_cons_cons] at hl
      intro h
      rw [h] at hl
      exact hl rfl

theorem program_is_done {ts : List Token} {cs : List Call} (h : Program ts cs) (hne : ts ≠ []) (hl : ts.getLast? ≠ some .comma) :
    Done (ts ++ [.comma]) := by
  induction h with
  | nil => exact absurd rfl hne
  | last hc => exact .more hc .nil
  | @more ts c us' cs' hc hp ih =>
    rw [List.append_assoc, List.cons_append]
    refine .more hc ?_
    cases us' with
    | nil => exact absurd (by simp) hl
    | cons t us' =>
      refine ih (by simp) ?_
      rw [List.getLast?_append, List.getLast?_cons_cons] at hl
      intro h
      rw [h] at hl
      exact hl rfl

theorem done_append {a b : List Token} (ha : Done a) (hb : Done b) : Done (a ++ b) := by
  induction ha with
  | nil => exact hb
  | more hc _ ih => rw [List.append_assoc, List.cons_append]; exact .more hc ih

/-- What comes after the comma is parsed on its own. -/
theorem parse_join {ts us : List Token} {cs : List Call} (h : Program ts cs) (hne : ts ≠ []) (hl : ts.getLast? ≠ some .comma) :
    parse (ts ++ .comma :: us) = (parse us).map (cs ++ ·) := by
  have hd := program_is_done h hne hl
  rcases trichotomy _ us (Nat.le_refl _) with ⟨ds, hu⟩ | hf | hb
  · rw [program_parse hu, program_parse (program_done h hne hl us ds hu)]; rfl
  · obtain ⟨rest, done, cur, vs, t, rfl, h1, h2, h3⟩ := hf
    rw [foreign_msg ⟨done, cur, vs, t, rfl, h1, h2, h3⟩, foreign_msg (rest := rest)]; · rfl
    exact ⟨_, cur, vs, t, by simp, done_append hd h1, h2, h3⟩
  · rw [badCall_panic hb, badCall_panic]; · rfl
    obtain ⟨done, cur, vs, rest, rfl, h1, h2, h3⟩ := hb
    exact ⟨_, cur, vs, rest, by simp, done_append hd h1, h2, h3⟩

theorem comma_not_start (b : Str) : ¬ WordStart (',' :: b) := by
  rintro ⟨c, hc, hw⟩
  cases hc
  have := isIdent_iff.mpr hw
  exact absurd this (by decide)

theorem taf_comma (b : Str) : tokenizeAndFilter (',' :: b) = (tokenizeAndFilter b).map (.comma :: ·) := by
  have := taf_piece (k := .comma) (p := [',']) (r := b) (t := .comma) rfl rfl
  exact this

theorem run_join {σ : Type u} (L : LigOps σ) (cmds : Eval.Commands σ) {a : Str} {ca : List Call} (b : Str) (s : σ) (ha : Joinable a)
    (hc : Means a ca) : Eval.run L cmds (a ++ ',' :: b) s =
      match tokenizeAndFilter b with
      | .err m => (.err m, s)
      | .panic => (.panic, s)
      | .ok tb =>
        match parse tb with
        | .err m => (.err m, s)
        | .panic => (.panic, s)
        | .ok cb => Eval.runCalls L cmds (ca ++ cb) s := by
  obtain ⟨hcomp, ta, ht, hne, hl⟩ := ha
  obtain ⟨ta', ht', hp⟩ := hc
  rw [ht] at ht'; cases ht'
  obtain ⟨tc, h1, h2⟩ := C04_join a (',' :: b) hcomp (fun h => comma_not_start b h.2)
  rw [ht] at h1; cases h1
  rw [Eval.run, h2, taf_comma]
  cases tokenizeAndFilter b with
  | err m => rfl
  | panic => rfl
  | ok tb =>
    show (match parse (ta ++ .comma :: tb) with | .err m => _ | .panic => _ | .ok calls => _) = _
    rw [parse_join hp hne hl]
    cases h : parse tb <;> simp only [h, Res.map]

/-- C63: a script, a comma and a second script: the second runs after the first, from the store the first leaves, and gives the result;
if the first fails, that is the outcome.  Any store, any command table. -/
theorem C63_join {σ : Type u} (L : LigOps σ) (cmds : Eval.Commands σ) (a b : Str) (ca cb : List Call) (s : σ) (ha : Joinable a)
    (hca : Means a ca) (hcb : Means b cb) (hb : cb ≠ []) :
    Eval.run L cmds (a ++ lit "," ++ b) s =
      match Eval.run L cmds a s with
      | (.ok _, s1) => Eval.run L cmds b s1
      | (.err m, s1) => (.err m, s1)
      | (.panic, s1) => (.panic, s1) := by
  rw [List.append_assoc]
  refine (run_join L cmds b s ha hca).trans ?_
  obtain ⟨tb, h1, h2⟩ := hcb
  obtain ⟨ta, h3, h4⟩ := hca
  have e1 : ∀ s, Eval.run L cmds a s = Eval.runCalls L cmds ca s := by
    intro s; rw [Eval.run, h3]; show (match parse ta with | .err m => _ | .panic => _ | .ok calls => _) = _; rw [program_parse h4]
  have e2 : ∀ s, Eval.run L cmds b s = Eval.runCalls L cmds cb s := by
    intro s; rw [Eval.run, h1]; show (match parse tb with | .err m => _ | .panic => _ | .ok calls => _) = _; rw [program_parse h2]
  simp only [h1, program_parse h2, e1, e2, Eval.runCalls_append, hb, if_false]
  rcases Eval.runCalls L cmds ca s with ⟨_ | _ | _, _⟩ <;> rfl

/-- C63: a comma, white space and comments after a script change nothing. -/
theorem C63_trailing {σ : Type u} (L : LigOps σ) (cmds : Eval.Commands σ) (a b : Str) (ca : List Call) (s : σ) (ha : Joinable a)
    (hca : Means a ca) (hb : Gap b) : Eval.run L cmds (a ++ lit "," ++ b) s = Eval.run L cmds a s := by
  rw [List.append_assoc]
  refine (run_join L cmds b s ha hca).trans ?_
  have h1 : tokenizeAndFilter b = .ok [] := by
    have := gap_taf hb []
    rw [List.append_nil] at this
    rw [this]; rfl
  obtain ⟨ta, h3, h4⟩ := hca
  have e1 : Eval.run L cmds a s = Eval.runCalls L cmds ca s := by
    rw [Eval.run, h3]; show (match parse ta with | .err m => _ | .panic => _ | .ok calls => _) = _; rw [program_parse h4]
  simp only [h1, e1, program_parse .nil, List.append_nil]

/-- C63: if the second script is malformed, none of the first is run: the outcome is that of the second alone and the store is as before. -/
theorem C63_malformed {σ : Type u} (L : LigOps σ) (cmds : Eval.Commands σ) (a b : Str) (ca : List Call) (s : σ) (ha : Joinable a)
    (hca : Means a ca) (hb : ¬ ∃ cb, Means b cb) :
    Eval.run L cmds (a ++ lit "," ++ b) s = ((Eval.run L cmds b s).1, s) := by
  rw [List.append_assoc]
  refine (run_join L cmds b s ha hca).trans ?_
  rw [Eval.run]
  cases h : tokenizeAndFilter b with
  | err m => rfl
  | panic => rfl
  | ok tb =>
    cases h' : parse tb with
    | err m => simp only [h']
    | panic => simp only [h']
    | ok cb => exact absurd ⟨cb, tb, h, parse_ok_iff.mp h'⟩ hb

theorem means_of {a : Str} {ts : List Token} {cs : List Call} (h : tokenizeAndFilter a = .ok ts) (h' : parse ts = .ok cs) : Means a cs :=
  ⟨ts, h, parse_ok_iff.mp h'⟩

/-- A script with a network, a comment and two calls that may be joined. -/
def firstScript : Str := lit "let x {a b c}, -- one\n read x"

def firstTokens : List Token := [.element (.of (lit "let")), .element (.of (lit "x")), .openBrace, .element (.of (lit "a")),
  .element (.of (lit "b")), .element (.of (lit "c")), .closeBrace, .comma, .element (.of (lit "read")), .element (.of (lit "x"))]

theorem firstScript_joinable : Joinable firstScript := by
  refine ⟨complete_of (ts := [.element (.of (lit "let")), .ws (lit " "), .element (.of (lit "x")), .ws (lit " "), .openBrace,
    .element (.of (lit "a")), .ws (lit " "), .element (.of (lit "b")), .ws (lit " "), .element (.of (lit "c")), .closeBrace, .comma,
    .ws (lit " "), .comment (lit "-- one\n"), .ws (lit " "), .element (.of (lit "read")), .ws (lit " "), .element (.of (lit "x"))])
    (by decide +kernel) (by intro c h; cases h), firstTokens, by decide +kernel, by decide, by decide⟩

example : Joinable firstScript ∧ Means firstScript [call "let" [.element (.of (lit "x")), .network (BSet.ofList
    [.role (.of (lit "a")) (.of (lit "c")) (.of (lit "b"))])], call "read" [.element (.of (lit "x"))]] ∧
    (∃ cb, Means (lit "read y") cb ∧ cb ≠ []) ∧ Gap (lit " \n") ∧ ¬ ∃ cb, Means (lit "read (") cb := by
  refine ⟨firstScript_joinable, means_of (ts := firstTokens) (by decide +kernel) (by decide +kernel),
    ⟨[call "read" [.element (.of (lit "y"))]], means_of (ts := [.element (.of (lit "read")), .element (.of (lit "y"))])
      (by decide +kernel) (by decide +kernel), by simp⟩, .ws (.inl rfl) (.ws (.inr (.inr (.inl rfl))) .nil), ?_⟩
  rintro ⟨cb, ts, h1, h2⟩
  have h3 : tokenizeAndFilter (lit "read (") = .ok [.element (.of (lit "read")), .openParen] := by decide +kernel
  rw [h3] at h1; cases h1
  have h4 : parse [.element (.of (lit "read")), .openParen] = .panic := by decide +kernel
  rw [program_parse h2] at h4; cases h4

/-- The conditions matter: after an open comment the comma is not seen, and after a comma a second one makes the parser panic. -/
example : (Eval.run Graph.memOps Eval.common (lit "id x -- y" ++ lit "," ++ lit "id z") Graph.memNew).1 ≠
      (Eval.run Graph.memOps Eval.common (lit "id z") Graph.memNew).1 ∧
    (Eval.run Graph.memOps Eval.common (lit "id x," ++ lit "," ++ lit "id z") Graph.memNew).1 = .panic := by decide +kernel

end Props
end Verif
