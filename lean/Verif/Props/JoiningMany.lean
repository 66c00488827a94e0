import Verif.Props.Joining
import Verif.Props.Apps
import Verif.Spec.InTurn
import Verif.Spec.Print
/-!
# C63: joining any number of scripts; a newline is no separator
-/
namespace Verif
namespace Props
open Spec Lexer Parser

theorem program_nonempty {ts : List Token} {cs : List Call} (h : Program ts cs) (hne : ts ≠ []) : cs ≠ [] := by
  cases h with
  | nil => exact absurd rfl hne
  | last _ => simp
  | more _ _ => simp

theorem joinable_calls {a : Str} {cs : List Call} (ha : Joinable a) (hc : Means a cs) : cs ≠ [] := by
  obtain ⟨_, ta, ht, hne, _⟩ := ha
  obtain ⟨ta', ht', hp⟩ := hc
  rw [ht] at ht'; cases ht'
  exact program_nonempty hp hne

/-- Joining well-formed scripts gives a well-formed script. -/
theorem means_join {a b : Str} {ca cb : List Call} (ha : Joinable a) (hca : Means a ca) (hcb : Means b cb) :
    Means (a ++ lit "," ++ b) (ca ++ cb) := by
  obtain ⟨hcomp, ta, ht, hne, hl⟩ := ha
  obtain ⟨ta', ht', hp⟩ := hca
  rw [ht] at ht'; cases ht'
  obtain ⟨tb, h1, h2⟩ := hcb
  obtain ⟨tc, h3, h4⟩ := C04_join a (',' :: b) hcomp (fun h => comma_not_start b h.2)
  rw [ht] at h3; cases h3
  refine ⟨ta ++ .comma :: tb, ?_, program_done hp hne hl _ _ h2⟩
  rw [List.append_assoc]
  refine h4.trans ?_
  rw [taf_comma, h1]; rfl

theorem separated_cons (a b : Str) (rest : List Str) :
    separated (lit ",") (a :: b :: rest) = a ++ lit "," ++ separated (lit ",") (b :: rest) := by
  simp [separated, List.intersperse]

theorem means_separated : ∀ (rest : List Str) (a : Str), (∀ x ∈ a :: rest, Joinable x ∧ ∃ cs, Means x cs) →
    ∃ cs, Means (separated (lit ",") (a :: rest)) cs ∧ cs ≠ []
  | [], a, h => by
    obtain ⟨hj, cs, hc⟩ := h a (by simp)
    exact ⟨cs, by simpa [separated] using hc, joinable_calls hj hc⟩
  | b :: rest, a, h => by
    obtain ⟨hj, cs, hc⟩ := h a (by simp)
    obtain ⟨ds, hd, hne⟩ := means_separated rest b (fun x hx => h x (List.mem_cons_of_mem _ hx))
    exact ⟨cs ++ ds, separated_cons a b rest ▸ means_join hj hc hd, by simp [hne]⟩

/-- C63: any number of scripts with commas between them run as the scripts in turn, up to the first that fails. -/
theorem C63_many {σ : Type u} (L : LigOps σ) (cmds : Eval.Commands σ) (a : Str) (rest : List Str) (s : σ)
    (h : ∀ x ∈ a :: rest, Joinable x ∧ ∃ cs, Means x cs) :
    Eval.run L cmds (separated (lit ",") (a :: rest)) s = inTurn (Eval.run L cmds) a rest s := by
  induction rest generalizing a s with
  | nil => simp [separated, inTurn]
  | cons b rest ih =>
    obtain ⟨hj, cs, hc⟩ := h a (by simp)
    have h' := fun x hx => h x (List.mem_cons_of_mem _ hx)
    obtain ⟨ds, hd, hne⟩ := means_separated rest b h'
    rw [separated_cons, C63_join L cmds a _ cs ds s hj hc hd hne, inTurn]
    rcases Eval.run L cmds a s with ⟨_ | _ | _, s1⟩
    · exact ih b s1 h'
    · rfl
    · rfl

theorem serve_in_turn (rest : List Str) : ∀ (a : Str) (sv : Zmq.Server) (v : Value) (s' : Mem), sv.dead = false →
    inTurn runGraph a rest sv.store = (.ok v, s') →
      ∃ rs, rs.length = rest.length ∧
        ((a :: rest).map some).foldl Zmq.step sv = ⟨s', sv.replies ++ (rs ++ [Display.value v]), false⟩ := by
  induction rest with
  | nil =>
    intro a sv v s' hd h
    rw [inTurn] at h
    refine ⟨[], rfl, ?_⟩
    simp [Zmq.step, hd, h]
  | cons b rest ih =>
    intro a sv v s' hd h
    rw [inTurn] at h
    cases hr : runGraph a sv.store with
    | mk r s1 =>
      rw [hr] at h
      cases r with
      | err m => cases h
      | panic => cases h
      | ok w =>
        have hs : Zmq.step sv (some a) = ⟨s1, sv.replies ++ [Display.value w], false⟩ := by simp [Zmq.step, hd, hr]
        obtain ⟨rs, hl, he⟩ := ih b ⟨s1, sv.replies ++ [Display.value w], false⟩ v s' rfl h
        refine ⟨Display.value w :: rs, by simp [hl], ?_⟩
        rw [List.map_cons, List.foldl_cons, hs, he]
        simp

/-- C63: a client may send scripts that succeed as one request instead of one by one: the store is the same afterwards, and the one reply
is the last of the replies it would have got. -/
theorem C63_one_request (pre : List (Option Str)) (a : Str) (rest : List Str) (halive : (Zmq.serve pre).dead = false)
    (h : ∀ x ∈ a :: rest, Joinable x ∧ ∃ cs, Means x cs)
    (hok : ∃ v, (inTurn runGraph a rest (Zmq.serve pre).store).1 = .ok v) :
    let one := Zmq.serve (pre ++ [some (separated (lit ",") (a :: rest))])
    let many := Zmq.serve (pre ++ (a :: rest).map some)
    one.dead = false ∧ many.dead = false ∧ one.store = many.store ∧
    ∃ reply rs, one.replies = (Zmq.serve pre).replies ++ [reply] ∧ many.replies = (Zmq.serve pre).replies ++ rs ++ [reply] ∧
      rs.length = rest.length := by
  obtain ⟨v, hv⟩ := hok
  obtain ⟨s', hs⟩ : ∃ s', inTurn runGraph a rest (Zmq.serve pre).store = (.ok v, s') := ⟨_, Prod.ext hv rfl⟩
  obtain ⟨rs, hl, he⟩ := serve_in_turn rest a _ v s' halive hs
  have hj : runGraph (separated (lit ",") (a :: rest)) (Zmq.serve pre).store = (.ok v, s') :=
    (C63_many Graph.memOps Eval.common a rest _ h).trans hs
  have h1 : Zmq.serve (pre ++ [some (separated (lit ",") (a :: rest))]) = ⟨s', (Zmq.serve pre).replies ++ [Display.value v], false⟩ := by
    rw [serve_snoc]; simp [Zmq.step, halive, hj]
  have h2 : Zmq.serve (pre ++ (a :: rest).map some) = ⟨s', (Zmq.serve pre).replies ++ (rs ++ [Display.value v]), false⟩ := by
    rw [← he, Zmq.serve, List.foldl_append]; rfl
  rw [h1, h2]
  exact ⟨rfl, rfl, rfl, Display.value v, rs, rfl, by simp, hl⟩

theorem values_append {ts us : List Token} {vs ws : List Value} (h : Values ts vs) (h' : Values us ws) : Values (ts ++ us) (vs ++ ws) := by
  induction h with
  | nil => exact h'
  | cons hv _ ih => rw [List.append_assoc, List.cons_append]; exact .cons hv ih

theorem call_glue {ts us : List Token} {c d : Call} (h : CallLit ts c) (h' : CallLit us d) :
    CallLit (ts ++ us) ⟨c.name, c.args ++ .element d.name :: d.args⟩ := by
  have := values_append h h'
  simpa [CallLit] using this

theorem glue_head {ts us : List Token} {c d : Call} {ds : List Call} (h : CallLit ts c) (h' : Program us (d :: ds)) :
    Program (ts ++ us) (⟨c.name, c.args ++ .element d.name :: d.args⟩ :: ds) := by
  cases h' with
  | last hd => exact .last (call_glue h hd)
  | more hd hp => rw [← List.append_assoc]; exact .more (call_glue h hd) hp

theorem program_glue {ts : List Token} {cs : List Call} (h : Program ts cs) (hne : ts ≠ []) (hl : ts.getLast? ≠ some .comma) :
    ∀ {us : List Token} {xs : List Call} {c d : Call} {ds : List Call}, Program us (d :: ds) → cs = xs ++ [c] →
      Program (ts ++ us) (xs ++ ⟨c.name, c.args ++ .element d.name :: d.args⟩ :: ds) := by
  induction h with
  | nil => exact absurd rfl hne
  | @last ts c' hc =>
    intro us xs c d ds hu he
    cases xs with
    | nil => cases he; exact glue_head hc hu
    | cons x xs => simp at he
  | @more ts c' us' cs' hc hp ih =>
    intro us xs c d ds hu he
    have hne' : us' ≠ [] := by
      rintro rfl
      exact hl (by simp)
    cases xs with
    | nil =>
      have := program_nonempty hp hne'
      simp at he
      exact absurd he.2 this
    | cons x xs =>
      rw [List.cons_append] at he
      injection he with h1 h2
      subst h1
      rw [List.append_assoc, List.cons_append, List.cons_append]
      refine .more hc (ih hne' ?_ hu h2)
      cases us' with
      | nil => exact absurd rfl hne'
      | cons t us' =>
        rw [List.getLast?_append, List.getLast?_cons_cons] at hl
        intro h
        rw [h] at hl
        exact hl rfl

theorem taf_newline (b : Str) : tokenizeAndFilter ('\n' :: b) = tokenizeAndFilter b := by
  have h := gap_taf (.ws (c := '\n') (.inr (.inr (.inl rfl))) .nil) b
  exact h

/-- C63: a newline does not separate calls: what is written on the next line, without a comma before it, is more arguments of the last
call. -/
theorem C63_newline (a b : Str) (xs ys : List Call) (c d : Call) (ha : Joinable a) (hca : Means a (xs ++ [c])) (hcb : Means b (d :: ys)) :
    Means (a ++ lit "\n" ++ b) (xs ++ [⟨c.name, c.args ++ .element d.name :: d.args⟩] ++ ys) := by
  obtain ⟨hcomp, ta, ht, hne, hl⟩ := ha
  obtain ⟨ta', ht', hp⟩ := hca
  rw [ht] at ht'; cases ht'
  obtain ⟨tb, h1, h2⟩ := hcb
  have hnl : ¬ WordStart ('\n' :: b) := by
    rintro ⟨c, hc, hw⟩
    cases hc
    exact absurd (isIdent_iff.mpr hw) (by decide)
  obtain ⟨tc, h3, h4⟩ := C04_join a ('\n' :: b) hcomp (fun h => hnl h.2)
  rw [ht] at h3; cases h3
  refine ⟨ta ++ tb, ?_, ?_⟩
  · rw [List.append_assoc]
    refine h4.trans ?_
    rw [taf_newline, h1]; rfl
  · rw [List.append_assoc]
    exact program_glue hp hne hl h2 rfl

theorem simple_joinable {a : Str} {ts us : List Token} {cs : List Call} (h : tokenize a = .ok us)
    (hc : ∀ c, us.getLast? = some (.comment c) → c.getLast? = some '\n') (ht : tokenizeAndFilter a = .ok ts) (hne : ts ≠ [])
    (hl : ts.getLast? ≠ some .comma) (hp : parse ts = .ok cs) : Joinable a ∧ ∃ cs, Means a cs :=
  ⟨⟨complete_of h hc, ts, ht, hne, hl⟩, cs, means_of ht hp⟩

/-- Three scripts, the last of which reads what the one before it stored. -/
def threeScripts : List Str := [lit "let x {a b c}", lit "let y {d : e}", lit "read y"]

theorem three_scripts : (∀ x ∈ threeScripts, Joinable x ∧ ∃ cs, Means x cs) ∧
    (∃ v, (inTurn runGraph (lit "let x {a b c}") [lit "let y {d : e}", lit "read y"] (Zmq.serve []).store).1 = .ok v) ∧
    separated (lit ",") threeScripts = lit "let x {a b c},let y {d : e},read y" := by
  refine ⟨?_, ⟨.network (BSet.ofList [.ext (.of (lit "d")) (.of (lit "e"))]),
    by decide +kernel⟩, by decide +kernel⟩
  intro x hx
  simp only [threeScripts, List.mem_cons, List.not_mem_nil, or_false] at hx
  rcases hx with rfl | rfl | rfl
  · exact simple_joinable (us := [.element (.of (lit "let")), .ws (lit " "), .element (.of (lit "x")), .ws (lit " "), .openBrace,
      .element (.of (lit "a")), .ws (lit " "), .element (.of (lit "b")), .ws (lit " "), .element (.of (lit "c")), .closeBrace])
      (ts := [.element (.of (lit "let")), .element (.of (lit "x")), .openBrace,
        .element (.of (lit "a")), .element (.of (lit "b")), .element (.of (lit "c")), .closeBrace])
      (cs := [call "let" [.element (.of (lit "x")), .network (BSet.ofList [.role (.of (lit "a")) (.of (lit "c")) (.of (lit "b"))])]])
      (by decide +kernel) (by intro c h; cases h) (by decide +kernel) (by decide) (by decide) (by decide +kernel)
  · exact simple_joinable (us := [.element (.of (lit "let")), .ws (lit " "), .element (.of (lit "y")), .ws (lit " "), .openBrace,
      .element (.of (lit "d")), .ws (lit " "), .element (.of (lit ":")), .ws (lit " "), .element (.of (lit "e")), .closeBrace])
      (ts := [.element (.of (lit "let")), .element (.of (lit "y")), .openBrace,
        .element (.of (lit "d")), .element (.of (lit ":")), .element (.of (lit "e")), .closeBrace])
      (cs := [call "let" [.element (.of (lit "y")), .network (BSet.ofList [.ext (.of (lit "d")) (.of (lit "e"))])]])
      (by decide +kernel) (by intro c h; cases h) (by decide +kernel) (by decide) (by decide) (by decide +kernel)
  · exact simple_joinable (us := [.element (.of (lit "read")), .ws (lit " "), .element (.of (lit "y"))])
      (ts := [.element (.of (lit "read")), .element (.of (lit "y"))]) (cs := [call "read" [.element (.of (lit "y"))]])
      (by decide +kernel) (by intro c h; cases h) (by decide +kernel) (by decide) (by decide) (by decide +kernel)

/-- `let x {}` and `read x` on two lines is one call of `let` with four arguments, and so an error. -/
example : Joinable (lit "let x {}") ∧ Means (lit "let x {}") ([] ++ [call "let" [.element (.of (lit "x")), .network ∅]]) ∧
    Means (lit "read x") (call "read" [.element (.of (lit "x"))] :: []) ∧
    (Eval.run Graph.memOps Eval.common (lit "let x {}" ++ lit "\n" ++ lit "read x") Graph.memNew).1 = .err (lit "Invalid call to let.") :=
  ⟨(simple_joinable (us := [.element (.of (lit "let")), .ws (lit " "), .element (.of (lit "x")), .ws (lit " "), .openBrace, .closeBrace])
      (ts := [.element (.of (lit "let")), .element (.of (lit "x")), .openBrace, .closeBrace])
      (cs := [call "let" [.element (.of (lit "x")), .network ∅]])
      (by decide +kernel) (by intro c h; cases h) (by decide +kernel) (by decide) (by decide) (by decide +kernel)).1,
    means_of (ts := [.element (.of (lit "let")), .element (.of (lit "x")), .openBrace, .closeBrace]) (by decide +kernel) (by decide +kernel),
    means_of (ts := [.element (.of (lit "read")), .element (.of (lit "x"))]) (by decide +kernel) (by decide +kernel), by decide +kernel⟩

end Props
end Verif
