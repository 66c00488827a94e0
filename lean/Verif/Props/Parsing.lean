import Verif.Proofs.ParserSim
import Verif.Props.Lexing
import Verif.Proofs.DebugText
/-!
# Tokens to calls: C06–C09, with consequences for C16 and C17
-/
namespace Verif
namespace Props
open Spec Lexer Parser

/-- Short form of an untagged element in examples. -/
abbrev el (s : String) : Element := ⟨lit s, none, none⟩
abbrev te (s : String) : Token := .element ⟨lit s, none, none⟩

/-! ## C06 -/

/-- C06: the parser returns `Ok` exactly for programs of the grammar, with exactly the calls derived. -/
theorem C06_exact (tokens : List Token) (calls : List Call) : parse tokens = .ok calls ↔ Program tokens calls := parse_ok_iff

/-- C06: the derived calls are unique. -/
theorem C06_unique (tokens : List Token) (cs cs' : List Call) (h : Program tokens cs) (h' : Program tokens cs') : cs = cs' := by
  have h1 := parse_ok_iff.mpr h
  rw [parse_ok_iff.mpr h'] at h1
  cases h1; rfl

/-- A program with two calls, a network with a trailing comma and a repeated entry, a quote and a trailing comma. -/
def sampleTokens : List Token :=
  [te "let", te "n", .openBrace, te "a", te "r", te "b", .comma, te "a", te ":", te "c", .comma, te "a", te "r", te "b", .comma, .closeBrace,
   .comma, .string (lit "id"), .openParen, te "read", te "n", .openBrace, .closeBrace, .closeParen, .comma]

def sampleNetwork : Network := BSet.ofList [.role (el "a") (el "b") (el "r"), .ext (el "a") (el "c")]

def sampleCalls : List Call :=
  [⟨el "let", [.element (el "n"), .network sampleNetwork]⟩,
   ⟨el "id", [.quote [.element (el "read"), .element (el "n"), .network ∅]]⟩]

example : parse sampleTokens = .ok sampleCalls := by decide +kernel
example : Program sampleTokens sampleCalls := parse_ok_iff.mp (by decide +kernel)

/-! ## C07 -/

/-- C07: writing calls as tokens and parsing gives the calls back, with or without a trailing comma. -/
theorem C07_round_trip (cs : List Call) (h : ∀ c ∈ cs, WritableCall c) :
    parse (programTokens cs) = .ok cs ∧ (cs ≠ [] → parse (programTokens cs ++ [.comma]) = .ok cs) :=
  ⟨parse_ok_iff.mpr (program_reads cs h), fun hne => parse_ok_iff.mpr (program_reads_comma cs hne h)⟩

/-- C07: everything the parser returns can be written, so reading, writing and reading again changes nothing. -/
theorem C07_reread (tokens : List Token) (cs : List Call) (h : parse tokens = .ok cs) :
    (∀ c ∈ cs, WritableCall c) ∧ parse (programTokens cs) = .ok cs := by
  have hw := program_writable (parse_ok_iff.mp h)
  exact ⟨hw, (C07_round_trip cs hw).1⟩

/-- C07: different lists of writable calls are written differently. -/
theorem C07_injective (cs cs' : List Call) (h : ∀ c ∈ cs, WritableCall c) (h' : ∀ c ∈ cs', WritableCall c)
    (he : programTokens cs = programTokens cs') : cs = cs' := by
  have h1 := (C07_round_trip cs h).1
  rw [he, (C07_round_trip cs' h').1] at h1
  cases h1; rfl

example : (∀ c ∈ sampleCalls, WritableCall c) ∧ programTokens sampleCalls ≠ sampleTokens :=
  ⟨(C07_reread sampleTokens sampleCalls (by decide +kernel)).1, by decide +kernel⟩

/-- What cannot be written is read as something else (a role spelled `:`) or not at all (a quote in a quote). -/
example : parse (programTokens [⟨el "id", [.network (BSet.ofList [.role (el "a") (el "b") (el ":")])]⟩]) =
      .ok [⟨el "id", [.network (BSet.ofList [.ext (el "a") (el "b")])]⟩] ∧
    parse (programTokens [⟨el "id", [.quote [.element (el "id"), .quote []]]⟩]) = .panic := by decide +kernel

/-! ## C08 -/

/-- C08: two network literals listing the same entries in any order, with any repetitions and with or without trailing comma, can be
exchanged anywhere in any token list without changing the outcome of parsing. -/
theorem C08_same_entries (pre post body body' : List Token) (es es' : List Entry) (h : Entries body es) (h' : Entries body' es')
    (hm : ∀ e, e ∈ es ↔ e ∈ es') :
    parse (pre ++ .openBrace :: (body ++ post)) = parse (pre ++ .openBrace :: (body' ++ post)) :=
  sim_parse h h' hm _ pre _ _ [] (Nat.le_refl _) (by omega) (by omega)

/-- C08: a literal stands for the set of the entries it lists, so two literals are equal exactly if they list the same entries. -/
theorem C08_network_is_set (body body' : List Token) (es es' : List Entry) (n n' : Network) (h : Entries body es) (h' : Entries body' es')
    (hn : NetworkLit (.openBrace :: body) n) (hn' : NetworkLit (.openBrace :: body') n') : n = n' ↔ ∀ e, e ∈ es ↔ e ∈ es' := by
  have uniq : ∀ {b fs fs'}, Entries b fs → Entries b fs' → (∅ : Network).insertAll fs = (∅ : Network).insertAll fs' := by
    intro b fs fs' h1 h2
    have e1 := net_complete h1 [] ∅
    rw [net_complete h2 [] ∅] at e1
    simp only [Res.ok.injEq, Prod.mk.injEq] at e1
    exact e1.1.symm
  obtain ⟨b, fs, e, hb, rfl⟩ := networkLit_iff.mp hn
  obtain ⟨b', fs', e', hb', rfl⟩ := networkLit_iff.mp hn'
  cases e; cases e'
  rw [uniq hb h, uniq hb' h']
  constructor
  · intro he x
    have : x ∈ (∅ : Network).insertAll es ↔ x ∈ (∅ : Network).insertAll es' := by rw [he]
    simpa using this
  · intro hm; exact BSet.ext (by intro x; simp [hm])

example : Entries [te "a", te "r", te "b", .comma, te "a", te ":", te "c", .closeBrace] [.role (el "a") (el "b") (el "r"), .ext (el "a") (el "c")] ∧
    Entries [te "a", te ":", te "c", .comma, te "a", te "r", te "b", .comma, te "a", te ":", te "c", .comma, .closeBrace]
      [.ext (el "a") (el "c"), .role (el "a") (el "b") (el "r"), .ext (el "a") (el "c")] := by
  have r : ReadsEntry (el "a") (el "r") (el "b") (.role (el "a") (el "b") (el "r")) := .role _ _ _ (by decide) (by decide)
  have x : ReadsEntry (el "a") (el ":") (el "c") (.ext (el "a") (el "c")) := .extends _ _
  exact ⟨.more r (.last x), .more x (.more r (.more x .close))⟩

/-! ## C09 -/

/-- C09 as stated (no panic) is false: these malformed token lists, all produced by scripts, panic. -/
theorem C09_panics : tokenizeAndFilter (lit ",") = .ok [.comma] ∧ parse [.comma] = .panic ∧
    parse [te "a", .comma, .comma, te "b"] = .panic ∧ parse [.openBrace, .closeBrace] = .panic ∧
    parse [te "a", .openBrace, te "b"] = .panic ∧ parse [te "a", .openParen] = .panic ∧
    parse [te "a", .openParen, .openParen, .closeParen, .closeParen] = .panic ∧
    parse [te "a", .openBrace, te "b", te "r", te "c", te "d", .closeBrace] = .panic := by decide +kernel

/-- C09: `Err` exactly if, after complete calls and complete values of a further call, a token comes that cannot begin a value. -/
theorem C09_err (tokens : List Token) : (∃ m, parse tokens = .err m) ↔ HasForeign tokens := by
  constructor
  · rintro ⟨m, h⟩
    obtain ⟨rest, h, _⟩ := parse_err_iff.mp h
    exact ⟨rest, h⟩
  · exact foreign_err

/-- C09: panic exactly if, after complete calls and complete values of a further call, a network or quote begins that does not go on as
one, or a call ends without an element as its name. -/
theorem C09_panic (tokens : List Token) : parse tokens = .panic ↔ HasBadCall tokens := parse_panic_iff

/-- C09: so every token list is in exactly one of the three classes. -/
theorem C09_classes (tokens : List Token) :
    ((∃ cs, Program tokens cs) ∨ HasForeign tokens ∨ HasBadCall tokens) ∧
    ¬ ((∃ cs, Program tokens cs) ∧ HasForeign tokens) ∧ ¬ ((∃ cs, Program tokens cs) ∧ HasBadCall tokens) ∧
    ¬ (HasForeign tokens ∧ HasBadCall tokens) := by
  refine ⟨trichotomy _ tokens (Nat.le_refl _), ?_, ?_, ?_⟩
  · rintro ⟨⟨cs, h⟩, h'⟩
    obtain ⟨m, hm⟩ := foreign_err h'
    have := program_parse h; rw [hm] at this; cases this
  · rintro ⟨⟨cs, h⟩, h'⟩
    have := program_parse h; rw [badCall_panic h'] at this; cases this
  · rintro ⟨h, h'⟩
    obtain ⟨m, hm⟩ := foreign_err h
    rw [badCall_panic h'] at hm; cases hm

/-- C09: on scripts: a script is rejected with an error exactly if it cannot be tokenized, or its tokens have a foreign token; running
it panics without reaching a command exactly if its tokens have a bad call. -/
theorem C09_scripts {σ : Type} (L : LigOps σ) (cmds : Eval.Commands σ) (script : Str) (s : σ) :
    (Stuck script → Eval.run L cmds script s = (.err (lit "Error tokenizing input."), s)) ∧
    (∀ ts, tokenizeAndFilter script = .ok ts → HasForeign ts → ∃ m, Eval.run L cmds script s = (.err m, s)) ∧
    (∀ ts, tokenizeAndFilter script = .ok ts → HasBadCall ts → Eval.run L cmds script s = (.panic, s)) := by
  refine ⟨?_, ?_, ?_⟩
  · intro h
    have : tokenizeAndFilter script = .err (lit "Error tokenizing input.") :=
      (C05_error script _).mpr ((C02_error script _).mpr ⟨rfl, h⟩)
    rw [Eval.run, this]
  · intro ts ht h
    obtain ⟨m, hm⟩ := foreign_err h
    exact ⟨m, by rw [Eval.run, ht]; simp only [hm]⟩
  · intro ts ht h
    rw [Eval.run, ht]; simp only [badCall_panic h]

example : HasForeign [te "a", .comma, te "b", .openBrace, .closeBrace, .pipe, .openBrace] :=
  ⟨[.openBrace], [te "a", .comma], [te "b", .openBrace, .closeBrace], [.element (el "b"), .network ∅], .pipe, rfl,
    .more (ts := [te "a"]) (c := ⟨el "a", []⟩) (.cons (ts := [te "a"]) (.element _) .nil) .nil,
    .cons (ts := [te "b"]) (.element _) (.cons (ts := [.openBrace, .closeBrace])
      (.network ⟨_, [], rfl, .close, by simp⟩) .nil), trivial⟩

theorem debug_element (x : Str) (n l : Option Str) :
    lit "Element(Element(" ++ Debug.str x ++ lit ", " ++ Debug.option (fun m => lit "Namespace" ++ lit "(" ++ Debug.str m ++ lit ")") n ++ lit ", " ++
      Debug.option (fun m => lit "LangTag" ++ lit "(" ++ Debug.str m ++ lit ")") l ++ lit "))" = Debug.token (.element ⟨x, n, l⟩) := by
  have two : lit "))" = lit ")" ++ lit ")" := by decide
  have el : lit "Element(Element(" = lit "Element(" ++ lit "Element(" := by decide +kernel
  have ns : lit "Namespace(" = lit "Namespace" ++ lit "(" := by decide
  have lt : lit "LangTag(" = lit "LangTag" ++ lit "(" := by decide
  have key : ∀ a b f X N L : Str, (a ++ a) ++ X ++ b ++ N ++ b ++ L ++ (f ++ f) = a ++ (a ++ X ++ b ++ N ++ b ++ L ++ f) ++ f := by
    intro a b f X N L; simp only [List.append_assoc]
  unfold Debug.token Debug.element
  rw [two, el, ns, lt]
  exact key _ _ _ _ _ _

theorem debug_called {t : Token} {n : Str} : Called t n ↔ n = Debug.token t := by
  constructor
  · intro h
    cases h with
    | ws h => rw [Debug.shownText_iff.mp h]; rfl
    | string h => rw [Debug.shownText_iff.mp h]; rfl
    | comment h => rw [Debug.shownText_iff.mp h]; rfl
    | element h1 h2 h3 =>
      rw [Debug.shownText_iff.mp h1, Debug.shownTag_iff.mp h2, Debug.shownTag_iff.mp h3]
      exact debug_element _ _ _
    | _ => rfl
  · rintro rfl
    cases t with
    | ws s => exact .ws (Debug.shownText_iff.mpr rfl)
    | string s => exact .string (Debug.shownText_iff.mpr rfl)
    | comment s => exact .comment (Debug.shownText_iff.mpr rfl)
    | element e =>
      obtain ⟨x, n, l⟩ := e
      rw [← debug_element]
      exact .element (Debug.shownText_iff.mpr rfl) (Debug.shownTag_iff.mpr rfl) (Debug.shownTag_iff.mpr rfl)
    | openParen => exact .openParen
    | closeParen => exact .closeParen
    | openBrace => exact .openBrace
    | closeBrace => exact .closeBrace
    | openSquare => exact .openSquare
    | closeSquare => exact .closeSquare
    | pipe => exact .pipe
    | comma => exact .comma

/-- C09: the message does not name the token the parser could not go on with but the one after it, or `None` if that was the last one.  Every token
has exactly one such name. -/
theorem C09_message (tokens : List Token) :
    (ForeignThen tokens [] → parse tokens = .err (lit "Error parsing None")) ∧
    ∀ next rest, ForeignThen tokens (next :: rest) → (∃ name, Called next name) ∧
      ∀ name, Called next name → parse tokens = .err (lit "Error parsing Some(" ++ name ++ lit ")") := by
  refine ⟨fun h => foreign_msg h, ?_⟩
  intro next rest h
  refine ⟨⟨_, debug_called.mpr rfl⟩, ?_⟩
  intro name hn
  rw [foreign_msg h]
  have e : lit "Error parsing Some(" = lit "Error parsing " ++ lit "Some(" := by decide +kernel
  simp only [e, List.head?_cons, Debug.option, debug_called.mp hn, List.append_assoc]

/-- C09: so a different offending token in the same place gives the same message. -/
theorem C09_message_blind {done cur : List Token} {vs : List Value} (hd : Done done) (hc : Values cur vs) {t t' : Token} (ht : Foreign t)
    (ht' : Foreign t') (rest : List Token) : parse (done ++ cur ++ t :: rest) = parse (done ++ cur ++ t' :: rest) := by
  rw [foreign_msg ⟨done, cur, vs, t, rfl, hd, hc, ht⟩, foreign_msg ⟨done, cur, vs, t', rfl, hd, hc, ht'⟩]

/-- `a | b` is rejected with a message about `b`. -/
example : tokenizeAndFilter (lit "a | b") = .ok [te "a", .pipe, te "b"] ∧ ForeignThen [te "a", .pipe, te "b"] [te "b"] ∧
    Called (te "b") (lit "Element(Element(\"b\", None, None))") ∧
    parse [te "a", .pipe, te "b"] = .err (lit "Error parsing Some(Element(Element(\"b\", None, None)))") ∧
    ForeignThen [te "a", .pipe] [] :=
  ⟨by decide +kernel, ⟨[], [te "a"], [.element (el "a")], .pipe, rfl, .nil, .cons (ts := [te "a"]) (.element _) .nil, trivial⟩,
    debug_called.mpr (by decide +kernel), by decide +kernel,
    ⟨[], [te "a"], [.element (el "a")], .pipe, rfl, .nil, .cons (ts := [te "a"]) (.element _) .nil, trivial⟩⟩

/-! ## What reaches the evaluator from a script -/

theorem within_flat {x v : Value} (h : Within x v) (hv : FlatValue v) : x = v := by
  cases h with
  | self => rfl
  | quote => exact hv.elim

/-- The elements among the tokens have no tags. -/
def Untagged (ts : List Token) : Prop := ∀ e, .element e ∈ ts → e.ns = none ∧ e.lang = none

theorem plain_eq {e : Element} (h : e.ns = none ∧ e.lang = none) : plain e = e := by
  obtain ⟨t, n, l⟩ := e
  obtain ⟨h1, h2⟩ := h
  simp only at h1 h2
  subst h1; subst h2; rfl

theorem taf_untagged {script : Str} {ts : List Token} (h : tokenizeAndFilter script = .ok ts) : Untagged ts := by
  obtain ⟨⟨raw, hr, rfl⟩, -⟩ := C05_filtered script ts h
  have hraw : Untagged raw := by
    have := (C02_longest_match script raw).mp hr
    clear hr h
    induction this with
    | nil => intro e he; cases he
    | cons _ hd _ ih =>
      intro e he
      rw [List.mem_cons] at he
      rcases he with rfl | he
      · generalize hp : (_, _) = p at hd
        cases hd; exact ⟨rfl, rfl⟩
      · exact ih e he
  intro e he
  rw [List.mem_filterMap] at he
  obtain ⟨t, ht, hk⟩ := he
  cases t <;> cases hk
  · exact ⟨rfl, rfl⟩
  · exact hraw e ht

theorem entries_form {ts : List Token} {es : List Entry} (h : Entries ts es) (hu : Untagged ts) : ∀ e ∈ es, ParserForm e := by
  have one : ∀ {a b c : Element} {e : Entry}, ReadsEntry a b c e → (a.ns = none ∧ a.lang = none) → (b.ns = none ∧ b.lang = none) →
      (c.ns = none ∧ c.lang = none) → ParserForm e := by
    intro a b c e h ha hb hc
    cases h with
    | «extends» => simp only [ParserForm, canon, plain_eq ha, plain_eq hc]
    | notExtends => simp only [ParserForm, canon, plain_eq ha, plain_eq hc]
    | role _ _ h1 h2 =>
      have e1 : b.text ≠ lit ":" := fun e => h1 (by rw [← plain_eq hb, plain, e])
      have e2 : b.text ≠ lit "¬:" := fun e => h2 (by rw [← plain_eq hb, plain, e])
      simp only [ParserForm, canon, if_neg e1, if_neg e2, plain_eq ha, plain_eq hb, plain_eq hc]
  induction h with
  | close => intro e he; cases he
  | last h =>
    intro e he; rw [List.mem_singleton] at he; subst he
    exact one h (hu _ (by simp)) (hu _ (by simp)) (hu _ (by simp))
  | more h _ ih =>
    intro e he
    rw [List.mem_cons] at he
    rcases he with rfl | he
    · exact one h (hu _ (by simp)) (hu _ (by simp)) (hu _ (by simp))
    · exact ih (fun e he => hu e (by simp [he])) e he

/-- The value holds only untagged elements and networks in parser form. -/
def Scripted (v : Value) : Prop :=
  ∀ x, Within x v → (∀ e, x = .element e → e.ns = none ∧ e.lang = none) ∧ (∀ n, x = .network n → ∀ e ∈ n, ParserForm e)

theorem scripted_element {e : Element} (h : e.ns = none ∧ e.lang = none) : Scripted (.element e) := by
  intro x hx
  cases hx with
  | self => exact ⟨fun e' he => by cases he; exact h, nofun⟩

theorem scripted_network {n : Network} (h : ∀ e ∈ n, ParserForm e) : Scripted (.network n) := by
  intro x hx
  cases hx with
  | self => exact ⟨nofun, fun n' hn => by cases hn; exact h⟩

theorem networkLit_scripted {ts : List Token} {n : Network} (h : NetworkLit ts n) (hu : Untagged ts) : Scripted (.network n) := by
  obtain ⟨b, es, rfl, he, hm⟩ := h
  exact scripted_network fun e hen => entries_form he (fun e he => hu e (by simp [he])) e ((hm e).mp hen)

theorem items_scripted {ts : List Token} {vs : List Value} (h : Items ts vs) (hu : Untagged ts) : ∀ v ∈ vs, Scripted v := by
  induction h with
  | close => intro v hv; cases hv
  | element _ ih =>
    intro v hv
    rw [List.mem_cons] at hv
    rcases hv with rfl | hv
    · exact scripted_element (hu _ (by simp))
    · exact ih (fun e he => hu e (by simp [he])) v hv
  | network hn _ ih =>
    intro v hv
    rw [List.mem_cons] at hv
    rcases hv with rfl | hv
    · exact networkLit_scripted hn (fun e he => hu e (by simp [he]))
    · exact ih (fun e he => hu e (by simp [he])) v hv

theorem values_scripted {ts : List Token} {vs : List Value} (h : Values ts vs) (hu : Untagged ts) : ∀ v ∈ vs, Scripted v := by
  induction h with
  | nil => intro v hv; cases hv
  | cons h _ ih =>
    intro v hv
    rw [List.mem_cons] at hv
    rcases hv with rfl | hv
    · cases h with
      | element => exact scripted_element (hu _ (by simp))
      | string => exact scripted_element ⟨rfl, rfl⟩
      | network h => exact networkLit_scripted h (fun e he => hu e (by simp [he]))
      | quote h =>
        have := items_scripted h (fun e he => hu e (by simp [he]))
        intro x hx
        cases hx with
        | self => exact ⟨nofun, nofun⟩
        | quote hv hx => exact this _ hv x hx
    · exact ih (fun e he => hu e (by simp [he])) v hv

/-- C17: every network written in a script, at any place in its calls, is in parser form and every element is untagged, so what `let`
stores is what was written. -/
theorem C17_script_values (script : Str) (ts : List Token) (cs : List Call) (ht : tokenizeAndFilter script = .ok ts)
    (hp : parse ts = .ok cs) (c : Call) (hc : c ∈ cs) (v x : Value) (hv : v = .element c.name ∨ v ∈ c.args) (hx : Within x v) :
    (∀ e, x = .element e → e.ns = none ∧ e.lang = none) ∧ (∀ n, x = .network n → ∀ e ∈ n, ParserForm e) := by
  have hu := taf_untagged ht
  have hprog := parse_ok_iff.mp hp
  have key : ∀ {ts c}, CallLit ts c → Untagged ts → ∀ v, v = .element c.name ∨ v ∈ c.args → Scripted v :=
    fun h hu v hv => values_scripted h hu v (by rw [List.mem_cons]; exact hv)
  have all : Scripted v := by
    clear hp ht
    induction hprog with
    | nil => cases hc
    | last h => rw [List.mem_singleton] at hc; subst hc; exact key h hu v hv
    | more h _ ih =>
      rw [List.mem_cons] at hc
      rcases hc with rfl | hc
      · exact key h (fun e he => hu e (by simp [he])) v hv
      · exact ih hc (fun e he => hu e (by simp [he]))
  exact all x hx

theorem flat_depth {vs : List Value} (h : ∀ v ∈ vs, FlatValue v) : depthList vs = 0 := by
  induction vs with
  | nil => rfl
  | cons v vs ih =>
    have hv := h v List.mem_cons_self
    rw [depthList, ih (fun x hx => h x (List.mem_cons_of_mem _ hx))]
    cases v with
    | element e => simp [depth]
    | network n => simp [depth]
    | quote q => exact hv.elim

/-- C16: in calls read from a script quotes do not nest, so their depth is at most one. -/
theorem C16_script_depth (tokens : List Token) (cs : List Call) (hp : parse tokens = .ok cs) (c : Call) (hc : c ∈ cs) : depthList c.args ≤ 1 := by
  have hw := program_writable (parse_ok_iff.mp hp) c hc
  have : ∀ vs : List Value, (∀ v ∈ vs, WritableValue v) → depthList vs ≤ 1 := by
    intro vs
    induction vs with
    | nil => intro _; simp [depthList]
    | cons v vs ih =>
      intro h
      have h1 := ih (fun x hx => h x (List.mem_cons_of_mem _ hx))
      have hv := h v List.mem_cons_self
      rw [depthList]
      have : depth v ≤ 1 := by
        cases v with
        | element e => simp [depth]
        | network n => simp [depth]
        | quote q => rw [depth, flat_depth hv]; omega
      omega
  exact this _ hw

end Props
end Verif
