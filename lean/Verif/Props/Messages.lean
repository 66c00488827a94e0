import Verif.Props.Apps
import Verif.Props.Printing
import Verif.Props.Parsing
import Verif.Spec.Messages
/-!
# C85: the error messages of scripts
-/
namespace Verif
namespace Props
open Spec Lexer Parser

/-- What a store's `entries` can fail with. -/
def EntriesError {σ : Type u} (L : LigOps σ) (m : Str) : Prop := ∃ s c, L.entries s c = .err m

theorem common_get {σ : Type u} (name : Str) : (Eval.common (σ := σ)).get? name = none → name ∉ standardNames := by
  intro h hm
  simp only [standardNames, List.mem_cons, List.not_mem_nil, or_false] at hm
  rcases hm with rfl | rfl | rfl | rfl | rfl | rfl | rfl | rfl | rfl <;> revert h <;>
    simp [Eval.Commands.get?, Eval.common, List.lookup, lit]

theorem common_builtin {σ : Type u} {name : Str} {c : Eval.Command σ} (h : (Eval.common (σ := σ)).get? name = some c) :
    (∃ b, c.fn = .builtin b) ∧ name ∈ standardNames := by
  simp only [Eval.Commands.get?] at h
  have hm : (name, c) ∈ Eval.common (σ := σ) := by
    have : ∀ l : Eval.Commands σ, l.lookup name = some c → (name, c) ∈ l := by
      intro l
      induction l with
      | nil => simp
      | cons p l ih =>
        obtain ⟨k, d⟩ := p
        rw [List.lookup]
        split
        · rename_i heq
          intro hd
          cases hd
          simp only [beq_iff_eq] at heq
          subst heq
          simp
        · intro hd; exact List.mem_cons_of_mem _ (ih hd)
    exact this _ h
  simp only [Eval.common, List.mem_cons, List.not_mem_nil, or_false, Prod.mk.injEq] at hm
  rcases hm with ⟨rfl, rfl⟩ | ⟨rfl, rfl⟩ | ⟨rfl, rfl⟩ | ⟨rfl, rfl⟩ | ⟨rfl, rfl⟩ | ⟨rfl, rfl⟩ | ⟨rfl, rfl⟩ | ⟨rfl, rfl⟩ | ⟨rfl, rfl⟩ <;>
    exact ⟨⟨_, rfl⟩, by simp [standardNames]⟩

section
variable {σ : Type u} (L : LigOps σ)

theorem letStore_noErr (name : Element) (n : Network) (s : σ) (m : Str) : (Eval.letStore L name n s).1 ≠ .err m := by
  unfold Eval.letStore
  split
  · simp
  · split <;> simp

mutual
theorem evalArg_msg (v : Value) : ∀ s m, (Eval.evalArg L Eval.common v s).1 = .err m → ∃ cause, Message (EntriesError L) cause m := by
  intro s m h
  match v with
  | .quote q => rw [Eval.evalArg] at h; exact runQuote_msg q s m h
  | .element e => simp [Eval.evalArg] at h
  | .network n => simp [Eval.evalArg] at h

theorem runQuote_msg (q : List Value) : ∀ s m, (Eval.runQuote L Eval.common q s).1 = .err m → ∃ cause, Message (EntriesError L) cause m := by
  intro s m h
  match q with
  | [] => simp [Eval.runQuote] at h
  | .element name :: args =>
    simp only [Eval.runQuote] at h
    cases h1 : (Eval.common (σ := σ)).get? name.text with
    | none =>
      rw [h1] at h
      cases h
      exact ⟨_, .unknown (common_get _ h1)⟩
    | some c =>
      rw [h1] at h
      obtain ⟨⟨b, hb⟩, -⟩ := common_builtin h1
      simp only [hb] at h
      exact runFun_msg args b s m h
  | .quote _ :: _ => simp [Eval.runQuote] at h
  | .network _ :: _ => simp [Eval.runQuote] at h

theorem runFun_msg (args : List Value) : ∀ b s m, (Eval.runFun L Eval.common (.builtin b) args s).1 = .err m →
    ∃ cause, Message (EntriesError L) cause m := by
  intro b s m h
  match b with
  | .docs =>
    simp only [Eval.runFun, Eval.docs] at h
    split at h
    · cases h
    · cases h; exact ⟨_, .docs⟩
  | .union =>
    simp only [Eval.runFun, Eval.union] at h
    split at h
    · split at h
      · split at h <;> cases h
      · cases h
    · cases h; exact ⟨_, .union⟩
  | .id =>
    simp only [Eval.runFun, Eval.idCmd] at h
    split at h
    · cases h
    · cases h; exact ⟨_, .id⟩
  | .ignore => simp [Eval.runFun] at h
  | .read =>
    simp only [Eval.runFun, Eval.read] at h
    split at h
    · split at h
      · cases h
      · rename_i he; cases h; exact ⟨_, .reading ⟨_, _, he⟩⟩
      · cases h
    · cases h
  | .filter =>
    simp only [Eval.runFun, Eval.filterCmd] at h
    split at h
    · split at h <;> cases h
    · cases h
  | .assertEqual =>
    match args with
    | [left, right] =>
      simp only [Eval.runFun] at h
      rcases h1 : Eval.evalArg L Eval.common left s with ⟨a, s1⟩
      rw [h1] at h
      cases a with
      | ok l =>
        simp only at h
        rcases h2 : Eval.evalArg L Eval.common right s1 with ⟨b, s2⟩
        rw [h2] at h
        cases b with
        | ok r =>
          simp only [Eval.assertEqualResult] at h
          split at h
          · cases h
          · rename_i hne
            cases h
            rw [C11_layout, C11_layout]
            exact ⟨_, .notEqual hne⟩
        | err m' => cases h; exact evalArg_msg right s1 m (by rw [h2])
        | panic => cases h
      | err m' => cases h; exact evalArg_msg left s m (by rw [h1])
      | panic => cases h
    | [] => simp only [Eval.runFun] at h; cases h; exact ⟨_, .assertEqual⟩
    | [_] => simp only [Eval.runFun] at h; cases h; exact ⟨_, .assertEqual⟩
    | _ :: _ :: _ :: _ => simp only [Eval.runFun] at h; cases h; exact ⟨_, .assertEqual⟩
  | .assertFail =>
    match args with
    | [.quote q] =>
      simp only [Eval.runFun] at h
      rcases h1 : Eval.evalArg L Eval.common (.quote q) s with ⟨a, s1⟩
      rw [h1] at h
      cases a <;> cases h
      exact ⟨_, .noFailure⟩
    | [.element _] => simp only [Eval.runFun] at h; cases h; exact ⟨_, .assertFail⟩
    | [.network _] => simp only [Eval.runFun] at h; cases h; exact ⟨_, .assertFail⟩
    | [] => simp only [Eval.runFun] at h; cases h; exact ⟨_, .assertFail⟩
    | _ :: _ :: _ => simp only [Eval.runFun] at h; cases h; exact ⟨_, .assertFail⟩
  | .let_ =>
    match args with
    | [.element name, .network n] => simp only [Eval.runFun] at h; exact absurd h (letStore_noErr L name n s m)
    | [.element name, .quote q] =>
      simp only [Eval.runFun] at h
      split at h
      · exact absurd h (letStore_noErr L name _ _ m)
      · cases h
    | [.element _, .element _] => simp only [Eval.runFun] at h; cases h; exact ⟨_, .let_⟩
    | [.quote _, _] => simp only [Eval.runFun] at h; cases h; exact ⟨_, .let_⟩
    | [.network _, _] => simp only [Eval.runFun] at h; cases h; exact ⟨_, .let_⟩
    | [] => simp only [Eval.runFun] at h; cases h; exact ⟨_, .let_⟩
    | [_] => simp only [Eval.runFun] at h; cases h; exact ⟨_, .let_⟩
    | _ :: _ :: _ :: _ => simp only [Eval.runFun] at h; cases h; exact ⟨_, .let_⟩
end

theorem runCall_msg (c : Call) (s : σ) (m : Str) (h : (Eval.runCall L Eval.common c s).1 = .err m) : ∃ cause, Message (EntriesError L) cause m :=
  runQuote_msg L (.element c.name :: c.args) s m (by simpa only [Eval.runQuote, Eval.runCall] using h)

theorem runCallsLoop_msg (calls : List Call) : ∀ (v : Value) (s : σ) (m : Str), (Eval.runCallsLoop L Eval.common calls v s).1 = .err m →
    ∃ cause, Message (EntriesError L) cause m := by
  induction calls with
  | nil => intro v s m h; cases h
  | cons c cs ih =>
    intro v s m h
    rw [Eval.runCallsLoop] at h
    rcases h1 : Eval.runCall L Eval.common c s with ⟨a, s1⟩
    rw [h1] at h
    cases a with
    | ok w => exact ih w s1 m h
    | err m' => cases h; exact runCall_msg L c s m (by rw [h1])
    | panic => cases h

/-- C85: whatever the script and the store, an error has one of the listed messages. -/
theorem C85_messages (script : Str) (s : σ) (m : Str) (h : (Eval.run L Eval.common script s).1 = .err m) : ∃ cause, Message (EntriesError L) cause m := by
  rw [Eval.run] at h
  cases h1 : tokenizeAndFilter script with
  | err m' =>
    rw [h1] at h; cases h
    rw [taf_eq] at h1
    cases h2 : tokenize script with
    | err m'' =>
      rw [h2] at h1
      cases h1
      rw [((C02_error script _).mp h2).1]
      exact ⟨_, .tokenizing⟩
    | ok ts => rw [h2] at h1; cases h1
    | panic => rw [h2] at h1; cases h1
  | panic => rw [h1] at h; cases h
  | ok ts =>
    rw [h1] at h
    simp only at h
    cases h2 : parse ts with
    | err m' =>
      rw [h2] at h; cases h
      obtain ⟨rest, hr, rfl⟩ := parse_err_iff.mp h2
      cases rest with
      | nil => exact ⟨_, .parsingAtEnd⟩
      | cons t rest =>
        have hd := (debug_called (t := t)).mpr rfl
        have := Message.parsing (storeError := EntriesError L) hd
        have e : lit "Error parsing Some(" = lit "Error parsing " ++ lit "Some(" := by decide +kernel
        exact ⟨_, by simpa only [e, List.head?_cons, Debug.option, List.append_assoc] using this⟩
    | panic => rw [h2] at h; cases h
    | ok calls => rw [h2] at h; exact runCallsLoop_msg L calls _ s m h

end

theorem mem_entries_error (m : Str) : EntriesError Graph.memOps m ↔ MissingCollection m := by
  constructor
  · rintro ⟨s, c, h⟩
    have h : (Mem.triples s c.text).map (·.map Graph.tripToEntry) = .err m := h
    rw [Mem.triples] at h
    cases hg : s.colls.get? c.text with
    | some x => rw [hg] at h; cases h
    | none => rw [hg] at h; cases h; exact ⟨c.text, rfl⟩
  · rintro ⟨c, rfl⟩
    exact ⟨Graph.memNew, .of c, rfl⟩

theorem message_mono {P Q : Str → Prop} (h : ∀ m, P m → Q m) {c : Cause} {m : Str} (hm : Message P c m) : Message Q c m := by
  cases hm with
  | tokenizing => exact .tokenizing
  | parsingAtEnd => exact .parsingAtEnd
  | parsing h => exact .parsing h
  | unknown h => exact .unknown h
  | docs => exact .docs
  | union => exact .union
  | id => exact .id
  | let_ => exact .let_
  | assertEqual => exact .assertEqual
  | assertFail => exact .assertFail
  | notEqual h => exact .notEqual h
  | noFailure => exact .noFailure
  | reading hr => exact .reading (h _ hr)

/-- C85: the applications all run scripts on the in-memory graph, whose only message is that a collection is missing. -/
theorem C85_app_messages (script : Str) (s : Mem) (m : Str) (h : (runGraph script s).1 = .err m) :
    ∃ cause, Message MissingCollection cause m := by
  obtain ⟨c, hc⟩ := C85_messages Graph.memOps script s m h
  exact ⟨c, message_mono (fun m => (mem_entries_error m).mp) hc⟩

/-- `C85_app_messages` applies to a script that fails on a missing collection. -/
example := C85_app_messages (lit "let x {}, read y") Mem.new (lit "Error Collection `y` not found.") (by decide +kernel)

theorem append_cancel_right {a b c : Str} (h : a ++ c = b ++ c) : a = b := List.append_cancel_right h

/-- C85: so the cause can be told from the message. -/
theorem C85_cause (m : Str) (c c' : Cause) (h : Message MissingCollection c m) (h' : Message MissingCollection c' m) : c = c' := by
  generalize he : m = m' at h'
  cases h with
  | reading hr =>
    obtain ⟨x, rfl⟩ := hr
    cases h' with
    | reading hr => exact congrArg _ (List.append_cancel_left he)
    | _ => simp [lit] at he
  | notEqual hn =>
    cases h' with
    | notEqual hn' =>
      simp only [List.append_assoc] at he
      have he := List.append_cancel_left he
      simp only [← C11_layout] at he
      obtain ⟨h1, h2⟩ := Display.value_prefix _ _ he
      have h3 := List.append_cancel_left h2
      rw [← C11_layout, ← C11_layout, ← C11_layout, ← C11_layout, h3, (C11_print_alike _ _).mpr h1]
    | reading hr => obtain ⟨x, rfl⟩ := hr; simp [lit] at he
    | _ => simp [lit] at he
  | parsing hc =>
    cases h' with
    | parsing hc' =>
      simp only [List.append_assoc] at he
      exact congrArg _ (List.append_cancel_right (List.append_cancel_left he))
    | reading hr => obtain ⟨x, rfl⟩ := hr; simp [lit] at he
    | _ => simp [lit] at he
  | unknown hu =>
    cases h' with
    | unknown hu' => exact congrArg _ (List.append_cancel_left he)
    | reading hr => obtain ⟨x, rfl⟩ := hr; simp [lit] at he
    | _ => simp [lit] at he
  | _ =>
    cases h' with
    | reading hr => obtain ⟨x, rfl⟩ := hr; simp [lit] at he
    | _ => first | rfl | simp [lit] at he

theorem message_not_printed {P : Str → Prop} {c : Cause} {m : Str} (h : Message P c m) : ¬ LooksPrinted m := by
  rintro ⟨x, hx, hm⟩
  simp only [List.mem_cons, List.not_mem_nil, or_false] at hx
  cases h <;> simp [lit] at hm <;> subst hm <;> simp at hx

theorem printed_looks (v : Value) : LooksPrinted (Display.value v) := by
  cases v with
  | element e => exact ⟨'"', by simp, by simp [Display.value, Display.jsonStr]⟩
  | network n => exact ⟨'{', by simp, by simp [Display.value, Display.network, lit]⟩
  | quote q => exact ⟨'(', by simp, by simp [Display.value, lit]⟩

/-- C85: a client of the server can tell from the first character of a reply whether its request succeeded. -/
theorem C85_reply_tells (script : Str) (s : Mem) (r : Str) (h : replyTo script s = some r) :
    (∃ v, (runGraph script s).1 = .ok v) ↔ LooksPrinted r := by
  rw [replyTo] at h
  cases hr : (runGraph script s).1 with
  | ok v => rw [hr] at h; cases h; exact ⟨fun _ => printed_looks v, fun _ => ⟨v, rfl⟩⟩
  | err m =>
    rw [hr] at h; cases h
    obtain ⟨c, hc⟩ := C85_app_messages script s _ hr
    exact ⟨(fun ⟨v, hv⟩ => by cases hv), fun hl => absurd hl (message_not_printed hc)⟩
  | panic => rw [hr] at h; cases h

/-- `C85_reply_tells` applies to the reply to a script that fails. -/
example := C85_reply_tells (lit "let x {}, read y") Mem.new (lit "Error Collection `y` not found.") (by decide +kernel)

/-- C85: two equal replies are both values, equal up to namespace and language tags, or both the same error. -/
theorem C85_same_reply (a b : Str) (s t : Mem) (r : Str) (ha : replyTo a s = some r) (hb : replyTo b t = some r) :
    (∃ v w, (runGraph a s).1 = .ok v ∧ (runGraph b t).1 = .ok w ∧ SameUpToTags v w) ∨
    ((runGraph a s).1 = .err r ∧ (runGraph b t).1 = .err r) := by
  have h1 := C85_reply_tells a s r ha
  have h2 := C85_reply_tells b t r hb
  rw [replyTo] at ha hb
  cases hra : (runGraph a s).1 with
  | panic => rw [hra] at ha; cases ha
  | ok v =>
    rw [hra] at ha h1
    obtain ⟨w, hw⟩ := h2.mpr (h1.mp ⟨v, rfl⟩)
    rw [hw] at hb
    refine .inl ⟨v, w, rfl, hw, (C11_print_alike v w).mp ?_⟩
    rw [Option.some.inj ha, Option.some.inj hb]
  | err m =>
    rw [hra] at ha h1
    cases hrb : (runGraph b t).1 with
    | panic => rw [hrb] at hb; cases hb
    | err m' => rw [hrb] at hb; cases ha; cases hb; exact .inr ⟨rfl, rfl⟩
    | ok w =>
      rw [hrb] at h2
      obtain ⟨v, hv⟩ := h1.mpr (h2.mp ⟨w, rfl⟩)
      cases hv

/-- Every cause does occur. -/
example : (runGraph (lit "id \"x") Graph.memNew).1 = .err (lit "Error tokenizing input.") ∧
    (runGraph (lit "id x )") Graph.memNew).1 = .err (lit "Error parsing None") ∧
    (runGraph (lit "id | x") Graph.memNew).1 = .err (lit "Error parsing Some(Element(Element(\"x\", None, None)))") ∧
    (runGraph (lit "ignore, Let x {}") Graph.memNew).1 = .err (lit "Could not find command: Let") ∧
    (runGraph (lit "docs all") Graph.memNew).1 = .err (lit "docs takes no arguments.") ∧
    (runGraph (lit "union {}") Graph.memNew).1 = .err (lit "union takes two arguments.") ∧
    (runGraph (lit "id") Graph.memNew).1 = .err (lit "Id requires a single argument.") ∧
    (runGraph (lit "let x y") Graph.memNew).1 = .err (lit "Invalid call to let.") ∧
    (runGraph (lit "assert-equal x") Graph.memNew).1 = .err (lit "`assertEq` function requires two parameters.") ∧
    (runGraph (lit "assert-fail x") Graph.memNew).1 = .err (lit "`assert-fail` function expected to be passed a Quote.") ∧
    (runGraph (lit "assert-equal (id x) {a : b}") Graph.memNew).1 = .err (lit "Assertion failed, \"x\" != {\"a\" : \"b\"}") ∧
    (runGraph (lit "assert-fail (id x)") Graph.memNew).1 = .err (lit "Expected failure.") ∧
    (runGraph (lit "read n") Graph.memNew).1 = .err (lit "Error Collection `n` not found.") := by decide +kernel

/-- A reply that is a value, and an error whose text mentions one. -/
example : replyTo (lit "id {a : b}") Graph.memNew = some (lit "{\"a\" : \"b\"}") ∧
    replyTo (lit "{") Graph.memNew = none ∧
    replyTo (lit "\"{}\"") Graph.memNew = some (lit "Could not find command: {}") := by decide +kernel

/-! ## REPL command lines -/

theorem split_ws (pre : Str) : ∃ w q, pre = w ++ q ∧ (∀ c ∈ w, WsChar c) ∧ ∀ c, q.head? = some c → ¬ WsChar c := by
  induction pre with
  | nil => exact ⟨[], [], rfl, nofun, nofun⟩
  | cons c pre ih =>
    by_cases hc : WsChar c
    · obtain ⟨w, q, rfl, h1, h2⟩ := ih
      refine ⟨c :: w, q, rfl, ?_, h2⟩
      intro d hd
      rw [List.mem_cons] at hd
      rcases hd with rfl | hd
      · exact hc
      · exact h1 d hd
    · exact ⟨[], c :: pre, rfl, nofun, by intro d hd; cases hd; exact hc⟩

theorem gap_of_ws {w : Str} (h : ∀ c ∈ w, WsChar c) : Gap w := by
  induction w with
  | nil => exact .nil
  | cons c w ih => exact .ws (h c (by simp)) (ih fun d hd => h d (by simp [hd]))

/-- A text that begins with a colon or a blank that is not white space of scripts: if it is made of tokens, the first is a word. -/
theorem first_word {x : Char} {rest : Str} {ts : List Token} (hx : x = ':' ∨ (Blank x ∧ ¬ WsChar x))
    (h : tokenizeAndFilter (x :: rest) = .ok ts) : ∃ t us, ts = .element ⟨x :: t, none, none⟩ :: us := by
  obtain ⟨⟨raw, hr, rfl⟩, -⟩ := C05_filtered _ ts h
  have hx1 : x ≠ '"' ∧ x ≠ '(' ∧ x ≠ ')' ∧ x ≠ '{' ∧ x ≠ '}' ∧ x ≠ '[' ∧ x ≠ ']' ∧ x ≠ '|' ∧ x ≠ ',' ∧ x ≠ '-' ∧ ¬ WsChar x := by
    rcases hx with rfl | ⟨hb, hw⟩
    · simp [WsChar]
    · refine ⟨?_, ?_, ?_, ?_, ?_, ?_, ?_, ?_, ?_, ?_, hw⟩ <;> rintro rfl <;> exact absurd hb (by simp [Blank])
  obtain ⟨n1, n2, n3, n4, n5, n6, n7, n8, n9, n10, n11⟩ := hx1
  generalize hs : x :: rest = s at hr
  cases (C02_longest_match s raw).mp hr with
  | nil => cases hs
  | @cons _ k n t ts' hb hd _ =>
    obtain ⟨h0, hn, hf, -, -⟩ := hb
    subst hs
    obtain ⟨n, rfl⟩ : ∃ n', n = n' + 1 := ⟨n - 1, by omega⟩
    rw [List.take_succ_cons] at hf hd
    cases k with
    | element => cases hd; exact ⟨_, _, rfl⟩
    | ws => exact absurd (hf.2 x (by simp)) n11
    | string => obtain ⟨b, he, -⟩ := hf; injection he with he _; exact absurd he n1
    | comment => obtain ⟨b, -, he | he⟩ := hf <;> (injection he with he _; exact absurd he n10)
    | openParen => simp only [Fits, List.cons.injEq] at hf; exact absurd hf.1 n2
    | closeParen => simp only [Fits, List.cons.injEq] at hf; exact absurd hf.1 n3
    | openBrace => simp only [Fits, List.cons.injEq] at hf; exact absurd hf.1 n4
    | closeBrace => simp only [Fits, List.cons.injEq] at hf; exact absurd hf.1 n5
    | openSquare => simp only [Fits, List.cons.injEq] at hf; exact absurd hf.1 n6
    | closeSquare => simp only [Fits, List.cons.injEq] at hf; exact absurd hf.1 n7
    | pipe => simp only [Fits, List.cons.injEq] at hf; exact absurd hf.1 n8
    | comma => simp only [Fits, List.cons.injEq] at hf; exact absurd hf.1 n9

theorem command_line_word {line : Str} (h : CommandLine line) {ts : List Token} (ht : tokenizeAndFilter line = .ok ts) :
    ∃ x t us, (x = ':' ∨ Blank x) ∧ ts = .element ⟨x :: t, none, none⟩ :: us := by
  obtain ⟨pre, rest, rfl, hb⟩ := h
  obtain ⟨w, q, rfl, hw, hq⟩ := split_ws pre
  rw [List.append_assoc, gap_taf (gap_of_ws hw)] at ht
  cases q with
  | nil =>
    obtain ⟨t, us, rfl⟩ := first_word (.inl rfl) ht
    exact ⟨':', t, us, .inl rfl, rfl⟩
  | cons x q =>
    have hx := hb x (by simp)
    obtain ⟨t, us, rfl⟩ := first_word (.inr ⟨hx, hq x rfl⟩) ht
    exact ⟨x, t, us, .inr hx, rfl⟩

theorem callLit_first {ts : List Token} {c : Call} (h : CallLit ts c) {e : Element} {us : List Token} (he : ts = .element e :: us) :
    c.name = e := by
  unfold CallLit at h
  generalize hv : Value.element c.name :: c.args = vs at h
  cases h with
  | nil => cases hv
  | cons hl _ =>
    injection hv with h1 h2
    generalize hn : Value.element c.name = v at h1
    subst h1
    cases hl with
    | element _ => simp at he hn; rw [hn]; exact he.1
    | string s => simp at he
    | network _ => cases hn
    | quote _ => cases hn

theorem program_first {ts : List Token} {cs : List Call} (h : Program ts cs) {e : Element} {us : List Token} (he : ts = .element e :: us) :
    ∃ c rest, cs = c :: rest ∧ c.name = e := by
  cases h with
  | nil => cases he
  | @last _ c hc => exact ⟨c, [], rfl, callLit_first hc he⟩
  | @more ts c us' cs' hc hp =>
    cases ts with
    | nil => simp at he
    | cons t ts =>
      simp only [List.cons_append, List.cons.injEq] at he
      obtain ⟨rfl, _⟩ := he
      exact ⟨c, cs', rfl, callLit_first hc rfl⟩

/-- C85: a line the REPL takes for a command of its own could not have been a script: run as one, with the standard commands, it fails
and leaves the store as it was.  So no script is out of reach at the prompt. -/
theorem C85_command_lines {σ : Type u} (L : LigOps σ) (line : Str) (s : σ) (h : CommandLine line) :
    (∀ v, (Eval.run L Eval.common line s).1 ≠ .ok v) ∧ (Eval.run L Eval.common line s).2 = s := by
  rw [Eval.run]
  cases h1 : tokenizeAndFilter line with
  | err m => exact ⟨nofun, rfl⟩
  | panic => exact ⟨nofun, rfl⟩
  | ok ts =>
    obtain ⟨x, t, us, hx, rfl⟩ := command_line_word h h1
    simp only
    cases h2 : parse (.element ⟨x :: t, none, none⟩ :: us) with
    | err m => exact ⟨nofun, rfl⟩
    | panic => exact ⟨nofun, rfl⟩
    | ok cs =>
      obtain ⟨c, rest, rfl, hc⟩ := program_first (parse_ok_iff.mp h2) rfl
      have hn : (Eval.common (σ := σ)).get? c.name.text = none := by
        cases hg : (Eval.common (σ := σ)).get? c.name.text with
        | none => rfl
        | some d =>
          have := (common_builtin hg).2
          rw [hc] at this
          have hf : ∀ y ∈ standardNames, ∀ z, y.head? = some z → z ≠ ':' ∧ ¬ Blank z := by
            simp only [standardNames, List.mem_cons, List.not_mem_nil, or_false]
            rintro y (rfl | rfl | rfl | rfl | rfl | rfl | rfl | rfl | rfl) z hz <;> simp [lit] at hz <;> subst hz <;> simp [Blank]
          rcases hx with hx | hx
          · exact absurd hx (hf _ this x rfl).1
          · exact absurd hx (hf _ this x rfl).2
      have e : Eval.runCalls L Eval.common (c :: rest) s = (.err (Eval.notFound c.name), s) := by
        rw [Eval.runCalls, Eval.runCallsLoop, Eval.runCall, hn]
      show (∀ v, (Eval.runCalls L Eval.common (c :: rest) s).1 ≠ .ok v) ∧ (Eval.runCalls L Eval.common (c :: rest) s).2 = s
      rw [e]
      exact ⟨nofun, rfl⟩

/-- Such a line may be made of tokens, even with a no-break space in front. -/
example : CommandLine (lit " :status {a : b}") ∧ (runGraph (lit " :status {a : b}") Graph.memNew).1 = .err (lit "Could not find command: :status") ∧
    CommandLine [Char.ofNat 0xA0, ':'] ∧ (runGraph [Char.ofNat 0xA0, ':'] Graph.memNew).1 =
      .err (lit "Could not find command: " ++ [Char.ofNat 0xA0, ':']) :=
  ⟨isCommand_iff.mp (by decide +kernel), by decide +kernel, isCommand_iff.mp (by decide +kernel), by decide +kernel⟩

end Props
end Verif
