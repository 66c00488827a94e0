import Verif.Proofs.Template
import Verif.Props.Printing
import Verif.Props.Parsing
import Verif.Props.Effects
/-!
# Inserting texts into scripts: C89
-/
namespace Verif
namespace Props
open Spec Lexer Parser

/-! ## Tokens of a filled script -/

/-- The tokens of the pieces, with blanks for the texts, from number `k` on. -/
def tmplToks : Nat → List (List Token) → List Token → List Token
  | _, [], tb => tb
  | k, ta :: tas, tb => ta ++ .element (blank k) :: tmplToks (k + 1) tas tb

/-- The tokens of the pieces, with elements for the texts. -/
def insToks : List (List Token) → (Nat → Element) → List Token → List Token
  | [], _, tb => tb
  | ta :: tas, y, tb => ta ++ .element (y 0) :: insToks tas (fun i => y (i + 1)) tb

theorem fill_untagged {ts : List Token} (h : Untagged ts) (x : Nat → Element) : ts.map (fillTok x) = ts := by
  conv => rhs; rw [← List.map_id ts]
  apply List.map_congr_left
  intro t ht
  cases t <;> try rfl
  rename_i e
  have := (h e ht).1
  simp [fillTok, fillElement, this]

theorem tmpl_fill {tb : List Token} (hb : Untagged tb) : ∀ (tas : List (List Token)) (k : Nat) (x y : Nat → Element),
    (∀ ta ∈ tas, Untagged ta) → (∀ i, x (k + i) = y i) → (tmplToks k tas tb).map (fillTok x) = insToks tas y tb
  | [], k, x, y, _, _ => fill_untagged hb x
  | ta :: tas, k, x, y, hu, hxy => by
    rw [tmplToks, insToks, List.map_append, List.map_cons, fill_untagged (hu ta List.mem_cons_self),
      tmpl_fill hb tas (k + 1) x (fun i => y (i + 1)) (fun t ht => hu t (List.mem_cons_of_mem _ ht)) (fun i => by rw [← hxy]; congr 1; omega)]
    have : fillTok x (.element (blank k)) = .element (y 0) := by
      have := hxy 0
      simp only [Nat.add_zero] at this
      simp [fillTok, fillElement, blank, this]
    rw [this]

theorem blank_inj {i j : Nat} (h : blank i = blank j) : i = j := by
  have := congrArg (fun e => e.ns.map List.length) h
  simpa [blank] using this

theorem untagged_none {ts : List Token} (h : Untagged ts) (i : Nat) : inToks i ts = 0 := by
  rw [inToks, sum_zero]
  intro t ht
  cases t <;> try rfl
  rename_i e
  rw [inTok, inElement, if_neg]
  intro he
  have := (h e ht).1
  rw [he] at this; cases this

theorem tmpl_blanks {tb : List Token} (hb : Untagged tb) : ∀ (tas : List (List Token)) (k i : Nat), (∀ ta ∈ tas, Untagged ta) →
    inToks i (tmplToks k tas tb) = if k ≤ i ∧ i < k + tas.length then 1 else 0
  | [], k, i, _ => by
    rw [tmplToks, untagged_none hb, if_neg]; simp
  | ta :: tas, k, i, hu => by
    rw [tmplToks, inToks_append, inToks_cons, untagged_none (hu ta List.mem_cons_self),
      tmpl_blanks hb tas (k + 1) i (fun t ht => hu t (List.mem_cons_of_mem _ ht)), inTok, inElement]
    by_cases hi : i = k
    · subst hi; rw [if_pos rfl, if_neg (by omega), if_pos (by simp)]
    · rw [if_neg (fun h => hi (blank_inj h).symm)]
      simp only [List.length_cons]
      by_cases h : k + 1 ≤ i ∧ i < k + 1 + tas.length
      · rw [if_pos h, if_pos (by omega)]
      · rw [if_neg h, if_neg (by omega)]

/-- A way of writing that makes one element of a text, its text escaped. -/
def WritesOne (write : Str → Str) (s : Str) : Prop :=
  (∃ r, write s = '"' :: r) ∧ ∀ r, tokenizeAndFilter (write s ++ r) = (tokenizeAndFilter r).map (.element ⟨escaped s, none, none⟩ :: ·)

theorem quote_not_start {r : Str} : ¬ WordStart ('"' :: r) := by
  rintro ⟨c, hc, hi⟩
  cases hc
  have := isIdent_iff.mpr hi
  revert this; decide

theorem taf_filled (write : Str → Str) (b : Str) : ∀ parts : List Str, (∀ a ∈ parts, Complete a) →
    ∃ tas, tas.length = parts.length ∧ (∀ ta ∈ tas, Untagged ta) ∧ ∀ texts : Nat → Str, (∀ i < parts.length, WritesOne write (texts i)) →
      tokenizeAndFilter (filled write parts texts b) = (tokenizeAndFilter b).map (insToks tas (inserted texts))
  | [], _ => ⟨[], rfl, by simp, fun texts _ => by
      have : insToks [] (inserted texts) = fun x => x := rfl
      rw [this]; exact (res_map_id _).symm⟩
  | a :: parts, h => by
    obtain ⟨tas, hlen, hu, ih⟩ := taf_filled write b parts (fun x hx => h x (List.mem_cons_of_mem _ hx))
    obtain ⟨ts, ht, hc⟩ := h a List.mem_cons_self
    have ht' := tokenize_ok_iff.mpr ht
    refine ⟨filt ts :: tas, by simp [hlen], ?_, ?_⟩
    · intro ta hta
      rcases List.mem_cons.mp hta with rfl | hta
      · exact taf_untagged (script := a) (by rw [taf_eq, ht']; rfl)
      · exact hu ta hta
    · intro texts hw
      obtain ⟨⟨r, hr⟩, hone⟩ := hw 0 (by simp)
      rw [filled, List.append_assoc, taf_join _ _ a (Nat.le_refl _) ts ht' hc (by
        rw [hr]; intro hh; exact quote_not_start hh.2), hone,
        ih (fun i => texts (i + 1)) (fun i hi => hw (i + 1) (by simp; omega)), res_map_map, res_map_map]
      rfl

/-- The general form: whatever writes each text as one element. -/
theorem filled_cases (write : Str → Str) (parts : List Str) (b : Str) (h : ∀ a ∈ parts, Complete a) :
    (∃ calls, HasBlanks parts.length calls ∧ ∀ texts : Nat → Str, (∀ i < parts.length, WritesOne write (texts i)) →
      Means (filled write parts texts b) (calls.map (fillCall (inserted texts)))) ∨
    (∀ texts : Nat → Str, (∀ i < parts.length, WritesOne write (texts i)) → Errs (filled write parts texts b)) ∨
    (∀ texts : Nat → Str, (∀ i < parts.length, WritesOne write (texts i)) → Panics (filled write parts texts b)) := by
  obtain ⟨tas, hlen, hu, ht⟩ := taf_filled write b parts h
  cases hb : tokenizeAndFilter b with
  | err m =>
    right; left
    intro texts hw
    refine ⟨m, fun σ L cmds s => ?_⟩
    rw [Eval.run, ht texts hw, hb]; rfl
  | panic => exact absurd hb (C03_no_panic b).2
  | ok tb =>
    have hub := taf_untagged hb
    have key : ∀ texts : Nat → Str, (∀ i < parts.length, WritesOne write (texts i)) →
        tokenizeAndFilter (filled write parts texts b) = .ok ((tmplToks 0 tas tb).map (fillTok (inserted texts))) := by
      intro texts hw
      rw [ht texts hw, hb, tmpl_fill hub tas 0 (inserted texts) (inserted texts) hu (fun i => by rw [Nat.zero_add])]
      rfl
    cases hp : parse (tmplToks 0 tas tb) with
    | ok calls =>
      left
      refine ⟨calls, ?_, ?_⟩
      · intro i hi
        have hc := tmpl_blanks hub tas 0 i hu
        rw [if_pos (by omega)] at hc
        rw [inToks_program (parse_ok_iff.mp hp) (by omega), hc]
      · intro texts hw
        have := parse_fill (inserted texts) (tmplToks 0 tas tb)
        rw [hp] at this
        refine ⟨_, key texts hw, parse_ok_iff.mp ?_⟩
        cases hq : parse ((tmplToks 0 tas tb).map (fillTok (inserted texts))) with
        | ok cs => rw [hq] at this; rw [this]
        | err m => rw [hq] at this; exact this.elim
        | panic => rw [hq] at this; exact this.elim
    | err m =>
      right; left
      intro texts hw
      have := parse_fill (inserted texts) (tmplToks 0 tas tb)
      rw [hp] at this
      cases hq : parse ((tmplToks 0 tas tb).map (fillTok (inserted texts))) with
      | ok cs => rw [hq] at this; exact this.elim
      | err m' => exact ⟨m', fun σ L cmds s => by rw [Eval.run, key texts hw]; simp only [hq]⟩
      | panic => rw [hq] at this; exact this.elim
    | panic =>
      right; right
      intro texts hw σ L cmds s
      have := parse_fill (inserted texts) (tmplToks 0 tas tb)
      rw [hp] at this
      cases hq : parse ((tmplToks 0 tas tb).map (fillTok (inserted texts))) with
      | ok cs => rw [hq] at this; exact this.elim
      | err m' => rw [hq] at this; exact this.elim
      | panic => rw [Eval.run, key texts hw]; simp only [hq]

theorem display_writes (s : Str) : WritesOne (fun t => Display.element ⟨t, none, none⟩) s := by
  refine ⟨⟨Display.jsonBody s ++ ['"'], rfl⟩, fun r => ?_⟩
  show tokenizeAndFilter (Display.jsonStr s ++ r) = _
  rw [Display.taf_str, Display.jsonBody_escaped]

theorem writeString_writes {s : Str} (h : ∀ c ∈ s, ¬ OtherControl c) : WritesOne Display.writeString s := by
  have := (C12_agree ⟨s, none, none⟩).mpr h
  have e : Display.writeString s = Display.element ⟨s, none, none⟩ := this
  obtain ⟨h1, h2⟩ := display_writes s
  refine ⟨?_, ?_⟩
  · rw [e]; exact h1
  · intro r; rw [e]; exact h2 r

/-! ## C89 -/

/-- C89: pieces of script with displayed elements between them, each piece a whole number of tokens that leaves no comment open.
Either the script is well formed whatever the texts are, and means the same calls each time, with every text standing for one element
in one fixed place; or it is an error whatever the texts are; or reading it panics whatever the texts are. -/
theorem C89_display (parts : List Str) (b : Str) (h : ∀ a ∈ parts, Complete a) :
    let script := fun texts => filled (fun t => Display.element ⟨t, none, none⟩) parts texts b
    (∃ calls, HasBlanks parts.length calls ∧ ∀ texts, Means (script texts) (calls.map (fillCall (inserted texts)))) ∨
    (∀ texts, Errs (script texts)) ∨ (∀ texts, Panics (script texts)) := by
  have hw : ∀ texts : Nat → Str, ∀ i < parts.length, WritesOne (fun t => Display.element ⟨t, none, none⟩) (texts i) :=
    fun texts i _ => display_writes _
  rcases filled_cases _ parts b h with ⟨calls, h1, h2⟩ | h1 | h1
  · exact .inl ⟨calls, h1, fun texts => h2 texts (hw texts)⟩
  · exact .inr (.inl fun texts => h1 texts (hw texts))
  · exact .inr (.inr fun texts => h1 texts (hw texts))

/-- C89: the same with `write_string`, for texts without control characters other than newline, carriage return and tab. -/
theorem C89_write_string (parts : List Str) (b : Str) (h : ∀ a ∈ parts, Complete a) :
    let script := fun texts => filled Display.writeString parts texts b
    let good := fun texts : Nat → Str => ∀ i < parts.length, ∀ c ∈ texts i, ¬ OtherControl c
    (∃ calls, HasBlanks parts.length calls ∧ ∀ texts, good texts → Means (script texts) (calls.map (fillCall (inserted texts)))) ∨
    (∀ texts, good texts → Errs (script texts)) ∨ (∀ texts, good texts → Panics (script texts)) := by
  have hw : ∀ texts : Nat → Str, (∀ i < parts.length, ∀ c ∈ texts i, ¬ OtherControl c) →
      ∀ i < parts.length, WritesOne Display.writeString (texts i) := fun texts hg i hi => writeString_writes (hg i hi)
  rcases filled_cases _ parts b h with ⟨calls, h1, h2⟩ | h1 | h1
  · exact .inl ⟨calls, h1, fun texts hg => h2 texts (hw texts hg)⟩
  · exact .inr (.inl fun texts hg => h1 texts (hw texts hg))
  · exact .inr (.inr fun texts hg => h1 texts (hw texts hg))

theorem writeString_stuck {s : Str} (h : ∃ c ∈ s, OtherControl c) (r : Str) :
    tokenizeAndFilter (Display.writeString s ++ r) = .err (lit "Error tokenizing input.") := by
  obtain ⟨c, hc, ho⟩ := h
  rw [C05_error]
  refine (C02_error _ _).mpr ⟨rfl, .here (by rw [Display.writeString_eq]; simp) ?_⟩
  intro k m hm hle hf
  rw [Display.writeString_eq] at hf hle
  obtain ⟨m, rfl⟩ : ∃ m', m = m' + 1 := ⟨m - 1, by omega⟩
  rw [List.cons_append, List.take_succ_cons] at hf
  have hq : ¬ WsChar '"' ∧ ¬ WordChar '"' := by
    constructor
    · intro h; have := isWs_iff.mpr h; revert this; decide
    · intro h; have := isIdent_iff.mpr h; revert this; decide
  cases k with
  | ws => exact hq.1 (hf.2 _ List.mem_cons_self)
  | element => exact hq.2 (hf.2 _ List.mem_cons_self)
  | string =>
    obtain ⟨b, hb, hbody⟩ := hf
    simp only [List.cons.injEq, true_and] at hb
    have hsplit : b ++ '"' :: (s.flatMap Display.wsChar ++ ['"'] ++ r).drop m = s.flatMap Display.wsChar ++ '"' :: r := by
      have := List.take_append_drop m (s.flatMap Display.wsChar ++ ['"'] ++ r)
      rw [hb] at this
      simpa using this
    have := close_unique hbody (Display.unescapes_ws s) hsplit
    rw [this] at hbody
    exact Display.stringBody_ws.mp hbody c hc ho
  | comment => obtain ⟨b, _, h | h⟩ := hf <;> simp at h
  | _ => simp [Fits] at hf

theorem filled_stuck (b : Str) : ∀ (parts : List Str) (texts : Nat → Str), (∀ a ∈ parts, Complete a) →
    (∃ i < parts.length, ∃ c ∈ texts i, OtherControl c) →
    tokenizeAndFilter (filled Display.writeString parts texts b) = .err (lit "Error tokenizing input.")
  | [], _, _, h => by obtain ⟨i, hi, _⟩ := h; simp at hi
  | a :: parts, texts, h, hbad => by
    obtain ⟨ts, ht, hc⟩ := h a List.mem_cons_self
    have ht' := tokenize_ok_iff.mpr ht
    rw [filled, List.append_assoc, taf_join _ _ a (Nat.le_refl _) ts ht' hc (by
        rw [Display.writeString_eq]; intro hh; exact quote_not_start hh.2)]
    by_cases h0 : ∃ c ∈ texts 0, OtherControl c
    · rw [writeString_stuck h0]; rfl
    · have hw := writeString_writes (s := texts 0) (fun c hc ho => h0 ⟨c, hc, ho⟩)
      rw [hw.2, filled_stuck b parts (fun i => texts (i + 1)) (fun x hx => h x (List.mem_cons_of_mem _ hx))]
      · rfl
      · obtain ⟨i, hi, hx⟩ := hbad
        cases i with
        | zero => exact absurd hx h0
        | succ i => exact ⟨i, by simpa using hi, hx⟩

/-- C89: and with another control character in one of the texts the script is refused, and nothing is run. -/
theorem C89_write_string_refuses (parts : List Str) (b : Str) (h : ∀ a ∈ parts, Complete a) (texts : Nat → Str)
    (hbad : ∃ i < parts.length, ∃ c ∈ texts i, OtherControl c) (σ : Type) (L : LigOps σ) (cmds : Eval.Commands σ) (s : σ) :
    Eval.run L cmds (filled Display.writeString parts texts b) s = (.err (lit "Error tokenizing input."), s) := by
  rw [Eval.run, filled_stuck b parts texts h hbad]

theorem fill_not_blank {x : Nat → Element} {e : Element} (h : ¬ IsBlank e) : fillElement x e = e := by
  rw [fillElement]
  split
  · rfl
  · rename_i l _
    rw [if_neg (fun h' => h ⟨_, h'⟩)]

theorem safeLine_lets {x : Nat → Element} {cmd : Element} {args : List Value} (h : SafeLine cmd args) {name : Element} {rest : List Value}
    (ht : (fillElement x cmd).text = lit "let") (ha : fillValues x args = .element name :: rest) :
    cmd.text = lit "let" ∧ ∃ rest', args = .element name :: rest' := by
  rw [fill_not_blank h.1] at ht
  refine ⟨ht, ?_⟩
  cases args with
  | nil => simp [fillValues] at ha
  | cons v vs =>
    simp only [fillValues, List.cons.injEq] at ha
    cases v with
    | element e =>
      have := ha.1
      rw [fillValue, fill_not_blank (h.2 ht e vs rfl)] at this
      cases this
      exact ⟨vs, rfl⟩
    | network => exact absurd ha.1 (by simp [fillValue])
    | quote => exact absurd ha.1 (by simp [fillValue])

mutual
theorem safe_letsIn {x : Nat → Element} {name : Element} : ∀ v : Value, SafeValue v → LetsIn name (fillValue x v) → LetsIn name v
  | .element _, _, h => by simp [fillValue, LetsIn] at h
  | .network _, _, h => by simp [fillValue, LetsIn] at h
  | .quote vs, hs, h => by
    rw [SafeValue] at hs
    rw [fillValue, LetsIn] at h
    rw [LetsIn]
    rcases h with ⟨e, rest, h1, h2⟩ | h
    · left
      cases vs with
      | nil => simp [fillValues] at h1
      | cons v vs =>
        simp only [fillValues, List.cons.injEq] at h1
        cases v with
        | element e' =>
          obtain ⟨ha, hb⟩ := h1
          rw [fillValue] at ha
          cases ha
          obtain ⟨h3, rest', h4⟩ := safeLine_lets (hs.1 e' vs rfl) h2 hb
          exact ⟨e', rest', by rw [h4], h3⟩
        | network => exact absurd h1.1 (by simp [fillValue])
        | quote => exact absurd h1.1 (by simp [fillValue])
    · exact .inr (safe_letsInList vs hs.2 h)
theorem safe_letsInList {x : Nat → Element} {name : Element} : ∀ vs : List Value, SafeValues vs → LetsInList name (fillValues x vs) → LetsInList name vs
  | [], _, h => by simp [fillValues, LetsInList] at h
  | v :: vs, hs, h => by
    rw [SafeValues] at hs
    rw [fillValues, LetsInList] at h
    rw [LetsInList]
    rcases h with h | h
    · exact .inl (safe_letsIn v hs.1 h)
    · exact .inr (safe_letsInList vs hs.2 h)
end

/-- C89: if no blank is a command or the collection of a `let`, the texts cannot choose which collections are written: every collection
that no `let` of the calls targets keeps its entries and its existence, whatever the texts are, over each store. -/
theorem C89_frame (l : List Op) (calls : List Call) (hs : SafePlaces calls) (texts : Nat → Str) (d : Element)
    (hd : ∀ c ∈ calls, ∀ name : Element, CallLets name c → name.text ≠ d.text) :
    let run := calls.map (fillCall (inserted texts))
    (let s := (runOps Mem.ops Mem.new l).2
     let s' := (Eval.runCalls (Graph.ops Mem.ops) Eval.common run s).2
     (Graph.ops Mem.ops).entries s' d = (Graph.ops Mem.ops).entries s d ∧ (Listed Mem.ops s' d.text ↔ Listed Mem.ops s d.text)) ∧
    (let s := (runOps Heed.ops Heed.new l).2
     let s' := (Eval.runCalls (Graph.ops Heed.ops) Eval.common run s).2
     (Graph.ops Heed.ops).entries s' d = (Graph.ops Heed.ops).entries s d ∧ (Listed Heed.ops s' d.text ↔ Listed Heed.ops s d.text)) ∧
    (let s := (runOps Duck.ops Duck.new l).2
     let s' := (Eval.runCalls (Graph.ops Duck.ops) Eval.common run s).2
     (Graph.ops Duck.ops).entries s' d = (Graph.ops Duck.ops).entries s d ∧ (Listed Duck.ops s' d.text ↔ Listed Duck.ops s d.text)) := by
  refine C61_frame l _ d ?_
  intro c hc name hn
  obtain ⟨c0, hc0, rfl⟩ := List.mem_map.mp hc
  refine hd c0 hc0 name ?_
  rcases hn with ⟨h1, rest, h2⟩ | h
  · exact .inl (safeLine_lets (hs c0 hc0).1 h1 h2)
  · exact .inr (safe_letsInList _ (hs c0 hc0).2 h)

/-- C89: quotation marks alone are not enough: between bare quotation marks a text can end the string and add calls of its own. -/
theorem C89_quotes_not_enough : ∃ text : Str,
    Mem.ops.collections (Eval.run Graph.memOps Eval.common (filled (fun t => lit "\"" ++ t ++ lit "\"") [lit "id "] (fun _ => text) []) Mem.new).2 =
      .ok [lit "stolen"] ∧
    ∀ text', Mem.ops.collections (Eval.run Graph.memOps Eval.common
      (filled (fun t => Display.element ⟨t, none, none⟩) [lit "id "] (fun _ => text') []) Mem.new).2 = .ok [] := by
  refine ⟨lit "a\", let stolen {x y z}, id \"b", by decide +kernel, fun text' => ?_⟩
  have := C10_id_displayed Graph.memOps (.element ⟨text', none, none⟩) Mem.new trivial
  have e : filled (fun t => Display.element ⟨t, none, none⟩) [lit "id "] (fun _ => text') [] =
      lit "id " ++ Display.value (.element ⟨text', none, none⟩) := by
    simp only [filled, List.append_nil]; rfl
  rw [e, this]; rfl

/-- Two pieces and an end: a network with two blanks, then a second call. -/
theorem sample_pieces : ∀ a ∈ [lit "let people {", lit " knows "], Complete a := by
  intro a ha
  simp only [List.mem_cons, List.not_mem_nil, or_false] at ha
  rcases ha with rfl | rfl
  · exact complete_of (ts := [.element (.of (lit "let")), .ws (lit " "), .element (.of (lit "people")), .ws (lit " "), .openBrace])
      (by decide +kernel) (by intro c h; cases h)
  · exact complete_of (ts := [.ws (lit " "), .element (.of (lit "knows")), .ws (lit " ")]) (by decide +kernel) (by intro c h; cases h)

/-- The calls with blanks that the pieces mean: the first alternative of `C89_display` holds of them, and the places are safe. -/
def templateCalls : List Call :=
  [⟨el "let", [.element (el "people"), .network (BSet.ofList [.role (blank 0) (blank 1) (el "knows")])]⟩, ⟨el "read", [.element (el "people")]⟩]

example : HasBlanks 2 templateCalls ∧ SafePlaces templateCalls := by
  constructor
  · intro i hi
    have : i = 0 ∨ i = 1 := by omega
    rcases this with rfl | rfl <;> decide +kernel
  · have hb : ∀ s, ¬ IsBlank (el s) := by rintro s ⟨i, h⟩; have := congrArg Element.ns h; cases this
    intro c hc
    simp only [templateCalls, List.mem_cons, List.not_mem_nil, or_false] at hc
    rcases hc with rfl | rfl
    · refine ⟨⟨hb _, ?_⟩, by simp [SafeValues, SafeValue]⟩
      intro _ e rest h
      cases h; exact hb _
    · exact ⟨⟨hb _, fun h => absurd h (by decide)⟩, by simp [SafeValues, SafeValue]⟩

/-- Texts that look like script stay texts. -/
example : Eval.run Graph.memOps Eval.common (filled (fun t => Display.element ⟨t, none, none⟩) [lit "let people {", lit " knows "]
      (fun i => if i = 0 then lit "a}, let x {b" else lit "--") (lit "}, read people")) Mem.new =
    (.ok (.network (BSet.ofList [.role (el "a}, let x {b") (el "--") (el "knows")])),
     (Eval.run Graph.memOps Eval.common (lit "let people {\"a}, let x {b\" knows \"--\"}") Mem.new).2) := by decide +kernel

/-- A malformed template is an error, or a panic, whatever the texts are. -/
example : Errs (filled (fun t => Display.element ⟨t, none, none⟩) [lit "id "] (fun _ => lit "x") (lit " ^")) ∧
    Panics (filled (fun t => Display.element ⟨t, none, none⟩) [lit "id {"] (fun _ => lit "x") []) := by
  have e1 : tokenizeAndFilter (filled (fun t => Display.element ⟨t, none, none⟩) [lit "id "] (fun _ => lit "x") (lit " ^")) =
      .err (lit "Error tokenizing input.") := by decide +kernel
  have e2 : tokenizeAndFilter (filled (fun t => Display.element ⟨t, none, none⟩) [lit "id {"] (fun _ => lit "x") []) =
      .ok [.element (el "id"), .openBrace, .element (el "x")] := by decide +kernel
  have e3 : parse [.element (el "id"), .openBrace, .element (el "x")] = .panic := by decide +kernel
  exact ⟨⟨_, fun σ L cmds s => by rw [Eval.run, e1]⟩, fun σ L cmds s => by rw [Eval.run, e2]; simp only [e3]⟩

/-- A text in the place of a role can make an entry of another kind. -/
example : (Eval.run Graph.memOps Eval.common (filled (fun t => Display.element ⟨t, none, none⟩) [lit "id {a "] (fun _ => lit ":")
    (lit " b}")) Mem.new).1 = .ok (.network (BSet.ofList [.ext (el "a") (el "b")])) := by decide +kernel

/-- A text with a control character. -/
example : ∃ i < 1, ∃ c ∈ (fun _ : Nat => [Char.ofNat 7]) i, OtherControl c := ⟨0, by decide, Char.ofNat 7, by simp, by unfold OtherControl; decide⟩

end Props
end Verif
