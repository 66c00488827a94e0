import Verif.Proofs.Print
import Verif.Props.Parsing
import Verif.Props.Commands
/-!
# Printing: C10–C12
-/
namespace Verif
namespace Props
open Spec Lexer Parser Display

/-! ## C10 -/

theorem taf_args (r : Str) : ∀ vs : List Value, (∀ v ∈ vs, Unnested v) →
    ∃ ts, Values ts (vs.map reread) ∧
      tokenizeAndFilter (vs.flatMap (fun v => ' ' :: Display.value v) ++ r) = (tokenizeAndFilter r).map (ts ++ ·)
  | [], _ => ⟨[], .nil, by simp [res_map_id]⟩
  | v :: vs, h => by
    obtain ⟨ts, h1, h2⟩ := taf_args r vs (fun x hx => h x (List.mem_cons_of_mem _ hx))
    obtain ⟨us, h3, h4⟩ := taf_value v (h v List.mem_cons_self) (vs.flatMap (fun v => ' ' :: Display.value v) ++ r)
    refine ⟨us ++ ts, .cons h3 h1, ?_⟩
    rw [List.flatMap_cons, List.append_assoc, List.cons_append, taf_space, h4, h2, res_map_map]
    simp only [List.append_assoc]

theorem taf_call (c : Str × List Value) (hn : BareWord c.1) (hv : ∀ v ∈ c.2, Unnested v) (r : Str) (hr : ¬ WordStart r) :
    ∃ ts, CallLit ts ⟨⟨c.1, none, none⟩, c.2.map reread⟩ ∧ tokenizeAndFilter (printedCall c ++ r) = (tokenizeAndFilter r).map (ts ++ ·) := by
  obtain ⟨ts, h1, h2⟩ := taf_args r c.2 hv
  refine ⟨[.element ⟨c.1, none, none⟩] ++ ts, .cons (.element _) h1, ?_⟩
  rw [printedCall, List.append_assoc, taf_bare hn, h2, res_map_map]
  · simp only [List.append_assoc]; rfl
  · cases hc : c.2 with
    | nil => exact hr
    | cons v vs =>
      rintro ⟨d, hd, hw⟩
      simp at hd
      subst hd
      have := isIdent_iff.mpr hw
      revert this; decide

theorem printed_cons (c : Str × List Value) {cs : List (Str × List Value)} (h : cs ≠ []) :
    printedScript (c :: cs) = printedCall c ++ lit ", " ++ printedScript cs := by
  cases cs with
  | nil => exact absurd rfl h
  | cons => rw [printedScript]; exact nofun

theorem taf_printed : ∀ cs : List (Str × List Value), (∀ c ∈ cs, BareWord c.1 ∧ ∀ v ∈ c.2, Unnested v) →
    ∃ ts, tokenizeAndFilter (printedScript cs) = .ok ts ∧ Program ts (cs.map fun c => ⟨⟨c.1, none, none⟩, c.2.map reread⟩)
  | [], _ => ⟨[], rfl, .nil⟩
  | [c], h => by
    obtain ⟨hn, hv⟩ := h c List.mem_cons_self
    obtain ⟨ts, h1, h2⟩ := taf_call c hn hv [] (by rintro ⟨d, hd, _⟩; cases hd)
    refine ⟨ts, ?_, .last h1⟩
    rw [printedScript]
    rw [List.append_nil] at h2
    rw [h2, show tokenizeAndFilter [] = .ok [] from rfl]
    simp [Res.map]
  | c :: c' :: cs, h => by
    obtain ⟨hn, hv⟩ := h c List.mem_cons_self
    obtain ⟨us, h3, h4⟩ := taf_printed (c' :: cs) (fun x hx => h x (List.mem_cons_of_mem _ hx))
    obtain ⟨ts, h1, h2⟩ := taf_call c hn hv (lit ", " ++ printedScript (c' :: cs)) (by
      rintro ⟨d, hd, hw⟩
      rw [lit_comma] at hd
      simp at hd
      subst hd
      have := isIdent_iff.mpr hw
      revert this; decide)
    refine ⟨ts ++ .comma :: us, ?_, .more h1 h4⟩
    rw [printed_cons c (by simp), List.append_assoc, h2, lit_comma, List.cons_append, List.cons_append, List.nil_append, taf_comma, taf_space, h3]
    rfl

/-- C10: writing any number of calls from bare words and displayed values, and reading the script, gives those calls with every value
replaced by its reread form (texts escaped, tags dropped, role entries spelled `:` and `¬:` turned into the extends entries). -/
theorem C10_read_back (calls : List (Str × List Value)) (h : ∀ c ∈ calls, BareWord c.1 ∧ ∀ v ∈ c.2, Unnested v) :
    ∃ tokens, tokenizeAndFilter (printedScript calls) = .ok tokens ∧
      parse tokens = .ok (calls.map fun c => ⟨⟨c.1, none, none⟩, c.2.map reread⟩) := by
  obtain ⟨ts, h1, h2⟩ := taf_printed calls h
  exact ⟨ts, h1, parse_ok_iff.mpr h2⟩

/-- C10: a value comes back unchanged exactly if it has no tag, no special character, and no role entry spelled like another entry. -/
theorem C10_unchanged (v : Value) : reread v = v ↔ Clean v := reread_fix v

/-- C10: printing twice escapes twice: a value that does not come back unchanged never settles. -/
theorem C10_once (v : Value) (h : reread (reread v) = reread v) (e : Element) (he : v = .element e) : ∀ c ∈ e.text, ¬ Special c := by
  subst he
  rw [C10_unchanged] at h
  have := ((h _ (by rw [reread]; exact .self _)).1 _ rfl).2.2
  intro c hc hs
  obtain ⟨d, hd, hs'⟩ := ((escaped_length e.text).2 ⟨c, hc, hs⟩).2
  exact this d hd hs'

theorem bare_of {w : Str} (h : w ≠ [] ∧ (∀ c ∈ w, isIdent c = true) ∧ ¬ lit "--" <+: w ∧ w ≠ lit "[" ∧ w ≠ lit "]") : BareWord w :=
  ⟨h.1, fun c hc => isIdent_iff.mp (h.2.1 c hc), h.2.2⟩

/-- Running a script of printed calls runs the calls with the reread values. -/
theorem run_printed {σ : Type u} (L : LigOps σ) (cmds : Eval.Commands σ) (calls : List (Str × List Value))
    (h : ∀ c ∈ calls, BareWord c.1 ∧ ∀ v ∈ c.2, Unnested v) (s : σ) :
    Eval.run L cmds (printedScript calls) s = Eval.runCalls L cmds (calls.map fun c => ⟨⟨c.1, none, none⟩, c.2.map reread⟩) s := by
  obtain ⟨ts, h1, h2⟩ := C10_read_back calls h
  rw [Eval.run, h1]
  simp only [h2]

/-- C10: evaluating a displayed value: `id` given the displayed form yields the reread value and changes nothing. -/
theorem C10_id_displayed {σ : Type u} (L : LigOps σ) (v : Value) (s : σ) (h : Unnested v) :
    Eval.run L Eval.common (lit "id " ++ Display.value v) s = (.ok (reread v), s) := by
  have hr := run_printed L Eval.common [(lit "id", [v])] (by
    intro c hc
    rw [List.mem_singleton] at hc
    subst hc
    refine ⟨bare_of (w := lit "id") (by decide), ?_⟩
    intro x hx; rw [List.mem_singleton] at hx; subst hx; exact h) s
  have e : printedScript [(lit "id", [v])] = lit "id " ++ Display.value v := by
    simp [printedScript, printedCall, List.flatMap_cons, show lit "id " = lit "id" ++ [' '] by decide]
  rw [e] at hr
  rw [hr]
  have := common_cmd L "id" [reread v] s _ .id (by simp [Eval.common]; rfl)
  simp only [Spec.call, Element.of] at this
  simp only [List.map]
  rw [this]
  simp [Eval.runFun, Eval.idCmd]

theorem reread_twice_form (n : Network) : (n.map fun e => canon (escapedEntry e)).map canon = n.map fun e => canon (escapedEntry e) := by
  refine C17_parser_form_unchanged _ ?_
  intro e he
  rw [BSet.mem_map] at he
  obtain ⟨x, _, rfl⟩ := he
  exact canon_canon _

/-- C17: as a script, on the in-memory graph whatever it holds: storing a displayed network under a displayed name and reading it gives
the network reread, in the same script or in a later one; a clean network comes back as it was. -/
theorem C17_script_round_trip (s : Mem) (name : Element) (n : Network) :
    ∃ s', Eval.run Graph.memOps Eval.common (lit "let " ++ Display.element name ++ lit " " ++ Display.network n ++ lit ", read " ++
        Display.element name) s = (.ok (reread (.network n)), s') ∧
      Eval.run Graph.memOps Eval.common (lit "let " ++ Display.element name ++ lit " " ++ Display.network n) s = (.ok (.network ∅), s') ∧
      Eval.run Graph.memOps Eval.common (lit "read " ++ Display.element name) s' = (.ok (reread (.network n)), s') ∧
      ((∀ e ∈ n, CleanEntry e) → reread (.network n) = .network n) := by
  have hl : BareWord (lit "let") := bare_of (by decide)
  have hr : BareWord (lit "read") := bare_of (by decide)
  have r1 := run_printed Graph.memOps Eval.common [(lit "let", [.element name, .network n]), (lit "read", [.element name])]
    (by simp [hl, hr, Unnested]) s
  have r2 := run_printed Graph.memOps Eval.common [(lit "let", [.element name, .network n])] (by simp [hl, Unnested]) s
  have r3 := run_printed Graph.memOps Eval.common [(lit "read", [.element name])] (by simp [hr, Unnested])
  simp only [printedScript, printedCall, List.flatMap_cons, List.flatMap_nil, List.map, reread, Display.value] at r1 r2 r3
  obtain ⟨s', h1, h2⟩ := C17_let_read s (escapedElement name) (escapedElement name) (n.map fun e => canon (escapedEntry e)) rfl
  rw [reread_twice_form] at h2
  simp only [Spec.call, Element.of] at h1 h2
  refine ⟨s', ?_, ?_, ?_, ?_⟩
  · have := Eval.runCalls_append Graph.memOps Eval.common [⟨⟨lit "let", none, none⟩, [.element (escapedElement name), .network (n.map fun e => canon (escapedEntry e))]⟩]
      [⟨⟨lit "read", none, none⟩, [.element (escapedElement name)]⟩] s
    rw [h1] at this
    simp only [List.cons_append, List.nil_append] at this
    rw [this] at r1
    simp only [List.cons_ne_self, if_false, h2] at r1
    rw [show lit ", read " = lit ", " ++ lit "read" ++ [' '] by decide, show lit "let " = lit "let" ++ [' '] by decide, lit_space, reread]
    simpa [Display.element] using r1
  · rw [h1] at r2
    rw [show lit "let " = lit "let" ++ [' '] by decide, lit_space]
    simpa [Display.element] using r2
  · have r3 := r3 s'
    rw [h2] at r3
    rw [show lit "read " = lit "read" ++ [' '] by decide, reread]
    simpa [Display.element] using r3
  · intro h; rw [reread, reread_network.mpr h]

/-- A printed network with a quote, a backslash and a newline in its texts, and a role spelled `:`. -/
def dirtyNetwork : Network := BSet.ofList [.role ⟨lit "a\"b", none, none⟩ ⟨lit "x\\y", some (lit "ns"), none⟩ ⟨lit ":", none, none⟩]

example : Display.network dirtyNetwork = lit "{\"a\\\"b\" \":\" \"x\\\\y\"}" ∧ Display.network sampleNetwork ≠ Display.network dirtyNetwork ∧
    reread (.network dirtyNetwork) = .network (BSet.ofList [.ext ⟨lit "a\\\"b", none, none⟩ ⟨lit "x\\\\y", none, none⟩]) := by decide +kernel
example : ¬ Clean (.network dirtyNetwork) ∧ Clean (.quote [.network sampleNetwork, .element (el "é ?")]) := by
  constructor
  · rw [← C10_unchanged]; decide +kernel
  · rw [← C10_unchanged]; decide +kernel
example : Unnested (.quote [.network dirtyNetwork, .element (el "x")]) ∧ BareWord (lit "id") :=
  ⟨by intro v hv q; simp at hv; rcases hv with rfl | rfl <;> exact nofun, bare_of (by decide)⟩
/-- A quote inside a quote prints, but its text cannot be read. -/
example : Eval.run Graph.memOps Eval.common (lit "id " ++ Display.value (.quote [.quote []])) Graph.memNew = (.panic, Graph.memNew) := by
  decide +kernel

/-! ## C11 -/

/-- C11: two values print alike exactly if they are equal up to namespaces and language tags (nested quotes included). -/
theorem C11_print_alike (v w : Value) : Display.value v = Display.value w ↔ SameUpToTags v w := by
  constructor
  · intro h
    exact (value_prefix v w (r := []) (r' := []) (by rw [h])).1
  · intro h; exact (same_value h).1

theorem entry_layout (e : Entry) : Display.entry e = layoutEntry e := by
  cases e <;> simp only [Display.entry, layoutEntry, Display.element, jsonStr, literal, Display.jsonBody_escaped] <;> rfl

theorem entries_layout : ∀ l : List Entry, Display.entries l = separated (lit ", ") (l.map layoutEntry)
  | [] => rfl
  | [e] => by rw [Display.entries, entry_layout]; simp [separated]
  | e :: f :: l => by
    rw [Display.entries, entries_layout (f :: l), entry_layout]
    · simp [separated, List.append_assoc]
    · simp

mutual
theorem value_layout : ∀ v : Value, Display.value v = layout v
  | .element e => by rw [Display.value, layout, jsonStr, literal, Display.jsonBody_escaped]; rfl
  | .network n => by rw [Display.value, Display.network, layout, entries_layout]
  | .quote vs => by rw [Display.value, layout, values_layout vs]
theorem values_layout : ∀ vs : List Value, Display.values vs = separated (lit " ") (layoutEach vs)
  | [] => by rw [Display.values, layoutEach]; rfl
  | [v] => by rw [Display.values, Display.values, value_layout v, layoutEach, layoutEach]; simp [separated]
  | v :: w :: vs => by
    rw [Display.values, value_layout v, values_layout (w :: vs)]
    simp [layoutEach, separated, List.append_assoc]
end

/-- C11: the printed text, exactly. -/
theorem C11_layout (v : Value) : Display.value v = layout v := value_layout v

/-- A quote with a network of two entries, texts that need escaping, and an element. -/
example : layout (.quote [.network (BSet.ofList [.ext (el "a") (el "b\n"), .role (el "x") (el "y") (el "\"")]), .element (el "z")]) =
    lit "({\"x\" \"\\\"\" \"y\", \"a\" : \"b\\n\"} \"z\")" := by decide +kernel

theorem untagged_entry {e e' : Entry} (h : SameEntry e e') (hu : UntaggedEntry e) (hu' : UntaggedEntry e') : e = e' := by
  have he : ∀ {a b : Element}, UntaggedElement a → UntaggedElement b → a.text = b.text → a = b := by
    rintro ⟨_, _, _⟩ ⟨_, _, _⟩ ⟨h1, h2⟩ ⟨h3, h4⟩ h; simp_all
  cases e <;> cases e' <;> simp only [SameEntry, UntaggedEntry] at h hu hu'
  case role.role => simp [he hu.1 hu'.1 h.1, he hu.2.1 hu'.2.1 h.2.1, he hu.2.2 hu'.2.2 h.2.2]
  all_goals simp [he hu.1 hu'.1 h.1, he hu.2 hu'.2 h.2]

/-- C11: values without tags are told apart by their printed form. -/
theorem C11_untagged_injective (v w : Value) (hv : UntaggedValue v) (hw : UntaggedValue w) (h : Display.value v = Display.value w) : v = w := by
  have hs := (C11_print_alike v w).mp h
  clear h
  induction hs with
  | @element e e' h =>
    have h1 := (hv _ (.self _)).1 _ rfl
    have h2 := (hw _ (.self _)).1 _ rfl
    obtain ⟨t, n, l⟩ := e
    obtain ⟨t', n', l'⟩ := e'
    simp only [UntaggedElement] at h1 h2 h
    rw [h1.1, h1.2, h2.1, h2.2, h]
  | @network n m h =>
    have h1 := (hv _ (.self _)).2 _ rfl
    have h2 := (hw _ (.self _)).2 _ rfl
    congr 1
    apply BSet.eq_of_toList
    have key : ∀ l l', Pairwise2 SameEntry l l' → (∀ e ∈ l, UntaggedEntry e) → (∀ e ∈ l', UntaggedEntry e) → l = l' := by
      intro l l' h
      induction h with
      | nil => intros; rfl
      | cons h _ ih =>
        intro h1 h2
        rw [untagged_entry h (h1 _ List.mem_cons_self) (h2 _ List.mem_cons_self),
          ih (fun e he => h1 e (List.mem_cons_of_mem _ he)) (fun e he => h2 e (List.mem_cons_of_mem _ he))]
    exact key _ _ h h1 h2
  | quoteNil => rfl
  | quoteCons _ _ ih1 ih2 =>
    rw [ih1 (fun x hx => hv x (.quote List.mem_cons_self hx)) (fun x hx => hw x (.quote List.mem_cons_self hx))]
    have sub : ∀ {v : Value} {vs : List Value}, UntaggedValue (.quote (v :: vs)) → UntaggedValue (.quote vs) := by
      intro v vs h x hx
      cases hx with
      | self => exact ⟨nofun, nofun⟩
      | quote hv hx => exact h x (.quote (List.mem_cons_of_mem _ hv) hx)
    have := ih2 (sub hv) (sub hw)
    cases this; rfl

/-- C11: printing is a prefix code: no printed value is a proper beginning of another. -/
theorem C11_prefix_free (v w : Value) (rest : Str) (h : Display.value w = Display.value v ++ rest) : rest = [] := by
  have := (value_prefix v w (r := rest) (r' := []) (by rw [List.append_nil, ← h])).2
  exact this

example : SameUpToTags (.quote [.element ⟨lit "x", some (lit "n"), none⟩, .quote [.network ∅]])
    (.quote [.element ⟨lit "x", none, some (lit "en")⟩, .quote [.network ∅]]) :=
  .quoteCons (.element rfl) (.quoteCons (.quoteCons (.network .nil) .quoteNil) .quoteNil)
example : UntaggedValue (.quote [.element (el "x"), .quote [.element (el "y")]]) := by
  intro x hx
  cases hx with
  | self => exact ⟨nofun, nofun⟩
  | quote hv hx =>
    simp at hv
    rcases hv with rfl | rfl
    · cases hx; exact ⟨fun e he => by cases he; exact ⟨rfl, rfl⟩, nofun⟩
    · cases hx with
      | self => exact ⟨nofun, nofun⟩
      | quote hv hx =>
        simp at hv; subst hv
        cases hx; exact ⟨fun e he => by cases he; exact ⟨rfl, rfl⟩, nofun⟩

/-! ## C12 -/

/-- C12: `write_string` writes a quoted JSON body that stands for the string and for no other. -/
theorem C12_write_string (s : Str) : ∃ body, writeString s = lit "\"" ++ body ++ lit "\"" ∧ Unescapes body s ∧ ∀ t, Unescapes body t → t = s := by
  refine ⟨s.flatMap wsChar, ?_, unescapes_ws s, fun t ht => unescapes_unique ht (unescapes_ws s)⟩
  rw [writeString_eq]; rfl

/-- C12: the display of an element likewise, for its text. -/
theorem C12_display_element (e : Element) :
    ∃ body, Display.element e = lit "\"" ++ body ++ lit "\"" ∧ Unescapes body e.text ∧ ∀ t, Unescapes body t → t = e.text :=
  ⟨jsonBody e.text, rfl, unescapes_jsonBody _, fun _ ht => unescapes_unique ht (unescapes_jsonBody _)⟩

/-- C12: different strings are written differently, by either function. -/
theorem C12_injective (s t : Str) : (writeString s = writeString t ↔ s = t) ∧
    ∀ e f : Element, Display.element e = Display.element f ↔ e.text = f.text := by
  constructor
  · constructor
    · intro h
      rw [writeString_eq, writeString_eq] at h
      simp only [List.cons.injEq, true_and, List.append_cancel_right_eq] at h
      have := unescapes_ws s
      rw [h] at this
      exact unescapes_unique this (unescapes_ws t)
    · rintro rfl; rfl
  · intro e f
    constructor
    · intro h; exact (jsonStr_prefix (s := e.text) (s' := f.text) (r := []) (r' := []) (by rw [List.append_nil, List.append_nil]; exact h)).1
    · intro h; rw [Display.element, Display.element, h]

theorem wsChar_json {c : Char} (h : ¬ OtherControl c) : wsChar c = jsonChar c := by
  rcases jsonChar_cases c with ⟨hn, e⟩ | ⟨hs, ⟨rfl, e⟩ | ⟨rfl, e⟩ | ⟨rfl, e⟩ | ⟨rfl, e⟩ | ⟨rfl, e⟩ | ⟨rfl, e⟩ | ⟨rfl, e⟩ | ⟨i, j, hi, hj, hc, e⟩⟩
  · rw [e, wsChar, if_neg (fun e => hn (.inr (.inr e))), if_neg (fun e => hn (.inr (.inl e)))]
    have : ∀ d : Char, d.toNat < 32 → c ≠ d := by rintro d hd rfl; exact hn (.inl hd)
    rw [if_neg (this _ (by decide)), if_neg (this _ (by decide)), if_neg (this _ (by decide))]
  · decide
  · decide
  · exact absurd (by unfold OtherControl; decide) h
  · decide
  · decide
  · exact absurd (by unfold OtherControl; decide) h
  · decide
  · exfalso
    have hne : ∀ d : Char, (∀ x y, jsonChar d ≠ ['\\', 'u', '0', '0', x, y]) → c ≠ d := by rintro d hd rfl; exact hd _ _ e
    have h1 : c ≠ '"' := hne _ (fun x y h => by cases h)
    have h2 : c ≠ '\\' := hne _ (fun x y h => by cases h)
    have h3 : c ≠ '\n' := hne _ (fun x y h => by cases h)
    have h4 : c ≠ '\r' := hne _ (fun x y h => by cases h)
    have h5 : c ≠ '\t' := hne _ (fun x y h => by cases h)
    rcases hs with hs | hs | hs
    · exact h ⟨hs, h3, h4, h5⟩
    · exact h1 hs
    · exact h2 hs

/-- C12: the two functions agree exactly on strings without control characters other than newline, carriage return and tab. -/
theorem C12_agree (e : Element) : writeString e.text = Display.element e ↔ ∀ c ∈ e.text, ¬ OtherControl c := by
  rw [writeString_eq, Display.element, jsonStr]
  simp only [List.cons.injEq, true_and, List.append_cancel_right_eq]
  constructor
  · intro h
    rw [← stringBody_ws, h]
    exact stringBody_jsonBody _
  · intro h
    generalize e.text = t at h
    induction t with
    | nil => rfl
    | cons c s ih =>
      have := ih fun x hx => h x (List.mem_cons_of_mem _ hx)
      rw [jsonBody] at this ⊢
      rw [List.flatMap_cons, List.flatMap_cons, wsChar_json (h c List.mem_cons_self), this]

/-- A quoted text closes at the first quote that is not escaped. -/
theorem close_unique {b u t r r' : Str} (hb : StringBody b) (hu : Unescapes u t) (h : b ++ '"' :: r = u ++ '"' :: r') : b = u := by
  induction hb generalizing u t with
  | nil =>
    cases hu with
    | nil => rfl
    | plain h1 => simp at h; exact absurd h.1.symm h1
    | _ => simp at h
  | plain _ h1 h2 _ ih =>
    cases hu with
    | nil => simp at h; exact absurd h.1 h1
    | plain _ _ hu => simp only [List.cons_append, List.cons.injEq] at h; rw [h.1, ih hu h.2]
    | _ => simp at h; exact absurd h.1 h2
  | escape hc _ ih =>
    cases hu with
    | nil => simp at h
    | plain _ h2 _ => simp at h; exact absurd h.1.symm h2
    | unicode _ _ _ _ _ hu =>
      simp only [List.cons_append, List.cons.injEq] at h
      obtain ⟨-, rfl, -⟩ := h
      exact absurd hc (by decide)
    | quote hu | backslash hu | slash hu | backspace hu | formFeed hu | newline hu | return_ hu | tab hu =>
      simp only [List.cons_append, List.cons.injEq] at h
      obtain ⟨-, rfl, h⟩ := h
      rw [ih hu h]
  | unicode _ _ _ _ _ ih =>
    cases hu with
    | nil => simp at h
    | plain _ h2 _ => simp at h; exact absurd h.1.symm h2
    | unicode _ _ _ _ _ hu =>
      simp only [List.cons_append, List.cons.injEq] at h
      obtain ⟨-, -, rfl, rfl, rfl, rfl, h⟩ := h
      rw [ih hu h]
    | _ => simp at h

/-- C12: what `write_string` writes is one string token, standing for the string, exactly if the string has no control character but
newline, carriage return and tab; otherwise the tokenizer rejects it. -/
theorem C12_one_token (s : Str) :
    ((∀ c ∈ s, ¬ OtherControl c) → ∃ body, tokenize (writeString s) = .ok [.string body] ∧ Unescapes body s) ∧
    ((∃ c ∈ s, OtherControl c) → tokenize (writeString s) = .err (lit "Error tokenizing input.")) := by
  constructor
  · intro h
    refine ⟨s.flatMap wsChar, ?_, unescapes_ws s⟩
    rw [writeString_eq]
    have := tokenize_piece (k := .string) (p := '"' :: (s.flatMap wsChar ++ ['"'])) (r := []) (t := .string (s.flatMap wsChar))
      (scan_split.mpr ⟨(match_shape _ _).mpr ⟨_, rfl, body_iff.mpr (stringBody_ws.mpr h)⟩, trivial, by intro h; cases h⟩) (by simp [mkToken, trim_quoted])
    rw [List.append_nil] at this
    rw [this]; rfl
  · rintro ⟨c, hc, ho⟩
    refine (C02_error _ _).mpr ⟨rfl, .here (by rw [writeString_eq]; simp) ?_⟩
    intro k m hm hle hf
    rw [writeString_eq] at hf hle
    obtain ⟨m, rfl⟩ : ∃ m', m = m' + 1 := ⟨m - 1, by omega⟩
    rw [List.take_succ_cons] at hf
    have hq : ¬ WsChar '"' ∧ ¬ WordChar '"' := by
      constructor
      · intro h; have := isWs_iff.mpr h; revert this; decide
      · intro h; have := isIdent_iff.mpr h; revert this; decide
    cases k with
    | ws => exact hq.1 (hf.2 _ List.mem_cons_self)
    | element => exact hq.2 (hf.2 _ List.mem_cons_self)
    | string =>
      obtain ⟨b, hb, hbody⟩ := hf
      simp only [List.cons.injEq, true_and] at hb
      have hsplit : b ++ '"' :: (s.flatMap wsChar ++ ['"']).drop m = s.flatMap wsChar ++ '"' :: [] := by
        have := List.take_append_drop m (s.flatMap wsChar ++ ['"'])
        rw [hb] at this
        simpa using this
      have := close_unique hbody (unescapes_ws s) hsplit
      rw [this] at hbody
      exact stringBody_ws.mp hbody c hc ho
    | comment => obtain ⟨b, _, h | h⟩ := hf <;> simp at h
    | _ => simp [Fits] at hf

example : writeString (lit "a\\n\"\n") = lit "\"a\\\\n\\\"\\n\"" ∧ Display.element (el "a\\n\"\n") = writeString (lit "a\\n\"\n") ∧
    (∀ c ∈ lit "a\\n\"\n", ¬ OtherControl c) ∧ (∃ c ∈ [Char.ofNat 7], OtherControl c) := by
  unfold OtherControl; decide

end Props
end Verif
