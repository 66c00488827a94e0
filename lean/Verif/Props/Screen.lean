import Verif.Spec.Screen
import Verif.Props.Apps
import Verif.Props.Printing
/-!
# C76: what the REPL shows
-/
namespace Verif
namespace Props
open Spec Lexer Parser Display

/-! ## `{:?}` of a string -/

theorem digit_inj : ∀ i < 16, ∀ j < 16, Nat.digitChar i = Nat.digitChar j → i = j := by decide
theorem digit_brace : ∀ i < 16, Nat.digitChar i ≠ '}' := by decide
theorem digit_line : ∀ i < 16, 0x20 ≤ (Nat.digitChar i).toNat := by decide

theorem hex_step (n : Nat) : Debug.hex n = if n < 16 then [Nat.digitChar n] else Debug.hex (n / 16) ++ [Nat.digitChar (n % 16)] :=
  Nat.toDigits_eq_if (by omega)

theorem hex_mem {P : Char → Prop} (h : ∀ i < 16, P (Nat.digitChar i)) : ∀ n c, c ∈ Debug.hex n → P c := by
  intro n
  induction n using Nat.strongRecOn with
  | _ n ih =>
    intro c hc
    rw [hex_step] at hc
    split at hc
    · rw [List.mem_singleton] at hc; subst hc; exact h n (by assumption)
    · rcases List.mem_append.mp hc with hc | hc
      · exact ih (n / 16) (by omega) c hc
      · rw [List.mem_singleton] at hc; subst hc; exact h _ (by omega)

theorem hex_inj : ∀ n m, Debug.hex n = Debug.hex m → n = m := by
  intro n
  induction n using Nat.strongRecOn with
  | _ n ih =>
    intro m h
    have pos : ∀ k, Debug.hex k ≠ [] := fun k => Nat.toDigits_ne_nil
    rw [hex_step n, hex_step m] at h
    split at h <;> split at h
    · exact digit_inj n (by assumption) m (by assumption) (by simpa using h)
    · have h1 := congrArg List.length h
      have h2 := List.length_pos_iff.mpr (pos (m / 16))
      simp only [List.length_append, List.length_cons, List.length_nil] at h1; omega
    · have h1 := congrArg List.length h
      have h2 := List.length_pos_iff.mpr (pos (n / 16))
      simp only [List.length_append, List.length_cons, List.length_nil] at h1; omega
    · have h1 := List.append_inj' h rfl
      have e := ih (n / 16) (by omega) (m / 16) h1.1
      have e' := digit_inj (n % 16) (by omega) (m % 16) (by omega) (by simpa using h1.2)
      omega

theorem brace_split {a b x y : Str} (ha : '}' ∉ a) (hb : '}' ∉ b) (h : a ++ '}' :: x = b ++ '}' :: y) : a = b ∧ x = y := by
  induction a generalizing b with
  | nil =>
    cases b with
    | nil => simpa using h
    | cons c b => simp at h; exact absurd (by simp [← h.1]) hb
  | cons c a ih =>
    cases b with
    | nil => simp at h; exact absurd (by simp [h.1]) ha
    | cons d b =>
      simp only [List.cons_append, List.cons.injEq] at h
      obtain ⟨e1, e2⟩ := ih (fun m => ha (List.mem_cons_of_mem _ m)) (fun m => hb (List.mem_cons_of_mem _ m)) h.2
      exact ⟨by rw [h.1, e1], e2⟩

theorem hex_split {n m : Nat} {x y : Str} (h : Debug.hex n ++ '}' :: x = Debug.hex m ++ '}' :: y) : n = m ∧ x = y := by
  have no : ∀ k, '}' ∉ Debug.hex k := fun k hk => hex_mem (P := fun c => c ≠ '}') digit_brace k _ hk rfl
  obtain ⟨h1, h2⟩ := brace_split (no n) (no m) h
  exact ⟨hex_inj n m h1, h2⟩

/-- The three ways to write a character. -/
theorem debug_char_cases (c : Char) :
    (∃ k, Debug.char c = ['\\', k] ∧ 0x20 ≤ k.toNat ∧ ((c = '\x00' ∧ k = '0') ∨ (c = '\t' ∧ k = 't') ∨ (c = '\r' ∧ k = 'r') ∨ (c = '\n' ∧ k = 'n') ∨
      (c = '"' ∧ k = '"') ∨ (c = '\\' ∧ k = '\\'))) ∨
    (Debug.char c = [c] ∧ c ≠ '"' ∧ c ≠ '\\' ∧ 0x20 ≤ c.toNat) ∨ Debug.char c = '\\' :: 'u' :: '{' :: (Debug.hex c.toNat ++ ['}']) := by
  unfold Debug.char
  split
  · exact .inl ⟨'0', rfl, by decide, .inl ⟨by assumption, rfl⟩⟩
  split
  · exact .inl ⟨'t', rfl, by decide, .inr (.inl ⟨by assumption, rfl⟩)⟩
  split
  · exact .inl ⟨'r', rfl, by decide, .inr (.inr (.inl ⟨by assumption, rfl⟩))⟩
  split
  · exact .inl ⟨'n', rfl, by decide, .inr (.inr (.inr (.inl ⟨by assumption, rfl⟩)))⟩
  split
  · exact .inl ⟨'"', rfl, by decide, .inr (.inr (.inr (.inr (.inl ⟨by assumption, rfl⟩))))⟩
  split
  · exact .inl ⟨'\\', rfl, by decide, .inr (.inr (.inr (.inr (.inr ⟨by assumption, rfl⟩))))⟩
  split
  · rename_i h; exact .inr (.inl ⟨rfl, by assumption, by assumption, h.1⟩)
  split
  · exact .inr (.inr rfl)
  · rename_i h; exact .inr (.inl ⟨rfl, by assumption, by assumption, by omega⟩)

theorem debug_char_prefix {c d : Char} {x y : Str} (h : Debug.char c ++ x = Debug.char d ++ y) : c = d ∧ x = y := by
  rcases debug_char_cases c with ⟨k, e, _, hk⟩ | ⟨e, h1, h2, _⟩ | e <;> rcases debug_char_cases d with ⟨k', e', _, hk'⟩ | ⟨e', h1', h2', _⟩ | e' <;> rw [e, e'] at h
  · simp only [List.cons_append, List.nil_append, List.cons.injEq, true_and] at h
    refine ⟨?_, h.2⟩
    obtain ⟨rfl, _⟩ := h
    rcases hk with ⟨rfl, rfl⟩ | ⟨rfl, rfl⟩ | ⟨rfl, rfl⟩ | ⟨rfl, rfl⟩ | ⟨rfl, rfl⟩ | ⟨rfl, rfl⟩ <;> simp at hk' <;> exact hk'.symm
  · simp at h; exact absurd h.1.symm h2'
  · simp at h
    obtain ⟨rfl, _⟩ := h
    simp at hk
  · simp at h; exact absurd h.1 h2
  · simpa using h
  · simp at h; exact absurd h.1 h2
  · simp at h
    obtain ⟨rfl, _⟩ := h
    simp at hk'
  · simp at h; exact absurd h.1.symm h2'
  · simp only [List.cons_append, List.cons.injEq, true_and, List.append_assoc, List.nil_append] at h
    obtain ⟨h1, h2⟩ := hex_split h
    exact ⟨Char.toNat_inj.mp h1, h2⟩

theorem debug_head (c : Char) (x y : Str) : Debug.char c ++ x ≠ '"' :: y := by
  rcases debug_char_cases c with ⟨k, e, _, hk⟩ | ⟨e, h1, h2, _⟩ | e <;> rw [e] <;> simp_all

theorem debug_body_prefix : ∀ (s s' : Str) {x y : Str}, s.flatMap Debug.char ++ '"' :: x = s'.flatMap Debug.char ++ '"' :: y → s = s' ∧ x = y
  | [], [], _, _, h => by simpa using h
  | [], c :: s', _, _, h => by
    rw [List.flatMap_cons, List.append_assoc] at h
    exact absurd h.symm (debug_head c _ _)
  | c :: s, [], _, _, h => by
    rw [List.flatMap_cons, List.append_assoc] at h
    exact absurd h (debug_head c _ _)
  | c :: s, d :: s', _, _, h => by
    rw [List.flatMap_cons, List.flatMap_cons, List.append_assoc, List.append_assoc] at h
    obtain ⟨rfl, h1⟩ := debug_char_prefix h
    obtain ⟨rfl, h2⟩ := debug_body_prefix s s' h1
    exact ⟨rfl, h2⟩

theorem debug_char_line (c d : Char) (h : d ∈ Debug.char c) : 0x20 ≤ d.toNat := by
  rcases debug_char_cases c with ⟨k, e, hk, _⟩ | ⟨e, _, _, hc⟩ | e <;> rw [e] at h
  · simp only [List.mem_cons, List.not_mem_nil, or_false] at h
    rcases h with rfl | rfl
    · decide
    · exact hk
  · rw [List.mem_singleton] at h; subst h; exact hc
  · simp only [List.mem_cons, List.mem_append, List.not_mem_nil, or_false] at h
    rcases h with rfl | rfl | rfl | h | rfl
    · decide
    · decide
    · decide
    · exact hex_mem (P := fun c => 0x20 ≤ c.toNat) digit_line _ _ h
    · decide

/-! ## C76 -/

theorem networkLines_eq (n : Network) : networkLines n = match n.toList with
    | [] => [lit "{}"]
    | es => [lit "{"] ++ es.map (fun e => lit "  " ++ Display.entry e) ++ [lit "}"] := by
  rw [networkLines, show Display.entry = layoutEntry from funext entry_layout]
  cases n.toList <;> rfl

theorem showEntry_line (e : Entry) : Repl.showEntry e = .text (lit "  " ++ Display.entry e) := by
  cases e <;> simp [Repl.showEntry, Display.entry]

theorem showValue_network (n : Network) : Repl.showValue (.network n) = some ((networkLines n).map .text) := by
  rw [Repl.showValue, networkLines_eq, BSet.isEmpty]
  cases h : n.toList with
  | nil => simp
  | cons e es =>
    simp only [List.isEmpty_cons, List.map_append, List.map_map]
    have : Repl.showEntry = Repl.Out.text ∘ fun e => lit "  " ++ Display.entry e := by funext e; exact showEntry_line e
    rw [this]; rfl

/-- C76: what a line that is not a command adds to the screen: the network between braces with one line for each entry, as the value is displayed
elsewhere but indented and without commas; the plain text of an element; the name of the error and its message as a Rust string literal; and
nothing if the script panics or results in a quote. -/
theorem C76_shown (st : Repl.Session) (line : Str) (hr : st.status = .running) (hc : ¬ CommandLine line) :
    (Repl.step st (.line line)).out = st.out ++
      match (runGraph line st.store).1 with
      | .ok (.network n) => (networkLines n).map .text
      | .ok (.element e) => [.text e.text]
      | .ok (.quote _) => []
      | .err m => [.text (errorLine m)]
      | .panic => [] := by
  have hcmd : Repl.isCommand line = false := by rw [← Bool.not_eq_true, isCommand_iff]; exact hc
  simp only [Repl.step, hr, hcmd]
  cases h : runGraph line st.store with
  | mk r s1 =>
    cases r with
    | err m => simp; rfl
    | panic => simp
    | ok v =>
      cases v with
      | element e => simp [Repl.showValue]
      | quote q => simp [Repl.showValue]
      | network n => simp [showValue_network]

/-- `C76_shown` applies to a line that reads a collection made by an earlier line. -/
example := C76_shown (Repl.session [.line (lit "let x {a : b}")]) (lit "read x") (by decide +kernel) (by rw [← isCommand_iff]; decide +kernel)

/-- C76: the text of an error line, exactly: the message in its `{:?}` form, of which there is one. -/
theorem C76_error_text (st : Repl.Session) (line msg : Str) (hr : st.status = .running) (hc : ¬ CommandLine line)
    (he : (runGraph line st.store).1 = .err msg) :
    ∃ q, ShownText msg q ∧ (Repl.step st (.line line)).out = st.out ++ [.text (lit "WanderError(" ++ q ++ lit ")")] ∧
      ∀ q', ShownText msg q' → q' = q := by
  refine ⟨Debug.str msg, Debug.shownText_iff.mpr rfl, ?_, fun q' h => Debug.shownText_iff.mp h⟩
  rw [C76_shown st line hr hc, he]
  rfl

/-- A line with an error whose message needs escaping. -/
example : (runGraph (lit "\"a\\u0022\"") Graph.memNew).1.isOk = false ∧ (Repl.isCommand (lit "\"a\\u0022\"")) = false ∧
    ShownText (lit "no \"x\"\n") (lit "\"no \\\"x\\\"\\n\"") ∧ ShownChar (Char.ofNat 0x1B) (lit "\\u{1b}") :=
  ⟨by decide +kernel, by decide +kernel, Debug.shownText_iff.mpr (by decide +kernel),
    .control (ds := lit "1b") (by decide) (by decide) (by decide) (by decide) (by decide) (.more (n := 1) (i := 11) (ds := ['1']) (by decide) (by decide) (.digit (by decide)))⟩

theorem oneLine_append {a b : Str} : OneLine (a ++ b) ↔ OneLine a ∧ OneLine b := by
  simp only [OneLine, List.mem_append]
  constructor
  · intro h; exact ⟨fun c hc => h c (.inl hc), fun c hc => h c (.inr hc)⟩
  · rintro ⟨h1, h2⟩ c (hc | hc)
    · exact h1 c hc
    · exact h2 c hc

instance (s : Str) : Decidable (OneLine s) := inferInstanceAs (Decidable (∀ c ∈ s, _))

theorem jsonChar_line (c d : Char) (h : d ∈ Display.jsonChar c) : 0x20 ≤ d.toNat := by
  rcases Display.jsonChar_cases c with ⟨hs, e⟩ | ⟨hs, ⟨rfl, e⟩ | ⟨rfl, e⟩ | ⟨rfl, e⟩ | ⟨rfl, e⟩ | ⟨rfl, e⟩ | ⟨rfl, e⟩ | ⟨rfl, e⟩ | ⟨i, j, hi, hj, _, e⟩⟩ <;> rw [e] at h
  · rw [List.mem_singleton] at h; subst h
    simp only [Special, not_or] at hs; omega
  case inr.inr.inr.inr.inr.inr.inr.inr =>
    have hv : ∀ {x : Char} {k : Nat}, hexValue x = some k → 0x20 ≤ x.toNat := by
      intro x k hx
      by_cases hlt : x.toNat < 0x20
      · have : ∀ n < 0x20, hexValue (Char.ofNat n) = none := by decide
        rw [← Char.ofNat_toNat x, this _ hlt] at hx; cases hx
      · omega
    simp only [List.mem_cons, List.not_mem_nil, or_false] at h
    rcases h with rfl | rfl | rfl | rfl | rfl | rfl
    · decide
    · decide
    · decide
    · decide
    · exact hv hi
    · exact hv hj
  all_goals
    simp only [List.mem_cons, List.not_mem_nil, or_false] at h
    rcases h with rfl | rfl <;> decide

theorem element_line (e : Element) : OneLine (Display.element e) := by
  intro c hc
  have hb : ∀ c ∈ Display.jsonBody e.text, 0x20 ≤ c.toNat := by
    intro c hc
    rw [Display.jsonBody, List.mem_flatMap] at hc
    obtain ⟨d, _, hd⟩ := hc
    exact jsonChar_line d c hd
  simp only [Display.element, Display.jsonStr, List.mem_cons, List.mem_append, List.not_mem_nil, or_false] at hc
  rcases hc with rfl | hc | rfl
  · decide
  · exact hb c hc
  · decide

theorem entry_line (e : Entry) : OneLine (Display.entry e) := by
  cases e <;> simp only [Display.entry, oneLine_append, element_line, true_and, and_true] <;> decide

/-- C76: each of these lines is one line on the screen: a network with `k > 0` entries takes `k + 2` lines, and no line of a network or an error
contains a line break or any other control character, whatever the texts stored.  (The text of an element is not protected.) -/
theorem C76_lines : (∀ (n : Network), n ≠ ∅ → (networkLines n).length = n.toList.length + 2) ∧ (∀ n, ∀ l ∈ networkLines n, OneLine l) ∧
    ∀ m, OneLine (errorLine m) := by
  refine ⟨?_, ?_, ?_⟩
  · intro n hn
    rw [networkLines_eq]
    cases h : n.toList with
    | nil => exact absurd (BSet.ext (fun e => by show e ∈ n.toList ↔ _; rw [h]; simp)) hn
    | cons e es => simp
  · intro n l hl
    rw [networkLines_eq] at hl
    cases h : n.toList with
    | nil => rw [h] at hl; simp at hl; subst hl; decide
    | cons e es =>
      rw [h] at hl
      simp only [List.mem_append, List.mem_singleton, List.mem_map] at hl
      rcases hl with (rfl | ⟨x, _, rfl⟩) | rfl
      · decide
      · rw [oneLine_append]; exact ⟨by decide, entry_line x⟩
      · decide
  · intro m
    have key : ∀ a b : Str, OneLine a → OneLine b → OneLine (a ++ Debug.str m ++ b) := by
      intro a b ha hb
      rw [Debug.str]
      simp only [oneLine_append]
      refine ⟨⟨ha, ⟨by decide, ?_⟩, by decide⟩, hb⟩
      intro c hc
      rw [List.mem_flatMap] at hc
      obtain ⟨d, _, hd⟩ := hc
      exact debug_char_line d c hd
    exact key _ _ (by decide) (by decide)

/-- The text of the entries. -/
def body (l : List Entry) : Str := screen (l.map fun e => lit "  " ++ Display.entry e)

theorem body_nil : body [] = [] := rfl
theorem body_cons (e : Entry) (l : List Entry) : body (e :: l) = ' ' :: ' ' :: (Display.entry e ++ '\n' :: body l) := by
  rw [body, body, screen, screen]
  simp only [List.map_cons, List.flatMap_cons]
  rw [show lit "  " = [' ', ' '] from by decide]
  simp

theorem screen_network {n : Network} {e : Entry} {l : List Entry} (h : n.toList = e :: l) :
    screen (networkLines n) = '{' :: '\n' :: (body n.toList ++ ['}', '\n']) := by
  rw [networkLines_eq, h, body]
  simp only [screen, List.flatMap_append, List.flatMap_cons, List.flatMap_nil]
  rw [Display.lit_ob, Display.lit_cb]
  simp

theorem screen_empty {n : Network} (h : n.toList = []) : screen (networkLines n) = ['{', '}', '\n'] := by
  rw [networkLines_eq, h]; decide

theorem body_prefix : ∀ (l l' : List Entry) {x y : Str}, body l ++ '}' :: x = body l' ++ '}' :: y → Pairwise2 SameEntry l l'
  | [], [], _, _, _ => .nil
  | [], e :: l, _, _, h => by rw [body_cons] at h; simp [body_nil] at h
  | e :: l, [], _, _, h => by rw [body_cons] at h; simp [body_nil] at h
  | e :: l, e' :: l', _, _, h => by
    rw [body_cons, body_cons] at h
    simp only [List.cons_append, List.append_assoc, List.cons.injEq, true_and] at h
    obtain ⟨h1, h2⟩ := Display.entry_prefix h
    simp only [List.cons.injEq, true_and] at h2
    exact .cons h1 (body_prefix l l' h2)

theorem body_same : ∀ {l l' : List Entry}, Pairwise2 SameEntry l l' → body l = body l'
  | _, _, .nil => rfl
  | _, _, .cons h t => by rw [body_cons, body_cons, Display.sameEntry_entry h, body_same t]

/-- C76: two networks look the same on the screen exactly if they differ at most in namespaces and language tags; different error messages look
different; and no error looks like a network. -/
theorem C76_told_apart : (∀ n m : Network, screen (networkLines n) = screen (networkLines m) ↔ SameUpToTags (.network n) (.network m)) ∧
    (∀ m m' : Str, errorLine m = errorLine m' ↔ m = m') ∧ ∀ (n : Network) (m : Str), screen (networkLines n) ≠ screen [errorLine m] := by
  have head : ∀ n : Network, (screen (networkLines n)).head? = some '{' := by
    intro n
    cases h : n.toList with
    | nil => rw [screen_empty h]; rfl
    | cons e l => rw [screen_network h]; rfl
  refine ⟨?_, ?_, ?_⟩
  · intro n m
    constructor
    · intro h
      cases h1 : n.toList with
      | nil =>
        cases h2 : m.toList with
        | nil => exact .network (by rw [h1, h2]; exact .nil)
        | cons e l => rw [screen_empty h1, screen_network h2] at h; simp at h
      | cons e l =>
        cases h2 : m.toList with
        | nil => rw [screen_empty h2, screen_network h1] at h; simp at h
        | cons e' l' =>
          rw [screen_network h1, screen_network h2] at h
          simp only [List.cons.injEq, true_and] at h
          exact .network (body_prefix _ _ h)
    · rintro (_ | ⟨h⟩)
      cases h1 : n.toList with
      | nil =>
        rw [h1] at h
        cases h2 : m.toList with
        | nil => rw [screen_empty h1, screen_empty h2]
        | cons e l => rw [h2] at h; cases h
      | cons e l =>
        cases h2 : m.toList with
        | nil => rw [h1, h2] at h; cases h
        | cons e' l' => rw [screen_network h1, screen_network h2, body_same h]
  · intro m m'
    constructor
    · have key : ∀ a b : Str, a ++ Debug.str m ++ b = a ++ Debug.str m' ++ b → m = m' := by
        intro a b h
        rw [Debug.str, Debug.str] at h
        simp only [List.append_assoc, List.append_cancel_left_eq, List.cons_append, List.nil_append, List.cons.injEq, true_and] at h
        exact (debug_body_prefix m m' h).1
      exact key _ _
    · rintro rfl; rfl
  · intro n m h
    have h1 := head n
    have key : ∀ a b c : Str, screen ['W' :: a ++ b ++ c] ≠ screen (networkLines n) := by
      intro a b c e
      rw [← e] at h1
      simp [screen] at h1
    exact key (lit "anderError(") (Debug.str m) (lit ")") h.symm

/-- C76: an element is printed bare, so it can look like anything: for every network and every error there is an element that looks the same. -/
theorem C76_element_confusable : (∀ n : Network, ∃ e : Element, screen [e.text] = screen (networkLines n)) ∧ (∀ m, ∃ e : Element, e.text = errorLine m) := by
  refine ⟨?_, fun m => ⟨.of (errorLine m), rfl⟩⟩
  intro n
  cases h : n.toList with
  | nil => rw [screen_empty h]; exact ⟨.of (lit "{}"), by decide⟩
  | cons e l =>
    rw [screen_network h]
    refine ⟨.of ('{' :: '\n' :: (body n.toList ++ ['}'])), ?_⟩
    simp [screen]

theorem taf_newline (r : Str) : tokenizeAndFilter ('\n' :: r) = tokenizeAndFilter r := taf_ws (w := ['\n']) (by decide) r

theorem taf_body (r : Str) : ∀ l : List Entry, tokenizeAndFilter (body l ++ r) = (tokenizeAndFilter r).map ((l.flatMap Display.entryToks) ++ ·)
  | [] => by simp [body_nil, res_map_id]
  | e :: l => by
    rw [body_cons]
    simp only [List.cons_append, List.append_assoc]
    rw [taf_space, taf_space, taf_entry, taf_newline, taf_body r l, res_map_map]
    simp only [List.flatMap_cons, List.append_assoc]

theorem toks_shape (e : Entry) : ∃ a b c, Display.entryToks e = [.element a, .element b, .element c] := by
  cases e <;> exact ⟨_, _, _, rfl⟩

/-- Two entries without a comma between them are not read. -/
theorem two_entries (e e' : Entry) (rest : List Token) :
    readNetwork (Display.entryToks e ++ (Display.entryToks e' ++ rest)) ∅ = .err (lit "Error parsing Network.") := by
  obtain ⟨a, b, c, h⟩ := toks_shape e
  obtain ⟨a', b', c', h'⟩ := toks_shape e'
  rw [h, h']; rfl

theorem taf_shown (n : Network) : tokenizeAndFilter (screen (networkLines n)) = .ok (.openBrace :: (n.toList.flatMap Display.entryToks ++ [.closeBrace])) := by
  cases h : n.toList with
  | nil =>
    rw [screen_empty h, taf_openBrace, taf_closeBrace, taf_newline]; rfl
  | cons e l =>
    rw [screen_network h, taf_openBrace, taf_newline, taf_body, taf_closeBrace, taf_newline, h]; rfl

theorem taf_after {w : Str} (hw : BareWord w) (x : Str) : tokenizeAndFilter (w ++ ' ' :: x) = (tokenizeAndFilter x).map (.element ⟨w, none, none⟩ :: ·) := by
  rw [taf_bare hw, taf_space]
  rintro ⟨d, hd, hw⟩
  simp at hd
  subst hd
  have := isIdent_iff.mpr hw
  revert this; decide

/-- C76: what the REPL shows for a network can be used in a script again if the network has at most one entry (and means then what C10 says); with two
or more entries a script that gives it to any command, known or not, panics, for lack of commas. -/
theorem C76_paste (L : LigOps σ) (s : σ) (n : Network) :
    (n.toList.length ≤ 1 → Eval.run L Eval.common (lit "id " ++ screen (networkLines n)) s = (.ok (reread (.network n)), s)) ∧
    (2 ≤ n.toList.length → ∀ (cmds : Eval.Commands σ) w, BareWord w → Eval.run L cmds (w ++ ' ' :: screen (networkLines n)) s = (.panic, s)) := by
  constructor
  · intro hn
    rw [← C10_id_displayed L (.network n) s trivial]
    have hid : BareWord (lit "id") := bare_of (by decide)
    have e : tokenizeAndFilter (lit "id " ++ screen (networkLines n)) = tokenizeAndFilter (lit "id " ++ Display.value (.network n)) := by
      rw [show lit "id " = lit "id" ++ [' '] by decide]
      simp only [List.append_assoc, List.cons_append, List.nil_append]
      rw [taf_after hid, taf_after hid, taf_shown, Display.value]
      have e := taf_network n []
      rw [List.append_nil] at e
      rw [e, networkToks]
      cases h : n.toList with
      | nil => rfl
      | cons a l =>
        cases l with
        | nil => simp [Res.map, entriesTokens, entryToks]; rfl
        | cons b l => rw [h] at hn; simp at hn
    rw [Eval.run, Eval.run, e]
  · intro hn cmds w hw
    rw [Eval.run, taf_after hw, taf_shown]
    obtain ⟨e, e', l, h⟩ : ∃ e e' l, n.toList = e :: e' :: l := by
      match h : n.toList with
      | [] => rw [h] at hn; simp at hn
      | [_] => rw [h] at hn; simp at hn
      | e :: e' :: l => exact ⟨e, e', l, rfl⟩
    rw [h]
    simp only [Res.map, List.flatMap_cons, List.append_assoc]
    have hp : parse (.element ⟨w, none, none⟩ :: .openBrace :: (entryToks e ++ (entryToks e' ++ (l.flatMap entryToks ++ [.closeBrace])))) = .panic := by
      simp only [parse, parseLoop, List.length_cons, readCall, two_entries]
    rw [hp]

/-- Two entries. -/
def twoNet : Network := .ofList [.ext (.of (lit "a\nb")) (.of (lit "c")), .role (.of (lit "x")) (.of (lit "y")) (.of (lit "r"))]

example : networkLines twoNet = [lit "{", lit "  \"x\" \"r\" \"y\"", lit "  \"a\\nb\" : \"c\"", lit "}"] := by decide +kernel
example : errorLine (lit "no \"x\"\n") = lit "WanderError(\"no \\\"x\\\"\\n\")" := by decide +kernel

/-- A session that shows a network, an element that looks like the empty network, the empty network, and an error. -/
example : (Repl.session [.line (lit "id {a : b}"), .line (lit "id \"{}\""), .line (lit "id {}"), .line (lit "nope")]).out =
    [.text (lit "{"), .text (lit "  \"a\" : \"b\""), .text (lit "}"), .text (lit "{}"), .text (lit "{}"),
      .text (lit "WanderError(\"Could not find command: nope\")")] := by decide +kernel

end Props
end Verif
