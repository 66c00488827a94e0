import Verif.Proofs.Tokenize
import Verif.Props.Evaluator
/-!
# Scripts to tokens: C01–C05, C14 (scripts without calls)
-/
namespace Verif
namespace Props
open Spec Lexer

/-- A script used as the concrete case below: words, a string with escapes, a network, a comment, brackets. -/
def sampleScript : Str := lit "let n {a \"b \\\"c\\u00e9\" d},\t[ --x\n read[0] n -- end"

/-! ## C01 -/

/-- C01: the texts of the tokens, in order, are the script. -/
theorem C01_lossless (script : Str) (ts : List Token) (h : tokenize script = .ok ts) : ts.flatMap tokenText = script :=
  tokenize_text h

theorem sample_tokens : tokenize sampleScript = .ok [.element ⟨lit "let", none, none⟩, .ws (lit " "), .element ⟨lit "n", none, none⟩,
    .ws (lit " "), .openBrace, .element ⟨lit "a", none, none⟩, .ws (lit " "), .string (lit "b \\\"c\\u00e9"), .ws (lit " "),
    .element ⟨lit "d", none, none⟩, .closeBrace, .comma, .ws (lit "\t"), .openSquare, .ws (lit " "), .comment (lit "--x\n"),
    .ws (lit " "), .element ⟨lit "read[0]", none, none⟩, .ws (lit " "), .element ⟨lit "n", none, none⟩, .ws (lit " "),
    .comment (lit "-- end")] := by decide +kernel

/-! ## C02 -/

/-- C02: success means exactly that the script is cut into longest matches, with the tokens standing for them. -/
theorem C02_longest_match (script : Str) (ts : List Token) : tokenize script = .ok ts ↔ Tokenized script ts := tokenize_ok_iff

/-- C02: failure means exactly that after some longest matches there is text left at which nothing matches; the message is fixed. -/
theorem C02_error (script m : Str) : tokenize script = .err m ↔ m = lit "Error tokenizing input." ∧ Stuck script := tokenize_err_iff

/-- C02: the cut is unique, and a script cannot be both cut and stuck. -/
theorem C02_unique (script : Str) (ts ts' : List Token) (h : Tokenized script ts) :
    (Tokenized script ts' → ts' = ts) ∧ ¬ Stuck script :=
  ⟨fun h' => tokenized_unique h' h, fun h' => tokenized_not_stuck h h'⟩

/-- C02: two forms fit the same text only in three cases — a bare word against `[`, `]` or a comment of word characters — and then the
bare word is the one that loses. So how ties are resolved matters nowhere else. -/
theorem C02_ties (k k' : Kind) (w : Str) (h : Fits k w) (h' : Fits k' w) (hne : k ≠ k') :
    (k = .element ∨ k' = .element) ∧
    (w = lit "[" ∧ (k = .openSquare ∨ k' = .openSquare) ∨ w = lit "]" ∧ (k = .closeSquare ∨ k' = .closeSquare) ∨
      lit "--" <+: w ∧ (∀ c ∈ w, WordChar c) ∧ (k = .comment ∨ k' = .comment)) := by
  obtain ⟨c, t, e, f⟩ := first_ok (fits_iff.mp h)
  obtain ⟨c', t', e', f'⟩ := first_ok (fits_iff.mp h')
  have hcc : c = c' := by have := e.symm.trans e'; cases this; rfl
  subst hcc
  have hw : ¬ (isWs c = true ∧ isIdent c = true) := fun h => by rw [ident_not_ws h.2] at h; cases h.1
  have e1 : lit "[" = ['['] := rfl
  have e2 : lit "]" = [']'] := rfl
  have e3 : lit "--" = ['-', '-'] := rfl
  cases k <;> cases k' <;> simp_all [firstOk, Fits, -not_and] <;>
    first
    | done
    | (revert f; decide)
    | (revert f'; decide)
    | (obtain ⟨b, _, rfl | rfl⟩ := h <;> simp)
    | (obtain ⟨b, _, rfl | rfl⟩ := h' <;> simp)

/-- C02: a comment competes with a bare word only at the very end of a script: anywhere else the comment is longer. -/
theorem C02_comment_tie_at_end (s : Str) (n : Nat) (hb : Best s .comment n) (hw : Fits .element (s.take n)) : n = s.length := by
  obtain ⟨_, hn, ⟨b, hnb, hf⟩, hl, _⟩ := hb
  apply Classical.byContradiction
  intro hne
  have hlt : n < s.length := by omega
  have ht : s.take (n + 1) = s.take n ++ [s[n]] := by rw [List.take_append_getElem hlt]
  have hcom : s.take n = '-' :: '-' :: b := by
    rcases hf with hf | hf
    · exact hf
    · exfalso
      have := hw.2 '\n' (by rw [hf]; simp)
      have := isIdent_iff.mpr this
      revert this; decide
  have := hl .comment (n + 1) hlt (by
    rw [ht, hcom]
    by_cases hc : s[n] = '\n'
    · exact ⟨b, hnb, .inr (by simp [hc])⟩
    · exact ⟨b ++ [s[n]], by simp [hnb]; exact fun h => hc h.symm, .inl (by simp)⟩)
  omega

/-- All three ties happen. -/
example : (Fits .element (lit "[") ∧ Fits .openSquare (lit "[")) ∧ (Fits .element (lit "]") ∧ Fits .closeSquare (lit "]")) ∧
    Fits .element (lit "--a") ∧ Fits .comment (lit "--a") := by
  have hw : ∀ w : Str, w ≠ [] → (∀ c ∈ w, isIdent c = true) → Fits .element w := fun w h1 h2 => ⟨h1, fun c hc => isIdent_iff.mp (h2 c hc)⟩
  exact ⟨⟨hw _ (by decide) (by decide), rfl⟩, ⟨hw _ (by decide) (by decide), rfl⟩, hw _ (by decide) (by decide), lit "a", by decide, .inl rfl⟩

/-- At the end of a script the tie does occur, and elsewhere the comment goes on past the word. -/
example : Best (lit "--a") .comment 3 ∧ Best (lit "--a b") .comment 5 :=
  ⟨best_iff.mpr (scan_iff.mp (by decide +kernel)), best_iff.mpr (scan_iff.mp (by decide +kernel))⟩

/-- A lone bracket is a bracket, a bracket in a word is a word, `--` in a word does not begin a comment, and at the beginning of a
word it does. -/
example : tokenize (lit "[") = .ok [.openSquare] ∧ tokenize (lit "[]") = .ok [.element ⟨lit "[]", none, none⟩] ∧
    tokenize (lit "a--b") = .ok [.element ⟨lit "a--b", none, none⟩] ∧ tokenize (lit "--b") = .ok [.comment (lit "--b")] := by
  decide +kernel
/-- An unclosed string and a character outside every form are errors. -/
example : tokenize (lit "a \"b") = .err (lit "Error tokenizing input.") ∧ tokenize (lit "a ^") = .err (lit "Error tokenizing input.") := by
  decide +kernel

/-! ## C03 -/

/-- C03: neither function panics. -/
theorem C03_no_panic (script : Str) : tokenize script ≠ .panic ∧ tokenizeAndFilter script ≠ .panic := by
  rw [taf_eq]
  rcases tokenize_total _ script (Nat.le_refl _) with ⟨ts, _, e, _⟩ | ⟨_, e⟩ <;> rw [e] <;> exact ⟨nofun, nofun⟩

/-- The assertions guarded against do fire on other slices: this is a claim about which slices reach them. -/
example : trimString (lit "a\"") = none ∧ trimString (lit "\"") = none ∧ trimString (lit "\"\"") = some [] := by decide +kernel

/-! ## C04 -/

theorem gap_taf {w : Str} (hw : Gap w) (b : Str) : tokenizeAndFilter (w ++ b) = tokenizeAndFilter b := by
  induction hw with
  | nil => rfl
  | @ws c w hc _ ih =>
    rw [← ih]
    exact taf_ws (w := [c]) (by intro x hx; rw [List.mem_singleton] at hx; subst hx; exact isWs_iff.mpr hc) _
  | @comment body w hb _ ih =>
    rw [← ih]
    have e : lit "--" ++ body ++ '\n' :: w ++ b = ('-' :: '-' :: (body ++ ['\n'])) ++ (w ++ b) := by
      show ['-', '-'] ++ body ++ '\n' :: w ++ b = _
      simp
    rw [e, taf_piece (k := .comment) (t := .comment ('-' :: '-' :: (body ++ ['\n']))) ?_ rfl]
    · exact res_map_id _
    · refine scan_split.mpr ⟨(match_shape _ _).mpr ⟨body, hb, .inr rfl⟩, .inl ?_, by intro h; cases h⟩
      rw [show '-' :: '-' :: (body ++ ['\n']) = ('-' :: '-' :: body) ++ ['\n'] by simp, List.getLast?_concat]

theorem complete_join {a b : Str} (ha : Complete a) (h : ¬ (WordEnd a ∧ WordStart b)) :
    ∃ ta, tokenizeAndFilter a = .ok ta ∧ tokenizeAndFilter (a ++ b) = (tokenizeAndFilter b).map (ta ++ ·) := by
  obtain ⟨ts, ht, hc⟩ := ha
  have ht' := tokenize_ok_iff.mpr ht
  exact ⟨filt ts, by rw [taf_eq, ht']; rfl, taf_join b _ a (Nat.le_refl _) ts ht' hc h⟩

theorem ws_not_start {c : Char} {s : Str} (hc : WsChar c) : ¬ WordStart (c :: s) := by
  rintro ⟨d, hd, hi⟩
  cases hd
  have := ident_not_ws (isIdent_iff.mpr hi)
  rw [isWs_iff.mpr hc] at this; cases this

/-- C04: a gap in front of a script changes nothing, even if the script is malformed. -/
theorem C04_before (w script : Str) (hw : Gap w) : tokenizeAndFilter (w ++ script) = tokenizeAndFilter script := gap_taf hw script

/-- C04: a gap between two parts already separated by white space changes nothing, even if the second part is malformed. -/
theorem C04_between (a w b : Str) (c : Char) (ha : Complete a) (hc : WsChar c) (hw : Gap w) :
    tokenizeAndFilter (a ++ [c] ++ w ++ b) = tokenizeAndFilter (a ++ [c] ++ b) := by
  have e : tokenizeAndFilter (c :: (w ++ b)) = tokenizeAndFilter (c :: b) := by
    have g1 := gap_taf (.ws hc hw) b
    have g2 := gap_taf (.ws hc .nil) b
    exact g1.trans g2.symm
  obtain ⟨ts, ht, hcl⟩ := ha
  have ht' := tokenize_ok_iff.mpr ht
  have j1 := taf_join (c :: (w ++ b)) _ a (Nat.le_refl _) ts ht' hcl (fun h => ws_not_start hc h.2)
  have j2 := taf_join (c :: b) _ a (Nat.le_refl _) ts ht' hcl (fun h => ws_not_start hc h.2)
  rw [show a ++ [c] ++ w ++ b = a ++ (c :: (w ++ b)) by simp, show a ++ [c] ++ b = a ++ (c :: b) by simp, j1, j2, e]

/-- C04: a gap after a script, set off by white space, changes nothing. -/
theorem C04_after (a w : Str) (c : Char) (ha : Complete a) (hc : WsChar c) (hw : Gap w) :
    tokenizeAndFilter (a ++ [c] ++ w) = tokenizeAndFilter a := by
  obtain ⟨ta, h0, h1⟩ := complete_join (b := c :: w) ha (fun h => ws_not_start hc h.2)
  rw [show a ++ [c] ++ w = a ++ (c :: w) by simp, h1, h0]
  have := gap_taf (.ws hc hw) []
  rw [List.append_nil] at this
  rw [this]
  show Res.ok (ta ++ []) = _
  rw [List.append_nil]

/-- C04: parts that are not two words running together can be joined with nothing between them; the tokens of the whole are the tokens
of the parts. -/
theorem C04_join (a b : Str) (ha : Complete a) (h : ¬ (WordEnd a ∧ WordStart b)) :
    ∃ ta, tokenizeAndFilter a = .ok ta ∧ tokenizeAndFilter (a ++ b) = (tokenizeAndFilter b).map (ta ++ ·) :=
  complete_join ha h

/-- C04: so scripts that differ by such a gap run alike, from every store and with every command table. -/
theorem C04_run {σ : Type} (L : LigOps σ) (cmds : Eval.Commands σ) (a w b : Str) (c : Char) (s : σ) (ha : Complete a) (hc : WsChar c) (hw : Gap w) :
    Eval.run L cmds (a ++ [c] ++ w ++ b) s = Eval.run L cmds (a ++ [c] ++ b) s ∧
    Eval.run L cmds (a ++ [c] ++ w) s = Eval.run L cmds a s ∧
    Eval.run L cmds (w ++ b) s = Eval.run L cmds b s := by
  refine ⟨?_, ?_, ?_⟩
  · rw [Eval.run, Eval.run, C04_between a w b c ha hc hw]
  · rw [Eval.run, Eval.run, C04_after a w c ha hc hw]
  · rw [Eval.run, Eval.run, C04_before w b hw]

theorem complete_of {a : Str} {ts : List Token} (h : tokenize a = .ok ts)
    (hc : ∀ c, ts.getLast? = some (.comment c) → c.getLast? = some '\n') : Complete a := ⟨ts, tokenize_ok_iff.mp h, hc⟩

/-- A part ending in a word, a gap with a comment, and a second part: the hypotheses of `C04_between` hold of them. -/
example : Complete (lit "let n {a \"b c\" d}, read") ∧ WsChar ' ' ∧ Gap (lit "  --note, \"x\n\t") := by
  refine ⟨complete_of (ts := [.element ⟨lit "let", none, none⟩, .ws (lit " "), .element ⟨lit "n", none, none⟩, .ws (lit " "), .openBrace,
    .element ⟨lit "a", none, none⟩, .ws (lit " "), .string (lit "b c"), .ws (lit " "), .element ⟨lit "d", none, none⟩, .closeBrace, .comma,
    .ws (lit " "), .element ⟨lit "read", none, none⟩]) (by decide +kernel) (by intro c h; cases h), .inl rfl, ?_⟩
  have h : Gap (lit "--" ++ lit "note, \"x" ++ ('\n' :: ['\t'])) := .comment (by decide) (.ws (.inr (.inl rfl)) .nil)
  exact .ws (.inl rfl) (.ws (.inl rfl) h)

/-- The conditions matter: a comment glued to a word, a comment left open, or white space inside a string does change the tokens. -/
example : tokenizeAndFilter (lit "a--x\nb") ≠ tokenizeAndFilter (lit "a b") ∧
    tokenizeAndFilter (lit "a --x b") ≠ tokenizeAndFilter (lit "a b") ∧
    tokenizeAndFilter (lit "\"a  b\"") ≠ tokenizeAndFilter (lit "\"a b\"") := by decide +kernel

/-! ## C05 -/

theorem word_stringBody {t : Str} (h : ∀ c ∈ t, WordChar c) : StringBody t := by
  induction t with
  | nil => exact .nil
  | cons c t ih =>
    have hc := isIdent_iff.mpr (h c List.mem_cons_self)
    refine .plain ?_ ?_ ?_ (ih fun x hx => h x (List.mem_cons_of_mem _ hx))
    · have h' := h c List.mem_cons_self
      simp only [WordChar, char_le] at h'
      rcases h' with h' | h' | h' | h' | ⟨r, hr, h'⟩
      · exact Nat.le_trans (by decide) h'.1
      · exact Nat.le_trans (by decide) h'.1
      · exact Nat.le_trans (by decide) h'.1
      · have : ∀ c ∈ "-._~:/?#[]@!$&'*+;%=".toList, 32 ≤ c.toNat := by decide
        exact this c h'
      · refine Nat.le_trans ?_ h'.1
        have : ∀ r ∈ wordRanges, 32 ≤ r.1 := by decide
        exact this r hr
    · rintro rfl; revert hc; decide
    · rintro rfl; revert hc; decide

/-- C05: in any surroundings that keep it apart from other words, writing an element as a bare word or in quotes gives the same tokens. -/
theorem C05_same_element (a t b : Str) (ha : Complete a) (ht : BareWord t) (hae : ¬ WordEnd a) (hb : ¬ WordStart b) :
    tokenizeAndFilter (a ++ t ++ b) = tokenizeAndFilter (a ++ (lit "\"" ++ t ++ lit "\"") ++ b) := by
  obtain ⟨ts, hts, hcl⟩ := ha
  have hts' := tokenize_ok_iff.mpr hts
  obtain ⟨hne, hall, h1, h2, h3⟩ := ht
  rw [List.append_assoc, List.append_assoc, taf_join _ _ a (Nat.le_refl _) ts hts' hcl (fun h => hae h.1),
    taf_join _ _ a (Nat.le_refl _) ts hts' hcl (fun h => hae h.1)]
  congr 1
  have hq : lit "\"" ++ t ++ lit "\"" = '"' :: (t ++ ['"']) := by
    show ['"'] ++ t ++ ['"'] = _; simp
  rw [hq, taf_piece (k := .string) (t := .string t) (scan_split.mpr ⟨(match_shape _ _).mpr ⟨t, rfl, body_iff.mpr (word_stringBody hall)⟩, trivial,
      by intro h; cases h⟩) (by simp [mkToken, trim_quoted]),
    taf_piece (k := .element) (t := .element (.of t)) (scan_split.mpr ⟨(match_shape _ _).mpr ⟨hne, fun c hc => isIdent_iff.mpr (hall c hc)⟩, ?_,
      fun _ => ⟨h1, h2, h3⟩⟩) rfl]
  · rfl
  · intro c hc
    rw [← Bool.not_eq_true]
    intro hi
    exact hb ⟨c, hc, isIdent_iff.mp hi⟩

/-- C05: what the parser gets is the tokens of the script without white space and comments, with string literals turned into elements. -/
theorem C05_filtered (script : Str) (ts : List Token) (h : tokenizeAndFilter script = .ok ts) :
    (∃ raw, tokenize script = .ok raw ∧ ts = raw.filterMap kept) ∧
    ∀ t ∈ ts, (∀ s, t ≠ .string s) ∧ (∀ s, t ≠ .ws s) ∧ (∀ s, t ≠ .comment s) := by
  have hf : ∀ raw, filt raw = raw.filterMap kept := by
    intro raw
    induction raw with
    | nil => rfl
    | cons t raw ih =>
      rw [filt_cons, ih, List.filterMap_cons]
      cases t <;> rfl
  rw [taf_eq] at h
  cases hr : tokenize script with
  | err m => rw [hr] at h; cases h
  | panic => rw [hr] at h; cases h
  | ok raw =>
    rw [hr] at h
    cases h
    refine ⟨⟨raw, rfl, hf raw⟩, ?_⟩
    intro t ht
    rw [hf, List.mem_filterMap] at ht
    obtain ⟨u, _, hu⟩ := ht
    cases u <;> cases hu <;> exact ⟨nofun, nofun, nofun⟩

/-- `C05_filtered` applies to a script with white space, a string and a comment. -/
example := C05_filtered (lit "id \"a b\" -- c") [.element (.of (lit "id")), .element (.of (lit "a b"))] (by decide +kernel)

/-- C05: and failure is passed on. -/
theorem C05_error (script m : Str) : tokenizeAndFilter script = .err m ↔ tokenize script = .err m := by
  rw [taf_eq]
  cases tokenize script <;> simp [Res.map]

example : Complete (lit "let ") ∧ BareWord (lit "naïve/name?x=1#[2]") ∧ ¬ WordEnd (lit "let ") ∧ ¬ WordStart (lit " {}") := by
  refine ⟨complete_of (ts := [.element ⟨lit "let", none, none⟩, .ws (lit " ")]) (by decide +kernel) (by intro c h; cases h),
    ⟨by decide, ?_, by decide, by decide, by decide⟩, ?_, ?_⟩
  · have : ∀ c ∈ lit "naïve/name?x=1#[2]", isIdent c = true := by decide
    exact fun c hc => isIdent_iff.mp (this c hc)
  · rintro ⟨c, h, hi⟩
    cases h
    have := isIdent_iff.mpr hi
    revert this; decide
  · rintro ⟨c, h, hi⟩
    cases h
    have := isIdent_iff.mpr hi
    revert this; decide

/-- Two words cannot be told apart from one when glued together, quoted or not they can: the surroundings matter. -/
example : tokenizeAndFilter (lit "ab") ≠ tokenizeAndFilter (lit "a\"b\"") := by decide +kernel

/-! ## C14: scripts without calls -/

/-- C14: a script of white space and comments, the last of which may be left open, yields the empty network and leaves the store alone. -/
theorem C14_blank_script {σ : Type} (L : LigOps σ) (cmds : Eval.Commands σ) (w body : Str) (s : σ) (hw : Gap w) (hb : '\n' ∉ body) :
    Eval.run L cmds w s = (.ok (.network ∅), s) ∧ Eval.run L cmds (w ++ (lit "--" ++ body)) s = (.ok (.network ∅), s) := by
  have h1 : tokenizeAndFilter w = .ok [] := by
    have := gap_taf hw []
    rw [List.append_nil] at this; rw [this]; rfl
  have h2 : tokenizeAndFilter (w ++ (lit "--" ++ body)) = .ok [] := by
    rw [gap_taf hw]
    have hs : scan ('-' :: '-' :: body ++ []) = some (.comment, ('-' :: '-' :: body).length) :=
      scan_split.mpr ⟨(match_shape _ _).mpr ⟨body, hb, .inl rfl⟩, .inr rfl, by intro h; cases h⟩
    have := taf_piece hs (t := .comment ('-' :: '-' :: body)) rfl
    rw [List.append_nil] at this
    exact this
  constructor
  · rw [Eval.run, h1]; rfl
  · rw [Eval.run, h2]; rfl

example : Gap (lit " \n--nothing here\n\t") ∧ '\n' ∉ lit " read x" := by
  have h : Gap (lit "--" ++ lit "nothing here" ++ ('\n' :: ['\t'])) := .comment (by decide) (.ws (.inr (.inl rfl)) .nil)
  exact ⟨.ws (.inl rfl) (.ws (.inr (.inr (.inl rfl))) h), by decide⟩

end Props
end Verif
