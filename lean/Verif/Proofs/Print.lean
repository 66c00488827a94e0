import Verif.Spec.Print
import Verif.Proofs.Tokenize
import Verif.Proofs.ParserSim
/-!
# Proofs about printing
-/
namespace Verif
namespace Display
open Spec Lexer Parser

/-! ## Escapes -/

theorem char_toNat_inj {c d : Char} (h : c.toNat = d.toNat) : c = d := Char.toNat_inj.mp h

theorem jsonChar_escaped (c : Char) : jsonChar c = escaped [c] := by
  simp only [escaped, List.flatMap_cons, List.flatMap_nil, List.append_nil]
  have hn : ∀ d : Char, (c.toNat = d.toNat) = (c = d) := fun d => propext ⟨char_toNat_inj, fun h => by rw [h]⟩
  by_cases h : c.toNat < 32
  · have key : ∀ n < 32, jsonChar (Char.ofNat n) = (fun c =>
      if c = '"' then lit "\\\"" else if c = '\\' then lit "\\\\" else if c = '\n' then lit "\\n" else if c = '\r' then lit "\\r"
      else if c = '\t' then lit "\\t" else if c = Char.ofNat 8 then lit "\\b" else if c = Char.ofNat 12 then lit "\\f"
      else if c.toNat < 16 then lit "\\u000" ++ ["0123456789abcdef".toList.getD c.toNat '0']
      else if c.toNat < 32 then lit "\\u001" ++ ["0123456789abcdef".toList.getD (c.toNat - 16) '0']
      else [c]) (Char.ofNat n) := by decide
    have := key c.toNat h
    rwa [Char.ofNat_toNat] at this
  · have hne : ∀ d : Char, d.toNat < 32 → c ≠ d := by rintro d hd rfl; exact h hd
    rw [jsonChar]
    by_cases h1 : c = '"'
    · subst h1; decide
    by_cases h2 : c = '\\'
    · subst h2; decide
    rw [if_neg h1, if_neg h2, if_neg (by omega), if_neg (by omega), if_neg (by omega), if_neg (by omega), if_neg (by omega), if_neg (by omega),
      if_neg h1, if_neg h2, if_neg (hne _ (by decide)), if_neg (hne _ (by decide)), if_neg (hne _ (by decide)), if_neg (hne _ (by decide)),
      if_neg (hne _ (by decide)), if_neg (by omega), if_neg (by omega)]

theorem jsonBody_escaped (s : Str) : jsonBody s = escaped s := by
  induction s with
  | nil => rfl
  | cons c s ih =>
    rw [jsonBody, List.flatMap_cons, jsonChar_escaped]
    rw [jsonBody] at ih
    rw [ih]
    simp [escaped]

/-- Each escape is one unit: a lone plain character or a backslash sequence. -/
theorem jsonChar_cases (c : Char) : (¬ Special c ∧ jsonChar c = [c]) ∨
    (Special c ∧ ((c = '"' ∧ jsonChar c = ['\\', '"']) ∨ (c = '\\' ∧ jsonChar c = ['\\', '\\']) ∨ (c = Char.ofNat 8 ∧ jsonChar c = ['\\', 'b']) ∨
     (c = '\t' ∧ jsonChar c = ['\\', 't']) ∨ (c = '\n' ∧ jsonChar c = ['\\', 'n']) ∨ (c = Char.ofNat 12 ∧ jsonChar c = ['\\', 'f']) ∨
     (c = '\r' ∧ jsonChar c = ['\\', 'r']) ∨
     (∃ i j, hexValue (hexDigit i) = some i ∧ hexValue (hexDigit j) = some j ∧ c.toNat = i * 16 + j ∧
       jsonChar c = ['\\', 'u', '0', '0', hexDigit i, hexDigit j]))) := by
  rw [jsonChar]
  split
  · rename_i h; right; exact ⟨.inr (.inl h), .inl ⟨h, rfl⟩⟩
  rename_i h1
  split
  · rename_i h; right; exact ⟨.inr (.inr h), .inr (.inl ⟨h, rfl⟩)⟩
  rename_i h2
  split
  · rename_i h; right; exact ⟨.inl (by omega), .inr (.inr (.inl ⟨char_toNat_inj h, rfl⟩))⟩
  split
  · rename_i h; right; exact ⟨.inl (by omega), .inr (.inr (.inr (.inl ⟨char_toNat_inj h, rfl⟩)))⟩
  split
  · rename_i h; right; exact ⟨.inl (by omega), .inr (.inr (.inr (.inr (.inl ⟨char_toNat_inj h, rfl⟩))))⟩
  split
  · rename_i h; right; exact ⟨.inl (by omega), .inr (.inr (.inr (.inr (.inr (.inl ⟨char_toNat_inj h, rfl⟩)))))⟩
  split
  · rename_i h; right; exact ⟨.inl (by omega), .inr (.inr (.inr (.inr (.inr (.inr (.inl ⟨char_toNat_inj h, rfl⟩))))))⟩
  split
  · rename_i h
    right
    refine ⟨.inl h, .inr (.inr (.inr (.inr (.inr (.inr (.inr ⟨c.toNat / 16, c.toNat % 16, ?_, ?_, by omega, rfl⟩))))))⟩
    · have : ∀ i < 2, hexValue (hexDigit i) = some i := by decide
      exact this _ (by omega)
    · have : ∀ i < 16, hexValue (hexDigit i) = some i := by decide
      exact this _ (by omega)
  · rename_i h
    left
    refine ⟨?_, rfl⟩
    rintro (h' | h' | h')
    · exact h h'
    · exact h1 h'
    · exact h2 h'

theorem hexValue_hex {c : Char} {i : Nat} (h : hexValue c = some i) : HexChar c := by
  rw [hexValue] at h
  split at h
  · rename_i h'; exact .inl h'
  · split at h
    · rename_i h'; exact .inr (.inl h')
    · split at h
      · rename_i h'; exact .inr (.inr h')
      · cases h

theorem unescapes_jsonChar (c : Char) {s t : Str} (h : Unescapes s t) : Unescapes (jsonChar c ++ s) (c :: t) := by
  rcases jsonChar_cases c with ⟨hn, e⟩ | ⟨-, ⟨rfl, e⟩ | ⟨rfl, e⟩ | ⟨rfl, e⟩ | ⟨rfl, e⟩ | ⟨rfl, e⟩ | ⟨rfl, e⟩ | ⟨rfl, e⟩ | ⟨i, j, hi, hj, hc, e⟩⟩ <;> rw [e]
  · exact .plain (fun e => hn (.inr (.inl e))) (fun e => hn (.inr (.inr e))) h
  · exact .quote h
  · exact .backslash h
  · exact .backspace h
  · exact .tab h
  · exact .newline h
  · exact .formFeed h
  · exact .return_ h
  · exact .unicode (i := 0) (j := 0) (by decide) (by decide) hi hj (by rw [hc]; omega) h

theorem unescapes_jsonBody (s : Str) : Unescapes (jsonBody s) s := by
  induction s with
  | nil => exact .nil
  | cons c s ih => rw [jsonBody, List.flatMap_cons]; exact unescapes_jsonChar c ih

theorem stringBody_jsonBody (s : Str) : StringBody (jsonBody s) := by
  induction s with
  | nil => exact .nil
  | cons c s ih =>
    rw [jsonBody, List.flatMap_cons]
    rcases jsonChar_cases c with ⟨hn, e⟩ | ⟨-, ⟨rfl, e⟩ | ⟨rfl, e⟩ | ⟨rfl, e⟩ | ⟨rfl, e⟩ | ⟨rfl, e⟩ | ⟨rfl, e⟩ | ⟨rfl, e⟩ | ⟨i, j, hi, hj, hc, e⟩⟩ <;> rw [e]
    · refine .plain ?_ (fun e => hn (.inr (.inl e))) (fun e => hn (.inr (.inr e))) ih
      apply Nat.le_of_not_lt; intro h; exact hn (.inl h)
    · exact .escape (by decide) ih
    · exact .escape (by decide) ih
    · exact .escape (by decide) ih
    · exact .escape (by decide) ih
    · exact .escape (by decide) ih
    · exact .escape (by decide) ih
    · exact .escape (by decide) ih
    · exact .unicode (.inl (by decide)) (.inl (by decide)) (hexValue_hex hi) (hexValue_hex hj) ih

/-- A body stands for one text only. -/
theorem unescapes_unique {b s s' : Str} (h : Unescapes b s) (h' : Unescapes b s') : s = s' := by
  induction h generalizing s' with
  | nil => cases h'; rfl
  | plain h1 h2 _ ih => cases h' <;> first | exact absurd rfl h2 | (rename_i h'; rw [ih h'])
  | quote _ ih => cases h' <;> first | (rename_i h _ ; exact absurd rfl h) | (rename_i h'; rw [ih h'])
  | backslash _ ih => cases h' <;> first | (rename_i h _ ; exact absurd rfl h) | (rename_i h'; rw [ih h'])
  | slash _ ih => cases h' <;> first | (rename_i h _ ; exact absurd rfl h) | (rename_i h'; rw [ih h'])
  | backspace _ ih => cases h' <;> first | (rename_i h _ ; exact absurd rfl h) | (rename_i h'; rw [ih h'])
  | formFeed _ ih => cases h' <;> first | (rename_i h _ ; exact absurd rfl h) | (rename_i h'; rw [ih h'])
  | newline _ ih => cases h' <;> first | (rename_i h _ ; exact absurd rfl h) | (rename_i h'; rw [ih h'])
  | return_ _ ih => cases h' <;> first | (rename_i h _ ; exact absurd rfl h) | (rename_i h'; rw [ih h'])
  | tab _ ih => cases h' <;> first | (rename_i h _ ; exact absurd rfl h) | (rename_i h'; rw [ih h'])
  | unicode h1 h2 h3 h4 h5 _ ih =>
    cases h' with
    | plain _ h2 _ => exact absurd rfl h2
    | unicode k1 k2 k3 k4 k5 h' =>
      rw [ih h']
      rw [h1] at k1; rw [h2] at k2; rw [h3] at k3; rw [h4] at k4
      cases k1; cases k2; cases k3; cases k4
      rw [char_toNat_inj (h5.trans k5.symm)]

theorem jsonBody_inj {s s' : Str} (h : jsonBody s = jsonBody s') : s = s' := by
  have h1 := unescapes_jsonBody s
  rw [h] at h1
  exact unescapes_unique h1 (unescapes_jsonBody s')

/-! ## Reading printed text -/

theorem taf_str (s r : Str) : tokenizeAndFilter (jsonStr s ++ r) = (tokenizeAndFilter r).map (.element ⟨jsonBody s, none, none⟩ :: ·) := by
  rw [jsonStr]
  exact taf_piece (k := .string) (t := .string (jsonBody s)) (scan_split.mpr ⟨(match_shape _ _).mpr
    ⟨jsonBody s, rfl, body_iff.mpr (stringBody_jsonBody s)⟩, trivial, by intro h; cases h⟩) (by simp [mkToken, trim_quoted])

theorem taf_space (r : Str) : tokenizeAndFilter (' ' :: r) = tokenizeAndFilter r :=
  taf_ws (w := [' ']) (by decide) r

theorem taf_bare {w : Str} (hw : BareWord w) {r : Str} (hr : ¬ WordStart r) :
    tokenizeAndFilter (w ++ r) = (tokenizeAndFilter r).map (.element ⟨w, none, none⟩ :: ·) := by
  obtain ⟨hne, hall, h1, h2, h3⟩ := hw
  have := taf_piece (k := .element) (p := w) (r := r) (t := .element (.of w)) (scan_split.mpr ⟨(match_shape _ _).mpr
    ⟨hne, fun c hc => isIdent_iff.mpr (hall c hc)⟩, ?_, fun _ => ⟨h1, h2, h3⟩⟩) rfl
  · rw [this]; rfl
  · intro c hc
    rw [← Bool.not_eq_true]
    intro hi
    exact hr ⟨c, hc, isIdent_iff.mp hi⟩

theorem taf_word {w : Str} (hw : w ≠ [] ∧ (∀ c ∈ w, isIdent c = true) ∧ ¬ ['-', '-'] <+: w ∧ w ≠ ['['] ∧ w ≠ [']']) (r : Str) :
    tokenizeAndFilter (w ++ ' ' :: r) = (tokenizeAndFilter r).map (.element ⟨w, none, none⟩ :: ·) := by
  have := taf_piece (k := .element) (p := w) (r := ' ' :: r) (t := .element (.of w)) (scan_split.mpr ⟨(match_shape _ _).mpr ⟨hw.1, hw.2.1⟩,
    by intro c hc; cases hc; decide, fun _ => hw.2.2⟩) rfl
  rw [this, taf_space]
  rfl

theorem taf_single {k : Kind} {c : Char} {t : Token} (hs : ∀ r, scan ([c] ++ r) = some (k, 1)) (ht : mkToken k [c] = some t)
    (hf : filt [t] = [t]) (r : Str) : tokenizeAndFilter (c :: r) = (tokenizeAndFilter r).map (t :: ·) := by
  have := taf_piece (r := r) (hs r) ht
  rw [hf] at this
  exact this

theorem taf_openBrace (r : Str) : tokenizeAndFilter ('{' :: r) = (tokenizeAndFilter r).map (.openBrace :: ·) :=
  taf_single (k := .openBrace) (fun _ => rfl) rfl rfl r
theorem taf_closeBrace (r : Str) : tokenizeAndFilter ('}' :: r) = (tokenizeAndFilter r).map (.closeBrace :: ·) :=
  taf_single (k := .closeBrace) (fun _ => rfl) rfl rfl r
theorem taf_openParen (r : Str) : tokenizeAndFilter ('(' :: r) = (tokenizeAndFilter r).map (.openParen :: ·) :=
  taf_single (k := .openParen) (fun _ => rfl) rfl rfl r
theorem taf_closeParen (r : Str) : tokenizeAndFilter (')' :: r) = (tokenizeAndFilter r).map (.closeParen :: ·) :=
  taf_single (k := .closeParen) (fun _ => rfl) rfl rfl r
theorem taf_comma (r : Str) : tokenizeAndFilter (',' :: r) = (tokenizeAndFilter r).map (.comma :: ·) :=
  taf_single (k := .comma) (fun _ => rfl) rfl rfl r

/-- The tokens of a printed entry. -/
def entryToks (e : Entry) : List Token := entryTokens (escapedEntry e)

theorem lit_space : lit " " = [' '] := by decide
theorem lit_colon : lit " : " = [' ', ':', ' '] := by decide
theorem lit_notColon : lit " ¬: " = [' ', '¬', ':', ' '] := by decide
theorem lit_colon' : lit ":" = [':'] := by decide
theorem lit_notColon' : lit "¬:" = ['¬', ':'] := by decide
theorem lit_comma : lit ", " = [',', ' '] := by decide
theorem lit_ob : lit "{" = ['{'] := by decide
theorem lit_cb : lit "}" = ['}'] := by decide
theorem lit_op : lit "(" = ['('] := by decide
theorem lit_cp : lit ")" = [')'] := by decide

theorem taf_entry (e : Entry) (r : Str) : tokenizeAndFilter (entry e ++ r) = (tokenizeAndFilter r).map (entryToks e ++ ·) := by
  cases e with
  | role a b c =>
    simp only [entry, element, lit_space, List.append_assoc, List.cons_append, List.nil_append]
    rw [taf_str, taf_space, taf_str, taf_space, taf_str, res_map_map, res_map_map]
    simp only [jsonBody_escaped]
    rfl
  | ext a b =>
    simp only [entry, element, lit_colon, List.append_assoc, List.cons_append, List.nil_append]
    rw [taf_str, taf_space, show ∀ x, ':' :: ' ' :: x = [':'] ++ ' ' :: x from fun _ => rfl,
      taf_word ⟨by decide, by decide, by decide, by decide, by decide⟩, taf_str, res_map_map, res_map_map]
    simp only [jsonBody_escaped, entryToks, escapedEntry, entryTokens, lit_colon']
    rfl
  | notExt a b =>
    simp only [entry, element, lit_notColon, List.append_assoc, List.cons_append, List.nil_append]
    rw [taf_str, taf_space, show ∀ x, '¬' :: ':' :: ' ' :: x = ['¬', ':'] ++ ' ' :: x from fun _ => rfl,
      taf_word ⟨by decide, by decide, by decide, by decide, by decide⟩, taf_str, res_map_map, res_map_map]
    simp only [jsonBody_escaped, entryToks, escapedEntry, entryTokens, lit_notColon']
    rfl

theorem entriesTokens_cons (e : Entry) {l : List Entry} (h : l ≠ []) : entriesTokens (e :: l) = entryTokens e ++ .comma :: entriesTokens l := by
  cases l with
  | nil => exact absurd rfl h
  | cons => rw [entriesTokens]; exact nofun

/-- What `write_quote` writes after a value. -/
def sep : List Value → Str
  | [] => []
  | _ :: _ => [' ']

theorem values_cons (v : Value) (vs : List Value) : values (v :: vs) = value v ++ (sep vs ++ values vs) := by
  cases vs <;> simp [values, sep, lit_space]

theorem values_nil : values [] = [] := by simp [values]

theorem taf_entries (r : Str) : ∀ l : List Entry,
    tokenizeAndFilter (entries l ++ '}' :: r) = (tokenizeAndFilter r).map (entriesTokens (l.map escapedEntry) ++ ·)
  | [] => by simp only [entries, List.nil_append, taf_closeBrace]; rfl
  | [e] => by
    simp only [entries]
    rw [taf_entry, taf_closeBrace, res_map_map]
    simp only [List.map, entriesTokens, List.append_assoc, entryToks]
    rfl
  | e :: e' :: l => by
    rw [entries, lit_comma]
    · simp only [List.append_assoc, List.cons_append, List.nil_append]
      rw [taf_entry, taf_comma, taf_space, taf_entries r (e' :: l), res_map_map, res_map_map]
      rw [List.map_cons (a := e), entriesTokens_cons _ (by simp)]
      simp only [List.append_assoc, entryToks, List.cons_append]
    · exact nofun

/-- The tokens of a printed network. -/
def networkToks (n : Network) : List Token := .openBrace :: entriesTokens (n.toList.map escapedEntry)

theorem taf_network (n : Network) (r : Str) : tokenizeAndFilter (network n ++ r) = (tokenizeAndFilter r).map (networkToks n ++ ·) := by
  simp only [network, lit_ob, lit_cb, List.append_assoc, List.cons_append]
  rw [taf_openBrace, List.nil_append, taf_entries, res_map_map]
  rfl

theorem entryToks_reads (e : Entry) : ∃ a b c, entryTokens (escapedEntry e) = [.element a, .element b, .element c] ∧
    ReadsEntry a b c (canon (escapedEntry e)) := by
  cases e with
  | ext a c => exact ⟨_, _, _, rfl, .extends _ _⟩
  | notExt a c => exact ⟨_, _, _, rfl, .notExtends _ _⟩
  | role a c r =>
    refine ⟨_, _, _, rfl, ?_⟩
    rw [mkEntry_iff]
    simp only [escapedEntry, escapedElement, canon, mkEntry, plain, Element.mk.injEq, and_true]
    rfl

theorem entriesToks_reads : ∀ l : List Entry, Entries (entriesTokens (l.map escapedEntry)) (l.map fun e => canon (escapedEntry e))
  | [] => .close
  | [e] => by
    obtain ⟨a, b, c, h1, h2⟩ := entryToks_reads e
    simp only [List.map, entriesTokens, h1]
    exact .last h2
  | e :: e' :: l => by
    obtain ⟨a, b, c, h1, h2⟩ := entryToks_reads e
    have ih := entriesToks_reads (e' :: l)
    rw [List.map_cons (a := e), entriesTokens_cons _ (by simp), h1, List.map_cons (a := e)]
    exact .more h2 ih

theorem networkToks_reads (n : Network) : NetworkLit (networkToks n) (n.map fun e => canon (escapedEntry e)) := by
  refine ⟨_, _, rfl, entriesToks_reads n.toList, ?_⟩
  intro e
  rw [BSet.mem_map, List.mem_map]
  constructor
  · rintro ⟨x, hx, rfl⟩; exact ⟨x, hx, rfl⟩
  · rintro ⟨x, hx, rfl⟩; exact ⟨x, hx, rfl⟩

/-- Printed values of a quote. -/
theorem taf_values (r : Str) : ∀ vs : List Value, (∀ v ∈ vs, ∀ q, v ≠ .quote q) →
    ∃ ts, Items ts (rereadList vs) ∧ tokenizeAndFilter (values vs ++ ')' :: r) = (tokenizeAndFilter r).map (ts ++ ·)
  | [], _ => ⟨[.closeParen], by rw [rereadList]; exact .close, by simp only [values_nil, List.nil_append, taf_closeParen]; rfl⟩
  | v :: vs, h => by
    obtain ⟨ts, h1, h2⟩ := taf_values r vs (fun x hx => h x (List.mem_cons_of_mem _ hx))
    have hv := h v List.mem_cons_self
    have hsp : ∀ x : Str, tokenizeAndFilter (sep vs ++ x) = tokenizeAndFilter x := by
      intro x
      cases vs with
      | nil => rfl
      | cons => exact taf_space x
    cases v with
    | element e =>
      refine ⟨.element ⟨escaped e.text, none, none⟩ :: ts, by rw [rereadList, reread]; exact .element h1, ?_⟩
      rw [values_cons, value]
      simp only [List.append_assoc]
      rw [taf_str, hsp, h2, res_map_map, jsonBody_escaped]
      rfl
    | network n =>
      refine ⟨networkToks n ++ ts, by rw [rereadList, reread]; exact .network (networkToks_reads n) h1, ?_⟩
      rw [values_cons, value]
      simp only [List.append_assoc]
      rw [taf_network, hsp, h2, res_map_map]
    | quote q => exact absurd rfl (hv q)

/-- Any printed value is one value literal, whatever follows. -/
theorem taf_value (v : Value) (hv : Unnested v) (r : Str) :
    ∃ ts, ValueLit ts (reread v) ∧ tokenizeAndFilter (value v ++ r) = (tokenizeAndFilter r).map (ts ++ ·) := by
  cases v with
  | element e =>
    refine ⟨[.element ⟨escaped e.text, none, none⟩], by rw [reread]; exact .element _, ?_⟩
    rw [value, taf_str, jsonBody_escaped]
    rfl
  | network n => exact ⟨networkToks n, by rw [reread]; exact .network (networkToks_reads n), by rw [value, taf_network]⟩
  | quote vs =>
    obtain ⟨ts, h1, h2⟩ := taf_values r vs hv
    refine ⟨.openParen :: ts, by rw [reread]; exact .quote h1, ?_⟩
    rw [value]
    simp only [lit_op, lit_cp, List.append_assoc, List.cons_append, List.nil_append]
    rw [taf_openParen, h2, res_map_map]

/-! ## Printing is injective up to tags -/

theorem json_head (c : Char) (x y : Str) : jsonChar c ++ x ≠ '"' :: y := by
  rcases jsonChar_cases c with ⟨hn, e⟩ | ⟨-, ⟨-, e⟩ | ⟨-, e⟩ | ⟨-, e⟩ | ⟨-, e⟩ | ⟨-, e⟩ | ⟨-, e⟩ | ⟨-, e⟩ | ⟨_, _, -, -, -, e⟩⟩ <;> rw [e]
  · intro h; cases h; exact hn (.inr (.inl rfl))
  all_goals (intro h; cases h)

theorem jsonChar_prefix {c d : Char} {x y : Str} (h : jsonChar c ++ x = jsonChar d ++ y) : c = d ∧ x = y := by
  rcases jsonChar_cases c with ⟨hn, e⟩ | ⟨-, ⟨rfl, e⟩ | ⟨rfl, e⟩ | ⟨rfl, e⟩ | ⟨rfl, e⟩ | ⟨rfl, e⟩ | ⟨rfl, e⟩ | ⟨rfl, e⟩ | ⟨i, j, hi, hj, hc, e⟩⟩ <;>
  rcases jsonChar_cases d with ⟨hn', e'⟩ | ⟨-, ⟨rfl, e'⟩ | ⟨rfl, e'⟩ | ⟨rfl, e'⟩ | ⟨rfl, e'⟩ | ⟨rfl, e'⟩ | ⟨rfl, e'⟩ | ⟨rfl, e'⟩ | ⟨i', j', hi', hj', hc', e'⟩⟩ <;>
  rw [e] at h <;> try rw [e'] at h
  all_goals simp only [List.cons_append, List.nil_append, List.cons.injEq] at h
  all_goals first
  | exact ⟨rfl, by simpa using h⟩
  | exact h
  | (exfalso; obtain ⟨rfl, _⟩ := h; first | exact hn (.inr (.inr rfl)) | exact hn' (.inr (.inr rfl)))
  | (exfalso; revert h; simp; done)
  | (obtain ⟨-, -, -, -, h1, h2, h3⟩ := h
     rw [h1] at hi; rw [h2] at hj; rw [hi'] at hi; rw [hj'] at hj; cases hi; cases hj
     exact ⟨char_toNat_inj (hc.trans hc'.symm), h3⟩)

theorem jsonStr_prefix {s s' r r' : Str} (h : jsonStr s ++ r = jsonStr s' ++ r') : s = s' ∧ r = r' := by
  have key : ∀ (s s' : Str), jsonBody s ++ '"' :: r = jsonBody s' ++ '"' :: r' → s = s' ∧ r = r' := by
    intro s
    induction s with
    | nil =>
      intro s' h
      cases s' with
      | nil => simp [jsonBody] at h; exact ⟨rfl, h⟩
      | cons c s' => rw [jsonBody, jsonBody, List.flatMap_cons, List.append_assoc] at h; exact absurd h.symm (json_head _ _ _)
    | cons c s ih =>
      intro s' h
      cases s' with
      | nil => rw [jsonBody, List.flatMap_cons, List.append_assoc] at h; exact absurd h (json_head _ _ _)
      | cons d s' =>
        rw [jsonBody, jsonBody, List.flatMap_cons, List.flatMap_cons, List.append_assoc, List.append_assoc] at h
        obtain ⟨e, h2⟩ := jsonChar_prefix h
        subst e
        obtain ⟨e, h3⟩ := ih s' h2
        subst e
        exact ⟨rfl, h3⟩
  apply key
  simpa [jsonStr] using h

theorem entry_prefix {e e' : Entry} {r r' : Str} (h : entry e ++ r = entry e' ++ r') : SameEntry e e' ∧ r = r' := by
  cases e <;> cases e' <;>
    simp only [entry, element, lit_space, lit_colon, lit_notColon, List.append_assoc, List.cons_append, List.nil_append] at h <;>
    obtain ⟨h1, h⟩ := jsonStr_prefix h <;> simp only [List.cons.injEq, true_and] at h
  case role.role =>
    obtain ⟨h2, h⟩ := jsonStr_prefix h
    simp only [List.cons.injEq, true_and] at h
    obtain ⟨h3, h⟩ := jsonStr_prefix h
    exact ⟨⟨h1, h3, h2⟩, h⟩
  case ext.ext => obtain ⟨h2, h⟩ := jsonStr_prefix h; exact ⟨⟨h1, h2⟩, h⟩
  case notExt.notExt => obtain ⟨h2, h⟩ := jsonStr_prefix h; exact ⟨⟨h1, h2⟩, h⟩
  all_goals (exfalso; revert h; simp [jsonStr])

theorem entry_head (e : Entry) (r : Str) : ∃ t, entry e ++ r = '"' :: t := by
  cases e <;> exact ⟨_, rfl⟩

theorem entries_cons (e : Entry) {l : List Entry} (h : l ≠ []) : entries (e :: l) = entry e ++ lit ", " ++ entries l := by
  cases l with
  | nil => exact absurd rfl h
  | cons => rw [entries]; exact nofun

theorem entries_prefix : ∀ (l l' : List Entry) {r r' : Str}, entries l ++ '}' :: r = entries l' ++ '}' :: r' → Pairwise2 SameEntry l l' ∧ r = r'
  | [], [], r, r', h => by simp [entries] at h; exact ⟨.nil, h⟩
  | [], e :: l', r, r', h => by
    exfalso
    have : ∃ t, entries (e :: l') ++ '}' :: r' = '"' :: t := by
      cases l' with
      | nil => exact entry_head e _
      | cons e2 l' => rw [entries]; rw [List.append_assoc, List.append_assoc]; exact entry_head e _; exact nofun
    obtain ⟨t, ht⟩ := this
    rw [ht] at h; simp [entries] at h
  | e :: l, [], r, r', h => by
    exfalso
    have : ∃ t, entries (e :: l) ++ '}' :: r = '"' :: t := by
      cases l with
      | nil => exact entry_head e _
      | cons e2 l => rw [entries]; rw [List.append_assoc, List.append_assoc]; exact entry_head e _; exact nofun
    obtain ⟨t, ht⟩ := this
    rw [ht] at h; simp [entries] at h
  | [e], [e'], r, r', h => by
    simp only [entries] at h
    obtain ⟨h1, h⟩ := entry_prefix h
    exact ⟨.cons h1 .nil, by simpa using h⟩
  | [e], e' :: e2 :: l', r, r', h => by
    exfalso
    rw [entries_cons e' (by simp), entries] at h
    simp only [lit_comma, List.append_assoc] at h
    obtain ⟨h1, h⟩ := entry_prefix h
    simp at h
  | e :: e2 :: l, [e'], r, r', h => by
    exfalso
    rw [entries_cons e (by simp), show entries [e'] = entry e' from rfl] at h
    simp only [lit_comma, List.append_assoc] at h
    obtain ⟨h1, h⟩ := entry_prefix h
    simp at h
  | e :: e2 :: l, e' :: e2' :: l', r, r', h => by
    rw [entries_cons e (by simp), entries_cons e' (by simp)] at h
    simp only [lit_comma, List.append_assoc] at h
    obtain ⟨h1, h⟩ := entry_prefix h
    simp only [List.cons_append, List.nil_append, List.cons.injEq, true_and] at h
    obtain ⟨h2, h⟩ := entries_prefix (e2 :: l) (e2' :: l') h
    exact ⟨.cons h1 h2, h⟩

theorem network_prefix {n m : Network} {r r' : Str} (h : network n ++ r = network m ++ r') :
    Pairwise2 SameEntry n.toList m.toList ∧ r = r' := by
  simp only [network, lit_ob, lit_cb, List.append_assoc, List.cons_append, List.nil_append, List.cons.injEq, true_and] at h
  exact entries_prefix _ _ h

theorem value_head (v : Value) (r : Str) : ∃ c t, value v ++ r = c :: t ∧ (c = '"' ∨ c = '{' ∨ c = '(') := by
  cases v with
  | element e => exact ⟨_, _, by rw [value]; rfl, .inl rfl⟩
  | network n => exact ⟨_, _, by rw [value, network, lit_ob]; rfl, .inr (.inl rfl)⟩
  | quote vs => exact ⟨_, _, by rw [value, lit_op]; rfl, .inr (.inr rfl)⟩

mutual
theorem value_prefix : ∀ (v w : Value) {r r' : Str}, value v ++ r = value w ++ r' → SameUpToTags v w ∧ r = r'
  | .element e, w, r, r', h => by
    cases w with
    | element e' =>
      rw [value, value] at h
      obtain ⟨h1, h⟩ := jsonStr_prefix h
      exact ⟨.element h1, h⟩
    | network n => exfalso; rw [value, value, network, lit_ob] at h; simp [jsonStr] at h
    | quote q => exfalso; rw [value, value, lit_op] at h; simp [jsonStr] at h
  | .network n, w, r, r', h => by
    cases w with
    | element e' => exfalso; rw [value, value, network, lit_ob] at h; simp [jsonStr] at h
    | network m =>
      rw [value, value] at h
      obtain ⟨h1, h⟩ := network_prefix h
      exact ⟨.network h1, h⟩
    | quote q => exfalso; rw [value, value, network, lit_ob, lit_op] at h; simp at h
  | .quote vs, w, r, r', h => by
    cases w with
    | element e' => exfalso; rw [value, value, lit_op] at h; simp [jsonStr] at h
    | network m => exfalso; rw [value, value, network, lit_ob, lit_op] at h; simp at h
    | quote ws =>
      rw [value, value] at h
      simp only [lit_op, lit_cp, List.append_assoc, List.cons_append, List.nil_append, List.cons.injEq, true_and] at h
      exact values_prefix vs ws h
theorem values_prefix : ∀ (vs ws : List Value) {r r' : Str}, values vs ++ ')' :: r = values ws ++ ')' :: r' →
    SameUpToTags (.quote vs) (.quote ws) ∧ r = r'
  | [], ws, r, r', h => by
    cases ws with
    | nil => simp [values] at h; exact ⟨.quoteNil, h⟩
    | cons w ws =>
      exfalso
      rw [values_nil, values_cons, List.append_assoc, List.append_assoc] at h
      obtain ⟨c, t, ht, hc⟩ := value_head w (sep ws ++ (values ws ++ ')' :: r'))
      rw [ht] at h
      rcases hc with rfl | rfl | rfl <;> simp at h
  | v :: vs, ws, r, r', h => by
    cases ws with
    | nil =>
      exfalso
      rw [values_nil, values_cons, List.append_assoc, List.append_assoc] at h
      obtain ⟨c, t, ht, hc⟩ := value_head v (sep vs ++ (values vs ++ ')' :: r))
      rw [ht] at h
      rcases hc with rfl | rfl | rfl <;> simp at h
    | cons w ws =>
      rw [values_cons, values_cons, List.append_assoc, List.append_assoc, List.append_assoc, List.append_assoc] at h
      obtain ⟨h1, h⟩ := value_prefix v w h
      have h2 : values vs ++ ')' :: r = values ws ++ ')' :: r' := by
        cases vs with
        | nil =>
          cases ws with
          | nil => exact h
          | cons => exfalso; simp [values_nil, sep] at h
        | cons =>
          cases ws with
          | nil => exfalso; simp [values_nil, sep] at h
          | cons => simpa [sep] using h
      obtain ⟨h3, h⟩ := values_prefix vs ws h2
      exact ⟨.quoteCons h1 h3, h⟩
end

theorem sameEntry_entry {e e' : Entry} (h : SameEntry e e') : entry e = entry e' := by
  cases e <;> cases e' <;> simp only [SameEntry] at h
  case role.role => obtain ⟨h1, h2, h3⟩ := h; simp only [entry, element, h1, h2, h3]
  case ext.ext => obtain ⟨h1, h2⟩ := h; simp only [entry, element, h1, h2]
  case notExt.notExt => obtain ⟨h1, h2⟩ := h; simp only [entry, element, h1, h2]

theorem pairwise_entries {l l' : List Entry} (h : Pairwise2 SameEntry l l') : entries l = entries l' := by
  induction h with
  | nil => rfl
  | @cons a b l m h1 h2 ih =>
    cases h2 with
    | nil => simp only [entries]; exact sameEntry_entry h1
    | cons h3 h4 => rw [entries_cons a (by simp), entries_cons b (by simp), ih, sameEntry_entry h1]

theorem same_value {v w : Value} (h : SameUpToTags v w) : value v = value w ∧ ∀ vs ws, v = .quote vs → w = .quote ws → values vs = values ws ∧ (vs = [] ↔ ws = []) := by
  induction h with
  | element h => exact ⟨by rw [value, value, h], nofun⟩
  | network h => exact ⟨by rw [value, value, network, network, pairwise_entries h], nofun⟩
  | quoteNil => exact ⟨rfl, fun vs ws h h' => by cases h; cases h'; simp⟩
  | quoteCons _ _ ih1 ih2 =>
    obtain ⟨e, he⟩ := ih2.2 _ _ rfl rfl
    rename_i v w vs ws _ _
    have hv : values (v :: vs) = values (w :: ws) := by
      rw [values_cons, values_cons, ih1.1, e]
      cases vs <;> cases ws <;> simp_all [sep]
    refine ⟨by rw [value, value, hv], ?_⟩
    intro vs' ws' h h'
    cases h; cases h'
    exact ⟨hv, by simp⟩

/-! ## `write_string` -/

/-- What `write_string` writes for one character. -/
def wsChar (c : Char) : Str :=
  if c = '\\' then ['\\', '\\'] else if c = '"' then ['\\', '"'] else if c = '\n' then ['\\', 'n']
  else if c = '\r' then ['\\', 'r'] else if c = '\t' then ['\\', 't'] else [c]

theorem replace_flatMap (c : Char) (b : Str) (f : Char → Str) (s : Str) :
    replaceChar c b (s.flatMap f) = s.flatMap (fun x => replaceChar c b (f x)) := by
  simp only [replaceChar, List.flatMap_assoc]

theorem writeString_eq (s : Str) : writeString s = '"' :: (s.flatMap wsChar ++ ['"']) := by
  have h0 : replaceChar '\\' (lit "\\\\") s = s.flatMap (fun x => if x = '\\' then lit "\\\\" else [x]) := rfl
  simp only [writeString]
  rw [h0, replace_flatMap, replace_flatMap, replace_flatMap, replace_flatMap]
  have : (fun x => replaceChar '\t' (lit "\\t") (replaceChar '\r' (lit "\\r") (replaceChar '\n' (lit "\\n")
      (replaceChar '"' (lit "\\\"") (if x = '\\' then lit "\\\\" else [x]))))) = wsChar := by
    funext x
    rw [wsChar]
    split
    · decide
    rename_i h1
    by_cases h2 : x = '"'
    · subst h2; decide
    by_cases h3 : x = '\n'
    · subst h3; decide
    by_cases h4 : x = '\r'
    · subst h4; decide
    by_cases h5 : x = '\t'
    · subst h5; decide
    simp [replaceChar, h2, h3, h4, h5]
  rw [this]
  show ['"'] ++ _ ++ ['"'] = _
  simp

theorem unescapes_ws (s : Str) : Unescapes (s.flatMap wsChar) s := by
  induction s with
  | nil => exact .nil
  | cons c s ih =>
    rw [List.flatMap_cons, wsChar]
    split
    · rename_i h; subst h; exact .backslash ih
    rename_i h1
    split
    · rename_i h; subst h; exact .quote ih
    rename_i h2
    split
    · rename_i h; subst h; exact .newline ih
    split
    · rename_i h; subst h; exact .return_ ih
    split
    · rename_i h; subst h; exact .tab ih
    · exact .plain h2 h1 ih

theorem stringBody_ws {s : Str} : StringBody (s.flatMap wsChar) ↔ ∀ c ∈ s, ¬ OtherControl c := by
  constructor
  · intro h c hc ho
    have hmem : c ∈ s.flatMap wsChar := by
      rw [List.mem_flatMap]
      refine ⟨c, hc, ?_⟩
      rw [wsChar, if_neg (by rintro rfl; exact absurd ho.1 (by decide)), if_neg (by rintro rfl; exact absurd ho.1 (by decide)), if_neg ho.2.1,
        if_neg ho.2.2.1, if_neg ho.2.2.2]
      simp
    have key : ∀ {b : Str}, StringBody b → ∀ c ∈ b, 32 ≤ c.toNat := by
      intro b hb
      have hx : ∀ {c : Char}, HexChar c → 32 ≤ c.toNat := by
        intro c h
        simp only [HexChar, char_le] at h
        rcases h with h | h | h <;> exact Nat.le_trans (by decide) h.1
      induction hb with
      | nil => intro c hc; cases hc
      | plain h1 _ _ _ ih =>
        intro c hc; rw [List.mem_cons] at hc
        rcases hc with rfl | hc
        · exact h1
        · exact ih c hc
      | escape h _ ih =>
        intro c hc; rw [List.mem_cons, List.mem_cons] at hc
        rcases hc with rfl | rfl | hc
        · decide
        · have : ∀ c ∈ ['"', '\\', '/', 'b', 'f', 'n', 'r', 't'], 32 ≤ c.toNat := by decide
          exact this _ h
        · exact ih c hc
      | unicode h1 h2 h3 h4 _ ih =>
        intro c hc
        simp only [List.mem_cons] at hc
        rcases hc with rfl | rfl | rfl | rfl | rfl | rfl | hc
        · decide
        · decide
        · exact hx h1
        · exact hx h2
        · exact hx h3
        · exact hx h4
        · exact ih c hc
    have := key h c hmem
    have := ho.1
    omega
  · intro h
    induction s with
    | nil => exact .nil
    | cons c s ih =>
      have ih := ih (fun x hx => h x (List.mem_cons_of_mem _ hx))
      have hc := h c List.mem_cons_self
      rw [List.flatMap_cons, wsChar]
      split
      · exact .escape (by decide) ih
      rename_i h1
      split
      · exact .escape (by decide) ih
      rename_i h2
      split
      · exact .escape (by decide) ih
      rename_i h3
      split
      · exact .escape (by decide) ih
      rename_i h4
      split
      · exact .escape (by decide) ih
      rename_i h5
      refine .plain ?_ h2 h1 ih
      apply Nat.le_of_not_lt
      intro hlt
      exact hc ⟨hlt, h3, h4, h5⟩

/-! ## What survives printing and reading -/

theorem escaped_cons (c : Char) (s : Str) : escaped (c :: s) = jsonChar c ++ escaped s := by
  rw [← jsonBody_escaped, ← jsonBody_escaped, jsonBody, List.flatMap_cons]; rfl

theorem escaped_clean {s : Str} (h : ∀ c ∈ s, ¬ Special c) : escaped s = s := by
  induction s with
  | nil => rfl
  | cons c s ih =>
    rw [escaped_cons, ih fun x hx => h x (List.mem_cons_of_mem _ hx)]
    rcases jsonChar_cases c with ⟨-, e⟩ | ⟨hs, -⟩
    · rw [e]; rfl
    · exact absurd hs (h c List.mem_cons_self)

theorem escaped_length (s : Str) : s.length ≤ (escaped s).length ∧
    ((∃ c ∈ s, Special c) → s.length < (escaped s).length ∧ ∃ c ∈ escaped s, Special c) := by
  induction s with
  | nil => exact ⟨Nat.le_refl _, by rintro ⟨c, h, _⟩; cases h⟩
  | cons c s ih =>
    rw [escaped_cons]
    simp only [List.length_append, List.length_cons]
    rcases jsonChar_cases c with ⟨hn, e⟩ | ⟨hs, hc⟩
    · rw [e]
      refine ⟨by simp; omega, ?_⟩
      rintro ⟨d, hd, hs⟩
      rw [List.mem_cons] at hd
      rcases hd with rfl | hd
      · exact absurd hs hn
      · obtain ⟨h1, d, h2, h3⟩ := ih.2 ⟨d, hd, hs⟩
        exact ⟨by simp; omega, d, by simp [h2], h3⟩
    · have : 2 ≤ (jsonChar c).length ∧ '\\' ∈ jsonChar c := by
        rcases hc with ⟨-, e⟩ | ⟨-, e⟩ | ⟨-, e⟩ | ⟨-, e⟩ | ⟨-, e⟩ | ⟨-, e⟩ | ⟨-, e⟩ | ⟨_, _, -, -, -, e⟩ <;> rw [e] <;> simp
      refine ⟨by omega, fun _ => ⟨by omega, '\\', by simp [this.2], .inr (.inr rfl)⟩⟩

theorem escaped_fix {s : Str} (h : escaped s = s) : ∀ c ∈ s, ¬ Special c := by
  intro c hc hs
  have := ((escaped_length s).2 ⟨c, hc, hs⟩).1
  rw [h] at this
  omega

theorem escaped_inj {s s' : Str} (h : escaped s = escaped s') : s = s' := by
  rw [← jsonBody_escaped, ← jsonBody_escaped] at h
  exact jsonBody_inj h

/-- The length of the texts of an entry. -/
def size (e : Entry) : Nat := (parts e).1.length + (parts e).2.1.length + (parts e).2.2.length

/-- Some text of the entry has a special character. -/
def Dirty (e : Entry) : Prop :=
  (∃ c ∈ (parts e).1, Special c) ∨ (∃ c ∈ (parts e).2.1, Special c) ∨ (∃ c ∈ (parts e).2.2, Special c)

theorem canon_parts (e : Entry) : parts (canon e) = parts e := by
  cases e with
  | ext | notExt => rfl
  | role f s r =>
    rw [canon]
    split
    · rename_i h; simp [parts, plain, h]
    · split
      · rename_i h; simp [parts, plain, h]
      · rfl

theorem canon_canon (e : Entry) : ParserForm (canon e) := by
  rw [ParserForm]
  cases e with
  | ext | notExt => rfl
  | role f s r =>
    rw [canon]
    split
    · rfl
    · split
      · rfl
      · rename_i h1 h2
        rw [canon, if_neg (show ¬ (plain r).text = lit ":" from h1), if_neg (show ¬ (plain r).text = lit "¬:" from h2)]
        rfl

theorem escapedEntry_parts (e : Entry) : parts (escapedEntry e) = (escaped (parts e).1, escaped (parts e).2.1, escaped (parts e).2.2) := by
  cases e with
  | ext => simp only [parts, escapedEntry, escapedElement]; rw [show escaped (lit ":") = lit ":" by decide]
  | notExt => simp only [parts, escapedEntry, escapedElement]; rw [show escaped (lit "¬:") = lit "¬:" by decide]
  | role => rfl

theorem form_ext {e e' : Entry} (h : ParserForm e) (h' : ParserForm e') (hp : parts e = parts e') : e = e' := by
  rw [← h, ← h']
  have hr : ∀ {x : Element} {a b}, canon (.role a b x) = .role a b x → x.text ≠ lit ":" ∧ x.text ≠ lit "¬:" := by
    intro x a b he
    rw [canon] at he
    split at he
    · cases he
    · split at he
      · cases he
      · rename_i h1 h2; exact ⟨h1, h2⟩
  cases e with
  | ext a c =>
    cases e' with
    | ext a' c' => simp only [parts, Prod.mk.injEq] at hp; simp [canon, plain, hp]
    | notExt => simp only [parts, Prod.mk.injEq] at hp; exact absurd hp.2.1 (by decide)
    | role => simp only [parts, Prod.mk.injEq] at hp; exact absurd hp.2.1.symm (hr h').1
  | notExt a c =>
    cases e' with
    | notExt a' c' => simp only [parts, Prod.mk.injEq] at hp; simp [canon, plain, hp]
    | ext => simp only [parts, Prod.mk.injEq] at hp; exact absurd hp.2.1 (by decide)
    | role => simp only [parts, Prod.mk.injEq] at hp; exact absurd hp.2.1.symm (hr h').2
  | role a c r =>
    cases e' with
    | notExt a' c' => simp only [parts, Prod.mk.injEq] at hp; exact absurd hp.2.1 (hr h).2
    | ext => simp only [parts, Prod.mk.injEq] at hp; exact absurd hp.2.1 (hr h).1
    | role => simp only [parts, Prod.mk.injEq] at hp; simp [canon, plain, hp]

theorem rereadEntry_clean {e : Entry} (h : CleanEntry e) : canon (escapedEntry e) = e := by
  refine form_ext (canon_canon _) h.1 ?_
  rw [canon_parts, escapedEntry_parts, escaped_clean h.2.1, escaped_clean h.2.2.1, escaped_clean h.2.2.2]

theorem rereadEntry_dirty {e : Entry} (h : Dirty e) : size e < size (canon (escapedEntry e)) ∧ Dirty (canon (escapedEntry e)) := by
  simp only [size, Dirty, canon_parts, escapedEntry_parts]
  have h1 := escaped_length (parts e).1
  have h2 := escaped_length (parts e).2.1
  have h3 := escaped_length (parts e).2.2
  rcases h with h | h | h
  · have := h1.2 h; exact ⟨by omega, .inl this.2⟩
  · have := h2.2 h; exact ⟨by omega, .inr (.inl this.2)⟩
  · have := h3.2 h; exact ⟨by omega, .inr (.inr this.2)⟩

theorem reread_network {n : Network} : (n.map fun e => canon (escapedEntry e)) = n ↔ ∀ e ∈ n, CleanEntry e := by
  constructor
  · intro h e he
    have hmem : ∀ e, e ∈ n → canon (escapedEntry e) ∈ n := by
      intro e he
      have : canon (escapedEntry e) ∈ n.map fun e => canon (escapedEntry e) := BSet.mem_map.mpr ⟨e, he, rfl⟩
      rwa [h] at this
    have hf : ParserForm e := by
      rw [← h, BSet.mem_map] at he
      obtain ⟨x, -, rfl⟩ := he
      exact canon_canon _
    have hd : ¬ Dirty e := by
      intro hd
      have grow : ∀ k, ∃ x, x ∈ n ∧ Dirty x ∧ k ≤ size x := by
        intro k
        induction k with
        | zero => exact ⟨e, he, hd, Nat.zero_le _⟩
        | succ k ih =>
          obtain ⟨x, hx, hxd, hk⟩ := ih
          obtain ⟨h1, h2⟩ := rereadEntry_dirty hxd
          exact ⟨_, hmem x hx, h2, by omega⟩
      have bound : ∀ l : List Entry, ∃ b, ∀ x ∈ l, size x ≤ b := by
        intro l
        induction l with
        | nil => exact ⟨0, by simp⟩
        | cons y l ih =>
          obtain ⟨b, hb⟩ := ih
          refine ⟨b + size y, ?_⟩
          intro x hx
          rw [List.mem_cons] at hx
          rcases hx with rfl | hx
          · omega
          · have := hb x hx; omega
      obtain ⟨b, hb⟩ := bound n.toList
      obtain ⟨x, hx, -, hk⟩ := grow (b + 1)
      have := hb x hx
      omega
    refine ⟨hf, ?_, ?_, ?_⟩
    · intro c hc hs; exact hd (.inl ⟨c, hc, hs⟩)
    · intro c hc hs; exact hd (.inr (.inl ⟨c, hc, hs⟩))
    · intro c hc hs; exact hd (.inr (.inr ⟨c, hc, hs⟩))
  · intro h
    apply BSet.ext
    intro e
    rw [BSet.mem_map]
    constructor
    · rintro ⟨x, hx, rfl⟩; rw [rereadEntry_clean (h x hx)]; exact hx
    · intro he; exact ⟨e, he, rereadEntry_clean (h e he)⟩

theorem reread_element {e : Element} : escapedElement e = e ↔ CleanElement e := by
  obtain ⟨t, n, l⟩ := e
  simp only [escapedElement, CleanElement, Element.mk.injEq]
  constructor
  · rintro ⟨h1, h2, h3⟩; exact ⟨h2.symm, h3.symm, escaped_fix h1⟩
  · rintro ⟨h1, h2, h3⟩; exact ⟨escaped_clean h3, h1.symm, h2.symm⟩

theorem clean_element {e : Element} : Clean (.element e) ↔ CleanElement e := by
  constructor
  · intro h; exact (h _ (.self _)).1 e rfl
  · intro h x hx
    cases hx
    exact ⟨fun e' he => by cases he; exact h, nofun⟩

theorem clean_network {n : Network} : Clean (.network n) ↔ ∀ e ∈ n, CleanEntry e := by
  constructor
  · intro h; exact (h _ (.self _)).2 n rfl
  · intro h x hx
    cases hx
    exact ⟨nofun, fun n' he => by cases he; exact h⟩

theorem clean_quote {vs : List Value} : Clean (.quote vs) ↔ ∀ v ∈ vs, Clean v := by
  constructor
  · intro h v hv x hx; exact h x (.quote hv hx)
  · intro h x hx
    cases hx with
    | self => exact ⟨nofun, nofun⟩
    | quote hv hx => exact h _ hv x hx

mutual
theorem reread_fix : ∀ v : Value, reread v = v ↔ Clean v
  | .element e => by rw [reread, clean_element, Value.element.injEq, reread_element]
  | .network n => by rw [reread, clean_network, Value.network.injEq, reread_network]
  | .quote vs => by rw [reread, clean_quote, Value.quote.injEq, rereadList_fix vs]
theorem rereadList_fix : ∀ vs : List Value, rereadList vs = vs ↔ ∀ v ∈ vs, Clean v
  | [] => by simp [rereadList]
  | v :: vs => by
    rw [rereadList, List.cons.injEq, reread_fix v, rereadList_fix vs]
    simp
end

end Display
end Verif
