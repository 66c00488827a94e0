import Verif.Spec.LigLexer
import Verif.Proofs.Lexer
/-!
# Proofs about the `lig` lexer
-/
namespace Verif
namespace Lig
open Spec Re

theorem bytes_eq (l : Str) : (String.ofList l).utf8ByteSize = bytes l := by
  unfold bytes
  induction l with
  | nil => rfl
  | cons c l ih =>
    rw [String.ofList_cons, String.utf8ByteSize_append, ih]
    simp

theorem bytes_append (a b : Str) : bytes (a ++ b) = bytes a + bytes b := by simp [bytes]

theorem nameStart_iff {c : Char} : isNameStart c = true ↔ NameStart c := by
  simp only [isNameStart, NameStart, Lexer.inRange, Bool.or_eq_true, beq_iff_eq, Bool.and_eq_true, decide_eq_true_eq, Lexer.char_le, or_assoc]
  rfl

theorem nameRest_iff {c : Char} : isNameRest c = true ↔ NameRest c := by
  simp only [isNameRest, NameRest, Bool.or_eq_true, nameStart_iff, Lexer.inRange, beq_iff_eq, Bool.and_eq_true, decide_eq_true_eq,
    Lexer.char_le, or_assoc]
  rfl

theorem start_rest {c : Char} (h : isNameStart c = true) : isNameRest c = true := by simp [isNameRest, h]

theorem name_shape {w : Str} : (Kind.re .name).Matches w ↔ ∃ c t, w = c :: t ∧ isNameStart c = true ∧ ∀ d ∈ t, isNameRest d = true := by
  simp only [Kind.re, matches_cat, matches_star_cls, matches_plus_cls]
  constructor
  · rintro ⟨x, y, rfl, ⟨hne, hx⟩, hy⟩
    cases x with
    | nil => exact absurd rfl hne
    | cons c x =>
      refine ⟨c, x ++ y, rfl, hx c List.mem_cons_self, ?_⟩
      intro d hd
      rcases List.mem_append.mp hd with h | h
      · exact start_rest (hx d (List.mem_cons_of_mem _ h))
      · exact hy d h
  · rintro ⟨c, t, rfl, h1, h2⟩
    exact ⟨[c], t, rfl, ⟨by simp, by intro d hd; rw [List.mem_singleton] at hd; subst hd; exact h1⟩, h2⟩

theorem fits_iff {k : Kind} {w : Str} : Fits k w ↔ k.re.Matches w := by
  cases k
  case name =>
    rw [name_shape]
    simp only [Fits, nameStart_iff, nameRest_iff]
  case ws => exact Lexer.fits_iff (k := .ws)
  case string => exact Lexer.fits_iff (k := .string)
  case openParen => exact Lexer.fits_iff (k := .openParen)
  case closeParen => exact Lexer.fits_iff (k := .closeParen)
  case openBrace => exact Lexer.fits_iff (k := .openBrace)
  case closeBrace => exact Lexer.fits_iff (k := .closeBrace)
  case openSquare => exact Lexer.fits_iff (k := .openSquare)
  case closeSquare => exact Lexer.fits_iff (k := .closeSquare)
  case comment => exact Lexer.fits_iff (k := .comment)

/-- What a text of each kind begins with. -/
def First : Kind → Char → Prop
  | .ws, c => WsChar c
  | .string, c => c = '"'
  | .name, c => NameStart c
  | .openParen, c => c = '('
  | .closeParen, c => c = ')'
  | .openBrace, c => c = '{'
  | .closeBrace, c => c = '}'
  | .openSquare, c => c = '['
  | .closeSquare, c => c = ']'
  | .comment, c => c = '-'

theorem first_of {k : Kind} {w : Str} (h : Fits k w) : ∃ c t, w = c :: t ∧ First k c := by
  cases k <;> simp only [Fits] at h
  case ws => cases w with
    | nil => exact absurd rfl h.1
    | cons c t => exact ⟨c, t, rfl, h.2 c List.mem_cons_self⟩
  case string => obtain ⟨b, rfl, _⟩ := h; exact ⟨_, _, rfl, rfl⟩
  case name => obtain ⟨c, t, rfl, h, _⟩ := h; exact ⟨_, _, rfl, h⟩
  case comment => obtain ⟨b, _, rfl | rfl⟩ := h <;> exact ⟨_, _, rfl, rfl⟩
  all_goals (subst h; exact ⟨_, _, rfl, rfl⟩)

theorem first_unique {k k' : Kind} {c : Char} (h : First k c) (h' : First k' c) : k = k' := by
  cases k <;> cases k' <;> first | rfl | skip
  all_goals
    simp only [First, WsChar, NameStart, Lexer.char_le] at h h'
    exfalso
    first
    | (subst h; revert h'; decide)
    | (subst h'; revert h; decide)
    | (rcases h with rfl | rfl | rfl | rfl <;> revert h' <;> decide)
    | (rcases h' with rfl | rfl | rfl | rfl <;> revert h <;> decide)

/-- The kind of a text is determined by its first character. -/
theorem kind_unique {k k' : Kind} {s : Str} {m m' : Nat} (h : Fits k (s.take m)) (h' : Fits k' (s.take m')) : k = k' := by
  obtain ⟨c, t, e, hc⟩ := first_of h
  obtain ⟨c', t', e', hc'⟩ := first_of h'
  cases s with
  | nil => simp at e
  | cons d s =>
    cases m with
    | zero => cases e
    | succ m =>
      cases m' with
      | zero => cases e'
      | succ m' =>
        simp at e e'
        rw [← e.1] at hc; rw [← e'.1] at hc'
        exact first_unique hc hc'

theorem fits_pos {k : Kind} {s : Str} {m : Nat} (h : Fits k (s.take m)) : 0 < m := by
  obtain ⟨c, t, e, _⟩ := first_of h
  cases m with
  | zero => cases e
  | succ m => omega

/-- `longest` of a kind, in terms of the forms. -/
theorem longest_some {k : Kind} {s : Str} {n : Nat} : k.re.longest s = some n ↔ Best s k n := by
  have := longest_spec s k.re
  constructor
  · intro h
    rw [h] at this
    obtain ⟨h1, h2, h3⟩ := this
    have hf := fits_iff.mpr h2
    refine ⟨fits_pos hf, h1, hf, ?_⟩
    intro k' m hm hk
    have e := kind_unique hf hk
    subst e
    exact h3 m hm (fits_iff.mp hk)
  · rintro ⟨_, h1, h2, h3⟩
    cases h : k.re.longest s with
    | none => rw [h] at this; exact absurd (fits_iff.mp h2) (this n h1)
    | some n' =>
      rw [h] at this
      obtain ⟨g1, g2, g3⟩ := this
      have := g3 n h1 (fits_iff.mp h2)
      have := h3 k n' g1 (fits_iff.mpr g2)
      congr 1; omega

theorem longest_none {k : Kind} {s : Str} : k.re.longest s = none ↔ ∀ m, m ≤ s.length → ¬ Fits k (s.take m) := by
  have := longest_spec s k.re
  constructor
  · intro h
    rw [h] at this
    intro m hm hf
    exact this m hm (fits_iff.mp hf)
  · intro hn
    cases h : k.re.longest s with
    | none => rfl
    | some n => rw [h] at this; exact absurd (fits_iff.mpr this.2.1) (hn n this.1)

theorem better_none {s : Str} {k : Kind} (h : k.re.longest s = none) (b : Option (Kind × Nat)) : better s b k = b := by
  unfold better; rw [h]

theorem fold_none {s : Str} : ∀ (ks : List Kind) (b : Option (Kind × Nat)), (∀ k ∈ ks, k.re.longest s = none) → ks.foldl (better s) b = b
  | [], _, _ => rfl
  | k :: ks, b, h => by
    rw [List.foldl_cons, better_none (h k List.mem_cons_self), fold_none ks b (fun k hk => h k (List.mem_cons_of_mem _ hk))]

theorem mem_kinds (k : Kind) : k ∈ kinds := by cases k <;> decide

theorem best_step {s : Str} {k : Kind} {n : Nat} (hb : Best s k n) : lexStep s = some (k, n) := by
  have h := longest_some.mpr hb
  have others : ∀ k', k' ≠ k → k'.re.longest s = none := by
    intro k' hk
    cases h' : k'.re.longest s with
    | none => rfl
    | some n' => exact absurd (kind_unique (longest_some.mp h').2.2.1 hb.2.2.1) hk
  obtain ⟨m, rfl⟩ : ∃ m, n = m + 1 := ⟨n - 1, by have := hb.1; omega⟩
  have hb' : better s none k = some (k, m + 1) := by unfold better; rw [h]
  obtain ⟨l1, l2, e⟩ := List.append_of_mem (mem_kinds k)
  have hnd : kinds.Nodup := by decide
  rw [e, List.nodup_append] at hnd
  have n2 := List.nodup_cons.mp hnd.2.1
  unfold lexStep
  rw [e, List.foldl_append, List.foldl_cons, fold_none l1, hb', fold_none l2]
  · intro k' hk'; exact others k' (by rintro rfl; exact n2.1 hk')
  · intro k' hk'; exact others k' (hnd.2.2 k' hk' k List.mem_cons_self)

theorem none_step {s : Str} (h : NoMatch s) : lexStep s = none :=
  fold_none kinds none fun k _ => longest_none.mpr (h k)

theorem step_cases (s : Str) : (∃ k n, Best s k n) ∨ NoMatch s := by
  by_cases h : ∃ k : Kind, ∃ n, k.re.longest s = some n
  · obtain ⟨k, n, h⟩ := h; exact .inl ⟨k, n, longest_some.mp h⟩
  · refine .inr fun k => longest_none.mp ?_
    cases h' : k.re.longest s with
    | none => rfl
    | some n => exact absurd ⟨k, n, h'⟩ h

theorem best_unique {s : Str} {k k' : Kind} {n n' : Nat} (h : Best s k n) (h' : Best s k' n') : k = k' ∧ n = n' := by
  have := (best_step h).symm.trans (best_step h')
  cases this; exact ⟨rfl, rfl⟩

theorem best_noMatch {s : Str} {k : Kind} {n : Nat} (h : Best s k n) (h' : NoMatch s) : False := h' k n h.2.1 h.2.2.1

theorem noMatch_nil : NoMatch [] := by
  intro k m hm hf
  obtain ⟨c, t, e, _⟩ := first_of hf
  simp at e

theorem mkToken_denotes {k : Kind} {w : Str} (h : Fits k w) (hk : k ≠ .name) :
    ∃ t, mkToken k w = some t ∧ Denotes (k, w) t ∧ tokenText t = w := by
  cases k <;> simp only [Fits] at h
  case name => exact absurd rfl hk
  case string =>
    obtain ⟨b, rfl, _⟩ := h
    exact ⟨.string b, by simp [mkToken, Lexer.trim_quoted], .string b, rfl⟩
  case ws => exact ⟨_, rfl, .ws w, rfl⟩
  case comment => exact ⟨_, rfl, .comment w, rfl⟩
  all_goals (subst h; exact ⟨_, rfl, by constructor, rfl⟩)

theorem denotes_unique {k : Kind} {w : Str} {t t' : Token} (h : Denotes (k, w) t) (h' : Denotes (k, w) t') : t = t' := by
  have aux : ∀ {p : Kind × Str} {t : Token}, Denotes p t → mkToken p.1 p.2 = some t := by
    intro p t h
    cases h <;> simp [mkToken, Lexer.trim_quoted]
  have e := (aux h).symm.trans (aux h')
  cases e; rfl

theorem denotes_not_name {k : Kind} {w : Str} {t : Token} (h : Denotes (k, w) t) : k ≠ .name := by rintro rfl; cases h

/-- How a run of the loop goes: what it has read before it ends, fails or panics. -/
theorem loop_run : ∀ (n f : Nat) (pre s : Str) (acc : List (Token × Nat)), s.length ≤ n → s.length ≤ f →
    (∃ ts, Reads pre s ts [] ∧ tokenizeLoop f s (bytes pre) acc = .ok (acc ++ ts)) ∨
    (∃ ts rest, Reads pre s ts rest ∧ rest ≠ [] ∧ NoMatch rest ∧ tokenizeLoop f s (bytes pre) acc = .err (lit "Error tokenizing input.")) ∨
    (∃ ts rest m, Reads pre s ts rest ∧ Best rest .name m ∧ tokenizeLoop f s (bytes pre) acc = .panic) := by
  intro n
  induction n with
  | zero =>
    intro f pre s acc h _
    cases s with
    | nil => exact .inl ⟨[], .stop _ _, by cases f <;> simp [tokenizeLoop]⟩
    | cons => simp at h
  | succ n ih =>
    intro f pre s acc h hf
    cases s with
    | nil => exact .inl ⟨[], .stop _ _, by cases f <;> simp [tokenizeLoop]⟩
    | cons c cs =>
      obtain ⟨f, rfl⟩ : ∃ g, f = g + 1 := ⟨f - 1, by simp at hf; omega⟩
      rcases step_cases (c :: cs) with ⟨k, m, hb⟩ | hn
      · by_cases hk : k = .name
        · subst hk
          exact .inr (.inr ⟨[], _, m, .stop _ _, hb, by rw [tokenizeLoop, best_step hb]; rfl⟩)
        · obtain ⟨t, h1, h2, _⟩ := mkToken_denotes hb.2.2.1 hk
          have hlen : ((c :: cs).drop m).length ≤ cs.length := by have := hb.1; simp; omega
          simp only [List.length_cons] at h hf
          have e : tokenizeLoop (f + 1) (c :: cs) (bytes pre) acc =
              tokenizeLoop f ((c :: cs).drop m) (bytes (pre ++ (c :: cs).take m)) (acc ++ [(t, bytes pre)]) := by
            rw [tokenizeLoop, best_step hb]
            simp only [h1, bytes_append]
          rw [e]
          have step : ∀ {ts rest}, Reads (pre ++ (c :: cs).take m) ((c :: cs).drop m) ts rest →
              Reads pre (c :: cs) ((t, bytes pre) :: ts) rest := by
            intro ts rest hr
            rw [← bytes_eq]
            exact .step hb h2 hr
          rcases ih f (pre ++ (c :: cs).take m) ((c :: cs).drop m) (acc ++ [(t, bytes pre)]) (by omega) (by omega) with
            ⟨ts, hr, e1⟩ | ⟨ts, rest, hr, hne, hn, e1⟩ | ⟨ts, rest, m', hr, hn, e1⟩
          · exact .inl ⟨_, step hr, by rw [e1]; simp⟩
          · exact .inr (.inl ⟨_, rest, step hr, hne, hn, e1⟩)
          · exact .inr (.inr ⟨_, rest, m', step hr, hn, e1⟩)
      · exact .inr (.inl ⟨[], _, .stop _ _, by simp, hn, by rw [tokenizeLoop, none_step hn]⟩)

/-- A text where reading cannot go on: nothing is left, nothing fits, or a name comes. -/
def Halts (rest : Str) : Prop := NoMatch rest ∨ ∃ m, Best rest .name m

theorem reads_unique {pre s rest rest' : Str} {ts ts' : List (Token × Nat)} (h : Reads pre s ts rest) (hh : Halts rest)
    (h' : Reads pre s ts' rest') (hh' : Halts rest') : ts = ts' ∧ rest = rest' := by
  induction h generalizing ts' rest' with
  | stop pre s =>
    cases h' with
    | stop => exact ⟨rfl, rfl⟩
    | step hb hd _ =>
      exfalso
      rcases hh with hn | ⟨m, hm⟩
      · exact best_noMatch hb hn
      · exact denotes_not_name hd (best_unique hb hm).1
  | @step pre s k n t ts rest hb hd hr ih =>
    cases h' with
    | stop =>
      exfalso
      rcases hh' with hn | ⟨m, hm⟩
      · exact best_noMatch hb hn
      · exact denotes_not_name hd (best_unique hb hm).1
    | step hb' hd' hr' =>
      obtain ⟨rfl, rfl⟩ := best_unique hb hb'
      obtain ⟨rfl, rfl⟩ := ih hh hr' hh'
      exact ⟨by rw [denotes_unique hd hd'], rfl⟩

theorem reads_text {pre s rest : Str} {ts : List (Token × Nat)} (h : Reads pre s ts rest) :
    s = ts.flatMap (fun p => tokenText p.1) ++ rest := by
  induction h with
  | stop => rfl
  | @step pre s k n t ts rest hb hd _ ih =>
    obtain ⟨t', _, h2, h3⟩ := mkToken_denotes hb.2.2.1 (denotes_not_name hd)
    rw [denotes_unique h2 hd] at h3
    rw [List.flatMap_cons, h3, List.append_assoc, ← ih, List.take_append_drop]

end Lig
end Verif
