import Verif.Spec.DebugText
/-!
# `{:?}` against its specification
-/
namespace Verif
open Spec
namespace Debug

theorem digit_eq : ∀ i < 16, "0123456789abcdef".toList.getD i '0' = Nat.digitChar i := by decide

theorem hex_eq (n : Nat) : hex n = if n < 16 then [Nat.digitChar n] else hex (n / 16) ++ [Nat.digitChar (n % 16)] :=
  Nat.toDigits_eq_if (by omega)

theorem inHex_hex {n : Nat} {ds : Str} (h : InHex n ds) : ds = hex n := by
  induction h with
  | digit hi => rw [hex_eq, if_pos hi, digit_eq _ hi]
  | @more n i ds hn hi h ih =>
    rw [hex_eq, if_neg (by omega), digit_eq _ hi, ih, show (16 * n + i) / 16 = n by omega, show (16 * n + i) % 16 = i by omega]

theorem hex_inHex (n : Nat) : InHex n (hex n) := by
  induction n using Nat.strongRecOn with
  | _ n ih =>
    rw [hex_eq]
    split
    · rename_i h; rw [← digit_eq _ h]; exact .digit h
    · have := InHex.more (n := n / 16) (i := n % 16) (by omega) (by omega) (ih (n / 16) (by omega))
      rw [digit_eq _ (by omega), show 16 * (n / 16) + n % 16 = n by omega] at this
      exact this

theorem char_shown (c : Char) : ShownChar c (char c) := by
  unfold char
  split
  · rename_i h; subst h; exact .zero
  split
  · rename_i h; subst h; exact .tab
  split
  · rename_i h; subst h; exact .return_
  split
  · rename_i h; subst h; exact .newline
  split
  · rename_i h; subst h; exact .quote
  split
  · rename_i h; subst h; exact .backslash
  split
  · rename_i h; exact .printable h.1 h.2 (by assumption) (by assumption)
  rename_i h0 ht hr hn hq hb hp
  have hz : c.toNat ≠ 0 := fun e => h0 (Char.toNat_inj.mp e)
  split
  · rename_i h
    by_cases h7 : c.toNat ≤ 0x7F
    · exact .control (by omega) hz ht hn hr (hex_inHex _)
    · exact .unprintable (by omega) (h.resolve_left h7) (hex_inHex _)
  · rename_i h
    rw [not_or] at h
    exact .other (by omega) (by simpa using h.2)

theorem shown_char {c : Char} {q : Str} (h : ShownChar c q) : q = char c := by
  have ne : ∀ {c d : Char}, c.toNat ≠ d.toNat → c ≠ d := fun h e => h (congrArg Char.toNat e)
  cases h with
  | zero => rfl
  | tab => rfl
  | newline => rfl
  | return_ => rfl
  | quote => rfl
  | backslash => rfl
  | printable h1 h2 h3 h4 =>
    unfold char
    rw [if_neg (ne (by show _ ≠ 0; omega)), if_neg (ne (by show _ ≠ 9; omega)), if_neg (ne (by show _ ≠ 13; omega)), if_neg (ne (by show _ ≠ 10; omega)),
      if_neg h3, if_neg h4, if_pos ⟨h1, h2⟩]
  | control h1 h2 h3 h4 h5 h6 =>
    unfold char
    rw [if_neg (ne h2), if_neg h3, if_neg h5, if_neg h4, if_neg (ne (by show _ ≠ 34; omega)), if_neg (ne (by show _ ≠ 92; omega)), if_neg (by omega),
      if_pos (.inl (by omega)), inHex_hex h6]
    rfl
  | other h1 h2 =>
    unfold char
    rw [if_neg (ne (by show _ ≠ 0; omega)), if_neg (ne (by show _ ≠ 9; omega)), if_neg (ne (by show _ ≠ 13; omega)), if_neg (ne (by show _ ≠ 10; omega)),
      if_neg (ne (by show _ ≠ 34; omega)), if_neg (ne (by show _ ≠ 92; omega)), if_neg (by omega), if_neg (by rw [h2]; simp; omega)]
  | unprintable h1 h2 h3 =>
    unfold char
    rw [if_neg (ne (by show _ ≠ 0; omega)), if_neg (ne (by show _ ≠ 9; omega)), if_neg (ne (by show _ ≠ 13; omega)), if_neg (ne (by show _ ≠ 10; omega)),
      if_neg (ne (by show _ ≠ 34; omega)), if_neg (ne (by show _ ≠ 92; omega)), if_neg (by omega), if_pos (.inr h2), inHex_hex h3]
    rfl

theorem body_shown (s : Str) : ShownBody s (s.flatMap char) := by
  induction s with
  | nil => exact .nil
  | cons c s ih => exact .cons (char_shown c) ih

theorem shown_body {s b : Str} (h : ShownBody s b) : b = s.flatMap char := by
  induction h with
  | nil => rfl
  | cons h1 _ ih => rw [List.flatMap_cons, ← ih, shown_char h1]

theorem shownText_iff {s q : Str} : ShownText s q ↔ q = str s := by
  constructor
  · rintro ⟨b, hb, rfl⟩; rw [shown_body hb]; rfl
  · rintro rfl; exact ⟨_, body_shown s, rfl⟩

theorem shownTag_iff {kind : Str} {o : Option Str} {q : Str} :
    ShownTag kind o q ↔ q = option (fun n => kind ++ lit "(" ++ str n ++ lit ")") o := by
  constructor
  · intro h
    cases h with
    | none => rfl
    | some h =>
      rw [shownText_iff.mp h, option]
      have : lit "))" = lit ")" ++ lit ")" := by decide
      rw [this]
      simp only [List.append_assoc]
  · rintro rfl
    cases o with
    | none => exact .none
    | some t =>
      have := ShownTag.some (kind := kind) (shownText_iff (s := t).mpr rfl)
      have e : lit "))" = lit ")" ++ lit ")" := by decide
      rw [e] at this
      rw [option]
      simpa only [List.append_assoc] using this

end Debug
end Verif
