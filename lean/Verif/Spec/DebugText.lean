import Verif.Model.Debug
/-!
# Specification of the `{:?}` form of a text
-/
namespace Verif
namespace Spec

/-- A number in lower-case hexadecimal digits, without leading zeros. -/
inductive InHex : Nat → Str → Prop where
  | digit {i} : i < 16 → InHex i ["0123456789abcdef".toList.getD i '0']
  | more {n i ds} : 0 < n → i < 16 → InHex n ds → InHex (16 * n + i) (ds ++ ["0123456789abcdef".toList.getD i '0'])

/-- How a character is written between the quotes.  `Debug.escaped` is Rust's table for characters outside ASCII, about which nothing is known. -/
inductive ShownChar : Char → Str → Prop where
  | zero : ShownChar (Char.ofNat 0) (lit "\\0")
  | tab : ShownChar '\t' (lit "\\t")
  | newline : ShownChar '\n' (lit "\\n")
  | return_ : ShownChar '\r' (lit "\\r")
  | quote : ShownChar '"' (lit "\\\"")
  | backslash : ShownChar '\\' (lit "\\\\")
  | printable {c : Char} : 0x20 ≤ c.toNat → c.toNat < 0x7F → c ≠ '"' → c ≠ '\\' → ShownChar c [c]
  | control {c : Char} {ds} : c.toNat < 0x20 ∨ c.toNat = 0x7F → c.toNat ≠ 0 → c ≠ '\t' → c ≠ '\n' → c ≠ '\r' → InHex c.toNat ds →
      ShownChar c (lit "\\u{" ++ ds ++ lit "}")
  | other {c : Char} : 0x7F < c.toNat → Debug.escaped c = false → ShownChar c [c]
  | unprintable {c : Char} {ds} : 0x7F < c.toNat → Debug.escaped c = true → InHex c.toNat ds → ShownChar c (lit "\\u{" ++ ds ++ lit "}")

/-- The characters one after the other. -/
inductive ShownBody : Str → Str → Prop where
  | nil : ShownBody [] []
  | cons {c s q b} : ShownChar c q → ShownBody s b → ShownBody (c :: s) (q ++ b)

/-- A text in its `{:?}` form: between double quotes. -/
def ShownText (s q : Str) : Prop := ∃ b, ShownBody s b ∧ q = lit "\"" ++ b ++ lit "\""

/-- An optional tag in its `{:?}` form. -/
inductive ShownTag (kind : Str) : Option Str → Str → Prop where
  | none : ShownTag kind none (lit "None")
  | some {t q} : ShownText t q → ShownTag kind (some t) (lit "Some(" ++ kind ++ lit "(" ++ q ++ lit "))")

end Spec
end Verif
