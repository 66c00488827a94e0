import Verif.Model.Ligature
import Verif.Model.Trips
/-!
# Specification of the order on texts, elements, entries and triples
-/
namespace Verif
namespace Spec

/-- Dictionary order: a proper beginning comes first, otherwise the first difference decides. -/
inductive Lex {α : Type u} (r : α → α → Prop) : List α → List α → Prop where
  | shorter {b l} : Lex r [] (b :: l)
  | here {a b l m} : r a b → Lex r (a :: l) (b :: m)
  | later {a l m} : Lex r l m → Lex r (a :: l) (a :: m)

/-- The bytes of a character in UTF-8. -/
def utf8 (c : Char) : List Nat :=
  let n := c.toNat
  if n < 0x80 then [n]
  else if n < 0x800 then [0xC0 + n / 64, 0x80 + n % 64]
  else if n < 0x10000 then [0xE0 + n / 4096, 0x80 + n / 64 % 64, 0x80 + n % 64]
  else [0xF0 + n / 262144, 0x80 + n / 4096 % 64, 0x80 + n / 64 % 64, 0x80 + n % 64]

/-- Rust compares strings byte by byte. -/
def TextLt (s t : Str) : Prop := Lex (· < ·) (s.flatMap utf8) (t.flatMap utf8)

/-- `None` comes before `Some`. -/
def OptLt (s t : Option Str) : Prop :=
  match s, t with
  | none, some _ => True
  | some a, some b => TextLt a b
  | _, none => False

/-- Elements: by text, then namespace, then language tag. -/
def ElementLt (a b : Element) : Prop :=
  TextLt a.text b.text ∨ (a.text = b.text ∧ (OptLt a.ns b.ns ∨ (a.ns = b.ns ∧ OptLt a.lang b.lang)))

/-- Entries: role entries, then extends entries, then not-extends entries; within a kind by the fields in the order declared. -/
def EntryLt : Entry → Entry → Prop
  | .role a b r, .role a' b' r' => ElementLt a a' ∨ (a = a' ∧ (ElementLt b b' ∨ (b = b' ∧ ElementLt r r')))
  | .role .., _ => True
  | .ext .., .role .. => False
  | .ext a b, .ext a' b' => ElementLt a a' ∨ (a = a' ∧ ElementLt b b')
  | .ext .., .notExt .. => True
  | .notExt a b, .notExt a' b' => ElementLt a a' ∨ (a = a' ∧ ElementLt b b')
  | .notExt .., _ => False

/-- Triples: by first, second and third part. -/
def TripLt (t u : Trip) : Prop :=
  TextLt t.fst u.fst ∨ (t.fst = u.fst ∧ (TextLt t.snd u.snd ∨ (t.snd = u.snd ∧ TextLt t.thd u.thd)))

/-- A strict total order. -/
structure StrictTotal {α : Type u} (r : α → α → Prop) : Prop where
  irrefl : ∀ a, ¬ r a a
  trans : ∀ a b c, r a b → r b c → r a c
  total : ∀ a b, r a b ∨ a = b ∨ r b a

end Spec
end Verif
