import Verif.Spec.Serde
/-!
# Specification of JSON texts (C71): the grammar of RFC 8259, and what JSON stands for which value

Nothing here refers to the reader of `Model/Serde`.
-/
namespace Verif
namespace Spec
namespace JsonText

/-- White space. -/
def Ws (w : Str) : Prop := ∀ c ∈ w, c ∈ [' ', '\n', '\r', '\t']

/-- A hexadecimal digit of value `n`, in either case. -/
def Digit (c : Char) (n : Nat) : Prop := (lit "0123456789abcdef")[n]? = some c ∨ (lit "0123456789ABCDEF")[n]? = some c

/-- Four hexadecimal digits of value `n`. -/
def Digits (a b c d : Char) (n : Nat) : Prop :=
  ∃ i j k l, Digit a i ∧ Digit b j ∧ Digit c k ∧ Digit d l ∧ n = 4096 * i + 256 * j + 16 * k + l

/-- The escapes of one letter. -/
def escapes : List (Char × Char) :=
  [('"', '"'), ('\\', '\\'), ('/', '/'), ('b', Char.ofNat 8), ('f', Char.ofNat 12), ('n', '\n'), ('r', '\r'), ('t', '\t')]

/-- The text between the quotes of a string literal, and the string it stands for. -/
inductive Body : Str → Str → Prop where
  | nil : Body [] []
  /-- Any character but a control character, a quote or a backslash stands for itself. -/
  | plain {c k t} : 0x20 ≤ c.toNat → c ≠ '"' → c ≠ '\\' → Body k t → Body (c :: k) (c :: t)
  | escape {e x k t} : (e, x) ∈ escapes → Body k t → Body ('\\' :: e :: k) (x :: t)
  /-- `\uXXXX`, not a surrogate. -/
  | unicode {a b c d n k t} : Digits a b c d n → n < 0xD800 ∨ 0xDFFF < n → Body k t →
      Body ('\\' :: 'u' :: a :: b :: c :: d :: k) (Char.ofNat n :: t)
  /-- A leading and a trailing surrogate. -/
  | pair {a b c d n a' b' c' d' m k t} : Digits a b c d n → 0xD800 ≤ n → n ≤ 0xDBFF → Digits a' b' c' d' m → 0xDC00 ≤ m → m ≤ 0xDFFF →
      Body k t → Body ('\\' :: 'u' :: a :: b :: c :: d :: '\\' :: 'u' :: a' :: b' :: c' :: d' :: k)
        (Char.ofNat (0x10000 + (n - 0xD800) * 0x400 + (m - 0xDC00)) :: t)

/-- What may stand between the quotes at all: as `Body`, but the four digits after `\u` can be any. -/
inductive Loose : Str → Prop where
  | nil : Loose []
  | plain {c k} : 0x20 ≤ c.toNat → c ≠ '"' → c ≠ '\\' → Loose k → Loose (c :: k)
  | escape {e x k} : (e, x) ∈ escapes → Loose k → Loose ('\\' :: e :: k)
  | unicode {a b c d n k} : Digits a b c d n → Loose k → Loose ('\\' :: 'u' :: a :: b :: c :: d :: k)

/-- The text between the quotes and the string it stands for, `none` if it stands for none: it has half a surrogate pair in it. -/
def StringOf (k : Str) : Option Str → Prop
  | some t => Body k t
  | none => Loose k ∧ ∀ t, ¬ Body k t

/-- One or more decimal digits. -/
def Decimal (s : Str) : Prop := s ≠ [] ∧ ∀ c ∈ s, c ∈ lit "0123456789"

/-- A number: sign, integer part without a leading zero, fraction, exponent. -/
def Number (s : Str) : Prop :=
  ∃ sign int frac exp, s = sign ++ int ++ frac ++ exp ∧
    (sign = [] ∨ sign = ['-']) ∧
    Decimal int ∧ (int = ['0'] ∨ int.head? ≠ some '0') ∧
    (frac = [] ∨ ∃ ds, frac = '.' :: ds ∧ Decimal ds) ∧
    (exp = [] ∨ ∃ e sg ds, exp = e :: (sg ++ ds) ∧ e ∈ ['e', 'E'] ∧ sg ∈ [[], ['+'], ['-']] ∧ Decimal ds)

mutual
/-- A text of a JSON value, with white space around it. -/
inductive Text : Str → Json → Prop where
  | padded {w s w' j} : Ws w → Core s j → Ws w' → Text (w ++ s ++ w') j
/-- A text of a JSON value, from its first character to its last. -/
inductive Core : Str → Json → Prop where
  | null : Core (lit "null") .null
  | string {k t} : Body k t → Core ('"' :: k ++ ['"']) (.str t)
  | emptyArray {w} : Ws w → Core ('[' :: w ++ [']']) (.arr [])
  | array {s js} : Items s js → Core ('[' :: s ++ [']']) (.arr js)
  | emptyObject {w} : Ws w → Core ('{' :: w ++ ['}']) (.obj [])
  | object {s ms} : Members s (ms.map fun m => (some m.1, m.2)) → Core ('{' :: s ++ ['}']) (.obj ms)
  /-- What is JSON, but the JSON of none of the types here. -/
  | number {s} : Number s → Core s .other
  | true_ : Core (lit "true") .other
  | false_ : Core (lit "false") .other
  | brokenString {k} : StringOf k none → Core ('"' :: k ++ ['"']) .other
  | brokenName {s ms} : Members s ms → none ∈ ms.map Prod.fst → Core ('{' :: s ++ ['}']) .other
/-- The items of a non-empty array: texts separated by commas. -/
inductive Items : Str → List Json → Prop where
  | one {s j} : Text s j → Items s [j]
  | more {s j s' js} : Text s j → Items s' js → Items (s ++ ',' :: s') (j :: js)
/-- The members of a non-empty object. -/
inductive Members : Str → List (Option Str × Json) → Prop where
  | one {s m} : Member s m → Members s [m]
  | more {s m s' ms} : Member s m → Members s' ms → Members (s ++ ',' :: s') (m :: ms)
/-- A name, a colon and a value. -/
inductive Member : Str → Option Str × Json → Prop where
  | mk {w k name w' s j} : Ws w → StringOf k name → Ws w' → Text s j → Member (w ++ '"' :: k ++ '"' :: w' ++ ':' :: s) (name, j)
end

/-! ## What the JSON of a type looks like -/

/-- The JSON of a string or nothing. -/
def Opt (j : Json) (o : Option Str) : Prop := match o with | none => j = .null | some s => j = .str s

/-! `n` is how many brackets and braces may be nested; those inside the values of unknown members do not count. -/

/-- An element: its text, namespace and language tag. -/
def Elem (n : Nat) (j : Json) (e : Element) : Prop := 1 ≤ n ∧ ∃ ns l, j = .arr [.str e.text, ns, l] ∧ Opt ns e.ns ∧ Opt l e.lang

/-- A struct with the given fields: an array of exactly their values, or an object in which each of the names occurs exactly once,
with that value, among any others. -/
def Struct (j : Json) (fs : List (Str × Json)) : Prop :=
  j = .arr (fs.map Prod.snd) ∨ ∃ ms, j = .obj ms ∧ ∀ f ∈ fs, ms.filter (fun m => m.1 = f.1) = [f]

/-- An entry: an object with one member, named as the variant. -/
inductive Ent : Nat → Json → Entry → Prop where
  | role {n jf js jr f s r j} : Elem n jf f → Elem n js s → Elem n jr r →
      Struct j [(lit "first", jf), (lit "second", js), (lit "role", jr)] → Ent (n + 2) (.obj [(lit "Role", j)]) (.role f s r)
  | ext {n je jc e c j} : Elem n je e → Elem n jc c → Struct j [(lit "element", je), (lit "concept", jc)] →
      Ent (n + 2) (.obj [(lit "Extends", j)]) (.ext e c)
  | notExt {n je jc e c j} : Elem n je e → Elem n jc c → Struct j [(lit "element", je), (lit "concept", jc)] →
      Ent (n + 2) (.obj [(lit "NotExtends", j)]) (.notExt e c)

/-- The same number of items, corresponding one to one. -/
def Each (R : α → β → Prop) (as : List α) (bs : List β) : Prop := as.length = bs.length ∧ ∀ p ∈ as.zip bs, R p.1 p.2

mutual
/-- A value. -/
inductive Val : Nat → Json → Value → Prop where
  | element {n j e} : Elem n j e → Val (n + 1) (.obj [(lit "Element", j)]) (.element e)
  /-- The entries in any order, repeated or not. -/
  | network {n js} {es : List Entry} {net : Network} : Each (Ent n) js es → (∀ e, e ∈ net ↔ e ∈ es) →
      Val (n + 2) (.obj [(lit "Network", .arr js)]) (.network net)
  | quote {n js vs} : Vals n js vs → Val (n + 2) (.obj [(lit "Quote", .arr js)]) (.quote vs)
/-- Values one by one. -/
inductive Vals : Nat → List Json → List Value → Prop where
  | nil {n} : Vals n [] []
  | cons {n j js v vs} : Val n j v → Vals n js vs → Vals n (j :: js) (v :: vs)
end

/-- A call. -/
inductive CallJson : Nat → Json → Call → Prop where
  | mk {n jn js j name args} : Elem (n + 1) jn name → Vals n js args → Struct j [(lit "name", jn), (lit "arguments", .arr js)] →
      CallJson (n + 2) j ⟨name, args⟩

end JsonText
end Spec
end Verif
