import Verif.Model.Display
/-!
# Model of the derived `Serialize`/`Deserialize` of the public data types, through `serde_json`

`ligature/src/lib.rs:15-34` and `wander/src/lib.rs:28-63` derive both traits for `LangTag`, `Namespace`, `Element`, `Entry`,
`WanderError`, `Call`, `Quote` and `WanderValue`.  No function of the repository reads such text back; a host application can,
since the types are public.  `serde_json` (already used by the repository for `Display`) is the format modelled.

Simplification: the reader first builds a tree and then reads the type from it, where `serde_json` does both at once; the outcome is the
same.  The tree is built as `serde_json` skips a value it does not need (`ignore_value`: numbers, booleans and halves of surrogate pairs
are fine, no limit of nesting); a value that is needed is then held to the stricter rules: the limit of nesting counts from the outside
in while the type is read, and what no type is written as is `other`.
-/
namespace Verif

/-- The JSON values the types are written as. -/
inductive Json where
  | null
  | str (s : Str)
  | arr (items : List Json)
  | obj (members : List (Str × Json))
  /-- Any other JSON value: a number, a boolean, a string with half a surrogate pair in it, an object with such a string as a name.
  No type here is written as one, and reading one as any of the types is an error. -/
  | other

namespace Serde

/-! ## Writing a type as JSON -/

/-- `Option<Namespace>`, `Option<LangTag>` (`ligature/src/lib.rs:15-25`): a newtype struct is written as its content, `None` as `null`. -/
def optional : Option Str → Json
  | none => .null
  | some s => .str s

/-- `Element` (`ligature/src/lib.rs:23-25`): a tuple struct is an array of its fields. -/
def element (e : Element) : Json := .arr [.str e.text, optional e.ns, optional e.lang]

/-- `Entry` (`ligature/src/lib.rs:33-59`): a struct variant is an object with the variant's name holding an object of the fields in
declaration order. -/
def entry : Entry → Json
  | .role first second role =>
    .obj [(lit "Role", .obj [(lit "first", element first), (lit "second", element second), (lit "role", element role)])]
  | .ext e c => .obj [(lit "Extends", .obj [(lit "element", element e), (lit "concept", element c)])]
  | .notExt e c => .obj [(lit "NotExtends", .obj [(lit "element", element e), (lit "concept", element c)])]

/-- `BTreeSet<Entry>`: an array in the order of iteration. -/
def network (n : Network) : Json := .arr (n.toList.map entry)

mutual
/-- `WanderValue` (`wander/src/lib.rs:61-71`): a newtype variant is an object with the variant's name holding the content; `Quote`
(lines 54-59) is a newtype struct. -/
def value : Value → Json
  | .element e => .obj [(lit "Element", element e)]
  | .quote vs => .obj [(lit "Quote", .arr (values vs))]
  | .network n => .obj [(lit "Network", network n)]
/-- `Vec<WanderValue>`. -/
def values : List Value → List Json
  | [] => []
  | v :: vs => value v :: values vs
end

/-- `Call` (`wander/src/lib.rs:45-52`). -/
def call (c : Call) : Json := .obj [(lit "name", element c.name), (lit "arguments", .arr (values c.args))]

/-- `WanderError` (`wander/src/lib.rs:27-29`): a newtype struct. -/
def wanderError (message : Str) : Json := .str message

/-- `Token` (`wander/src/lexer.rs:11-50`, derives only `Serialize`): a unit variant is written as its name. -/
def token : Token → Json
  | .ws s => .obj [(lit "WS", .str s)]
  | .string s => .obj [(lit "String", .str s)]
  | .openParen => .str (lit "OpenParen")
  | .closeParen => .str (lit "CloseParen")
  | .openBrace => .str (lit "OpenBrace")
  | .closeBrace => .str (lit "CloseBrace")
  | .openSquare => .str (lit "OpenSquare")
  | .closeSquare => .str (lit "CloseSquare")
  | .element e => .obj [(lit "Element", element e)]
  | .pipe => .str (lit "Pipe")
  | .comma => .str (lit "Comma")
  | .comment s => .obj [(lit "Comment", .str s)]

/-! ## Reading a type from JSON (`none` is an error)

`depth` is `serde_json`'s `remaining_depth`: it is lowered at each `[` and `{`, and reaching 0 is the error "recursion limit exceeded". -/

/-- `String`. -/
def readStr : Json → Option Str
  | .str s => some s
  | _ => none

/-- `Option<String>`. -/
def readOptional : Json → Option (Option Str)
  | .null => some none
  | .str s => some (some s)
  | _ => none

/-- `Element`: an array of exactly three items. -/
def readElement (depth : Nat) : Json → Option Element
  | .arr [t, n, l] => if depth - 1 = 0 then none else do return ⟨← readStr t, ← readOptional n, ← readOptional l⟩
  | _ => none

/-- The value of a struct field: it must be there exactly once; fields of other names are skipped. -/
def field (name : Str) (members : List (Str × Json)) : Option Json :=
  match members.filter (fun m => m.1 = name) with
  | [m] => some m.2
  | _ => none

/-- The fields of a struct: from an object by name, or from an array by position. -/
def fields (depth : Nat) (names : List Str) : Json → Option (List Json)
  | .obj members => if depth - 1 = 0 then none else names.mapM (fun n => field n members)
  | .arr items => if depth - 1 = 0 then none else if items.length = names.length then some items else none
  | _ => none

/-- The variant of an enum and its content: an object with exactly one member. -/
def variant (depth : Nat) : Json → Option (Str × Json)
  | .obj [m] => if depth - 1 = 0 then none else some m
  | _ => none

/-- `Entry`. -/
def readEntry (depth : Nat) (j : Json) : Option Entry :=
  match variant depth j with
  | none => none
  | some (name, content) =>
    if name = lit "Role" then
      match fields (depth - 1) [lit "first", lit "second", lit "role"] content with
      | some [f, s, r] => do return .role (← readElement (depth - 2) f) (← readElement (depth - 2) s) (← readElement (depth - 2) r)
      | _ => none
    else if name = lit "Extends" then
      match fields (depth - 1) [lit "element", lit "concept"] content with
      | some [e, c] => do return .ext (← readElement (depth - 2) e) (← readElement (depth - 2) c)
      | _ => none
    else if name = lit "NotExtends" then
      match fields (depth - 1) [lit "element", lit "concept"] content with
      | some [e, c] => do return .notExt (← readElement (depth - 2) e) (← readElement (depth - 2) c)
      | _ => none
    else none

/-- `BTreeSet<Entry>`: the items are inserted one by one. -/
def readNetwork (depth : Nat) : Json → Option Network
  | .arr items => if depth - 1 = 0 then none else (items.mapM (readEntry (depth - 1))).map BSet.ofList
  | _ => none

mutual
/-- `WanderValue`. -/
def readValue (depth : Nat) : Json → Option Value
  | .obj [(name, content)] =>
    if depth - 1 = 0 then none
    else if name = lit "Element" then (readElement (depth - 1) content).map .element
    else if name = lit "Network" then (readNetwork (depth - 1) content).map .network
    else if name = lit "Quote" then
      match content with
      | .arr items => if depth - 2 = 0 then none else (readValues (depth - 2) items).map .quote
      | _ => none
    else none
  | _ => none
/-- `Vec<WanderValue>`, the items. -/
def readValues (depth : Nat) : List Json → Option (List Value)
  | [] => some []
  | j :: js =>
    match readValue depth j with
    | none => none
    | some v => (readValues depth js).map (v :: ·)
end

/-- `Call`. -/
def readCall (depth : Nat) (j : Json) : Option Call :=
  match fields depth [lit "name", lit "arguments"] j with
  | some [n, .arr items] =>
    if depth - 2 = 0 then none else do return ⟨← readElement (depth - 1) n, ← readValues (depth - 2) items⟩
  | _ => none

/-! ## JSON text: `serde_json::to_string` and `serde_json::from_str` -/

mutual
/-- `serde_json::to_string`: no white space; strings as in `Display`. -/
def text : Json → Str
  | .null => lit "null"
  | .str s => Display.jsonStr s
  | .arr items => '[' :: (textItems items ++ [']'])
  | .obj members => '{' :: (textMembers members ++ ['}'])
  | .other => lit "0"                    -- never written; one of the texts read as this
/-- The items of an array, with commas between them. -/
def textItems : List Json → Str
  | [] => []
  | j :: js => text j ++ (match js with | [] => [] | _ :: _ => [',']) ++ textItems js
/-- The members of an object. -/
def textMembers : List (Str × Json) → Str
  | [] => []
  | (k, j) :: ms => Display.jsonStr k ++ ':' :: text j ++ (match ms with | [] => [] | _ :: _ => [',']) ++ textMembers ms
end

/-- White space between JSON tokens. -/
def skipWs : Str → Str
  | c :: cs => if c = ' ' || c = '\n' || c = '\t' || c = '\r' then skipWs cs else c :: cs
  | [] => []

/-- The value of a hexadecimal digit. -/
def hexVal (c : Char) : Option Nat :=
  if 0x30 ≤ c.toNat && c.toNat ≤ 0x39 then some (c.toNat - 0x30)
  else if 0x61 ≤ c.toNat && c.toNat ≤ 0x66 then some (c.toNat - 0x61 + 10)
  else if 0x41 ≤ c.toNat && c.toNat ≤ 0x46 then some (c.toNat - 0x41 + 10)
  else none

/-- Four hexadecimal digits. -/
def hex4 (a b c d : Char) : Option Nat := do
  return (((← hexVal a) * 16 + (← hexVal b)) * 16 + (← hexVal c)) * 16 + (← hexVal d)

/-- The rest of a string literal after the opening quote: its text (`none` if a `\u` escape of a leading surrogate is not followed by one of
a trailing surrogate, or the other way round) and what follows the closing quote.  Control characters must be escaped. -/
def readString : Str → Option (Option Str × Str)
  | '"' :: rest => some (some [], rest)
  | '\\' :: 'u' :: a :: b :: c :: d :: rest =>
    match hex4 a b c d with
    | none => none
    | some n =>
      if 0xD800 ≤ n && n ≤ 0xDBFF then
        match rest with
        | '\\' :: 'u' :: a' :: b' :: c' :: d' :: rest' =>
          match hex4 a' b' c' d' with
          | none => none
          | some m =>
            if 0xDC00 ≤ m && m ≤ 0xDFFF then
              (readString rest').map fun p => (p.1.map (Char.ofNat (0x10000 + (n - 0xD800) * 0x400 + (m - 0xDC00)) :: ·), p.2)
            else (readString ('\\' :: 'u' :: a' :: b' :: c' :: d' :: rest')).map fun p => (none, p.2)
        | rest => (readString rest).map fun p => (none, p.2)
      else if 0xDC00 ≤ n && n ≤ 0xDFFF then (readString rest).map fun p => (none, p.2)
      else (readString rest).map fun p => (p.1.map (Char.ofNat n :: ·), p.2)
  | '\\' :: e :: rest =>
    match (if e = '"' then some '"' else if e = '\\' then some '\\' else if e = '/' then some '/' else if e = 'b' then some (Char.ofNat 8)
      else if e = 'f' then some (Char.ofNat 12) else if e = 'n' then some '\n' else if e = 'r' then some '\r'
      else if e = 't' then some '\t' else none : Option Char) with
    | none => none
    | some x => (readString rest).map fun p => (p.1.map (x :: ·), p.2)
  | c :: rest =>
    if c = '\\' || c.toNat < 0x20 then none
    else (readString rest).map fun p => (p.1.map (c :: ·), p.2)
  | [] => none

/-- A decimal digit. -/
def isDigit (c : Char) : Bool := 0x30 ≤ c.toNat && c.toNat ≤ 0x39

/-- What follows the digits at the start. -/
def skipDigits : Str → Str
  | c :: rest => if isDigit c then skipDigits rest else c :: rest
  | [] => []

/-- At least one digit (`ignore_decimal`, `ignore_exponent`). -/
def someDigits : Str → Option Str
  | c :: rest => if isDigit c then some (skipDigits rest) else none
  | [] => none

/-- `serde_json`'s `ignore_exponent`, after the letter. -/
def skipExponent : Str → Option Str
  | '+' :: rest => someDigits rest
  | '-' :: rest => someDigits rest
  | rest => someDigits rest

/-- The exponent, if there is one. -/
def maybeExponent : Str → Option Str
  | 'e' :: rest => skipExponent rest
  | 'E' :: rest => skipExponent rest
  | rest => some rest

/-- The fraction, if there is one, and the exponent (`ignore_decimal`). -/
def maybeFraction : Str → Option Str
  | '.' :: rest => (someDigits rest).bind maybeExponent
  | rest => maybeExponent rest

/-- `serde_json`'s `ignore_integer`: a number after its sign.  A zero must not be followed by a digit. -/
def skipNumber : Str → Option Str
  | '0' :: c :: rest => if isDigit c then none else maybeFraction (c :: rest)
  | s => (someDigits s).bind maybeFraction

/-- An object, unless one of the names is no text. -/
def mkObject (members : List (Option Str × Json)) : Json :=
  match members.mapM (fun m => m.1.map (fun k => (k, m.2))) with
  | some ms => .obj ms
  | none => .other

mutual
/-- One JSON value at the start of the text (white space first), and the rest.  `fuel` bounds the number of steps. -/
def readJson : Nat → Str → Option (Json × Str)
  | 0, _ => none
  | fuel + 1, s =>
    match skipWs s with
    | 'n' :: 'u' :: 'l' :: 'l' :: rest => some (.null, rest)
    | 't' :: 'r' :: 'u' :: 'e' :: rest => some (.other, rest)
    | 'f' :: 'a' :: 'l' :: 's' :: 'e' :: rest => some (.other, rest)
    | '"' :: rest => (readString rest).map fun p => (match p.1 with | some t => .str t | none => .other, p.2)
    | '[' :: rest =>
      match skipWs rest with
      | ']' :: rest' => some (.arr [], rest')
      | _ => (readItems fuel rest).map fun p => (.arr p.1, p.2)
    | '{' :: rest =>
      match skipWs rest with
      | '}' :: rest' => some (.obj [], rest')
      | _ => (readMembers fuel rest).map fun p => (mkObject p.1, p.2)
    | '-' :: rest => (skipNumber rest).map fun rest' => (.other, rest')
    | c :: rest => if isDigit c then (skipNumber (c :: rest)).map fun rest' => (.other, rest') else none
    | [] => none
/-- The items of a non-empty array, up to the closing bracket. -/
def readItems : Nat → Str → Option (List Json × Str)
  | 0, _ => none
  | fuel + 1, s =>
    match readJson fuel s with
    | none => none
    | some (j, rest) =>
      match skipWs rest with
      | ',' :: rest' => (readItems fuel rest').map fun p => (j :: p.1, p.2)
      | ']' :: rest' => some ([j], rest')
      | _ => none
/-- The members of a non-empty object, up to the closing brace. -/
def readMembers : Nat → Str → Option (List (Option Str × Json) × Str)
  | 0, _ => none
  | fuel + 1, s =>
    match skipWs s with
    | '"' :: afterQuote =>
      match readString afterQuote with
      | none => none
      | some (k, afterKey) =>
        match skipWs afterKey with
        | ':' :: afterColon =>
          match readJson fuel afterColon with
          | none => none
          | some (j, rest) =>
            match skipWs rest with
            | ',' :: rest' => (readMembers fuel rest').map fun p => ((k, j) :: p.1, p.2)
            | '}' :: rest' => some ([(k, j)], rest')
            | _ => none
        | _ => none
    | _ => none
end

/-- A whole JSON text: one value and nothing but white space after it. -/
def parse (s : Str) : Option Json :=
  match readJson (2 * s.length + 2) s with
  | some (j, rest) => if skipWs rest = [] then some j else none
  | none => none

/-- `serde_json`'s limit (`remaining_depth: 128`). -/
def limit : Nat := 128

/-- `serde_json::to_string(&value)`, `serde_json::from_str::<WanderValue>(text)`, and the same for the other types. -/
def valueToText (v : Value) : Str := text (value v)
def valueOfText (s : Str) : Option Value := (parse s).bind (readValue limit)
def callToText (c : Call) : Str := text (call c)
def callOfText (s : Str) : Option Call := (parse s).bind (readCall limit)
def entryToText (e : Entry) : Str := text (entry e)
def entryOfText (s : Str) : Option Entry := (parse s).bind (readEntry limit)
def elementToText (e : Element) : Str := text (element e)
def elementOfText (s : Str) : Option Element := (parse s).bind (readElement limit)
def tokenToText (t : Token) : Str := text (token t)
def errorToText (message : Str) : Str := text (wanderError message)
def errorOfText (s : Str) : Option Str := (parse s).bind readStr

end Serde

/-- `wander/src/lib.rs:73-77` `impl Hash for WanderValue`: only the variant is fed to the hasher (here: its position). -/
def Value.discriminant : Value → Nat
  | .element _ => 0
  | .quote _ => 1
  | .network _ => 2

/-- `Hash::hash` with any hasher: `feed` is what the hasher does with the variant. -/
def Value.hashWith (feed : Nat → η → η) (v : Value) (h : η) : η := feed v.discriminant h

end Verif
