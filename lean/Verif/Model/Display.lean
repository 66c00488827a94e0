import Verif.Model.Parser
/-!
# Model of the printing code: `wander/src/lib.rs:84-161`, `ligature/src/lib.rs:27-31`, `lig/src/lib.rs:24-35`
-/
namespace Verif
namespace Display

/-- Lower-case hexadecimal digit, as printed by `serde_json`. -/
def hexDigit (n : Nat) : Char :=
  if n < 10 then Char.ofNat (0x30 + n) else Char.ofNat (0x61 + (n - 10))

/-- How `serde_json` prints one character of a string (its `ESCAPE` table: `"`, `\` and U+0000–U+001F are escaped). -/
def jsonChar (c : Char) : Str :=
  if c = '"' then ['\\', '"']
  else if c = '\\' then ['\\', '\\']
  else if c.toNat = 0x08 then ['\\', 'b']
  else if c.toNat = 0x09 then ['\\', 't']
  else if c.toNat = 0x0A then ['\\', 'n']
  else if c.toNat = 0x0C then ['\\', 'f']
  else if c.toNat = 0x0D then ['\\', 'r']
  else if c.toNat < 0x20 then ['\\', 'u', '0', '0', hexDigit (c.toNat / 16), hexDigit (c.toNat % 16)]
  else [c]

/-- The body of a JSON string literal. -/
def jsonBody (s : Str) : Str := s.flatMap jsonChar

/-- `json!(s).to_string()` for a string `s` (used in `ligature/src/lib.rs:29` and `wander/src/lib.rs:155`). -/
def jsonStr (s : Str) : Str := '"' :: (jsonBody s ++ ['"'])

/-- `ligature/src/lib.rs:27-31` `Display for Element`: only the first field is printed. -/
def element (e : Element) : Str := jsonStr e.text

/-- One entry as printed by `write_network` (`wander/src/lib.rs:105-130`). -/
def entry : Entry → Str
  | .role first second role => element first ++ lit " " ++ element role ++ lit " " ++ element second
  | .ext e c => element e ++ lit " : " ++ element c
  | .notExt e c => element e ++ lit " ¬: " ++ element c

/-- The loop of `write_network` (`wander/src/lib.rs:103-131`): the counter `i` reaches `contents.len()` exactly at the last entry,
so `", "` is written after every entry but the last. -/
def entries : List Entry → Str
  | [] => []
  | [e] => entry e
  | e :: es => entry e ++ lit ", " ++ entries es

/-- `wander/src/lib.rs:98-134` `fn write_network`. -/
def network (n : Network) : Str := lit "{" ++ entries n.toList ++ lit "}"

mutual
/-- `wander/src/lib.rs:151-161` `Display for WanderValue`. -/
def value : Value → Str
  | .element e => jsonStr e.text
  | .network n => network n
  | .quote vs => lit "(" ++ values vs ++ lit ")"
/-- The loop of `write_quote` (`wander/src/lib.rs:141-147`): a space after every value but the last. -/
def values : List Value → Str
  | [] => []
  | v :: vs => value v ++ (match vs with | [] => [] | _ :: _ => lit " ") ++ values vs
end

/-- `str::replace(char, &str)`. -/
def replaceChar (c : Char) (by_ : Str) (s : Str) : Str := s.flatMap (fun x => if x = c then by_ else [x])

/-- `wander/src/lib.rs:84-96` `pub fn write_string` (identical in `lig/src/lib.rs:24-35`). -/
def writeString (s : Str) : Str :=
  let e := replaceChar '\\' (lit "\\\\") s
  let e := replaceChar '"' (lit "\\\"") e
  let e := replaceChar '\n' (lit "\\n") e
  let e := replaceChar '\r' (lit "\\r") e
  let e := replaceChar '\t' (lit "\\t") e
  lit "\"" ++ e ++ lit "\""

end Display
end Verif
