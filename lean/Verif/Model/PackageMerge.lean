import Verif.Base.Res
/-!
# Model of `ligature-wasm/merge_template.ts` (the script that prepares the npm package)

The script reads `template_package.json` and `pkg/package.json`, copies every member of the first into the second and writes the second
back.  JavaScript's own JSON reader and writer are a parameter (`Codec`); what is assumed of them is stated where it is used.
Simplification: both texts hold an object (`wasm-pack` always writes one); a text holding anything else counts as unreadable.
-/
namespace Verif
namespace Pkg

/-- A value as `JSON.parse` returns it; a number is given by the text JavaScript writes it as. -/
inductive JVal where
  | null
  | bool (b : Bool)
  | num (text : Str)
  | str (s : Str)
  | arr (items : List JVal)
  | obj (members : List (Str × JVal))

/-- An object: its own properties in the order they were made. -/
abbrev Obj := List (Str × JVal)

/-- `JSON.parse(text)` (lines 5-6; `none` is an exception) and `JSON.stringify(object, null, 2)` (line 11). -/
structure Codec where
  parse : Str → Option Obj
  print : Obj → Str

/-- The number a name is the canonical decimal of. -/
def decimal (k : Str) : Option Nat :=
  if k = lit "0" then some 0
  else if k ≠ [] ∧ k.head? ≠ some '0' ∧ k.all (fun c => 0x30 ≤ c.toNat && c.toNat ≤ 0x39) then
    some (k.foldl (fun n c => 10 * n + (c.toNat - 0x30)) 0)
  else none

/-- Whether JavaScript treats the name as an array index, and which. -/
def index (k : Str) : Option Nat :=
  match decimal k with
  | some n => if n < 2 ^ 32 - 1 then some n else none
  | none => none

/-- Put a property with an index among others, in ascending order. -/
def place (p : Str × JVal) : Obj → Obj
  | [] => [p]
  | q :: o => if (index p.1).getD 0 ≤ (index q.1).getD 0 then p :: q :: o else q :: place p o

/-- The order in which `for (key in object)` (line 8) and `JSON.stringify` (line 11) go through an object: the indexes ascending, then
the other names in the order they were made. -/
def enumerate (o : Obj) : Obj :=
  (o.filter fun p => (index p.1).isSome).foldr place [] ++ o.filter fun p => (index p.1).isNone

/-- `packagejson[key] = value` (line 9): an existing property is changed, otherwise one is made — except that without a property
of that name, assigning to `__proto__` changes the prototype, which is not written out. -/
def assign (o : Obj) (key : Str) (value : JVal) : Obj :=
  if o.any (fun p => p.1 = key) then o.map fun p => if p.1 = key then (key, value) else p
  else if key = lit "__proto__" then o
  else o ++ [(key, value)]

/-- The loop (lines 8-10). -/
def merge (template package : Obj) : Obj :=
  (enumerate template).foldl (fun o p => assign o p.1 p.2) package

/-- What is found at a path. -/
inductive Found where
  | missing
  | unreadable
  | text (s : Str)

/-- The two files. -/
structure Files where
  template : Found
  package : Found

inductive Outcome where
  | noPackage                            -- line 13
  | failed                               -- an exception: the script ends
  | written
deriving DecidableEq

/-- `JSON.parse(await Deno.readTextFile(path))`. -/
def readObject (c : Codec) : Found → Option Obj
  | .text s => c.parse s
  | _ => none

/-- The script (lines 4-14) with the files afterwards, and the files a crash can leave: `Deno.writeTextFile` empties the file and then writes. -/
def script (c : Codec) (fs : Files) : Outcome × Files × (Files → Prop) :=
  match fs.package with
  | .missing => (.noPackage, fs, fun g => g = fs)
  | _ =>
    match readObject c fs.template with
    | none => (.failed, fs, fun g => g = fs)
    | some template =>
      match readObject c fs.package with
      | none => (.failed, fs, fun g => g = fs)
      | some package =>
        let out := c.print (enumerate (merge template package))
        (.written, { fs with package := .text out }, fun g => g = fs ∨ ∃ n, g = { fs with package := .text (out.take n) })

/-- `ligature-wasm/template_package.json:1-15`. -/
def template : Obj := [
  (lit "name", .str (lit "@ligature/ligature")),
  (lit "version", .str (lit "0.2.0")),
  (lit "private", .bool true),
  (lit "type", .str (lit "module")),
  (lit "license", .str (lit "MPL-2.0")),
  (lit "homepage", .str (lit "https://github.com/almibe/ligature-rs")),
  (lit "repository", .obj [(lit "type", .str (lit "git")), (lit "url", .str (lit "https://github.com/almibe/ligature-rs.git"))]),
  (lit "collaborators", .arr [.str (lit "Alex Michael Berry <alexmiberry@gmail.com>")])]

end Pkg
end Verif
