import Verif.Model.Frontends
/-!
# Model of the JavaScript value handed out by `ligature-wasm`

`ligature-wasm/src/lib.rs:105` and `:114` hand the export and the error to JavaScript with `serde_wasm_bindgen::to_value` (version 0.4,
`ligature-wasm/Cargo.toml:17`).  That crate and the derived `Serialize` implementations are modelled by what they are documented to do: a
string becomes a JavaScript string (UTF-16 code units), a sequence an `Array`, a struct a plain object with its fields in order, a map a
`Map` filled with `set` in iteration order, and a newtype struct what it wraps.
-/
namespace Verif
namespace Wasm

/-- The JavaScript values that occur.  Property names are Rust identifiers. -/
inductive JsVal where
  | str (units : List Nat)
  | arr (items : List JsVal)
  | obj (props : List (Str × JsVal))
  | map (entries : List (List Nat × JsVal))

/-- A character as UTF-16 code units (`JsValue::from_str`). -/
def units (c : Char) : List Nat :=
  if c.toNat < 0x10000 then [c.toNat]
  else [0xD800 + (c.toNat - 0x10000) / 0x400, 0xDC00 + (c.toNat - 0x10000) % 0x400]

/-- A Rust string as a JavaScript string. -/
def jsString (s : Str) : List Nat := s.flatMap units

/-- `Map.prototype.set`: an existing key keeps its place and gets the new value, a new one goes last. -/
def mapSet (k : List Nat) (v : JsVal) : List (List Nat × JsVal) → List (List Nat × JsVal)
  | [] => [(k, v)]
  | (k', v') :: l => if k = k' then (k', v) :: l else (k', v') :: mapSet k v l

/-- `ligature-wasm/src/lib.rs:22-25` `struct NodeResult`, serialized. -/
def nodeJs (key : Str) : JsVal := .obj [(lit "key", .str (jsString key))]

/-- `lib.rs:27-32` `struct EdgeResult`, serialized. -/
def edgeJs (e : Edge) : JsVal :=
  .obj [(lit "key", .str (jsString e.key)), (lit "source", .str (jsString e.source)), (lit "target", .str (jsString e.target))]

/-- `lib.rs:16-20` `struct GraphologyResult`, serialized; a `BTreeSet` is a sequence in its order. -/
def graphJs (g : Graphology) : JsVal :=
  .obj [(lit "nodes", .arr (g.nodes.toList.map nodeJs)), (lit "edges", .arr (g.edges.toList.map edgeJs))]

/-- `lib.rs:105` on the hash map, whose entries come in the order given. -/
def exportJs (order : List (Str × Graphology)) : JsVal :=
  .map (order.foldl (fun m kv => mapSet (jsString kv.1) (graphJs kv.2) m) [])

/-- `lib.rs:108-116` `pub fn run`, with what JavaScript gets.  `iter` is the iteration order of the `HashMap`; `none` is a panic. -/
def runJs (iter : BMap Str Graphology → List (Str × Graphology)) (script : Str) : Option JsVal :=
  match run script with
  | .ok m => some (exportJs (iter m))
  | .err msg => some (.str (jsString msg))
  | .panic => none

end Wasm
end Verif
