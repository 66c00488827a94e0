import Verif.Model.JsValue
import Verif.Spec.Graph
import Verif.Spec.Order
/-!
# Specification of what a web page sees
-/
namespace Verif
namespace Spec
open Wasm (JsVal)

/-- A JavaScript string spells a text: each character is one code unit, or a high and a low surrogate. -/
inductive Spells : List Nat → Str → Prop where
  | nil : Spells [] []
  | one {c us s} : c.toNat < 0x10000 → Spells us s → Spells (c.toNat :: us) (c :: s)
  | pair {c h l us s} : c.toNat = 0x10000 + 0x400 * h + l → h < 0x400 → l < 0x400 → Spells us s → Spells ((0xD800 + h) :: (0xDC00 + l) :: us) (c :: s)

/-- A JavaScript value is the string that spells a text. -/
def IsText (v : JsVal) (s : Str) : Prop := ∃ us, v = .str us ∧ Spells us s

/-- `Map.prototype.get` with a string. -/
def mapGet (k : List Nat) : List (List Nat × JsVal) → Option JsVal
  | [] => none
  | (k', v) :: l => if k = k' then some v else mapGet k l

/-- A node of a drawing. -/
def IsNode (v : JsVal) (x : Str) : Prop := ∃ k, v = .obj [(lit "key", k)] ∧ IsText k x

/-- An edge of a drawing: label, source, target. -/
def IsEdge (v : JsVal) (e : Str × Str × Str) : Prop :=
  ∃ k s t, v = .obj [(lit "key", k), (lit "source", s), (lit "target", t)] ∧ IsText k e.1 ∧ IsText s e.2.1 ∧ IsText t e.2.2

/-- The order of the edges: by label, then source, then target. -/
def EdgeLt (a b : Str × Str × Str) : Prop :=
  TextLt a.1 b.1 ∨ (a.1 = b.1 ∧ (TextLt a.2.1 b.2.1 ∨ (a.2.1 = b.2.1 ∧ TextLt a.2.2 b.2.2)))

/-- Two lists have the same length and are related item by item. -/
inductive Each {α : Type u} {β : Type v} (r : α → β → Prop) : List α → List β → Prop where
  | nil : Each r [] []
  | cons {a b l m} : r a b → Each r l m → Each r (a :: l) (b :: m)

/-- A JavaScript value draws a network: an object with an array of nodes, one for each text that is subject or object of an entry, and an
array of edges, one for each subject, role and object of an entry, both without repetitions and in order. -/
def Draws (v : JsVal) (n : Network) : Prop :=
  ∃ (ns es : List JsVal) (nodes : List Str) (edges : List (Str × Str × Str)),
    v = .obj [(lit "nodes", .arr ns), (lit "edges", .arr es)] ∧ Each IsNode ns nodes ∧ Each IsEdge es edges ∧
    nodes.Pairwise TextLt ∧ edges.Pairwise EdgeLt ∧
    (∀ x, x ∈ nodes ↔ ∃ e ∈ n, x = (parts e).1 ∨ x = (parts e).2.2) ∧
    (∀ k s t, (k, s, t) ∈ edges ↔ ∃ e ∈ n, parts e = (s, k, t))

/-- Two values a page cannot tell apart except by the order in which a `Map` lists its keys. -/
def SameToPage : JsVal → JsVal → Prop
  | .map m, .map m' => ∀ k, mapGet k m = mapGet k m'
  | v, v' => v = v'

end Spec
end Verif
