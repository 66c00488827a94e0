import Verif.Base.Res
/-!
# Model of the `ligature` crate: data model and store interface
-/
namespace Verif

/-- `ligature/src/lib.rs:23-25` `struct Element(pub String, pub Option<Namespace>, pub Option<LangTag>)`.
The newtypes `Namespace(String)` and `LangTag(String)` (lines 15-21) are erased to `Str`. -/
structure Element where
  /-- field `.0` -/
  text : Str
  /-- field `.1` -/
  ns : Option Str := none
  /-- field `.2` -/
  lang : Option Str := none
deriving DecidableEq, Repr

/-- The one-argument construction `Element(s)` used by every other crate; read as `Element(s, None, None)`
(see DESIGN.md, the pinned commit's constructor arity mismatch). -/
abbrev Element.of (s : Str) : Element := { text := s }

/-- Derived `Ord` of `Element` (`ligature/src/lib.rs:24`): lexicographic in field order. -/
instance : SOrd Element :=
  SOrd.comap (fun e => (e.text, e.ns, e.lang)) (by
    intro a b h; cases a; cases b; simp_all)

/-- `ligature/src/lib.rs:33-59` `enum Entry`. -/
inductive Entry where
  /-- `Entry::Role { first, second, role }` -/
  | role (first second role : Element)
  /-- `Entry::Extends { element, concept }` -/
  | ext (element concept : Element)
  /-- `Entry::NotExtends { element, concept }` -/
  | notExt (element concept : Element)
deriving DecidableEq, Repr

/-- Variant index and fields in declaration order: the lexicographic key of the derived `Ord`. -/
def Entry.key : Entry → Nat × Element × Element × Option Element
  | .role f s r => (0, f, s, some r)
  | .ext e c => (1, e, c, none)
  | .notExt e c => (2, e, c, none)

/-- Derived `Ord` of `Entry` (`ligature/src/lib.rs:34`): by variant, then fields in declaration order. -/
instance : SOrd Entry :=
  SOrd.comap Entry.key (by
    intro a b h; cases a <;> cases b <;> simp_all [Entry.key])

/-- A network: `BTreeSet<Entry>`. -/
abbrev Network := BSet Entry

/-- `ligature/src/lib.rs:66-109` `trait Ligature`, as a record of operations on a state `σ`.
`LigatureError(String)` is the message of `Res.err`.  `add_entries`/`remove_entries` also return the caller's set
(an `&mut` parameter) after the call. -/
structure LigOps (σ : Type u) where
  collections : σ → Res (List Element)
  addCollection : σ → Element → Res Unit × σ
  removeCollection : σ → Element → Res Unit × σ
  entries : σ → Element → Res Network
  addEntries : σ → Element → Network → Res Unit × σ × Network
  removeEntries : σ → Element → Network → Res Unit × σ × Network
  filter : σ → Element → Entry → Res Network

end Verif
