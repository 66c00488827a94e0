import Verif.Model.Ligature
import Verif.Spec.Store
/-!
# Specification of the graph layer

What `trait Ligature` (`ligature/src/lib.rs:66-109`) promises, stated on entries and without reference to triples:
a partial map from collection names to sets of entries.
-/
namespace Verif
namespace Spec

/-- An element without namespace and language tag. -/
def plain (e : Element) : Element := ⟨e.text, none, none⟩

/-- Parser form of an entry: tags dropped, and a role entry whose role is `:` or `¬:` read as the entry that spelling denotes. -/
def canon : Entry → Entry
  | .ext e c => .ext (plain e) (plain c)
  | .notExt e c => .notExt (plain e) (plain c)
  | .role f s r =>
    if r.text = lit ":" then .ext (plain f) (plain s)
    else if r.text = lit "¬:" then .notExt (plain f) (plain s)
    else .role (plain f) (plain s) (plain r)

/-- Subject, role and object as texts (`:` and `¬:` for the two kinds of extends entries). -/
def parts : Entry → Str × Str × Str
  | .ext e c => (e.text, lit ":", c.text)
  | .notExt e c => (e.text, lit "¬:", c.text)
  | .role f s r => (f.text, r.text, s.text)

/-- An entry as the Wander parser builds them. -/
def ParserForm (e : Entry) : Prop := canon e = e

/-- A pattern text against a text: `?` matches anything. -/
def TextMatches (p x : Str) : Prop := p = lit "?" ∨ p = x

/-- A pattern entry against an entry, part by part. -/
def EntryMatches (p e : Entry) : Prop :=
  TextMatches (parts p).1 (parts e).1 ∧ TextMatches (parts p).2.1 (parts e).2.1 ∧ TextMatches (parts p).2.2 (parts e).2.2

/-- A text is a named variable: `?` followed by at least one more character. -/
def IsVar (x : Str) : Prop := ∃ c cs, x = '?' :: c :: cs

/-- A pattern without named variables. -/
def NoNamedVars (p : Entry) : Prop := ¬ IsVar (parts p).1 ∧ ¬ IsVar (parts p).2.1 ∧ ¬ IsVar (parts p).2.2

/-- A collection is present, holding exactly the entries satisfying the predicate, or absent. -/
abbrev EWorld := Str → Option (Entry → Prop)

/-- The updating operations of the graph layer. -/
inductive EOp where
  | addCollection (c : Element)
  | removeCollection (c : Element)
  | addEntries (c : Element) (es : Network)
  | removeEntries (c : Element) (es : Network)

def EWorld.set (w : EWorld) (c : Str) (v : Option (Entry → Prop)) : EWorld := fun d => if d = c then v else w d

/-- What each operation does; collections are named by text alone, entries are kept in parser form. -/
def applyE (clears : Bool) (w : EWorld) : EOp → EWorld
  | .addCollection c =>
    match w c.text with
    | none => w.set c.text (some fun _ => False)
    | some _ => if clears then w.set c.text (some fun _ => False) else w
  | .removeCollection c => w.set c.text none
  | .addEntries c es =>
    match w c.text with
    | none => w
    | some p => w.set c.text (some fun e => p e ∨ ∃ x ∈ es, canon x = e)
  | .removeEntries c es =>
    match w c.text with
    | none => w
    | some p => w.set c.text (some fun e => p e ∧ ¬ ∃ x ∈ es, canon x = e)

abbrev EEvent := EOp × Res Unit

/-- One event: only operations acknowledged with `Ok` count. -/
def applyEEvent (clears : Bool) (w : EWorld) (e : EEvent) : EWorld :=
  match e.2 with
  | .ok _ => applyE clears w e.1
  | _ => w

/-- The world after a history, oldest event first. -/
def eworldAfter (clears : Bool) (h : List EEvent) : EWorld := h.foldl (applyEEvent clears) (fun _ => none)

/-- Run one operation on an implementation of the `Ligature` interface. -/
def execE (L : LigOps σ) (s : σ) : EOp → Res Unit × σ
  | .addCollection c => L.addCollection s c
  | .removeCollection c => L.removeCollection s c
  | .addEntries c es => let r := L.addEntries s c es; (r.1, r.2.1)
  | .removeEntries c es => let r := L.removeEntries s c es; (r.1, r.2.1)

/-- Run a list of operations, going on after errors and (caught) panics. -/
def runEOps (L : LigOps σ) (s : σ) : List EOp → List EEvent × σ
  | [] => ([], s)
  | op :: ops =>
    let r := execE L s op
    let rest := runEOps L r.2 ops
    ((op, r.1) :: rest.1, rest.2)

/-- The answers of the graph are those of the world: the listing names (without tags) exactly the present collections, each
once, and reading a present collection, by a name with any tags, returns exactly its entries. -/
def AgreesE (L : LigOps σ) (s : σ) (w : EWorld) : Prop :=
  (∃ l : List Str, L.collections s = .ok (l.map Element.of) ∧ l.Nodup ∧ ∀ c, c ∈ l ↔ (w c).isSome) ∧
  (∀ (c : Element) p, w c.text = some p → ∃ es, L.entries s c = .ok es ∧ ∀ e, e ∈ es ↔ p e)

/-! ## Query patterns with variables (C38) -/

/-- A slot filled in by an assignment equals the text. -/
def SlotInst (ρ : Str → Str) : Slot → Str → Prop
  | .any, _ => True
  | .val v, x => v = x
  | .var v, x => ρ v = x

/-- The triple is the query with its variables replaced by their values. -/
def Inst (ρ : Str → Str) (q : Query) (t : Trip) : Prop :=
  SlotInst ρ q.fst t.fst ∧ SlotInst ρ q.snd t.snd ∧ SlotInst ρ q.thd t.thd

/-- The variable occurs in the query. -/
def Occurs (v : Str) (q : Query) : Prop := q.fst = .var v ∨ q.snd = .var v ∨ q.thd = .var v

end Spec
end Verif
