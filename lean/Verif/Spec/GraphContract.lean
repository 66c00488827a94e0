import Verif.Spec.Graph
/-!
# The documented contract of `trait Ligature` (`ligature/src/lib.rs:64-101`)

Each clause is stated for an arbitrary implementation `L` with fresh state `new`, over all histories: `s` is the state after any list
of updates.  Collections are named by the text of the element.
-/
namespace Verif
namespace Spec

/-- The interface lists a collection with the text. -/
def ListedE (L : LigOps σ) (s : σ) (c : Str) : Prop := ∃ l, L.collections s = .ok l ∧ ∃ e ∈ l, e.text = c

/-- Every question about the contents has the same answer in both states. -/
def SameAnswersE (L : LigOps σ) (s s' : σ) : Prop :=
  L.collections s' = L.collections s ∧ ∀ c, L.entries s' c = L.entries s c

/-- `add_collection` (lines 69-71): "Does nothing if Dataset already exists." -/
def AddExistingIsNoopE (L : LigOps σ) (new : σ) : Prop :=
  ∀ (l : List EOp) (c : Element), let s := (runEOps L new l).2
    ListedE L s c.text → (L.addCollection s c).1 = .ok () ∧ SameAnswersE L s (L.addCollection s c).2

/-- `remove_collection` (lines 73-75): "Does nothing if Dataset doesn't exist." -/
def RemoveMissingIsNoopE (L : LigOps σ) (new : σ) : Prop :=
  ∀ (l : List EOp) (c : Element), let s := (runEOps L new l).2
    ¬ ListedE L s c.text → (L.removeCollection s c).1 = .ok () ∧ SameAnswersE L s (L.removeCollection s c).2

/-- `add_entries`, `remove_entries` (lines 80-95): "Returns Error if Dataset doesn't exist." -/
def WriteMissingIsErrorE (L : LigOps σ) (new : σ) : Prop :=
  ∀ (l : List EOp) (c : Element) (es : Network), let s := (runEOps L new l).2
    ¬ ListedE L s c.text →
      ((∃ m, (L.addEntries s c es).1 = .err m) ∧ SameAnswersE L s (L.addEntries s c es).2.1) ∧
      ((∃ m, (L.removeEntries s c es).1 = .err m) ∧ SameAnswersE L s (L.removeEntries s c es).2.1)

/-- `add_entries` (line 82): "Does nothing if Statement already exists in Dataset." -/
def AddPresentIsNoopE (L : LigOps σ) (new : σ) : Prop :=
  ∀ (l : List EOp) (c : Element) (es held : Network), let s := (runEOps L new l).2
    ListedE L s c.text → L.entries s c = .ok held → (∀ e ∈ es, e ∈ held) →
      (L.addEntries s c es).1 = .ok () ∧ SameAnswersE L s (L.addEntries s c es).2.1

/-- `remove_entries` (line 90): "Does nothing if Statement doesn't exist in Dataset."  An entry in another spelling (role `:`, or with
tags) counts as the entry it is stored as. -/
def RemoveAbsentIsNoopE (L : LigOps σ) (new : σ) : Prop :=
  ∀ (l : List EOp) (c : Element) (es held : Network), let s := (runEOps L new l).2
    ListedE L s c.text → L.entries s c = .ok held → (∀ e ∈ es, canon e ∉ held) →
      (L.removeEntries s c es).1 = .ok () ∧ SameAnswersE L s (L.removeEntries s c es).2.1

/-- How many identifiers an update can use up in a store that numbers texts. -/
def EOp.cost : EOp → Nat
  | .addEntries _ es => 3 * es.toList.length
  | _ => 1

/-- The text was the subject, role or object of an entry added by an acknowledged `add_entries` of the history. -/
def WrittenBy (h : List EEvent) (v : Str) : Prop :=
  ∃ c es, (EOp.addEntries c es, Res.ok ()) ∈ h ∧ ∃ e ∈ es, v = (parts e).1 ∨ v = (parts e).2.1 ∨ v = (parts e).2.2

end Spec
end Verif
