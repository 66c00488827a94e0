import Verif.Proofs.Mem
/-!
# C27: the in-memory store behaves like a map from names to sets

`Spec.worldAfter true events` is the plain map updated by the history; `true` because `TripsMem::add_collection` empties an
existing collection (see C28).
-/
namespace Verif
namespace Props
open Spec

/-- A sample history used in the examples. -/
def sampleTrip : Trip := ⟨lit "a", lit "r", lit "b"⟩
def sampleTrip2 : Trip := ⟨lit "a", lit ":", lit "c"⟩
def sampleSet : BSet Trip := BSet.ofList [sampleTrip, sampleTrip2]
def sampleOps : List Op :=
  [.addCollection (lit "T"), .addTriples (lit "T") sampleSet, .addCollection (lit "S"),
   .removeTriples (lit "T") (BSet.ofList [sampleTrip2]), .addTriples (lit "U") sampleSet]

/-- C27: after any history of operations (with any outcomes) on a fresh in-memory store, the listing and the contents are those of
the plain map updated by the acknowledged operations. -/
theorem C27_mem_refines_map (l : List Op) :
    Agrees Mem.ops (runOps Mem.ops Mem.new l).2 (worldAfter true (runOps Mem.ops Mem.new l).1) := by
  rw [← Mem.world_runOps]; exact Mem.agrees _

example : (runOps Mem.ops Mem.new sampleOps).1.map Prod.snd = [.ok (), .ok (), .ok (), .ok (), .panic] ∧
    Mem.ops.triples (runOps Mem.ops Mem.new sampleOps).2 (lit "T") = .ok (BSet.ofList [sampleTrip]) := by decide +kernel

/-- C27: reading or filtering a collection the map does not have is an error, never a panic; reading names the collection, filtering does
not. -/
theorem C27_mem_missing_is_error (l : List Op) (c : Str) (q : Query)
    (h : worldAfter true (runOps Mem.ops Mem.new l).1 c = none) :
    Mem.ops.triples (runOps Mem.ops Mem.new l).2 c = .err (lit "Collection `" ++ c ++ lit "` not found.") ∧
    Mem.ops.filter (runOps Mem.ops Mem.new l).2 c q = .err (lit "Collection not found.") := by
  rw [← Mem.world_runOps] at h
  generalize (runOps Mem.ops Mem.new l).2 = s at *
  have h := Mem.world_none.mp h
  exact ⟨by simp only [Mem.ops, Mem.triples, h], by simp only [Mem.ops, Mem.filter, h]⟩

example : worldAfter true (runOps Mem.ops Mem.new sampleOps).1 (lit "U") = none := by
  have h : (AddedNotRemoved (runOps Mem.ops Mem.new sampleOps).1 (lit "U")) → False := by
    rintro ⟨b, a, h, _⟩
    have : (Op.addCollection (lit "U"), Res.ok ()) ∈ (runOps Mem.ops Mem.new sampleOps).1 := by rw [h]; simp
    simp only [sampleOps, runOps, List.mem_cons, Prod.mk.injEq, Op.addCollection.injEq, reduceCtorEq, false_and, List.not_mem_nil,
      or_false, false_or] at this
    rcases this with ⟨h, _⟩ | ⟨h, _⟩ <;> exact absurd h (by decide)
  rw [← worldAfter_isSome true] at h
  simpa using h

/-- C27: which operations are acknowledged: collection operations always, writing exactly when the collection exists. -/
theorem C27_mem_outcomes (l : List Op) (op : Op) :
    (exec Mem.ops (runOps Mem.ops Mem.new l).2 op).1 = match op with
      | .addCollection _ | .removeCollection _ => .ok ()
      | .addTriples c _ | .removeTriples c _ =>
        if (worldAfter true (runOps Mem.ops Mem.new l).1 c).isSome then .ok () else .panic := by
  rw [← Mem.world_runOps]
  generalize (runOps Mem.ops Mem.new l).2 = s
  cases op with
  | addCollection c => rfl
  | removeCollection c => rfl
  | addTriples c ts =>
    simp only [exec, Mem.ops, Mem.addTriples, Mem.world, Option.isSome_map]
    cases s.colls.get? c <;> rfl
  | removeTriples c ts =>
    simp only [exec, Mem.ops, Mem.removeTriples, Mem.world, Option.isSome_map]
    cases s.colls.get? c <;> rfl

/-- C27: `filter` with a query without named variables returns exactly the stored triples that match. -/
theorem C27_mem_filter (l : List Op) (c : Str) (q : Query) (hq : NoVars q) (p : Trip → Prop)
    (h : worldAfter true (runOps Mem.ops Mem.new l).1 c = some p) :
    ∃ ts, Mem.ops.filter (runOps Mem.ops Mem.new l).2 c q = .ok ts ∧ ∀ t, t ∈ ts ↔ p t ∧ QueryMatches q t := by
  rw [← Mem.world_runOps] at h
  generalize (runOps Mem.ops Mem.new l).2 = s at *
  obtain ⟨S, hS, rfl⟩ := Mem.world_some.mp h
  obtain ⟨r, hr, hr'⟩ := Mem.filterLoop_novars q hq S.toList ∅
  refine ⟨r, by simp only [Mem.ops, Mem.filter, hS, hr], fun t => ?_⟩
  rw [hr']; simp [BSet.mem_def]

example : NoVars ⟨.any, .val (lit "r"), .any⟩ ∧
    Mem.ops.filter (runOps Mem.ops Mem.new sampleOps).2 (lit "T") ⟨.any, .val (lit "r"), .any⟩ =
      .ok (BSet.ofList [sampleTrip]) := ⟨by simp [NoVars], by decide +kernel⟩

end Props
end Verif
