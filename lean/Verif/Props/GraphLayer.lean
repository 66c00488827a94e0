import Verif.Proofs.Graph
import Verif.Proofs.Match
/-!
# C35–C38: the graph layer and query patterns
-/
namespace Verif
namespace Props
open Spec

/-! ## C35: storing entries and reading them back -/

/-- C35, over the in-memory store: after any history of graph operations the listing and the entries are those of the plain map
from names to sets of entries in parser form (`Spec.applyE`), updated by the acknowledged operations. -/
theorem C35_mem (l : List EOp) :
    AgreesE Graph.memOps (runEOps Graph.memOps Graph.memNew l).2 (eworldAfter true (runEOps Graph.memOps Graph.memNew l).1) := by
  have := Graph.runEOps_spec mem_refines l Graph.memNew trivial (fun _ _ => trivial) (fun _ => none)
    (by rw [show Mem.world Graph.memNew = _ from Mem.world_new]; rfl)
  rw [eworldAfter]
  show AgreesE (Graph.ops Mem.ops) _ _
  rw [show Graph.memOps = Graph.ops Mem.ops from rfl, ← this.2]
  exact Graph.agreesE (Mem.agrees _)

/-- C35, over the LMDB store, with legal collection names. -/
theorem C35_heed (l : List EOp) (hl : ∀ c, EOp.addCollection c ∈ l → Heed.lmdbKey c.text = true) :
    AgreesE (Graph.ops Heed.ops) (runEOps (Graph.ops Heed.ops) Heed.new l).2
      (eworldAfter false (runEOps (Graph.ops Heed.ops) Heed.new l).1) := by
  have := Graph.runEOps_spec heed_refines l Heed.new Heed.good_new
    (fun op hop => by
      cases op with
      | addCollection c => exact hl c hop
      | _ => trivial) (fun _ => none)
    (by rw [Heed.worldOf_new]; rfl)
  rw [eworldAfter, ← this.2]
  exact Graph.agreesE (heed_agrees this.1)

/-- C35, over the DuckDB store. -/
theorem C35_duck (l : List EOp) :
    AgreesE (Graph.ops Duck.ops) (runEOps (Graph.ops Duck.ops) Duck.new l).2
      (eworldAfter false (runEOps (Graph.ops Duck.ops) Duck.new l).1) := by
  have hw : Duck.world Duck.new = emptyWorld := (Duck.rel_runOps []).2
  have := Graph.runEOps_spec duck_refines l Duck.new (duck_inv []) (fun _ _ => trivial) (fun _ => none)
    (by rw [hw]; rfl)
  rw [eworldAfter, ← this.2]
  exact Graph.agreesE (Duck.agrees this.1)

/-- C35: what parser form means.  An entry comes back unchanged exactly if it has no tags and is not a role entry with role `:` or
`¬:`; bringing to parser form never changes subject, role or object text. -/
theorem C35_parser_form (e : Entry) :
    (ParserForm e ↔ match e with
      | .ext a b | .notExt a b => a.ns = none ∧ a.lang = none ∧ b.ns = none ∧ b.lang = none
      | .role a b r => a.ns = none ∧ a.lang = none ∧ b.ns = none ∧ b.lang = none ∧ r.ns = none ∧ r.lang = none ∧
          r.text ≠ lit ":" ∧ r.text ≠ lit "¬:") ∧
    ParserForm (canon e) ∧ parts (canon e) = parts e := by
  have hp : ∀ a : Element, plain a = a ↔ a.ns = none ∧ a.lang = none := by
    intro a; cases a; simp [plain, eq_comm]
  refine ⟨?_, ?_, ?_⟩
  · cases e with
    | ext a b => simp [ParserForm, canon, hp, and_assoc]
    | notExt a b => simp [ParserForm, canon, hp, and_assoc]
    | role a b r =>
      simp only [ParserForm, canon]
      split
      · simp_all
      · split
        · simp_all
        · simp_all [and_assoc]
  · rw [Graph.canon_eq]; exact Graph.parserForm_trip _
  · rw [Graph.canon_eq, Graph.parts_tripToEntry, Graph.parts_entryToTrip]

/-- A tagged entry and a role entry with role `:` used in the examples. -/
def sampleNet : Network :=
  BSet.ofList [.role (.of (lit "a")) (.of (lit "b")) (.of (lit "r")), .role (.of (lit "a")) (.of (lit "b")) (.of (lit ":")),
    .ext ⟨lit "a", some (lit "ns"), none⟩ (.of (lit "c")), .notExt (.of (lit "d")) (.of (lit "e"))]
def sampleEOps : List EOp :=
  [.addCollection (.of (lit "T")), .addEntries (.of (lit "T")) sampleNet,
   .removeEntries (.of (lit "T")) (BSet.ofList [.notExt (.of (lit "d")) (.of (lit "e"))])]

example : (runEOps Graph.memOps Graph.memNew sampleEOps).1.map Prod.snd = [.ok (), .ok (), .ok ()] ∧
    Graph.memOps.entries (runEOps Graph.memOps Graph.memNew sampleEOps).2 ⟨lit "T", some (lit "x"), none⟩ =
      .ok (BSet.ofList [.role (.of (lit "a")) (.of (lit "b")) (.of (lit "r")), .ext (.of (lit "a")) (.of (lit "b")),
        .ext (.of (lit "a")) (.of (lit "c"))]) := by decide +kernel

example : ∀ c, EOp.addCollection c ∈ sampleEOps → Heed.lmdbKey c.text = true := by
  intro c h; simp [sampleEOps] at h; subst h; decide
example : (runEOps (Graph.ops Heed.ops) Heed.new sampleEOps).1.map Prod.snd = [.ok (), .ok (), .ok ()] := by decide +kernel

/-! ## C36: filter agrees with entries -/

/-- C36: with a pattern without named variables, `filter` on an existing collection of any in-memory graph returns exactly the
entries of the collection that match, in the form `entries` reports them. -/
theorem C36_filter_agrees_with_entries (s : Mem) (c : Element) (p : Entry) (hp : NoNamedVars p)
    (hc : Listed Mem.ops s c.text) :
    ∃ all sel, Graph.memOps.entries s c = .ok all ∧ Graph.memOps.filter s c p = .ok sel ∧
      ∀ e, e ∈ sel ↔ e ∈ all ∧ EntryMatches p e := by
  obtain ⟨q, hq⟩ := Option.isSome_iff_exists.mp (((Mem.agrees s).listed c.text).mp hc)
  obtain ⟨S, hS, rfl⟩ := Mem.world_some.mp hq
  obtain ⟨r, hr, hr'⟩ := Mem.filterLoop_novars _ (Graph.noVars_pattern hp) S.toList ∅
  refine ⟨S.map Graph.tripToEntry, r.map Graph.tripToEntry, ?_, ?_, ?_⟩
  · show (Mem.triples s c.text).map _ = _
    simp [Mem.triples, hS, Res.map]
  · show ((Mem.filter s c.text _).map _).errTodo = _
    simp [Mem.filter, hS, hr, Res.map, Res.errTodo]
  · intro e
    rw [BSet.mem_map, BSet.mem_map]
    constructor
    · rintro ⟨t, ht, rfl⟩
      rw [hr'] at ht
      simp only [BSet.not_mem_empty, false_or] at ht
      exact ⟨⟨t, ht.1, rfl⟩, (Graph.queryMatches_pattern hp t).mp ht.2⟩
    · rintro ⟨⟨t, ht, rfl⟩, hm⟩
      refine ⟨t, ?_, rfl⟩
      rw [hr']
      exact .inr ⟨ht, (Graph.queryMatches_pattern hp t).mpr hm⟩

/-- C36: on a collection that does not exist, reading is an error and filtering panics (the store's error is `todo!()`). -/
theorem C36_missing (s : Mem) (c : Element) (p : Entry) (hc : ¬ Listed Mem.ops s c.text) :
    (∃ m, Graph.memOps.entries s c = .err m) ∧ Graph.memOps.filter s c p = .panic := by
  have hn : s.colls.get? c.text = none := by
    rw [(Mem.agrees s).listed] at hc
    exact Mem.world_none.mp (by simpa using hc)
  constructor
  · exact ⟨_, by show (Mem.triples s c.text).map _ = _; simp only [Mem.triples, hn, Res.map]; rfl⟩
  · show ((Mem.filter s c.text _).map _).errTodo = _
    simp [Mem.filter, hn, Res.map, Res.errTodo]

/-- `C36_missing` applies to the empty store. -/
example (p : Entry) := C36_missing Graph.memNew (.of (lit "G")) p (by rintro ⟨l, h, h'⟩; cases h; cases h')

/-- C36: over the LMDB and DuckDB stores `filter` is not implemented: it always panics. -/
theorem C36_others_unimplemented (s : Heed) (s' : Duck) (c : Element) (p : Entry) :
    (Graph.ops Heed.ops).filter s c p = .panic ∧ (Graph.ops Duck.ops).filter s' c p = .panic := ⟨rfl, rfl⟩

/-- The pattern `? : ?` used in the examples. -/
def samplePattern : Entry := .role (.of (lit "?")) (.of (lit "?")) (.of (lit ":"))

example : NoNamedVars samplePattern := by
  refine ⟨?_, ?_, ?_⟩ <;> rintro ⟨c, cs, h⟩ <;> simp only [samplePattern, parts] at h
  · exact absurd (congrArg List.length h) (by simp [lit])
  · exact absurd (congrArg List.head? h) (by simp; decide)
  · exact absurd (congrArg List.length h) (by simp [lit])
example : Listed Mem.ops (runEOps Graph.memOps Graph.memNew sampleEOps).2 (lit "T") ∧
    Graph.memOps.filter (runEOps Graph.memOps Graph.memNew sampleEOps).2 (.of (lit "T")) samplePattern =
      .ok (BSet.ofList [.ext (.of (lit "a")) (.of (lit "b")), .ext (.of (lit "a")) (.of (lit "c"))]) :=
  ⟨⟨[lit "T"], by decide +kernel⟩, by decide +kernel⟩

/-! ## C37: the caller's set after adding or removing entries through the graph layer -/

/-- C37: over every store, adding or removing entries leaves the caller's set unchanged, although the in-memory store drains the
set of triples it is handed. -/
theorem C37_graph_keeps_callers_set (T : TripsOps σ) (s : σ) (c : Element) (es : Network) :
    ((Graph.ops T).addEntries s c es).2.2 = es ∧ ((Graph.ops T).removeEntries s c es).2.2 = es := ⟨rfl, rfl⟩

/-! ## C38: a query pattern binds variables consistently -/

/-- C38: matching succeeds exactly if some assignment of the variables turns the query into the triple. -/
theorem C38_match_iff_assignment (q : Query) (t : Trip) :
    (∃ b, Mem.matchQuerySingle q t = some b) ↔ ∃ ρ, Inst ρ q t := by
  have h := Mem.matchQuerySingle_spec q t
  cases e : Mem.matchQuerySingle q t with
  | none =>
    rw [e] at h
    simp only [reduceCtorEq, exists_false, false_iff]
    rintro ⟨ρ, hρ⟩; exact h ρ hρ
  | some b =>
    rw [e] at h
    simp only [Option.some.injEq, exists_eq', true_iff]
    refine ⟨fun v => (b.get? v).getD [], ?_⟩
    have := (h.1 (fun v => (b.get? v).getD [])).mpr (fun v x hv => by simp [hv])
    simpa [Inst] using this

/-- C38: the returned bindings are any such assignment restricted to the variables of the query. -/
theorem C38_bindings_exact (q : Query) (t : Trip) (b : BMap Str Str) (h : Mem.matchQuerySingle q t = some b)
    (ρ : Str → Str) (hρ : Inst ρ q t) (v : Str) :
    (Occurs v q → b.get? v = some (ρ v)) ∧ (¬ Occurs v q → b.get? v = none) := by
  have hs := Mem.matchQuerySingle_spec q t
  rw [h] at hs
  have ho : (b.get? v).isSome ↔ Occurs v q := by
    rw [hs.2 v]; simp [Mem.InSlots, Occurs, eq_comm]
  have hi := (hs.1 ρ).mp (by simpa [Inst] using hρ)
  constructor
  · intro hv
    obtain ⟨x, hx⟩ := Option.isSome_iff_exists.mp (ho.mpr hv)
    rw [hx, hi v x hx]
  · intro hv
    rw [← ho] at hv; simpa using hv

/-- C38: matching a whole set gives the bindings of the matching triples, in the order of the set. -/
theorem C38_match_all (q : Query) (ts : BSet Trip) :
    Mem.matchQuery q ts = ts.toList.filterMap (Mem.matchQuerySingle q) := Mem.matchQuery_eq q ts

/-- The query `?x ?x _` matches only triples whose first two texts agree. -/
def sampleQuery : Query := ⟨.var (lit "x"), .var (lit "x"), .any⟩
example : (∃ ρ, Inst ρ sampleQuery ⟨lit "a", lit "a", lit "b"⟩) ∧ ¬ (∃ ρ, Inst ρ sampleQuery ⟨lit "a", lit "b", lit "b"⟩) ∧
    (Mem.matchQuerySingle sampleQuery ⟨lit "a", lit "a", lit "b"⟩).isSome = true := by
  refine ⟨⟨fun _ => lit "a", rfl, rfl, trivial⟩, ?_, by decide +kernel⟩
  rintro ⟨ρ, h1, h2, _⟩
  simp only [sampleQuery, SlotInst] at h1 h2
  rw [h1] at h2
  exact absurd h2 (by decide)

end Props
end Verif
