import Verif.Spec.GraphContract
import Verif.Props.GraphLayer
import Verif.Props.StoreHeed
import Verif.Props.StoreCross
import Verif.Props.StoreContract
import Verif.Props.ScriptsCross
/-!
# C82: what `LigatureGraph` answers, and the documented contract of `trait Ligature`
-/
namespace Verif
namespace Graph
open Spec

theorem runEOps_lower (T : TripsOps σ) (l : List EOp) : ∀ s,
    (runEOps (ops T) s l).2 = (runOps T s (l.map lower)).2 := by
  induction l with
  | nil => intro s; rfl
  | cons op l ih => intro s; simp only [runEOps, execE_eq, List.map_cons, runOps, ih]

theorem eworld_lower (T : TripsOps σ) (b : Bool) (l : List EOp) (s : σ) :
    eworldAfter b (runEOps (ops T) s l).1 = lift (worldAfter b (runOps T s (l.map lower)).1) := by
  suffices H : ∀ (l : List EOp) (s : σ) (w : World), (runEOps (ops T) s l).1.foldl (applyEEvent b) (lift w) =
      lift ((runOps T s (l.map lower)).1.foldl (applyEvent b) w) from H l s emptyWorld
  intro l
  induction l with
  | nil => intro s w; rfl
  | cons op l ih =>
    intro s w
    simp only [runEOps, execE_eq, List.map_cons, runOps, List.foldl_cons, ← lift_applyEvent, ih]

theorem lift_isSome (w : World) (c : Str) : (lift w c).isSome = (w c).isSome := by simp [lift]

theorem listedE_iff {T : TripsOps σ} {s : σ} {c : Str} : ListedE (ops T) s c ↔ Listed T s c := by
  show (∃ l, ((T.collections s).map (·.map Element.of)).errTodo = .ok l ∧ _) ↔ _
  unfold Listed
  cases T.collections s with
  | ok l =>
    simp only [Res.map, Res.errTodo, Res.ok.injEq, exists_eq_left', List.mem_map]
    constructor
    · rintro ⟨e, ⟨x, hx, rfl⟩, rfl⟩; exact hx
    · intro h; exact ⟨_, ⟨c, h, rfl⟩, rfl⟩
  | err m => simp [Res.map, Res.errTodo]
  | panic => simp [Res.map, Res.errTodo]

theorem sameAnswersE {T : TripsOps σ} {s s' : σ} (h : SameAnswers T s s') : SameAnswersE (ops T) s s' := by
  refine ⟨?_, fun c => ?_⟩
  · show ((T.collections s').map _).errTodo = ((T.collections s).map _).errTodo
    rw [h.1]
  · show (T.triples s' c.text).map _ = (T.triples s c.text).map _
    rw [h.2]

theorem errTodo_ok {r : Res α} {a : α} : r.errTodo = .ok a ↔ r = .ok a := by cases r <;> simp [Res.errTodo]
theorem errTodo_not_err (r : Res α) (m : Str) : r.errTodo ≠ .err m := by cases r <;> simp [Res.errTodo]
theorem errTodo_panic {r : Res α} : r.errTodo = .panic ↔ ∀ a, r ≠ .ok a := by cases r <;> simp [Res.errTodo]

theorem cost_lower (op : EOp) : (lower op).cost ≤ op.cost := by
  cases op with
  | addEntries c es => exact Nat.mul_le_mul_left 3 (Props.length_map_le _ _)
  | _ => exact Nat.le_refl _

theorem costOf_lower (l : List EOp) : costOf (l.map lower) ≤ (l.map EOp.cost).sum := by
  induction l with
  | nil => exact Nat.le_refl _
  | cons op l ih =>
    have := cost_lower op
    simp only [costOf, List.map_cons, List.sum_cons] at *
    omega

theorem storedBy_lower (T : TripsOps σ) (l : List EOp) (v : Str) : ∀ s,
    ((∃ c ts, (Op.addTriples c ts, Res.ok ()) ∈ (runOps T s (l.map lower)).1 ∧ ∃ t ∈ ts, v ∈ tripTexts t) ↔
      WrittenBy (runEOps (ops T) s l).1 v) := by
  induction l with
  | nil => intro s; simp [runOps, runEOps, WrittenBy]
  | cons op l ih =>
    intro s
    have ih := ih (exec T s (lower op)).2
    simp only [List.map_cons, runOps, runEOps, execE_eq, WrittenBy, List.mem_cons, Prod.mk.injEq] at ih ⊢
    have hd : (∃ c ts, (Op.addTriples c ts = lower op ∧ Res.ok () = (exec T s (lower op)).1) ∧ ∃ t ∈ ts, v ∈ tripTexts t) ↔
        (∃ c es, (EOp.addEntries c es = op ∧ Res.ok () = (exec T s (lower op)).1.errTodo) ∧
          ∃ e ∈ es, v = (parts e).1 ∨ v = (parts e).2.1 ∨ v = (parts e).2.2) := by
      cases op with
      | addEntries c es =>
        constructor
        · rintro ⟨c', ts, ⟨e1, e2⟩, t, ht, hv⟩
          simp only [lower, Op.addTriples.injEq] at e1
          obtain ⟨rfl, rfl⟩ := e1
          obtain ⟨e, he, rfl⟩ := BSet.mem_map.mp ht
          refine ⟨c, es, ⟨rfl, (errTodo_ok.mpr e2.symm).symm⟩, e, he, ?_⟩
          rw [parts_entryToTrip]; simpa [tripTexts] using hv
        · rintro ⟨c', es', ⟨e1, e2⟩, e, he, hv⟩
          cases e1
          refine ⟨_, _, ⟨rfl, (errTodo_ok.mp e2.symm).symm⟩, entryToTrip e, BSet.mem_map.mpr ⟨e, he, rfl⟩, ?_⟩
          rw [parts_entryToTrip] at hv; simpa [tripTexts] using hv
      | addCollection c => simp [lower]
      | removeCollection c => simp [lower]
      | removeEntries c es => simp [lower]
    constructor
    · rintro ⟨c, ts, h | h, ht⟩
      · obtain ⟨c, es, h, he⟩ := hd.mp ⟨c, ts, h, ht⟩; exact ⟨c, es, .inl h, he⟩
      · obtain ⟨c, es, h, he⟩ := ih.mp ⟨c, ts, h, ht⟩; exact ⟨c, es, .inr h, he⟩
    · rintro ⟨c, es, h | h, he⟩
      · obtain ⟨c, es, h, he⟩ := hd.mpr ⟨c, es, h, he⟩; exact ⟨c, es, .inl h, he⟩
      · obtain ⟨c, es, h, he⟩ := ih.mpr ⟨c, es, h, he⟩; exact ⟨c, es, .inr h, he⟩

theorem mem_canon_iff {es held : Network} {ts : BSet Trip} (hh : held = ts.map tripToEntry) :
    (∀ e ∈ es, canon e ∉ held) → ∀ t ∈ es.map entryToTrip, t ∉ ts := by
  intro h t ht hm
  obtain ⟨e, he, rfl⟩ := BSet.mem_map.mp ht
  exact h e he (by rw [hh, BSet.mem_map, canon_eq]; exact ⟨_, hm, rfl⟩)

end Graph

namespace Props
open Spec

/-! ## Which operations succeed -/

/-- C82: over every store whatever, no update, listing or filter ever returns an error: what is not `Ok` is a panic.  Only `entries`
passes an error of the store on. -/
theorem C82_never_errs (T : TripsOps σ) (s : σ) (m : Str) :
    (∀ op, (execE (Graph.ops T) s op).1 ≠ .err m) ∧ (Graph.ops T).collections s ≠ .err m ∧
    (∀ c p, (Graph.ops T).filter s c p ≠ .err m) ∧
    (∀ c, (Graph.ops T).entries s c = .err m ↔ T.triples s c.text = .err m) := by
  refine ⟨fun op => ?_, Graph.errTodo_not_err _ _, fun c p => Graph.errTodo_not_err _ _, fun c => ?_⟩
  · rw [Graph.execE_eq]; exact Graph.errTodo_not_err _ _
  · show (T.triples s c.text).map _ = _ ↔ _
    cases T.triples s c.text <;> simp [Res.map]

/-- C82, over the in-memory store: after any history of updates the next one is acknowledged if it is about collections, or if it
writes to a collection that is there; otherwise it panics. -/
theorem C82_answers_mem (l : List EOp) (op : EOp) :
    let w := eworldAfter true (runEOps Graph.memOps Graph.memNew l).1
    (execE Graph.memOps (runEOps Graph.memOps Graph.memNew l).2 op).1 = match op with
      | .addCollection _ | .removeCollection _ => .ok ()
      | .addEntries c _ | .removeEntries c _ => if (w c.text).isSome then .ok () else .panic := by
  intro w
  have hw : w = Graph.lift (worldAfter true (runOps Mem.ops Mem.new (l.map Graph.lower)).1) := Graph.eworld_lower Mem.ops true l Mem.new
  have hs : (runEOps Graph.memOps Graph.memNew l).2 = _ := Graph.runEOps_lower Mem.ops l Mem.new
  rw [hs]
  show (execE (Graph.ops Mem.ops) _ op).1 = _
  have ho := C27_mem_outcomes (l.map Graph.lower) (Graph.lower op)
  rw [Graph.execE_eq, ho, hw]
  have hi : ∀ b : Bool, (if b = true then Res.ok () else Res.panic).errTodo = if b = true then Res.ok () else Res.panic := by
    intro b; cases b <;> rfl
  cases op <;> simp only [Graph.lower, Graph.lift_isSome, hi] <;> rfl

/-- C82, over the LMDB store (collection names of 1 to 511 bytes, at most 2^64 identifiers): adding a collection is always
acknowledged, removing one or adding entries exactly when it is there, removing entries exactly when it is there and every subject,
role and object text of 1 to 511 bytes was written before.  Everything else panics. -/
theorem C82_answers_heed (l : List EOp) (op : EOp) (hl : ∀ c, EOp.addCollection c ∈ l → Heed.lmdbKey c.text = true)
    (hsize : (l.map EOp.cost).sum + op.cost ≤ 2 ^ 64) :
    let h := (runEOps (Graph.ops Heed.ops) Heed.new l).1
    let w := eworldAfter false h
    let r := (execE (Graph.ops Heed.ops) (runEOps (Graph.ops Heed.ops) Heed.new l).2 op).1
    (r = .ok () ↔ match op with
      | .addCollection _ => True
      | .removeCollection c | .addEntries c _ => (w c.text).isSome
      | .removeEntries c es => (w c.text).isSome ∧ ∀ e ∈ es, ∀ v, v = (parts e).1 ∨ v = (parts e).2.1 ∨ v = (parts e).2.2 →
          Heed.lmdbKey v = true ∧ WrittenBy h v) ∧
    (r ≠ .ok () → r = .panic) := by
  intro h w r
  have hw : w = Graph.lift (worldAfter false (runOps Heed.ops Heed.new (l.map Graph.lower)).1) :=
    Graph.eworld_lower Heed.ops false l Heed.new
  have hs : (runEOps (Graph.ops Heed.ops) Heed.new l).2 = _ := Graph.runEOps_lower Heed.ops l Heed.new
  have hr : r = (exec Heed.ops (runOps Heed.ops Heed.new (l.map Graph.lower)).2 (Graph.lower op)).1.errTodo := by
    show (execE _ _ op).1 = _
    rw [hs, Graph.execE_eq]
  have hlegal : ∀ o ∈ l.map Graph.lower, Heed.LegalOp o := by
    intro o ho
    obtain ⟨x, hx, rfl⟩ := List.mem_map.mp ho
    cases x with
    | addCollection c => exact hl c hx
    | _ => trivial
  have hcost : costOf (l.map Graph.lower) + (Graph.lower op).cost ≤ 2 ^ 64 := by
    have h1 := Graph.costOf_lower l
    have h2 := Graph.cost_lower op
    omega
  obtain ⟨h1, h2⟩ := C39_heed_outcomes (l.map Graph.lower) (Graph.lower op) hlegal hcost
  constructor
  · rw [hr, Graph.errTodo_ok, h1, hw]
    cases op with
    | addCollection c => exact Iff.rfl
    | removeCollection c => simp only [Graph.lower, Graph.lift_isSome]
    | addEntries c es => simp only [Graph.lower, Graph.lift_isSome]
    | removeEntries c es =>
      simp only [Graph.lower, Graph.lift_isSome]
      refine and_congr Iff.rfl ?_
      have hk : ∀ v, Heed.StoredBy (runOps Heed.ops Heed.new (l.map Graph.lower)).1 v ↔ Heed.lmdbKey v = true ∧ WrittenBy h v :=
        fun v => and_congr Iff.rfl (Graph.storedBy_lower Heed.ops l v Heed.new)
      constructor
      · intro ha e he v hv
        refine (hk v).mp (ha _ (BSet.mem_map.mpr ⟨e, he, rfl⟩) v ?_)
        rw [Graph.parts_entryToTrip] at hv; simpa [tripTexts] using hv
      · intro ha t ht v hv
        obtain ⟨e, he, rfl⟩ := BSet.mem_map.mp ht
        refine (hk v).mpr (ha e he v ?_)
        rw [Graph.parts_entryToTrip]; simpa [tripTexts] using hv
  · intro hne
    rw [hr] at hne ⊢
    have := h2 (fun e => hne (Graph.errTodo_ok.mpr e))
    rw [this]; rfl

/-- C82, over the DuckDB store: adding a collection is acknowledged exactly when it is new, removing one exactly when it is absent or
empty, writing exactly when it is there.  Everything else panics. -/
theorem C82_answers_duck (l : List EOp) (op : EOp) :
    let w := eworldAfter false (runEOps (Graph.ops Duck.ops) Duck.new l).1
    let r := (execE (Graph.ops Duck.ops) (runEOps (Graph.ops Duck.ops) Duck.new l).2 op).1
    (r = .ok () ↔ match op with
      | .addCollection c => w c.text = none
      | .removeCollection c => ∀ p, w c.text = some p → ∀ e, ¬ p e
      | .addEntries c _ | .removeEntries c _ => (w c.text).isSome) ∧
    (r ≠ .ok () → r = .panic) := by
  intro w r
  have hw : w = Graph.lift (worldAfter false (runOps Duck.ops Duck.new (l.map Graph.lower)).1) :=
    Graph.eworld_lower Duck.ops false l Duck.new
  have hs : (runEOps (Graph.ops Duck.ops) Duck.new l).2 = _ := Graph.runEOps_lower Duck.ops l Duck.new
  have hr : r = (exec Duck.ops (runOps Duck.ops Duck.new (l.map Graph.lower)).2 (Graph.lower op)).1.errTodo := by
    show (execE _ _ op).1 = _
    rw [hs, Graph.execE_eq]
  constructor
  · rw [hr, Graph.errTodo_ok, hw]
    have ho := C47_duck_outcomes (l.map Graph.lower) (Graph.lower op)
    cases op with
    | addCollection c =>
      simp only [Graph.lower] at ho ⊢
      simp only [Graph.lift, Option.map_eq_none_iff]
      constructor
      · intro e; apply Classical.byContradiction; intro hn
        rw [ho.2 hn] at e; cases e
      · exact ho.1
    | removeCollection c =>
      simp only [Graph.lower] at ho ⊢
      simp only [Graph.lift, Option.map_eq_some_iff]
      constructor
      · rintro e _ ⟨p, hp, rfl⟩ x ⟨hx, _⟩
        rw [ho.1 ⟨p, hp, _, hx⟩] at e; cases e
      · intro hn
        refine ho.2 ?_
        rintro ⟨p, hp, t, ht⟩
        exact hn _ ⟨p, hp, rfl⟩ (Graph.tripToEntry t)
          ⟨by rw [Graph.entryToTrip_tripToEntry]; exact ht, Graph.parserForm_trip t⟩
    | addEntries c es =>
      simp only [Graph.lower] at ho ⊢
      rw [Graph.lift_isSome, Option.isSome_iff_ne_none]
      constructor
      · intro e hn
        obtain ⟨m, hm⟩ := ho.2 hn
        rw [hm] at e; cases e
      · exact ho.1
    | removeEntries c es =>
      simp only [Graph.lower] at ho ⊢
      rw [Graph.lift_isSome, Option.isSome_iff_ne_none]
      constructor
      · intro e hn
        obtain ⟨m, hm⟩ := ho.2 hn
        rw [hm] at e; cases e
      · exact ho.1
  · intro hne
    rw [hr] at hne ⊢
    exact Graph.errTodo_panic.mpr fun a e => hne (by rw [e]; rfl)

/-! ## The documented contract -/

/-- C82, "Does nothing if Dataset already exists": holds over the LMDB store; fails over the in-memory store, which empties the
collection, and over the DuckDB store, which panics. -/
theorem C82_add_existing : AddExistingIsNoopE (Graph.ops Heed.ops) Heed.new ∧
    ¬ AddExistingIsNoopE Graph.memOps Graph.memNew ∧ ¬ AddExistingIsNoopE (Graph.ops Duck.ops) Duck.new := by
  refine ⟨?_, ?_, ?_⟩
  · intro l c s hc
    have hs : s = _ := Graph.runEOps_lower Heed.ops l Heed.new
    rw [hs] at hc ⊢
    obtain ⟨h1, h2⟩ := C28_heed_add_existing_noop (l.map Graph.lower) c.text (Graph.listedE_iff.mp hc)
    exact ⟨Graph.errTodo_ok.mpr h1, Graph.sameAnswersE h2⟩
  · intro h
    have h2 := (h sampleEOps (.of (lit "T")) ⟨[.of (lit "T")], by decide +kernel, by decide⟩).2.2 (.of (lit "T"))
    revert h2; decide +kernel
  · intro h
    have h2 := (h sampleEOps (.of (lit "T")) ⟨[.of (lit "T")], by decide +kernel, by decide⟩).1
    revert h2; decide +kernel

/-- C82, "Does nothing if Dataset doesn't exist": holds over the in-memory and DuckDB stores; fails over the LMDB store, which panics. -/
theorem C82_remove_missing : RemoveMissingIsNoopE Graph.memOps Graph.memNew ∧ RemoveMissingIsNoopE (Graph.ops Duck.ops) Duck.new ∧
    ¬ RemoveMissingIsNoopE (Graph.ops Heed.ops) Heed.new := by
  have gen : ∀ {σ : Type} {T : TripsOps σ} {new : σ}, RemoveMissingIsNoop T new → RemoveMissingIsNoopE (Graph.ops T) new := by
    intro σ T new h l c s hc
    have hs : s = _ := Graph.runEOps_lower T l new
    rw [hs] at hc ⊢
    obtain ⟨h1, h2⟩ := h (l.map Graph.lower) c.text (fun h => hc (Graph.listedE_iff.mpr h))
    exact ⟨Graph.errTodo_ok.mpr h1, Graph.sameAnswersE h2⟩
  refine ⟨gen C29_mem_remove_missing_noop, gen C29_duck_remove_missing_noop, fun h => ?_⟩
  have h2 := (h [] (.of (lit "T")) (by
    rw [Graph.listedE_iff]
    exact fun hl => by have := (heed_listed' (heed_good []) (lit "T")).mp hl; revert this; decide +kernel)).1
  revert h2; decide +kernel

/-- C82, "Returns Error if Dataset doesn't exist": fails over every store.  Writing to a collection that is not there panics in every
reachable state, and changes nothing. -/
theorem C82_write_missing (l : List EOp) (c : Element) (es : Network) :
    (let s := (runEOps Graph.memOps Graph.memNew l).2
     ¬ ListedE Graph.memOps s c.text →
       Graph.memOps.addEntries s c es = (.panic, s, es) ∧ Graph.memOps.removeEntries s c es = (.panic, s, es)) ∧
    (let s := (runEOps (Graph.ops Heed.ops) Heed.new l).2
     ¬ ListedE (Graph.ops Heed.ops) s c.text →
       (Graph.ops Heed.ops).addEntries s c es = (.panic, s, es) ∧ (Graph.ops Heed.ops).removeEntries s c es = (.panic, s, es)) ∧
    (let s := (runEOps (Graph.ops Duck.ops) Duck.new l).2
     ¬ ListedE (Graph.ops Duck.ops) s c.text →
       (Graph.ops Duck.ops).addEntries s c es = (.panic, s, es) ∧ (Graph.ops Duck.ops).removeEntries s c es = (.panic, s, es)) := by
  have gen : ∀ {σ : Type} {T : TripsOps σ} {s : σ} {ts : BSet Trip}, ts = es.map Graph.entryToTrip →
      (∃ r x, T.addTriples s c.text ts = (r, s, x) ∧ r ≠ .ok ()) → (∃ r x, T.removeTriples s c.text ts = (r, s, x) ∧ r ≠ .ok ()) →
      (Graph.ops T).addEntries s c es = (.panic, s, es) ∧ (Graph.ops T).removeEntries s c es = (.panic, s, es) := by
    rintro σ T s ts rfl ⟨r, x, e, hr⟩ ⟨r', x', e', hr'⟩
    constructor
    · show (let (r, s', _) := T.addTriples s c.text (es.map Graph.entryToTrip); (r.errTodo, s', es)) = _
      rw [e]; simp only [Graph.errTodo_panic.mpr (show ∀ a, r ≠ .ok a from fun a => hr)]
    · show (let (r, s', _) := T.removeTriples s c.text (es.map Graph.entryToTrip); (r.errTodo, s', es)) = _
      rw [e']; simp only [Graph.errTodo_panic.mpr (show ∀ a, r' ≠ .ok a from fun a => hr')]
  refine ⟨?_, ?_, ?_⟩
  · intro s hc
    have hs : s = _ := Graph.runEOps_lower Mem.ops l Mem.new
    rw [hs] at hc ⊢
    obtain ⟨h1, h2⟩ := C30_mem_write_missing_panics (l.map Graph.lower) c.text (es.map Graph.entryToTrip)
      (fun h => hc (Graph.listedE_iff.mpr h))
    exact gen rfl ⟨_, _, h1, nofun⟩ ⟨_, _, h2, nofun⟩
  · intro s hc
    have hs : s = _ := Graph.runEOps_lower Heed.ops l Heed.new
    rw [hs] at hc ⊢
    obtain ⟨h1, h2⟩ := C30_heed_write_missing_panics (l.map Graph.lower) c.text (es.map Graph.entryToTrip)
      (fun h => hc (Graph.listedE_iff.mpr h))
    exact gen rfl ⟨_, _, h1, nofun⟩ ⟨_, _, h2, nofun⟩
  · intro s hc
    have hs : s = _ := Graph.runEOps_lower Duck.ops l Duck.new
    rw [hs] at hc ⊢
    have hn : ¬ Listed Duck.ops (runOps Duck.ops Duck.new (l.map Graph.lower)).2 c.text := fun h => hc (Graph.listedE_iff.mpr h)
    rw [duck_listed (duck_inv _)] at hn
    have hi : Duck.idOf (runOps Duck.ops Duck.new (l.map Graph.lower)).2.colls c.text = none := by
      simpa [Duck.world] using hn
    generalize (runOps Duck.ops Duck.new (l.map Graph.lower)).2 = d at hi
    exact gen rfl
      ⟨.err (lit "Collection " ++ c.text ++ lit " not found."), es.map Graph.entryToTrip, by
        show Duck.addTriples d c.text _ = _
        simp only [Duck.addTriples, Duck.getCollectionId, hi], nofun⟩
      ⟨.err (lit "Collection " ++ c.text ++ lit " not found."), es.map Graph.entryToTrip, by
        show Duck.removeTriples d c.text _ = _
        simp only [Duck.removeTriples, Duck.getCollectionId, hi], nofun⟩

/-- C82: so that clause of the documentation fails over every store. -/
theorem C82_write_missing_violated : ¬ WriteMissingIsErrorE Graph.memOps Graph.memNew ∧
    ¬ WriteMissingIsErrorE (Graph.ops Heed.ops) Heed.new ∧ ¬ WriteMissingIsErrorE (Graph.ops Duck.ops) Duck.new := by
  obtain ⟨h1, h2, h3⟩ := C82_write_missing [] (.of (lit "T")) ∅
  have n1 : ¬ ListedE Graph.memOps (runEOps Graph.memOps Graph.memNew []).2 (lit "T") := by
    show ¬ ListedE (Graph.ops Mem.ops) _ _
    rw [Graph.listedE_iff]
    exact fun hl => by have := (mem_listed _ (lit "T")).mp hl; revert this; decide +kernel
  have n2 : ¬ ListedE (Graph.ops Heed.ops) (runEOps (Graph.ops Heed.ops) Heed.new []).2 (lit "T") := by
    rw [Graph.listedE_iff]
    exact fun hl => by have := (heed_listed' (heed_good []) (lit "T")).mp hl; revert this; decide +kernel
  have n3 : ¬ ListedE (Graph.ops Duck.ops) (runEOps (Graph.ops Duck.ops) Duck.new []).2 (lit "T") := by
    rw [Graph.listedE_iff]
    rintro ⟨l, e, hm⟩
    cases e; simp [runEOps, Duck.new] at hm
  refine ⟨fun h => ?_, fun h => ?_, fun h => ?_⟩
  · obtain ⟨m, hm⟩ := (h [] (.of (lit "T")) ∅ n1).1.1
    rw [(h1 n1).1] at hm; cases hm
  · obtain ⟨m, hm⟩ := (h [] (.of (lit "T")) ∅ n2).1.1
    rw [(h2 n2).1] at hm; cases hm
  · obtain ⟨m, hm⟩ := (h [] (.of (lit "T")) ∅ n3).1.1
    rw [(h3 n3).1] at hm; cases hm

/-- Adding triples that are there: if it is acknowledged and the listing stays, nothing changes. -/
theorem addPresent_same {T : TripsOps σ} {I : σ → Prop} {b : Bool} {world : σ → World} {L : Op → Prop} (R : Refines T I b world L)
    (hL : ∀ c ts, L (.addTriples c ts)) {s : σ} (hs : I s) {c : Str} {ts held : BSet Trip} (hc : Listed T s c)
    (hh : T.triples s c = .ok held) (hts : ∀ t ∈ ts, t ∈ held) (hok : (T.addTriples s c ts).1 = .ok ())
    (hcol : T.collections (T.addTriples s c ts).2.1 = T.collections s) : SameAnswers T s (T.addTriples s c ts).2.1 := by
  refine ⟨hcol, fun d => ?_⟩
  have hw := R.step s (.addTriples c ts) hs (hL c ts)
  have e1 : (exec T s (.addTriples c ts)).1 = .ok () := hok
  have e2 : (exec T s (.addTriples c ts)).2 = (T.addTriples s c ts).2.1 := rfl
  rw [e1, e2] at hw
  obtain ⟨p, hp⟩ := Option.isSome_iff_exists.mp (((R.agrees s hs).listed c).mp hc)
  obtain ⟨held', hh', hheld⟩ := (R.agrees s hs).2 c p hp
  rw [hh] at hh'; cases hh'
  have hpp : (fun t => p t ∨ t ∈ ts) = p := by
    funext t; apply propext
    exact ⟨fun h => h.elim id fun h => (hheld t).mp (hts t h), .inl⟩
  refine R.read_congr hs (R.inv s (.addTriples c ts) hs) ?_
  rw [hw]
  simp only [applyEvent, apply, hp, hpp]
  by_cases e : d = c
  · subst e; rw [World.set_same, hp]
  · rw [World.set_other _ _ e]

theorem addPresent_lower {T : TripsOps σ} {s : σ} {c : Element} {es held : Network}
    (hh : (Graph.ops T).entries s c = .ok held) (hes : ∀ e ∈ es, e ∈ held) :
    ∃ ts, T.triples s c.text = .ok ts ∧ ∀ t ∈ es.map Graph.entryToTrip, t ∈ ts := by
  have : (T.triples s c.text).map (·.map Graph.tripToEntry) = .ok held := hh
  cases ht : T.triples s c.text with
  | ok ts =>
    rw [ht] at this
    simp only [Res.map, Res.ok.injEq] at this
    subst this
    refine ⟨ts, rfl, fun t h => ?_⟩
    obtain ⟨e, he, rfl⟩ := BSet.mem_map.mp h
    obtain ⟨u, hu, rfl⟩ := BSet.mem_map.mp (hes e he)
    rwa [Graph.entryToTrip_tripToEntry]
  | err m => rw [ht] at this; cases this
  | panic => rw [ht] at this; cases this

/-- C82, "Does nothing if Statement already exists in Dataset": holds over the in-memory and DuckDB stores. -/
theorem C82_add_present : AddPresentIsNoopE Graph.memOps Graph.memNew ∧ AddPresentIsNoopE (Graph.ops Duck.ops) Duck.new := by
  constructor
  · intro l c es held s hc hh hes
    obtain ⟨ts, ht, hts⟩ := addPresent_lower hh hes
    have hc' : Listed Mem.ops s c.text := Graph.listedE_iff.mp hc
    obtain ⟨old, hold⟩ := Option.isSome_iff_exists.mp ((mem_listed s c.text).mp hc')
    have hok : (Mem.ops.addTriples s c.text (es.map Graph.entryToTrip)).1 = .ok () := by
      simp [Mem.ops, Mem.addTriples, hold]
    refine ⟨Graph.errTodo_ok.mpr hok, Graph.sameAnswersE ?_⟩
    refine addPresent_same mem_refines (fun _ _ => trivial) trivial hc' ht hts hok ?_
    simp only [Mem.ops, Mem.addTriples, hold, Mem.collections]
    congr 1
    refine asc_ext (BMap.keys_sorted _) (BMap.keys_sorted _) fun x => ?_
    rw [BMap.mem_keys_isSome, BMap.mem_keys_isSome]
    by_cases e : x = c.text
    · subst e; simp [hold]
    · rw [BMap.get?_insert_ne _ _ e]
  · intro l c es held s hc hh hes
    have hs : s = _ := Graph.runEOps_lower Duck.ops l Duck.new
    have hg : Duck.Inv s := by rw [hs]; exact duck_inv _
    obtain ⟨ts, ht, hts⟩ := addPresent_lower hh hes
    have hc' : Listed Duck.ops s c.text := Graph.listedE_iff.mp hc
    have hw := (duck_listed hg c.text).mp hc'
    simp only [Duck.world, Option.isSome_map] at hw
    obtain ⟨i, hi⟩ := Option.isSome_iff_exists.mp hw
    have hok : (Duck.ops.addTriples s c.text (es.map Graph.entryToTrip)).1 = .ok () := by
      simp [Duck.ops, Duck.addTriples, Duck.getCollectionId, hi]
    refine ⟨Graph.errTodo_ok.mpr hok, Graph.sameAnswersE ?_⟩
    refine addPresent_same duck_refines (fun _ _ => trivial) hg hc' ht hts hok ?_
    simp only [Duck.ops, Duck.addTriples, Duck.getCollectionId, hi, Duck.collections]
    congr 2
    have hp : ∀ (s : Duck) (v : Str), (Duck.addPart s v).colls = s.colls := by
      intro s v; unfold Duck.addPart; split <;> rfl
    have : ∀ (l : List Trip) (s : Duck), (l.foldl (Duck.addOne i) s).colls = s.colls := by
      intro l
      induction l with
      | nil => intro s; rfl
      | cons t l ih => intro s; rw [List.foldl_cons, ih]; simp only [Duck.addOne, Duck.addTrip, hp]
    exact this _ _

/-- C82: the same over the LMDB store, in every state reached with at most 2^64 identifiers. -/
theorem C82_add_present_heed (l : List EOp) (c : Element) (es held : Network)
    (hsize : (l.map EOp.cost).sum + 3 * es.toList.length ≤ 2 ^ 64) :
    let s := (runEOps (Graph.ops Heed.ops) Heed.new l).2
    ListedE (Graph.ops Heed.ops) s c.text → (Graph.ops Heed.ops).entries s c = .ok held → (∀ e ∈ es, e ∈ held) →
      ((Graph.ops Heed.ops).addEntries s c es).1 = .ok () ∧
      SameAnswersE (Graph.ops Heed.ops) s ((Graph.ops Heed.ops).addEntries s c es).2.1 := by
  intro s hc hh hes
  have hs : s = _ := Graph.runEOps_lower Heed.ops l Heed.new
  have hg : Heed.Good s := by rw [hs]; exact heed_good _
  obtain ⟨ts, ht, hts⟩ := addPresent_lower hh hes
  have hc' : Listed Heed.ops s c.text := Graph.listedE_iff.mp hc
  have hroom : Heed.Room s (Op.addTriples c.text (es.map Graph.entryToTrip)).cost := by
    rw [hs]
    refine Heed.room_runOps _ Heed.new _ Heed.good_new ?_
    have h1 := Graph.costOf_lower l
    have h2 := Graph.cost_lower (.addEntries c es)
    simp only [Graph.lower, EOp.cost] at h2
    simp only [Heed.Room, Heed.used, Heed.new]
    omega
  have hok : (Heed.ops.addTriples s c.text (es.map Graph.entryToTrip)).1 = .ok () := by
    have := Heed.outcome_addTriples hg true c.text (es.map Graph.entryToTrip) hroom
    rw [if_pos ((heed_listed hg c.text).mp hc')] at this
    exact this
  refine ⟨Graph.errTodo_ok.mpr hok, Graph.sameAnswersE ?_⟩
  refine addPresent_same heed_refines (fun _ _ => trivial) hg hc' ht hts hok ?_
  show Res.ok _ = Res.ok _
  congr 1
  refine asc_ext (BMap.keys_sorted _) (BMap.keys_sorted _) fun x => ?_
  rw [BMap.mem_keys_isSome, BMap.mem_keys_isSome]
  have hg' : Heed.Good (exec Heed.ops s (.addTriples c.text (es.map Graph.entryToTrip))).2 := Heed.good_exec hg true _
  have hx := heed_refines.step s (.addTriples c.text (es.map Graph.entryToTrip)) hg trivial
  have := congrArg Option.isSome (congrFun hx x)
  rw [Heed.world_isSome] at this
  rw [← Heed.world_isSome (s := s)]
  refine Eq.to_iff (congrArg (· = true) (this.trans ?_))
  have e1 : (exec Heed.ops s (.addTriples c.text (es.map Graph.entryToTrip))).1 = .ok () := hok
  rw [e1]
  simp only [applyEvent, apply]
  cases hcw : Heed.worldOf s c.text with
  | none => rfl
  | some p =>
    dsimp only
    by_cases e : x = c.text
    · subst e; rw [World.set_same, hcw]; rfl
    · rw [World.set_other _ _ e]

/-- C82, "Does nothing if Statement doesn't exist in Dataset": holds over the in-memory and DuckDB stores; fails over the LMDB store,
which panics when a text was never written. -/
theorem C82_remove_absent : RemoveAbsentIsNoopE Graph.memOps Graph.memNew ∧ RemoveAbsentIsNoopE (Graph.ops Duck.ops) Duck.new ∧
    ¬ RemoveAbsentIsNoopE (Graph.ops Heed.ops) Heed.new := by
  have gen : ∀ {σ : Type} {T : TripsOps σ} {new : σ}, RemoveAbsentIsNoop T new → RemoveAbsentIsNoopE (Graph.ops T) new := by
    intro σ T new h l c es held s hc hh hes
    have hs : s = _ := Graph.runEOps_lower T l new
    rw [hs] at hc hh ⊢
    have hh' : (T.triples (runOps T new (l.map Graph.lower)).2 c.text).map (·.map Graph.tripToEntry) = .ok held := hh
    cases ht : T.triples (runOps T new (l.map Graph.lower)).2 c.text with
    | ok ts =>
      rw [ht] at hh'
      simp only [Res.map, Res.ok.injEq] at hh'
      obtain ⟨h1, h2⟩ := h (l.map Graph.lower) c.text (es.map Graph.entryToTrip) ts (Graph.listedE_iff.mp hc) ht
        (Graph.mem_canon_iff hh'.symm hes)
      exact ⟨Graph.errTodo_ok.mpr h1, Graph.sameAnswersE h2⟩
    | err m => rw [ht] at hh'; cases hh'
    | panic => rw [ht] at hh'; cases hh'
  refine ⟨gen C31_mem_remove_absent_noop, gen C31_duck_remove_absent_noop, fun h => ?_⟩
  have h2 := (h [.addCollection (.of (lit "T"))] (.of (lit "T")) sampleNet ∅
    ⟨[.of (lit "T")], by decide +kernel, by decide⟩ (by decide +kernel) (by simp)).1
  revert h2; decide +kernel

/-! ### Instances -/

example : (let s := (runEOps Graph.memOps Graph.memNew sampleEOps).2
    (execE Graph.memOps s (.removeEntries (.of (lit "U")) sampleNet)).1 = .panic ∧
    (execE Graph.memOps s (.removeEntries (.of (lit "T")) sampleNet)).1 = .ok ()) ∧
    (sampleEOps.map EOp.cost).sum + 3 * sampleNet.toList.length ≤ 2 ^ 64 ∧
    (let s := (runEOps (Graph.ops Heed.ops) Heed.new sampleEOps).2
    (execE (Graph.ops Heed.ops) s (.removeEntries (.of (lit "T")) sampleNet)).1 = .ok () ∧
    (execE (Graph.ops Heed.ops) s (.removeEntries (.of (lit "T")) (BSet.ofList [.ext (.of (lit "new")) (.of (lit "a"))]))).1 = .panic) ∧
    (let s := (runEOps (Graph.ops Duck.ops) Duck.new sampleEOps).2
    (execE (Graph.ops Duck.ops) s (.removeCollection (.of (lit "T")))).1 = .panic ∧
    (execE (Graph.ops Duck.ops) s (.removeCollection (.of (lit "U")))).1 = .ok () ∧
    (Graph.ops Duck.ops).entries s (.of (lit "T")) = .ok (BSet.ofList [.role (.of (lit "a")) (.of (lit "b")) (.of (lit "r")),
      .ext (.of (lit "a")) (.of (lit "b")), .ext (.of (lit "a")) (.of (lit "c"))])) := by decide +kernel

end Props
end Verif
