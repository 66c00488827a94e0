import Verif.Proofs.Store
import Verif.Proofs.Mem
import Verif.Props.StoreLaws
import Verif.Spec.Graph
import Verif.Model.LigatureGraph
/-!
# Proofs about the graph layer
-/
namespace Verif
namespace Graph
open Spec

theorem colon_ne_notColon : notColonS ≠ colonS := by decide

theorem canon_eq (e : Entry) : canon e = tripToEntry (entryToTrip e) := by
  cases e with
  | ext e c => simp [canon, entryToTrip, tripToEntry, plain]
  | notExt e c => simp [canon, entryToTrip, tripToEntry, plain, colon_ne_notColon]
  | role f s r => rfl

theorem entryToTrip_tripToEntry (t : Trip) : entryToTrip (tripToEntry t) = t := by
  unfold tripToEntry
  split
  · rename_i h; cases t; simp_all [entryToTrip]
  · split
    · rename_i h; cases t; simp_all [entryToTrip]
    · cases t; simp [entryToTrip]

theorem tripToEntry_inj {t u : Trip} (h : tripToEntry t = tripToEntry u) : t = u := by
  have := congrArg entryToTrip h
  rwa [entryToTrip_tripToEntry, entryToTrip_tripToEntry] at this

theorem parts_entryToTrip (e : Entry) : parts e = ((entryToTrip e).fst, (entryToTrip e).snd, (entryToTrip e).thd) := by
  cases e <;> rfl

theorem parts_tripToEntry (t : Trip) : parts (tripToEntry t) = (t.fst, t.snd, t.thd) := by
  rw [parts_entryToTrip, entryToTrip_tripToEntry]

/-- A graph operation as an operation on the triple store. -/
def lower : EOp → Op
  | .addCollection c => .addCollection c.text
  | .removeCollection c => .removeCollection c.text
  | .addEntries c es => .addTriples c.text (es.map entryToTrip)
  | .removeEntries c es => .removeTriples c.text (es.map entryToTrip)

theorem execE_eq (T : TripsOps σ) (s : σ) (op : EOp) :
    execE (ops T) s op = ((exec T s (lower op)).1.errTodo, (exec T s (lower op)).2) := by
  cases op <;> rfl

/-- A world of triples seen as a world of entries. -/
def lift (w : World) : EWorld := fun c => (w c).map fun p e => p (entryToTrip e) ∧ ParserForm e

theorem parserForm_trip (t : Trip) : ParserForm (tripToEntry t) := by
  show canon _ = _
  rw [canon_eq, entryToTrip_tripToEntry]

theorem lift_set (w : World) (c : Str) (v) :
    lift (w.set c v) = (lift w).set c (v.map fun p e => p (entryToTrip e) ∧ ParserForm e) := by
  funext d
  by_cases h : d = c
  · simp [lift, World.set, EWorld.set, h]
  · simp [lift, World.set, EWorld.set, h]

theorem lift_apply (b : Bool) (w : World) (op : EOp) : lift (apply b w (lower op)) = applyE b (lift w) op := by
  cases op with
  | addCollection c =>
    simp only [lower, apply, applyE]
    cases h : w c.text with
    | none => simp [lift_set, lift, h]
    | some p => cases b <;> simp [lift_set, lift, h]
  | removeCollection c => simp [lower, apply, applyE, lift_set]
  | addEntries c es =>
    simp only [lower, apply, applyE]
    cases h : w c.text with
    | none => simp [lift, h]
    | some p =>
      simp only [lift_set]
      have : lift w c.text = some fun e => p (entryToTrip e) ∧ ParserForm e := by simp [lift, h]
      simp only [this, Option.map_some]
      congr 2
      funext e; apply propext
      simp only [BSet.mem_map]
      constructor
      · rintro ⟨h | ⟨x, hx, hxe⟩, hp⟩
        · exact .inl ⟨h, hp⟩
        · exact .inr ⟨x, hx, by rw [canon_eq, hxe, ← canon_eq]; exact hp⟩
      · rintro (⟨h, hp⟩ | ⟨x, hx, rfl⟩)
        · exact ⟨.inl h, hp⟩
        · refine ⟨.inr ⟨x, hx, ?_⟩, ?_⟩
          · rw [canon_eq, entryToTrip_tripToEntry]
          · rw [canon_eq]; exact parserForm_trip _
  | removeEntries c es =>
    simp only [lower, apply, applyE]
    cases h : w c.text with
    | none => simp [lift, h]
    | some p =>
      simp only [lift_set]
      have : lift w c.text = some fun e => p (entryToTrip e) ∧ ParserForm e := by simp [lift, h]
      simp only [this, Option.map_some]
      congr 2
      funext e; apply propext
      simp only [BSet.mem_map]
      constructor
      · rintro ⟨⟨h, hn⟩, hp⟩
        refine ⟨⟨h, hp⟩, ?_⟩
        rintro ⟨x, hx, rfl⟩
        exact hn ⟨x, hx, by rw [canon_eq, entryToTrip_tripToEntry]⟩
      · rintro ⟨⟨h, hp⟩, hn⟩
        refine ⟨⟨h, ?_⟩, hp⟩
        rintro ⟨x, hx, hxe⟩
        exact hn ⟨x, hx, by rw [canon_eq, hxe, ← canon_eq]; exact hp⟩

theorem lift_applyEvent (b : Bool) (w : World) (op : EOp) (r : Res Unit) :
    lift (applyEvent b w (lower op, r)) = applyEEvent b (lift w) (op, r.errTodo) := by
  cases r with
  | ok u => exact lift_apply b w op
  | err m => rfl
  | panic => rfl

/-- The graph layer's answers are those of the lifted world. -/
theorem agreesE {T : TripsOps σ} {s : σ} {w : World} (h : Agrees T s w) : AgreesE (ops T) s (lift w) := by
  obtain ⟨⟨l, hl, hn, hm⟩, ht⟩ := h
  refine ⟨⟨l, ?_, hn, fun c => by rw [hm]; simp [lift]⟩, ?_⟩
  · show ((T.collections s).map _).errTodo = _
    rw [hl]; rfl
  · intro c p hp
    simp only [lift, Option.map_eq_some_iff] at hp
    obtain ⟨q, hq, rfl⟩ := hp
    obtain ⟨ts, hts, hts'⟩ := ht _ _ hq
    refine ⟨ts.map tripToEntry, ?_, ?_⟩
    · show (T.triples s c.text).map _ = _
      rw [hts]; rfl
    · intro e
      rw [BSet.mem_map]
      constructor
      · rintro ⟨t, ht, rfl⟩
        exact ⟨by rw [entryToTrip_tripToEntry]; exact (hts' t).mp ht, parserForm_trip t⟩
      · rintro ⟨h, hp⟩
        exact ⟨entryToTrip e, (hts' _).mpr h, by rw [← canon_eq]; exact hp⟩

open Props in
/-- Any store that refines the specification gives a graph layer that refines the entry-level specification. -/
theorem runEOps_spec {T : TripsOps σ} {I : σ → Prop} {b : Bool} {world : σ → World} {P : Op → Prop}
    (R : Refines T I b world P) (l : List EOp) : ∀ (s : σ), I s → (∀ op ∈ l, P (lower op)) → ∀ v : EWorld, v = lift (world s) →
    I (runEOps (ops T) s l).2 ∧
    lift (world (runEOps (ops T) s l).2) = (runEOps (ops T) s l).1.foldl (applyEEvent b) v := by
  induction l with
  | nil => intro s hs _ v hv; exact ⟨hs, hv.symm⟩
  | cons op l ih =>
    intro s hs hP v hv
    have h1 := R.inv s (lower op) hs
    have hw := R.step s (lower op) hs (hP op List.mem_cons_self)
    simp only [runEOps, execE_eq, List.foldl_cons]
    refine ih _ h1 (fun o ho => hP o (List.mem_cons_of_mem _ ho)) _ ?_
    rw [hw, lift_applyEvent, hv]

/-! ## Patterns -/

theorem lit_q : lit "?" = ['?'] := by decide

theorem checkValue_any {x : Str} : checkValue x = .any ↔ x = lit "?" := by
  unfold checkValue
  split
  · rename_i h; simp [h]; exact lit_q.symm
  · rename_i h
    rw [lit_q]
    split <;> simp_all

theorem checkValue_var {x : Str} {v : Str} : checkValue x = .var v → IsVar x := by
  unfold checkValue
  split
  · simp
  · rename_i h
    split
    · rename_i rest
      cases rest with
      | nil => exact absurd rfl h
      | cons c cs => intro _; exact ⟨c, cs, rfl⟩
    · simp

theorem slotMatches_checkValue {x y : Str} (h : ¬ IsVar x) : SlotMatches (checkValue x) y ↔ TextMatches x y := by
  unfold checkValue TextMatches
  split
  · rename_i hx; simp [SlotMatches, hx]; exact .inl lit_q.symm
  · rename_i hx
    split
    · rename_i rest
      cases rest with
      | nil => exact absurd rfl hx
      | cons c cs => exact absurd ⟨c, cs, rfl⟩ h
    · simp only [SlotMatches]
      constructor
      · intro h; exact .inr h
      · rintro (h | h)
        · exact absurd h hx
        · exact h

theorem checkValue_colon : checkValue colonS = .val colonS := by decide
theorem checkValue_notColon : checkValue notColonS = .val notColonS := by decide

theorem patternToQuery_eq (p : Entry) :
    patternToQuery p = ⟨checkValue (parts p).1, checkValue (parts p).2.1, checkValue (parts p).2.2⟩ := by
  cases p with
  | role f s r => rfl
  | ext e c => simp only [patternToQuery, parts]; rw [← checkValue_colon]; rfl
  | notExt e c => simp only [patternToQuery, parts]; rw [← checkValue_notColon]; rfl

theorem noVars_pattern {p : Entry} (h : NoNamedVars p) : NoVars (patternToQuery p) := by
  rw [patternToQuery_eq]
  exact ⟨fun v e => h.1 (checkValue_var e), fun v e => h.2.1 (checkValue_var e), fun v e => h.2.2 (checkValue_var e)⟩

theorem queryMatches_pattern {p : Entry} (h : NoNamedVars p) (t : Trip) :
    QueryMatches (patternToQuery p) t ↔ EntryMatches p (tripToEntry t) := by
  rw [patternToQuery_eq]
  unfold QueryMatches EntryMatches
  rw [parts_tripToEntry, slotMatches_checkValue h.1, slotMatches_checkValue h.2.1, slotMatches_checkValue h.2.2]

end Graph
end Verif
