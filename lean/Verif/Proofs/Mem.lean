import Verif.Proofs.Store
import Verif.Model.TripsMem
/-!
# The in-memory store refines the specification
-/
namespace Verif
namespace Mem
open Spec

/-- The world an in-memory store stands for. -/
def world (s : Mem) : World := fun c => (s.colls.get? c).map (fun ts t => t ∈ ts)

theorem world_new : world new = emptyWorld := by
  funext c; simp [world, new, emptyWorld]

theorem world_insert (s : Mem) (c : Str) (ts : BSet Trip) :
    world ⟨s.colls.insert c ts⟩ = (world s).set c (some fun t => t ∈ ts) := by
  funext d
  by_cases h : d = c
  · subst h; simp [world]
  · simp [world, World.set_other _ _ h, BMap.get?_insert_ne _ _ h]

theorem world_erase (s : Mem) (c : Str) : world ⟨s.colls.erase c⟩ = (world s).set c none := by
  funext d
  by_cases h : d = c
  · subst h; simp [world]
  · simp [world, World.set_other _ _ h, BMap.get?_erase_ne _ h]

theorem world_exec (s : Mem) (op : Op) :
    world (exec ops s op).2 = applyEvent true (world s) (op, (exec ops s op).1) := by
  cases op with
  | addCollection c =>
    simp only [exec, ops, addCollection, applyEvent, apply, world_insert]
    have : (fun t : Trip => t ∈ (∅ : BSet Trip)) = fun _ => False := by funext t; simp
    rw [this]; split <;> rfl
  | removeCollection c => simp [exec, ops, removeCollection, applyEvent, apply, world_erase]
  | addTriples c ts =>
    simp only [exec, ops, addTriples]
    cases h : s.colls.get? c with
    | none => simp [applyEvent]
    | some res =>
      simp only [applyEvent, apply, world_insert]
      simp [world, h]
  | removeTriples c ts =>
    simp only [exec, ops, removeTriples]
    cases h : s.colls.get? c with
    | none => simp [applyEvent]
    | some res =>
      simp only [applyEvent, apply, world_insert]
      simp only [world, h, Option.map_some, BSet.mem_eraseAll]; rfl

theorem world_runOps (l : List Op) :
    world (runOps ops new l).2 = worldAfter true (runOps ops new l).1 :=
  (runOps_refines ops true (fun s w => world s = w) (fun _ => True)
    (fun s w op _ h => by subst h; exact world_exec s op) l (fun _ _ => trivial) new emptyWorld world_new)

theorem mem_collections (s : Mem) (c : Str) : c ∈ s.colls.keys ↔ (world s c).isSome := by
  rw [BMap.mem_keys_isSome]; simp [world]

theorem agrees (s : Mem) : Agrees ops s (world s) := by
  refine ⟨⟨s.colls.keys, rfl, s.colls.keys_nodup, mem_collections s⟩, ?_⟩
  intro c p h
  simp only [world, Option.map_eq_some_iff] at h
  obtain ⟨ts, h, rfl⟩ := h
  exact ⟨ts, by simp [ops, triples, h], fun t => Iff.rfl⟩

theorem world_none {s : Mem} {c : Str} : world s c = none ↔ s.colls.get? c = none := by simp [world]

theorem world_some {s : Mem} {c : Str} {p} : world s c = some p ↔ ∃ ts, s.colls.get? c = some ts ∧ p = fun t => t ∈ ts := by
  simp only [world, Option.map_eq_some_iff]
  constructor
  · rintro ⟨ts, h, rfl⟩; exact ⟨ts, h, rfl⟩
  · rintro ⟨ts, h, rfl⟩; exact ⟨ts, h, rfl⟩

/-! ## filter -/

/-- Matching the triple gets as far as a named variable of the query. -/
def Reaches (q : Query) (t : Trip) : Prop :=
  (∃ v, q.fst = .var v) ∨ (SlotMatches q.fst t.fst ∧ ∃ v, q.snd = .var v) ∨
  (SlotMatches q.fst t.fst ∧ SlotMatches q.snd t.snd ∧ ∃ v, q.thd = .var v)

theorem slotStep_go {q : Slot} {x : Str} : slotStep q x = .go ↔ SlotMatches q x := by
  cases q with
  | var v => simp [slotStep, SlotMatches]
  | val v => simp only [slotStep, SlotMatches]; split <;> simp_all
  | any => simp [slotStep, SlotMatches]

theorem slotStep_todo {q : Slot} {x : Str} : slotStep q x = .todo ↔ ∃ v, q = .var v := by
  cases q with
  | var v => simp [slotStep]
  | val v => simp only [slotStep]; split <;> simp_all
  | any => simp [slotStep]

theorem filterLoop_cons (q : Query) (a : Trip) (l : List Trip) (acc : BSet Trip) :
    (Reaches q a ∧ filterLoop q (a :: l) acc = .panic) ∨
    (¬ Reaches q a ∧ QueryMatches q a ∧ filterLoop q (a :: l) acc = filterLoop q l (acc.insert a)) ∨
    (¬ Reaches q a ∧ ¬ QueryMatches q a ∧ filterLoop q (a :: l) acc = filterLoop q l acc) := by
  rw [filterLoop]
  unfold Reaches QueryMatches
  rw [← slotStep_go (q := q.fst) (x := a.fst), ← slotStep_go (q := q.snd) (x := a.snd),
    ← slotStep_go (q := q.thd) (x := a.thd), ← slotStep_todo (q := q.fst) (x := a.fst),
    ← slotStep_todo (q := q.snd) (x := a.snd), ← slotStep_todo (q := q.thd) (x := a.thd)]
  cases slotStep q.fst a.fst <;> cases slotStep q.snd a.snd <;> cases slotStep q.thd a.thd <;> simp

theorem filterLoop_panic (q : Query) (l : List Trip) : ∀ acc : BSet Trip,
    filterLoop q l acc = .panic ↔ ∃ t ∈ l, Reaches q t := by
  induction l with
  | nil => intro acc; simp [filterLoop]
  | cons a l ih =>
    intro acc
    rcases filterLoop_cons q a l acc with ⟨h, e⟩ | ⟨h, _, e⟩ | ⟨h, _, e⟩ <;> rw [e]
    · simp [h]
    · rw [ih]; simp [h]
    · rw [ih]; simp [h]

theorem filterLoop_ok (q : Query) (l : List Trip) (hl : ¬ ∃ t ∈ l, Reaches q t) : ∀ acc : BSet Trip,
    ∃ r, filterLoop q l acc = .ok r ∧ ∀ t, t ∈ r ↔ t ∈ acc ∨ (t ∈ l ∧ QueryMatches q t) := by
  induction l with
  | nil => intro acc; exact ⟨acc, rfl, by simp⟩
  | cons a l ih =>
    intro acc
    have hl' : ¬ ∃ t ∈ l, Reaches q t := fun ⟨t, h, h'⟩ => hl ⟨t, by simp [h], h'⟩
    rcases filterLoop_cons q a l acc with ⟨h, e⟩ | ⟨h, hm, e⟩ | ⟨h, hm, e⟩
    · exact absurd ⟨a, by simp, h⟩ hl
    · obtain ⟨r, hr, hr'⟩ := ih hl' (acc.insert a)
      refine ⟨r, by rw [e, hr], ?_⟩
      intro t
      rw [hr', BSet.mem_insert, List.mem_cons]
      constructor
      · rintro ((rfl | h) | h)
        · exact .inr ⟨.inl rfl, hm⟩
        · exact .inl h
        · exact .inr ⟨.inr h.1, h.2⟩
      · rintro (h | ⟨rfl | h, h'⟩)
        · exact .inl (.inr h)
        · exact .inl (.inl rfl)
        · exact .inr ⟨h, h'⟩
    · obtain ⟨r, hr, hr'⟩ := ih hl' acc
      refine ⟨r, by rw [e, hr], ?_⟩
      intro t
      rw [hr', List.mem_cons]
      constructor
      · rintro (h | h)
        · exact .inl h
        · exact .inr ⟨.inr h.1, h.2⟩
      · rintro (h | ⟨rfl | h, h'⟩)
        · exact .inl h
        · exact absurd h' hm
        · exact .inr ⟨h, h'⟩

theorem not_reaches_of_noVars {q : Query} (hq : NoVars q) (t : Trip) : ¬ Reaches q t := by
  rintro (⟨v, h⟩ | ⟨_, v, h⟩ | ⟨_, _, v, h⟩)
  · exact hq.1 v h
  · exact hq.2.1 v h
  · exact hq.2.2 v h

theorem filterLoop_novars (q : Query) (hq : NoVars q) (l : List Trip) (acc : BSet Trip) :
    ∃ r, filterLoop q l acc = .ok r ∧ ∀ t, t ∈ r ↔ t ∈ acc ∨ (t ∈ l ∧ QueryMatches q t) :=
  filterLoop_ok q l (fun ⟨t, _, h⟩ => not_reaches_of_noVars hq t h) acc

end Mem
end Verif
