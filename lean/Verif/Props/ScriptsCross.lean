import Verif.Proofs.EvalSim
import Verif.Props.StoreCross
import Verif.Props.Commands
/-!
# C58, C59: scripts over the three stores
-/
namespace Verif
namespace Props
open Spec Eval

/-! ## C58 -/

theorem length_insertL [SOrd α] (a : α) (l : List α) : (insertL a l).length ≤ l.length + 1 := by
  induction l with
  | nil => simp [insertL]
  | cons b l ih =>
    simp only [insertL]
    split
    · simp
    · split <;> simp_all

theorem length_map_le [SOrd α] [SOrd β] (f : α → β) (s : BSet α) : (s.map f).toList.length ≤ s.toList.length := by
  have : ∀ (l : List β) (t : BSet β), (BSet.insertAll t l).toList.length ≤ t.toList.length + l.length := by
    intro l
    induction l with
    | nil => intro t; simp [BSet.insertAll]
    | cons b l ih =>
      intro t
      have h1 := ih (t.insert b)
      have h2 : (t.insert b).toList.length ≤ t.toList.length + 1 := length_insertL b t.toList
      have h3 : BSet.insertAll t (b :: l) = BSet.insertAll (t.insert b) l := rfl
      rw [h3]; simp only [List.length_cons]; omega
  have h := this (s.toList.map f) ∅
  simpa [BSet.map, BSet.ofList] using h

/-- What a store must do to follow the guarded store: `Inv t k` says `k` more identifiers can be used. -/
structure Follower (T : TripsOps τ) (Inv : τ → Nat → Prop) (world : τ → World) : Prop where
  agrees : ∀ t k, Inv t k → Agrees T t (world t)
  addCollection : ∀ t k c, Inv t (1 + k) → world t c = none → Heed.lmdbKey c = true →
    (exec T t (.addCollection c)).1 = .ok () ∧ Inv (exec T t (.addCollection c)).2 k ∧
    world (exec T t (.addCollection c)).2 = apply false (world t) (.addCollection c)
  addTriples : ∀ t k c ts, Inv t (3 * ts.toList.length + k) → (world t c).isSome →
    (exec T t (.addTriples c ts)).1 = .ok () ∧ Inv (exec T t (.addTriples c ts)).2 k ∧
    world (exec T t (.addTriples c ts)).2 = apply false (world t) (.addTriples c ts)

def FollowRel (Inv : τ → Nat → Prop) (world : τ → World) (s : Mem × Nat) (t : τ) : Prop :=
  (∃ k, s.2 ≤ k ∧ Inv t k) ∧ world t = Mem.world s.1

theorem follower_sim {T : TripsOps τ} {Inv : τ → Nat → Prop} {world : τ → World} (F : Follower T Inv world) 
    (mono : ∀ t k k', k' ≤ k → Inv t k → Inv t k') :
    LigSim (FollowRel Inv world) strictOps (Graph.ops T) where
  entries := by
    rintro ⟨m, k⟩ t c ⟨⟨k', _, hi⟩, hw⟩ hp
    simp only [strictOps] at hp ⊢
    split
    · rename_i hc
      obtain ⟨ts, hts⟩ := Option.isSome_iff_exists.mp hc
      have hwc : world t c.text = some (fun x => x ∈ ts) := by rw [hw]; exact Mem.world_some.mpr ⟨ts, hts, rfl⟩
      obtain ⟨ts', h1, h2⟩ := (F.agrees t k' hi).2 _ _ hwc
      have : ts' = ts := BSet.ext h2
      subst this
      show (T.triples t c.text).map _ = (Mem.triples m c.text).map _
      rw [h1, Mem.triples, hts]
    · rename_i hc; rw [if_neg hc] at hp; exact absurd rfl hp
  filter := by intro s t c p _ hp; exact absurd rfl hp
  addCollection := by
    rintro ⟨m, k⟩ t c ⟨⟨k', hk, hi⟩, hw⟩ hp
    simp only [strictOps] at hp ⊢
    simp only at hk hw
    split
    · rename_i hc; rw [if_pos hc] at hp; exact absurd rfl hp
    · rename_i hc
      simp only [not_or, Bool.not_eq_true, Option.isSome_eq_false_iff, Option.isNone_iff_eq_none, Nat.not_lt, Bool.not_eq_false] at hc
      obtain ⟨h0, hleg, h1⟩ := hc
      have hwc : world t c.text = none := by rw [hw]; exact Mem.world_none.mpr h0
      have hi' : Inv t (1 + (k' - 1)) := by rw [show 1 + (k' - 1) = k' by omega]; exact hi
      obtain ⟨e1, e2, e3⟩ := F.addCollection t _ c.text hi' hwc hleg
      refine ⟨?_, ⟨_, by simp only; omega, e2⟩, ?_⟩
      · show (T.addCollection t c.text).1.errTodo = _
        rw [show (T.addCollection t c.text).1 = _ from e1]; rfl
      · show world (exec T t (.addCollection c.text)).2 = Mem.world (exec Mem.ops m (.addCollection c.text)).2
        rw [e3, Mem.world_exec, hw]
        have : Mem.world m c.text = none := Mem.world_none.mpr h0
        simp [applyEvent, exec, Mem.ops, Mem.addCollection, apply, this]
  addEntries := by
    rintro ⟨m, k⟩ t c es ⟨⟨k', hk, hi⟩, hw⟩ hp
    simp only [strictOps] at hp ⊢
    simp only at hk hw
    split
    · rename_i hc
      obtain ⟨hc, hlen⟩ := hc
      have hwc : (world t c.text).isSome := by rw [hw]; simpa [Mem.world] using hc
      have hl := length_map_le Graph.entryToTrip es
      have hi' : Inv t (3 * (es.map Graph.entryToTrip).toList.length + (k' - 3 * es.toList.length)) :=
        mono _ _ _ (by omega) hi
      obtain ⟨e1, e2, e3⟩ := F.addTriples t _ c.text _ hi' hwc
      obtain ⟨ts, hts⟩ := Option.isSome_iff_exists.mp hc
      have em : (exec Mem.ops m (.addTriples c.text (es.map Graph.entryToTrip))).1 = .ok () := by
        simp [exec, Mem.ops, Mem.addTriples, hts]
      refine ⟨?_, ⟨_, by simp only; omega, e2⟩, ?_⟩
      · show (T.addTriples t c.text _).1.errTodo = (Mem.ops.addTriples m c.text _).1.errTodo
        rw [show (T.addTriples t c.text _).1 = _ from e1, show (Mem.ops.addTriples m c.text _).1 = _ from em]
      · show world (exec T t (.addTriples c.text _)).2 = Mem.world (exec Mem.ops m (.addTriples c.text _)).2
        rw [e3, Mem.world_exec, em, hw]; rfl
    · rename_i hc; rw [if_neg hc] at hp; exact absurd rfl hp

def memInv (_ : Mem) (_ : Nat) : Prop := True
theorem mem_follower : Follower Mem.ops memInv Mem.world where
  agrees t _ _ := Mem.agrees t
  addCollection t k c _ hc _ := by
    refine ⟨rfl, trivial, ?_⟩
    rw [Mem.world_exec]
    simp [applyEvent, exec, Mem.ops, Mem.addCollection, apply, hc]
  addTriples t k c ts _ hc := by
    simp only [Mem.world, Option.isSome_map] at hc
    obtain ⟨S, hS⟩ := Option.isSome_iff_exists.mp hc
    have em : (exec Mem.ops t (.addTriples c ts)).1 = .ok () := by simp [exec, Mem.ops, Mem.addTriples, hS]
    refine ⟨em, trivial, ?_⟩
    rw [Mem.world_exec, em]; rfl

def heedInv (h : Heed) (k : Nat) : Prop := Heed.Good h ∧ Heed.Room h k
theorem heed_follower : Follower Heed.ops heedInv Heed.worldOf where
  agrees t _ h := heed_agrees h.1
  addCollection t k c h hc hl := by
    have e : (exec Heed.ops t (.addCollection c)).1 = .ok () := by
      show (exec (Heed.opsWith true) _ _).1 = _
      rw [Heed.exec_eq]
      exact Heed.outcome_addCollection h.1 true c (by have := h.2; unfold Heed.Room at *; omega)
    refine ⟨e, ⟨Heed.good_exec h.1 true _, Heed.room_exec h.1 _ k h.2⟩, ?_⟩
    rw [Heed.worldOf_exec h.1 (.addCollection c) hl, e]; rfl
  addTriples t k c ts h hc := by
    have e : (exec Heed.ops t (.addTriples c ts)).1 = .ok () := by
      show (exec (Heed.opsWith true) _ _).1 = _
      rw [Heed.exec_eq, Heed.outcome_addTriples h.1 true c ts (by have := h.2; unfold Heed.Room at *; omega), hc]; rfl
    refine ⟨e, ⟨Heed.good_exec h.1 true _, Heed.room_exec h.1 _ k h.2⟩, ?_⟩
    rw [Heed.worldOf_exec h.1 (.addTriples c ts) trivial, e]; rfl

def duckInv (d : Duck) (_ : Nat) : Prop := Duck.Inv d
theorem duck_follower : Follower Duck.ops duckInv Duck.world where
  agrees t _ h := Duck.agrees h
  addCollection t k c h hc _ := by
    obtain ⟨h1, h2, h3⟩ := Duck.exec_spec h (.addCollection c)
    simp only [hc, Option.isSome_none, Bool.false_eq_true, if_false] at h3
    exact ⟨h3, h1, by rw [h2, h3]; rfl⟩
  addTriples t k c ts h hc := by
    obtain ⟨h1, h2, h3⟩ := Duck.exec_spec h (.addTriples c ts)
    simp only [hc, if_true] at h3
    exact ⟨h3, h1, by rw [h2, h3]; rfl⟩

/-- C58: a store that follows the guarded one gives every script the same result, as long as that does not panic. -/
theorem C58_simulation (R : σ → τ → Prop) (L : LigOps σ) (L' : LigOps τ) (hL : LigSim R L L') (script : Str) (s : σ) (t : τ)
    (h : R s t) (hp : (run L common script s).1 ≠ .panic) : OutRel R (run L common script s) (run L' common script t) := by
  obtain ⟨h1, h2⟩ := run_sim hL script s t h hp
  exact ⟨h1.symm, h2⟩

/-- C58: a script that the guarded store (`Spec.strictOps`, with 2^64 identifiers) runs without panic has the same result on
`LigatureGraph` over each of the three stores, and leaves the same collections with the same triples in each. -/
theorem C58_same_on_all_stores (script : Str) (hp : (run strictOps common script (Mem.new, 2 ^ 64)).1 ≠ .panic) :
    let m := run (Graph.ops Mem.ops) common script Mem.new
    let h := run (Graph.ops Heed.ops) common script Heed.new
    let d := run (Graph.ops Duck.ops) common script Duck.new
    h.1 = m.1 ∧ d.1 = m.1 ∧ SameView Mem.ops m.2 Heed.ops h.2 ∧ SameView Mem.ops m.2 Duck.ops d.2 := by
  intro m h d
  obtain ⟨e1, ⟨_, _, i1⟩, w1⟩ := C58_simulation _ _ _ (follower_sim mem_follower (fun _ _ _ _ h => h)) script (Mem.new, 2 ^ 64) Mem.new
    ⟨⟨_, Nat.le_refl _, trivial⟩, rfl⟩ hp
  obtain ⟨e2, ⟨_, _, i2⟩, w2⟩ := C58_simulation _ _ _
    (follower_sim heed_follower (fun _ _ _ hk h => ⟨h.1, by have := h.2; unfold Heed.Room at *; omega⟩)) script (Mem.new, 2 ^ 64) Heed.new
    ⟨⟨2 ^ 64, Nat.le_refl _, Heed.good_new, by simp [Heed.Room, Heed.used, Heed.new]⟩, by rw [Heed.worldOf_new, Mem.world_new]⟩ hp
  obtain ⟨e3, ⟨_, _, i3⟩, w3⟩ := C58_simulation _ _ _ (follower_sim duck_follower (fun _ _ _ _ h => h)) script (Mem.new, 2 ^ 64) Duck.new
    ⟨⟨0 + 2 ^ 64, by simp, Duck.inv_new⟩, by rw [Duck.world_new, Mem.world_new]⟩ hp
  refine ⟨by rw [← e2, ← e1], by rw [← e3, ← e1], ?_, ?_⟩
  · have a1 := Mem.agrees m.2
    have a2 := heed_agrees (s := h.2) i2.1
    rw [w1] at a1; rw [w2] at a2
    exact a1.sameView a2
  · have a1 := Mem.agrees m.2
    have a2 := Duck.agrees (s := d.2) i3
    rw [w1] at a1; rw [w3] at a2
    exact a1.sameView a2

/-- A script the guarded store runs: two collections, a copy through a quote, a caught failure and a final read. -/
def crossScript : Str :=
  lit "let T {a r b, a : c}, let S (union {a r b} {x ¬: y}), let U (read S), assert-fail (nope a), assert-equal (read T) {a : c, a r b}, read U"

example : (run strictOps common crossScript (Mem.new, 2 ^ 64)).1 =
    .ok (.network (BSet.ofList [.role (.of (lit "a")) (.of (lit "b")) (.of (lit "r")),
      .notExt (.of (lit "x")) (.of (lit "y"))])) := by decide +kernel

/-! ## C59: the standard commands on a graph over the LMDB and DuckDB stores -/

theorem letStore_graph (T : TripsOps τ) (t : τ) (name : Element) (n : Network) :
    letStore (Graph.ops T) name n t =
      match exec T t (.addCollection name.text) with
      | (.ok _, t1) =>
        match exec T t1 (.addTriples name.text (n.map Graph.entryToTrip)) with
        | (.ok _, t2) => (.ok emptyNet, t2)
        | (_, t2) => (.panic, t2)
      | (_, t1) => (.panic, t1) := by
  have h1 : (Graph.ops T).addCollection t name = ((T.addCollection t name.text).1.errTodo, (T.addCollection t name.text).2) := rfl
  have h2 : ∀ t1, (Graph.ops T).addEntries t1 name n = ((T.addTriples t1 name.text (n.map Graph.entryToTrip)).1.errTodo,
    (T.addTriples t1 name.text (n.map Graph.entryToTrip)).2.1, n) := fun _ => rfl
  simp only [letStore, exec]
  rw [h1]
  rcases T.addCollection t name.text with ⟨a, t1⟩
  cases a with
  | panic => rfl
  | err m => rfl
  | ok u =>
    simp only [Res.errTodo, h2]
    rcases T.addTriples t1 name.text (n.map Graph.entryToTrip) with ⟨b, t2, es⟩
    cases b <;> rfl

theorem graph_entries_of_world {T : TripsOps τ} {t : τ} {w : World} (h : Agrees T t w) (c : Element) (ts : BSet Trip)
    (hc : w c.text = some fun x => x ∈ ts) : (Graph.ops T).entries t c = .ok (ts.map Graph.tripToEntry) := by
  obtain ⟨ts', h1, h2⟩ := h.2 _ _ hc
  have : ts' = ts := BSet.ext h2
  subst this
  show (T.triples t c.text).map _ = _
  rw [h1]; rfl

/-- `let` when adding the collection is acknowledged and leaves it with the triples `old`, then reading it. -/
theorem let_follower {T : TripsOps τ} {Inv : τ → Nat → Prop} {world : τ → World} (F : Follower T Inv world) {t : τ} {k : Nat}
    (name name' : Element) (n : Network) (old : BSet Trip) (hn : name'.text = name.text)
    (a1 : (exec T t (.addCollection name.text)).1 = .ok ())
    (a2 : Inv (exec T t (.addCollection name.text)).2 (3 * (n.map Graph.entryToTrip).toList.length + k))
    (hw1 : world (exec T t (.addCollection name.text)).2 name.text = some fun x => x ∈ old) :
    ∃ s', runCalls (Graph.ops T) common [call "let" [.element name, .network n]] t = (.ok (.network ∅), s') ∧
      runCalls (Graph.ops T) common [call "read" [.element name']] s' =
        (.ok (.network ((old.map Graph.tripToEntry).union (n.map canon))), s') := by
  obtain ⟨b1, b2, b3⟩ := F.addTriples _ _ name.text (n.map Graph.entryToTrip) a2 (by rw [hw1]; rfl)
  refine ⟨(exec T (exec T t (.addCollection name.text)).2 (.addTriples name.text (n.map Graph.entryToTrip))).2, ?_, ?_⟩
  · rw [common_let, letStore_graph]
    rcases e1 : exec T t (.addCollection name.text) with ⟨r1, t1⟩
    rw [e1] at a1 b1
    simp only at a1 b1
    subst a1
    simp only
    rcases e2 : exec T t1 (.addTriples name.text (n.map Graph.entryToTrip)) with ⟨r2, t2⟩
    rw [e2] at b1
    simp only at b1
    subst b1; rfl
  · rw [common_read]
    have hw : world (exec T (exec T t (.addCollection name.text)).2 (.addTriples name.text (n.map Graph.entryToTrip))).2 name'.text =
        some fun x => x ∈ old.union (n.map Graph.entryToTrip) := by
      rw [b3, hn]; simp [apply, hw1]
    rw [Eval.read, graph_entries_of_world (F.agrees _ _ b2) name' _ hw]
    simp only [Prod.mk.injEq, and_true, Res.ok.injEq, Value.network.injEq]
    apply BSet.ext; intro e
    simp only [BSet.mem_map, BSet.mem_union]
    constructor
    · rintro ⟨t, ht | ⟨x, hx, rfl⟩, rfl⟩
      · exact .inl ⟨t, ht, rfl⟩
      · exact .inr ⟨x, hx, Graph.canon_eq x⟩
    · rintro (⟨t, ht, rfl⟩ | ⟨x, hx, rfl⟩)
      · exact ⟨t, .inl ht, rfl⟩
      · exact ⟨_, .inr ⟨x, hx, rfl⟩, (Graph.canon_eq x).symm⟩

theorem union_empty_map (n : Network) : ((∅ : BSet Trip).map Graph.tripToEntry).union (n.map canon) = n.map canon := by
  apply BSet.ext; intro e; simp

/-- C59, LMDB store: `let` of a name the store does not list (a legal one, with room for the identifiers) stores the network, as on the
in-memory store. -/
theorem C59_let_new_heed (l : List Op) (name name' : Element) (n : Network) (hn : name'.text = name.text)
    (hc : ¬ Listed Heed.ops (runOps Heed.ops Heed.new l).2 name.text) (hl : Heed.lmdbKey name.text = true)
    (hr : costOf l + 1 + 3 * n.toList.length ≤ 2 ^ 64) :
    ∃ s', runCalls (Graph.ops Heed.ops) common [call "let" [.element name, .network n]] (runOps Heed.ops Heed.new l).2 =
        (.ok (.network ∅), s') ∧
      runCalls (Graph.ops Heed.ops) common [call "read" [.element name']] s' = (.ok (.network (n.map canon)), s') := by
  have hg := heed_good l
  have hle := length_map_le Graph.entryToTrip n
  have hroom : Heed.Room (runOps Heed.ops Heed.new l).2 (1 + (3 * (n.map Graph.entryToTrip).toList.length + 0)) := by
    apply Heed.room_runOps l _ _ Heed.good_new
    simp only [Heed.Room, Heed.used, Heed.new]; omega
  rw [heed_listed hg, Option.not_isSome_iff_eq_none] at hc
  obtain ⟨a1, a2, a3⟩ := heed_follower.addCollection _ _ name.text ⟨hg, hroom⟩ hc hl
  have := let_follower heed_follower name name' n ∅ hn a1 a2 (by rw [a3]; simp [apply, hc])
  rwa [union_empty_map] at this

/-- C59, DuckDB store: likewise, for any name. -/
theorem C59_let_new_duck (l : List Op) (name name' : Element) (n : Network) (hn : name'.text = name.text)
    (hc : ¬ Listed Duck.ops (runOps Duck.ops Duck.new l).2 name.text) :
    ∃ s', runCalls (Graph.ops Duck.ops) common [call "let" [.element name, .network n]] (runOps Duck.ops Duck.new l).2 =
        (.ok (.network ∅), s') ∧
      runCalls (Graph.ops Duck.ops) common [call "read" [.element name']] s' = (.ok (.network (n.map canon)), s') := by
  have hg := duck_inv l
  rw [duck_listed hg, Option.not_isSome_iff_eq_none] at hc
  obtain ⟨h1, h2, h3⟩ := Duck.exec_spec hg (.addCollection name.text)
  simp only [hc, Option.isSome_none, Bool.false_eq_true, if_false] at h3
  have := let_follower (k := 0) duck_follower name name' n ∅ hn h3 h1 (by rw [h2, h3]; simp [applyEvent, apply, hc])
  rwa [union_empty_map] at this

/-- `C59_let_new_duck` applies to a new name in a store with other collections. -/
example := C59_let_new_duck sampleOps (.of (lit "U")) (.of (lit "U")) sampleNet rfl (by rintro ⟨l, h, h'⟩; cases h; revert h'; decide +kernel)

/-- C59, LMDB store: `let` of a name that is listed adds the network to what is stored under it (the in-memory store replaces it, C17). -/
theorem C59_let_existing_heed_merges (l : List Op) (name name' : Element) (n old : Network) (hn : name'.text = name.text)
    (ho : runCalls (Graph.ops Heed.ops) common [call "read" [.element name]] (runOps Heed.ops Heed.new l).2 =
      (.ok (.network old), (runOps Heed.ops Heed.new l).2))
    (hr : costOf l + 1 + 3 * n.toList.length ≤ 2 ^ 64) :
    ∃ s', runCalls (Graph.ops Heed.ops) common [call "let" [.element name, .network n]] (runOps Heed.ops Heed.new l).2 =
        (.ok (.network ∅), s') ∧
      runCalls (Graph.ops Heed.ops) common [call "read" [.element name']] s' = (.ok (.network (old.union (n.map canon))), s') := by
  have hg := heed_good l
  have hle := length_map_le Graph.entryToTrip n
  have hroom : Heed.Room (runOps Heed.ops Heed.new l).2 (1 + (3 * (n.map Graph.entryToTrip).toList.length + 0)) := by
    apply Heed.room_runOps l _ _ Heed.good_new
    simp only [Heed.Room, Heed.used, Heed.new]; omega
  generalize (runOps Heed.ops Heed.new l).2 = s at *
  cases hc : Heed.worldOf s name.text with
  | none =>
    have hp : Heed.triples s name.text = .panic := Heed.triples_missing hg hc
    rw [common_read, Eval.read, show (Graph.ops Heed.ops).entries s name = (Heed.triples s name.text).map _ from rfl, hp] at ho
    simp [Res.map] at ho
  | some p =>
    obtain ⟨ts, h1, h2⟩ := (heed_agrees hg).2 _ _ hc
    have hp : p = fun x => x ∈ ts := by funext x; exact propext (h2 x).symm
    subst hp
    rw [common_read, Eval.read, graph_entries_of_world (heed_agrees hg) name ts hc] at ho
    simp only [Prod.mk.injEq, Res.ok.injEq, Value.network.injEq, and_true] at ho
    subst ho
    have e : (exec Heed.ops s (.addCollection name.text)).1 = .ok () := by
      show (exec (Heed.opsWith true) _ _).1 = _
      rw [Heed.exec_eq]
      exact Heed.outcome_addCollection hg true _ (by unfold Heed.Room at *; omega)
    have hsame : (exec Heed.ops s (.addCollection name.text)).2 = s := by
      obtain ⟨i, hi⟩ : ∃ i, s.collToId.get? name.text = some i := by
        have := congrArg Option.isSome hc
        rw [Heed.world_isSome] at this
        exact Option.isSome_iff_exists.mp this
      show (exec (Heed.opsWith true) _ _).2 = _
      rw [Heed.exec_eq]
      show (Heed.addCollectionTx true s name.text).2.durable = s
      rcases Heed.addCollection_cases hg true name.text with ⟨_, e⟩ | ⟨h0, _⟩ | ⟨h0, _⟩
      · rw [e]; rfl
      · simp [hi] at h0
      · simp [hi] at h0
    have hroom' : heedInv s (3 * (n.map Graph.entryToTrip).toList.length + 0) := ⟨hg, by unfold Heed.Room at *; omega⟩
    exact let_follower heed_follower name name' n ts hn e (by rw [hsame]; exact hroom') (by rw [hsame]; exact hc)

/-- C59, DuckDB store: `let` of a name that is listed panics and changes nothing. -/
theorem C59_let_existing_duck_panics (l : List Op) (name : Element) (n : Network)
    (hc : Listed Duck.ops (runOps Duck.ops Duck.new l).2 name.text) :
    runCalls (Graph.ops Duck.ops) common [call "let" [.element name, .network n]] (runOps Duck.ops Duck.new l).2 =
      (.panic, (runOps Duck.ops Duck.new l).2) := by
  have h := C28_duck_add_existing_panics l name.text hc
  rw [common_let, letStore_graph, exec, h]

/-- `C59_let_existing_duck_panics` applies to a listed name. -/
example := C59_let_existing_duck_panics sampleOps (.of (lit "T")) sampleNet ⟨_, rfl, by decide +kernel⟩

/-- C59: `read` of a name that is not listed: an error on the in-memory store, a panic on the LMDB store, the empty network on the
DuckDB store. -/
theorem C59_read_missing (l : List Op) (name : Element) :
    (¬ Listed Mem.ops (runOps Mem.ops Mem.new l).2 name.text →
      runCalls (Graph.ops Mem.ops) common [call "read" [.element name]] (runOps Mem.ops Mem.new l).2 =
        (.err (lit "Error Collection `" ++ name.text ++ lit "` not found."), (runOps Mem.ops Mem.new l).2)) ∧
    (¬ Listed Heed.ops (runOps Heed.ops Heed.new l).2 name.text →
      runCalls (Graph.ops Heed.ops) common [call "read" [.element name]] (runOps Heed.ops Heed.new l).2 =
        (.panic, (runOps Heed.ops Heed.new l).2)) ∧
    (¬ Listed Duck.ops (runOps Duck.ops Duck.new l).2 name.text →
      runCalls (Graph.ops Duck.ops) common [call "read" [.element name]] (runOps Duck.ops Duck.new l).2 =
        (.ok (.network ∅), (runOps Duck.ops Duck.new l).2)) := by
  refine ⟨fun hc => ?_, fun hc => ?_, fun hc => ?_⟩
  · rw [mem_listed, Option.not_isSome_iff_eq_none] at hc
    rw [common_read, Eval.read]
    simp only [Graph.ops, Graph.entries, Mem.ops, Mem.triples] at *
    rw [hc]
    simp only [Res.map, Prod.mk.injEq, Res.err.injEq, and_true]
    rw [show lit "Error Collection `" = lit "Error " ++ lit "Collection `" by decide]
    simp only [List.append_assoc]
  · have hg := heed_good l
    rw [heed_listed hg, Option.not_isSome_iff_eq_none] at hc
    rw [common_read, Eval.read, show (Graph.ops Heed.ops).entries _ name = (Heed.triples _ name.text).map _ from rfl,
      Heed.triples_missing hg hc]
    rfl
  · have hg := duck_inv l
    rw [duck_listed hg, Option.not_isSome_iff_eq_none] at hc
    obtain ⟨ts, ht, hts⟩ := Duck.triples_spec hg name.text
    have : ts = ∅ := BSet.ext fun t => by rw [hts, hc]; simp
    subst this
    rw [common_read, Eval.read, show (Graph.ops Duck.ops).entries _ name = (Duck.triples _ name.text).map _ from rfl, ht]
    rfl

/-- C59: `filter` panics on the LMDB and DuckDB stores, whatever is stored and asked. -/
theorem C59_filter_unimplemented (s : Heed) (d : Duck) (c a r b : Element) :
    runCalls (Graph.ops Heed.ops) common [call "filter" [.element c, .element a, .element r, .element b]] s = (.panic, s) ∧
    runCalls (Graph.ops Duck.ops) common [call "filter" [.element c, .element a, .element r, .element b]] d = (.panic, d) := by
  constructor <;> rw [common_filter] <;> rfl

/-- The same script, three stores, three outcomes. -/
def againScript : Str := lit "let T {a r b}, let T {c r d}, read T"

example : (run (Graph.ops Mem.ops) common againScript Mem.new).1 =
      .ok (.network (BSet.ofList [.role (.of (lit "c")) (.of (lit "d")) (.of (lit "r"))])) ∧
    (run (Graph.ops Heed.ops) common againScript Heed.new).1 =
      .ok (.network (BSet.ofList [.role (.of (lit "a")) (.of (lit "b")) (.of (lit "r")),
        .role (.of (lit "c")) (.of (lit "d")) (.of (lit "r"))])) ∧
    (run (Graph.ops Duck.ops) common againScript Duck.new).1 = .panic := by decide +kernel

/-- The hypothesis of `C59_let_existing_heed_merges` is met with a non-empty old network. -/
example : runCalls (Graph.ops Heed.ops) common [call "read" [.element (.of (lit "T"))]]
      (runOps Heed.ops Heed.new [.addCollection (lit "T"), .addTriples (lit "T") sampleSet]).2 =
    (.ok (.network (sampleSet.map Graph.tripToEntry)),
      (runOps Heed.ops Heed.new [.addCollection (lit "T"), .addTriples (lit "T") sampleSet]).2) := by
  rw [common_read]
  have : Eval.read (Graph.ops Heed.ops) [.element (.of (lit "T"))]
      (runOps Heed.ops Heed.new [.addCollection (lit "T"), .addTriples (lit "T") sampleSet]).2 =
    .ok (.network (sampleSet.map Graph.tripToEntry)) := by decide +kernel
  rw [this]

end Props
end Verif
