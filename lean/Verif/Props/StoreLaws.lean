import Verif.Props.StoreContract
/-!
# C32–C34, C43, C44: laws that hold on every store
-/
namespace Verif
namespace Props
open Spec

/-- A store whose answers, from states satisfying `I`, are those of a world updated by the specification; `L` restricts names. -/
structure Refines (T : TripsOps σ) (I : σ → Prop) (clears : Bool) (world : σ → World) (L : Op → Prop) : Prop where
  inv : ∀ s op, I s → I (exec T s op).2
  step : ∀ s op, I s → L op → world (exec T s op).2 = applyEvent clears (world s) (op, (exec T s op).1)
  other : ∀ s op d, I s → d ≠ op.target → world (exec T s op).2 d = world s d
  agrees : ∀ s, I s → Agrees T s (world s)
  missing : ∀ s s' c, I s → I s' → world s c = none → world s' c = none → T.triples s c = T.triples s' c

theorem mem_refines : Refines Mem.ops (fun _ => True) true Mem.world (fun _ => True) where
  inv _ _ _ := trivial
  step s op _ _ := Mem.world_exec s op
  other s op d _ hd := by
    rw [Mem.world_exec]
    exact applyEvent_other true _ _ d hd
  agrees s _ := Mem.agrees s
  missing s s' c _ _ h h' := by
    simp [Mem.ops, Mem.triples, Mem.world_none.mp h, Mem.world_none.mp h']

theorem heed_refines : Refines Heed.ops Heed.Good false Heed.worldOf Heed.LegalOp where
  inv s op h := Heed.good_exec h true op
  step s op h hl := Heed.worldOf_exec h op hl
  other s op d h hd := by
    show Heed.worldOf (exec (Heed.opsWith true) s op).2 d = _
    rw [Heed.exec_eq]; exact Heed.worldOf_other h true op d hd
  agrees s h := heed_agrees h
  missing s s' c h h' hw hw' := by
    rw [show Heed.ops.triples s c = _ from Heed.triples_missing h hw,
      show Heed.ops.triples s' c = _ from Heed.triples_missing h' hw']

theorem duck_refines : Refines Duck.ops Duck.Inv false Duck.world (fun _ => True) where
  inv s op h := (Duck.exec_spec h op).1
  step s op h _ := (Duck.exec_spec h op).2.1
  other s op d h hd := by
    rw [(Duck.exec_spec h op).2.1]
    exact applyEvent_other false _ _ d hd
  agrees s h := Duck.agrees h
  missing s s' c h h' hw hw' := by
    obtain ⟨ts, ht, hts⟩ := Duck.triples_spec h c
    obtain ⟨ts', ht', hts'⟩ := Duck.triples_spec h' c
    rw [show Duck.ops.triples s c = _ from ht, show Duck.ops.triples s' c = _ from ht']
    congr 1
    apply BSet.ext; intro t
    rw [hts, hts', hw, hw']

namespace Refines
variable {T : TripsOps σ} {I : σ → Prop} {b : Bool} {world : σ → World} {L : Op → Prop}

theorem inv_run (R : Refines T I b world L) (l : List Op) : ∀ s, I s → I (runOps T s l).2 :=
  runOps_inv T I R.inv l

/-- Equal worlds at a name give equal reads. -/
theorem read_congr (R : Refines T I b world L) {s s' : σ} {c : Str} (h : I s) (h' : I s') (hw : world s' c = world s c) :
    T.triples s' c = T.triples s c := by
  cases hc : world s c with
  | none => exact R.missing s' s c h' h (hw.trans hc) hc
  | some p =>
    obtain ⟨ts, ht, hts⟩ := (R.agrees s h).2 c p hc
    obtain ⟨ts', ht', hts'⟩ := (R.agrees s' h').2 c p (hw.trans hc)
    rw [ht, ht']
    congr 1
    exact BSet.ext fun t => (hts' t).trans (hts t).symm

/-- The world after acknowledged `add_triples` of one collection, batch by batch. -/
theorem world_adds (R : Refines T I b world L) (hL : ∀ c ts, L (.addTriples c ts)) (c : Str) (bs : List (BSet Trip)) :
    ∀ s, I s → (∀ e ∈ (runOps T s (bs.map (Op.addTriples c))).1, e.2 = .ok ()) → (p : Trip → Prop) → world s c = some p →
    world (runOps T s (bs.map (Op.addTriples c))).2 = (world s).set c (some fun t => p t ∨ ∃ x ∈ bs, t ∈ x) := by
  induction bs with
  | nil =>
    intro s _ _ p hp
    funext d
    by_cases e : d = c
    · subst e; simp [runOps, hp]
    · rw [World.set_other _ _ e]; rfl
  | cons x bs ih =>
    intro s hs hok p hp
    simp only [List.map_cons, runOps] at hok ⊢
    have h1 : (exec T s (.addTriples c x)).1 = .ok () := hok _ List.mem_cons_self
    have hw := R.step s (.addTriples c x) hs (hL c x)
    rw [h1] at hw
    simp only [applyEvent, apply, hp] at hw
    have := ih _ (R.inv s _ hs) (fun e he => hok e (List.mem_cons_of_mem _ he)) (fun t => p t ∨ t ∈ x)
      (by rw [hw, World.set_same])
    rw [this, hw]
    funext d
    by_cases e : d = c
    · subst e; rw [World.set_same, World.set_same]
      congr 1; funext t; apply propext
      simp only [List.mem_cons, exists_eq_or_imp, or_assoc]
    · rw [World.set_other _ _ e, World.set_other _ _ e, World.set_other _ _ e]

theorem adds_congr (R : Refines T I b world L) (hL : ∀ c ts, L (.addTriples c ts)) {s : σ} (hs : I s) {c : Str}
    (hc : Listed T s c) (xs ys : List (BSet Trip)) (he : ∀ t, (∃ x ∈ xs, t ∈ x) ↔ (∃ y ∈ ys, t ∈ y))
    (hx : ∀ e ∈ (runOps T s (xs.map (Op.addTriples c))).1, e.2 = .ok ())
    (hy : ∀ e ∈ (runOps T s (ys.map (Op.addTriples c))).1, e.2 = .ok ()) :
    SameView T (runOps T s (xs.map (Op.addTriples c))).2 T (runOps T s (ys.map (Op.addTriples c))).2 := by
  obtain ⟨p, hp⟩ := Option.isSome_iff_exists.mp (((R.agrees s hs).listed c).mp hc)
  have h1 := R.world_adds hL c xs s hs hx p hp
  have h2 := R.world_adds hL c ys s hs hy p hp
  have e : (fun t => p t ∨ ∃ x ∈ xs, t ∈ x) = (fun t => p t ∨ ∃ y ∈ ys, t ∈ y) := by
    funext t; rw [he]
  rw [e] at h1
  have a1 := R.agrees _ (R.inv_run (xs.map (Op.addTriples c)) s hs)
  have a2 := R.agrees _ (R.inv_run (ys.map (Op.addTriples c)) s hs)
  rw [h1] at a1
  rw [h2] at a2
  exact a1.sameView a2

/-- Isolation of one operation. -/
theorem isolated (R : Refines T I b world L) {s : σ} (hs : I s) (op : Op) (d : Str) (hd : d ≠ op.target) :
    T.triples (exec T s op).2 d = T.triples s d ∧ (Listed T (exec T s op).2 d ↔ Listed T s d) := by
  have hw := R.other s op d hs hd
  have hs' := R.inv s op hs
  refine ⟨R.read_congr hs hs' hw, ?_⟩
  rw [(R.agrees _ hs').listed, (R.agrees s hs).listed, hw]

/-- A collection just added that was not there before is empty. -/
theorem fresh_empty (R : Refines T I b world L) {s : σ} (hs : I s) {c : Str} (hl : L (.addCollection c))
    (hc : ¬ Listed T s c) (hok : (T.addCollection s c).1 = .ok ()) :
    T.triples (T.addCollection s c).2 c = .ok ∅ := by
  have hw := R.step s (.addCollection c) hs hl
  have hn : world s c = none := by
    rw [(R.agrees s hs).listed] at hc; simpa using hc
  have h1 : (exec T s (.addCollection c)).1 = .ok () := hok
  rw [h1] at hw
  simp only [applyEvent, apply, hn] at hw
  obtain ⟨ts, ht, hts⟩ := (R.agrees _ (R.inv s (.addCollection c) hs)).2 c (fun _ => False) (by rw [hw, World.set_same])
  have : ts = ∅ := BSet.ext fun t => by rw [hts]; simp
  subst this; exact ht

end Refines

/-! ## C32: adding triples is idempotent and order-independent -/

theorem addLaws_of {T : TripsOps σ} {I : σ → Prop} {b : Bool} {world : σ → World} {L : Op → Prop}
    (R : Refines T I b world L) (hL : ∀ c ts, L (.addTriples c ts)) {s : σ} (hs : I s) {c : Str} (hc : Listed T s c)
    (A B : BSet Trip) : AddLaws T s c A B := by
  refine ⟨fun h1 h2 => ?_, fun h1 h2 => ?_, fun h1 h2 => ?_⟩
  · exact R.adds_congr hL hs hc [A, A] [A] (by simp) h1 h2
  · exact R.adds_congr hL hs hc [A, B] [B, A] (by simp [or_comm]) h1 h2
  · exact R.adds_congr hL hs hc [A, B] [A.union B] (by simp) h1 h2

/-- C32, in-memory store, after any history. -/
theorem C32_mem (l : List Op) (c : Str) (A B : BSet Trip) (hc : Listed Mem.ops (runOps Mem.ops Mem.new l).2 c) :
    AddLaws Mem.ops (runOps Mem.ops Mem.new l).2 c A B :=
  addLaws_of mem_refines (fun _ _ => trivial) trivial hc A B

/-- `C32_mem` applies to a listed collection. -/
example := C32_mem sampleOps (lit "T") sampleSet (BSet.ofList [sampleTrip2]) ⟨_, rfl, by decide +kernel⟩

/-- C32, LMDB store, after any history with crashes and failed commits. -/
theorem C32_heed {s : Heed} (h : Heed.Reach s) (c : Str) (A B : BSet Trip) (hc : Listed Heed.ops s c) :
    AddLaws Heed.ops s c A B :=
  addLaws_of heed_refines (fun _ _ => trivial) h.good hc A B

/-- `C32_heed` applies to a listed collection. -/
example := C32_heed (Heed.Reach.of_runOps sampleOps) (lit "T") sampleSet (BSet.ofList [sampleTrip2]) ⟨[lit "S", lit "T"], by decide +kernel, by simp⟩

/-- C32, DuckDB store, after any history. -/
theorem C32_duck (l : List Op) (c : Str) (A B : BSet Trip) (hc : Listed Duck.ops (runOps Duck.ops Duck.new l).2 c) :
    AddLaws Duck.ops (runOps Duck.ops Duck.new l).2 c A B :=
  addLaws_of duck_refines (fun _ _ => trivial) (duck_inv l) hc A B

example : Acked Mem.ops (runOps Mem.ops Mem.new sampleOps).2 [.addTriples (lit "T") sampleSet, .addTriples (lit "T") sampleSet] ∧
    Acked Heed.ops (runOps Heed.ops Heed.new sampleOps).2 [.addTriples (lit "T") sampleSet, .addTriples (lit "T") sampleSet] ∧
    Acked Duck.ops (runOps Duck.ops Duck.new sampleOps).2 [.addTriples (lit "T") sampleSet, .addTriples (lit "T") sampleSet] := by
  refine ⟨?_, ?_, ?_⟩
  all_goals
    intro e he
    simp only [runOps, List.mem_cons, List.not_mem_nil, or_false] at he
    rcases he with rfl | rfl <;> decide +kernel

/-- C32: on the in-memory and DuckDB stores every `add_triples` to a listed collection is acknowledged, and so are later ones, so
the hypotheses above are met whenever the collection exists. -/
theorem C32_acked (l : List Op) (c : Str) (bs : List (BSet Trip)) :
    (Listed Mem.ops (runOps Mem.ops Mem.new l).2 c →
      Acked Mem.ops (runOps Mem.ops Mem.new l).2 (bs.map (Op.addTriples c))) ∧
    (Listed Duck.ops (runOps Duck.ops Duck.new l).2 c →
      Acked Duck.ops (runOps Duck.ops Duck.new l).2 (bs.map (Op.addTriples c))) := by
  constructor
  · generalize (runOps Mem.ops Mem.new l).2 = s
    induction bs generalizing s with
    | nil => intro _ e he; cases he
    | cons x bs ih =>
      intro hc e he
      obtain ⟨S, hS⟩ := Option.isSome_iff_exists.mp ((mem_listed s c).mp hc)
      simp only [List.map_cons, runOps, List.mem_cons] at he
      rcases he with rfl | he
      · simp [exec, Mem.ops, Mem.addTriples, hS]
      · refine ih _ ?_ e he
        rw [mem_listed]; simp [exec, Mem.ops, Mem.addTriples, hS]
  · have hg := duck_inv l
    revert hg
    generalize (runOps Duck.ops Duck.new l).2 = s
    induction bs generalizing s with
    | nil => intro _ _ e he; cases he
    | cons x bs ih =>
      intro hg hc e he
      rw [duck_listed hg] at hc
      obtain ⟨h1, h2, h3⟩ := Duck.exec_spec hg (.addTriples c x)
      simp only [hc, if_true] at h3
      simp only [List.map_cons, runOps, List.mem_cons] at he
      rcases he with rfl | he
      · exact h3
      · refine ih _ h1 ?_ e he
        rw [duck_listed h1, h2, h3]
        obtain ⟨p, hp⟩ := Option.isSome_iff_exists.mp hc
        simp [applyEvent, apply, hp]

/-! ## C33: collections are isolated -/

/-- C33, in-memory store: an operation on one collection changes neither the triples nor the existence of another, whatever its
outcome. -/
theorem C33_mem (l : List Op) (op : Op) (d : Str) (hd : d ≠ op.target) :
    let s := (runOps Mem.ops Mem.new l).2
    Mem.ops.triples (exec Mem.ops s op).2 d = Mem.ops.triples s d ∧
    (Listed Mem.ops (exec Mem.ops s op).2 d ↔ Listed Mem.ops s d) :=
  mem_refines.isolated trivial op d hd

/-- C33, LMDB store: also when the operation is cut off by a crash or its commit fails. -/
theorem C33_heed {s : Heed} (h : Heed.Reach s) (ok : Bool) (op : Op) (d : Str) (hd : d ≠ op.target)
    {s' : Heed} (hs' : s' ∈ (Heed.execTx ok s op).2.durable :: (Heed.execTx ok s op).2.seen) :
    Heed.ops.triples s' d = Heed.ops.triples s d ∧ (Listed Heed.ops s' d ↔ Listed Heed.ops s d) := by
  have hg := h.good
  have hspec := Heed.exec_spec hg ok op
  have key : s' = s ∨ s' = (Heed.execTx ok s op).2.durable := by
    rw [List.mem_cons] at hs'
    rcases hs' with h | h
    · exact .inr h
    · exact hspec.1 _ h
  rcases key with rfl | rfl
  · exact ⟨rfl, Iff.rfl⟩
  · have hw := Heed.worldOf_other hg ok op d hd
    have hg' := hspec.2.2.2.1
    refine ⟨heed_refines.read_congr hg hg' hw, ?_⟩
    rw [heed_listed hg', heed_listed hg, hw]

/-- `C33_heed` applies to removing one of two collections, and to every state stored meanwhile. -/
example := C33_heed (Heed.Reach.of_runOps sampleOps) true (.removeCollection (lit "S")) (lit "T") (by decide) (List.mem_cons_self ..)

/-- C33, DuckDB store. -/
theorem C33_duck (l : List Op) (op : Op) (d : Str) (hd : d ≠ op.target) :
    let s := (runOps Duck.ops Duck.new l).2
    Duck.ops.triples (exec Duck.ops s op).2 d = Duck.ops.triples s d ∧
    (Listed Duck.ops (exec Duck.ops s op).2 d ↔ Listed Duck.ops s d) :=
  duck_refines.isolated (duck_inv l) op d hd

example : lit "T" ≠ (Op.removeCollection (lit "S")).target := by decide

/-! ## C34: the listing is exact -/

/-- C34, in-memory store. -/
theorem C34_mem (l : List Op) : ∃ names, Mem.ops.collections (runOps Mem.ops Mem.new l).2 = .ok names ∧
    names.Nodup ∧ names.Pairwise (fun a b => SOrd.lt a b = true) ∧
    ∀ c, c ∈ names ↔ AddedNotRemoved (runOps Mem.ops Mem.new l).1 c := by
  refine ⟨_, rfl, BMap.keys_nodup _, BMap.keys_sorted _, fun c => ?_⟩
  rw [← worldAfter_isSome true, ← Mem.world_runOps]
  exact Mem.mem_collections _ c

/-- C34, LMDB store with legal collection names. -/
theorem C34_heed (l : List Op) (hl : ∀ op ∈ l, Heed.LegalOp op) :
    ∃ names, Heed.ops.collections (runOps Heed.ops Heed.new l).2 = .ok names ∧
    names.Nodup ∧ names.Pairwise (fun a b => SOrd.lt a b = true) ∧
    ∀ c, c ∈ names ↔ AddedNotRemoved (runOps Heed.ops Heed.new l).1 c := by
  refine ⟨_, rfl, BMap.keys_nodup _, BMap.keys_sorted _, fun c => ?_⟩
  rw [← worldAfter_isSome false, ← (Heed.rel_runOps l hl).2, Heed.world_isSome]
  exact BMap.mem_keys_isSome

/-- C34, DuckDB store (the order is unspecified). -/
theorem C34_duck (l : List Op) : ∃ names, Duck.ops.collections (runOps Duck.ops Duck.new l).2 = .ok names ∧
    names.Nodup ∧ ∀ c, c ∈ names ↔ AddedNotRemoved (runOps Duck.ops Duck.new l).1 c := by
  obtain ⟨h, hw⟩ := Duck.rel_runOps l
  obtain ⟨⟨names, h1, h2, h3⟩, _⟩ := Duck.agrees h
  refine ⟨names, h1, h2, fun c => ?_⟩
  rw [← worldAfter_isSome false, ← hw]; exact h3 c

theorem sampleOps_legal : ∀ op ∈ sampleOps, Heed.LegalOp op := by
  intro op h
  simp only [sampleOps, List.mem_cons, List.not_mem_nil, or_false] at h
  rcases h with rfl | rfl | rfl | rfl | rfl
  · show Heed.lmdbKey _ = true; decide
  · trivial
  · show Heed.lmdbKey _ = true; decide
  · trivial
  · trivial

example : Heed.ops.collections (runOps Heed.ops Heed.new sampleOps).2 = .ok [lit "S", lit "T"] := by decide +kernel

/-! ## C43: deleted data does not come back -/

/-- C43, in-memory store: a collection that is not listed is empty once added, whatever was stored under the name before. -/
theorem C43_mem (l : List Op) (c : Str) (hc : ¬ Listed Mem.ops (runOps Mem.ops Mem.new l).2 c) :
    (Mem.ops.addCollection (runOps Mem.ops Mem.new l).2 c).1 = .ok () ∧
    Mem.ops.triples (Mem.ops.addCollection (runOps Mem.ops Mem.new l).2 c).2 c = .ok ∅ :=
  ⟨rfl, mem_refines.fresh_empty trivial trivial hc rfl⟩

/-- C43, LMDB store: also after crashes, although old index rows may still be there. -/
theorem C43_heed {s : Heed} (h : Heed.Reach s) (c : Str) (hl : Heed.lmdbKey c = true) (hc : ¬ Listed Heed.ops s c)
    (hok : (Heed.ops.addCollection s c).1 = .ok ()) :
    Heed.ops.triples (Heed.ops.addCollection s c).2 c = .ok ∅ :=
  heed_refines.fresh_empty h.good hl hc hok

/-- `C43_heed` applies to a name that is not there. -/
example := C43_heed (Heed.Reach.of_runOps sampleOps) (lit "U") (by decide +kernel) (by rw [heed_listed' (heed_good _)]; decide +kernel) (by decide +kernel)

/-- C43, DuckDB store. -/
theorem C43_duck (l : List Op) (c : Str) (hc : ¬ Listed Duck.ops (runOps Duck.ops Duck.new l).2 c) :
    (Duck.ops.addCollection (runOps Duck.ops Duck.new l).2 c).1 = .ok () ∧
    Duck.ops.triples (Duck.ops.addCollection (runOps Duck.ops Duck.new l).2 c).2 c = .ok ∅ := by
  have hok : (Duck.ops.addCollection (runOps Duck.ops Duck.new l).2 c).1 = .ok () := by
    have := (Duck.exec_spec (duck_inv l) (.addCollection c)).2.2
    rw [duck_listed (duck_inv l)] at hc
    simp only [hc] at this; exact this
  exact ⟨hok, duck_refines.fresh_empty (duck_inv l) trivial hc hok⟩

/-- The witness for C43: a collection is filled, removed and added again; the LMDB store still has the two old index rows. -/
def revived : List Op :=
  [.addCollection (lit "T"), .addTriples (lit "T") sampleSet, .removeCollection (lit "T")]

example : let s := (runOps Heed.ops Heed.new revived).2
    ¬ Listed Heed.ops s (lit "T") ∧ s.cfst.toList.length = 2 ∧ (Heed.ops.addCollection s (lit "T")).1 = .ok () := by
  refine ⟨?_, by decide +kernel, by decide +kernel⟩
  rw [heed_listed' (heed_good _)]; decide +kernel

/-! ## C44: reading an existing collection never panics -/

/-- C44, in-memory store. -/
theorem C44_mem (l : List Op) (c : Str) (hc : Listed Mem.ops (runOps Mem.ops Mem.new l).2 c) :
    ∃ ts, Mem.ops.triples (runOps Mem.ops Mem.new l).2 c = .ok ts := by
  obtain ⟨p, hp⟩ := Option.isSome_iff_exists.mp (((Mem.agrees _).listed c).mp hc)
  obtain ⟨ts, h, _⟩ := (Mem.agrees _).2 c p hp
  exact ⟨ts, h⟩

/-- `C44_mem` applies to a listed collection. -/
example := C44_mem sampleOps (lit "T") ⟨_, rfl, by decide +kernel⟩

/-- C44, LMDB store, after crashes and failed commits. -/
theorem C44_heed {s : Heed} (h : Heed.Reach s) (c : Str) (hc : Listed Heed.ops s c) : ∃ ts, Heed.ops.triples s c = .ok ts := by
  obtain ⟨p, hp⟩ := Option.isSome_iff_exists.mp ((heed_listed h.good c).mp hc)
  obtain ⟨ts, h, _⟩ := (heed_agrees h.good).2 c p hp
  exact ⟨ts, h⟩

/-- C44, DuckDB store: every read succeeds, also of a collection that is not listed. -/
theorem C44_duck (l : List Op) (c : Str) : ∃ ts, Duck.ops.triples (runOps Duck.ops Duck.new l).2 c = .ok ts := by
  obtain ⟨ts, h, _⟩ := Duck.triples_spec (duck_inv l) c
  exact ⟨ts, h⟩

example : Listed Heed.ops (runOps Heed.ops Heed.new sampleOps).2 (lit "T") ∧ Heed.Reach (runOps Heed.ops Heed.new sampleOps).2 :=
  ⟨⟨[lit "S", lit "T"], by decide +kernel⟩, Heed.Reach.of_runOps _⟩

/-! ## C37: the caller's set after adding triples directly -/

/-- C37, in-memory store: an acknowledged `add_triples` drains the caller's set; `remove_triples` leaves it alone. -/
theorem C37_mem_drains (l : List Op) (c : Str) (ts : BSet Trip) :
    let s := (runOps Mem.ops Mem.new l).2
    ((Mem.ops.addTriples s c ts).1 = .ok () → (Mem.ops.addTriples s c ts).2.2 = ∅) ∧
    ((Mem.ops.addTriples s c ts).1 ≠ .ok () → (Mem.ops.addTriples s c ts).2.2 = ts) ∧
    (Mem.ops.removeTriples s c ts).2.2 = ts := by
  intro s
  simp only [Mem.ops, Mem.addTriples, Mem.removeTriples]
  cases s.colls.get? c <;> simp

/-- C37, LMDB and DuckDB stores: the caller's set is unchanged. -/
theorem C37_others_keep (s : Heed) (s' : Duck) (c : Str) (ts : BSet Trip) :
    (Heed.ops.addTriples s c ts).2.2 = ts ∧ (Heed.ops.removeTriples s c ts).2.2 = ts ∧
    (Duck.ops.addTriples s' c ts).2.2 = ts ∧ (Duck.ops.removeTriples s' c ts).2.2 = ts := by
  refine ⟨rfl, rfl, ?_, ?_⟩
  · simp only [Duck.ops, Duck.addTriples, Duck.getCollectionId]
    cases Duck.idOf s'.colls c <;> rfl
  · simp only [Duck.ops, Duck.removeTriples, Duck.getCollectionId]
    cases Duck.idOf s'.colls c <;> rfl

example : (Mem.ops.addTriples (runOps Mem.ops Mem.new sampleOps).2 (lit "T") sampleSet).1 = .ok () ∧ sampleSet ≠ ∅ := by
  decide +kernel

end Props
end Verif
