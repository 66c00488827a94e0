import Verif.Props.Renaming
import Verif.Props.ScriptsCross
import Verif.Props.Evaluator
/-!
# Names carry no meaning on the persistent stores either: C67
-/
namespace Verif
namespace Props
open Spec Eval Ren

theorem length_map_inj [SOrd α] [SOrd β] {g : α → β} (hg : ∀ a b, g a = g b → a = b) (s : BSet α) :
    (s.map g).toList.length = s.toList.length := by
  have hn : (s.toList.map g).Nodup := by
    rw [List.nodup_iff_pairwise_ne, List.pairwise_map]
    exact (List.nodup_iff_pairwise_ne.mp s.nodup).imp fun hne e => hne (hg _ _ e)
  have hp : List.Perm (s.map g).toList (s.toList.map g) := by
    rw [List.perm_ext_iff_of_nodup (BSet.nodup _) hn]
    intro b
    rw [List.mem_map]
    exact BSet.mem_map
  rw [hp.length_eq, List.length_map]

/-- The guarded store commutes with a renaming that keeps legal names legal and illegal ones illegal. -/
theorem strictLig (hf : Renames f) (hk : ∀ x, Heed.lmdbKey (f x) = Heed.lmdbKey x) :
    LigRen f (fun s t : Mem × Nat => MemR f s.1 t.1 ∧ s.2 = t.2) strictOps strictOps where
  entries := by
    rintro ⟨s, n⟩ ⟨t, n'⟩ c ⟨h, _⟩
    have hc : (t.colls.get? (renElement f c).text).isSome = (s.colls.get? c.text).isSome := by
      rw [show (renElement f c).text = f c.text from rfl, h.1]; simp
    simp only [strictOps, hc]
    split
    · exact (memLig hf).entries s t c h
    · trivial
  filter _ _ _ _ _ := trivial
  addCollection := by
    rintro ⟨s, n⟩ ⟨t, n'⟩ c ⟨h, rfl⟩
    have hc : (t.colls.get? (renElement f c).text).isSome = (s.colls.get? c.text).isSome := by
      rw [show (renElement f c).text = f c.text from rfl, h.1]; simp
    have hl : Heed.lmdbKey (renElement f c).text = Heed.lmdbKey c.text := hk _
    simp only [strictOps, hc, hl]
    split
    · exact ⟨trivial, h, rfl⟩
    · obtain ⟨a, b⟩ := (memLig hf).addCollection s t c h
      exact ⟨a, b, rfl⟩
  addEntries := by
    rintro ⟨s, n⟩ ⟨t, n'⟩ c es ⟨h, rfl⟩
    have hc : (t.colls.get? (renElement f c).text).isSome = (s.colls.get? c.text).isSome := by
      rw [show (renElement f c).text = f c.text from rfl, h.1]; simp
    have hl : (renNetwork f es).toList.length = es.toList.length := length_map_inj (fun _ _ => renEntry_inj hf) es
    simp only [strictOps, hc, hl]
    split
    · obtain ⟨a, b⟩ := (memLig hf).addEntries s t c es h
      exact ⟨a, b, rfl⟩
    · exact ⟨trivial, h, rfl⟩

/-- Every in-memory store has a renamed one. -/
theorem memR_exists (hi : ∀ x y, f x = f y → x = y) (m : Mem) : ∃ m', MemR f m m' := by
  have key : ∀ l : List (Str × BSet Trip), ∃ m', MemR f ⟨l.foldr (fun p acc => acc.insert p.1 p.2) ∅⟩ m' := by
    intro l
    induction l with
    | nil => exact ⟨⟨∅⟩, fun _ => rfl, fun _ _ => rfl⟩
    | cons p l ih =>
      obtain ⟨m', h⟩ := ih
      exact ⟨_, memR_insert hi h p.1 p.2⟩
  have get : ∀ l : List (Str × BSet Trip), (l.map Prod.fst).Nodup → ∀ c v,
      (l.foldr (fun p acc => acc.insert p.1 p.2) (∅ : BMap Str (BSet Trip))).get? c = some v ↔ (c, v) ∈ l := by
    intro l hl c v
    induction l with
    | nil => simp
    | cons p l ih =>
      rw [List.map_cons, List.nodup_cons] at hl
      rw [List.foldr_cons, BMap.get?_insert]
      split
      · rename_i e
        subst e
        simp only [Option.some.injEq, List.mem_cons]
        constructor
        · rintro rfl; exact .inl rfl
        · rintro (e | e)
          · rw [← e]
          · exact absurd (List.mem_map_of_mem (f := Prod.fst) e) hl.1
      · rename_i e
        rw [ih hl.2, List.mem_cons]
        exact ⟨.inr, fun h => h.resolve_left fun h' => e (by rw [← h'])⟩
  have : m = ⟨m.colls.toList.foldr (fun p acc => acc.insert p.1 p.2) ∅⟩ := by
    have : m.colls = m.colls.toList.foldr (fun p acc => acc.insert p.1 p.2) ∅ := by
      apply BMap.ext_get
      intro k
      apply Option.ext
      intro v
      rw [get _ m.colls.keys_nodup, BMap.mem_toList_iff]
    rw [← this]
  rw [this]
  exact key _

theorem listed_agrees {T : TripsOps σ} {s : σ} {w : World} (h : Agrees T s w) (c : Str) : Listed T s c ↔ (w c).isSome := by
  obtain ⟨⟨l, h1, _, h2⟩, _⟩ := h
  rw [← h2]
  exact ⟨fun ⟨l', e, hc⟩ => by rw [h1] at e; cases e; exact hc, fun hc => ⟨l, h1, hc⟩⟩

theorem world_eq_of_memView {T : TripsOps σ} {s : σ} {w : World} (h : Agrees T s w) (m : Mem) (hv : SameView Mem.ops m T s) :
    w = Mem.world m := by
  funext c
  have hl := hv.1 c
  rw [listed_agrees (Mem.agrees m), listed_agrees h] at hl
  cases e : w c with
  | none =>
    rw [e] at hl
    cases e' : Mem.world m c with
    | none => rfl
    | some p => rw [e'] at hl; simp at hl
  | some p =>
    rw [e] at hl
    obtain ⟨ts, h1, h2⟩ := hv.2 c ((listed_agrees (Mem.agrees m) c).mpr (hl.mpr rfl))
    obtain ⟨ts', h3, h4⟩ := h.2 c p e
    rw [h2] at h3; cases h3
    symm
    rw [Mem.world_some]
    refine ⟨ts, ?_, funext fun t => propext (h4 t).symm⟩
    simp only [Mem.ops, Mem.triples] at h1
    split at h1
    · rename_i x hx; cases h1; exact hx
    · cases h1

/-- Stores that show the same as renamed stores are renamed. -/
theorem renamed_transfer {T : TripsOps σ} {m m' : Mem} {s t : σ} (h : SameView Mem.ops m T s) (h' : SameView Mem.ops m' T t)
    (hr : RenamedView f Mem.ops m m') : RenamedView f T s t := by
  constructor
  · intro d
    rw [← h'.1, hr.1]
    exact ⟨fun ⟨c, hc, e⟩ => ⟨c, (h.1 c).mp hc, e⟩, fun ⟨c, hc, e⟩ => ⟨c, (h.1 c).mpr hc, e⟩⟩
  · intro c ts hc ht
    obtain ⟨ts1, a1, a2⟩ := h.2 c ((h.1 c).mpr hc)
    rw [ht] at a2; cases a2
    obtain ⟨us, b1, b2⟩ := hr.2 c _ ((h.1 c).mpr hc) a1
    have hl : Listed Mem.ops m' (f c) := (hr.1 _).mpr ⟨c, (h.1 c).mpr hc, rfl⟩
    obtain ⟨us', c1, c2⟩ := h'.2 (f c) hl
    rw [b1] at c1; cases c1
    exact ⟨us, c2, b2⟩

theorem sameView_renamed {T : TripsOps σ} {m m' : Mem} {s t : σ} (h : SameView Mem.ops m T s)
    (hr : RenamedView f Mem.ops m m') (ht : RenamedView f T s t) : SameView Mem.ops m' T t := by
  constructor
  · intro d
    rw [hr.1, ht.1]
    exact ⟨fun ⟨c, hc, e⟩ => ⟨c, (h.1 c).mp hc, e⟩, fun ⟨c, hc, e⟩ => ⟨c, (h.1 c).mpr hc, e⟩⟩
  · intro d hd
    obtain ⟨c, hc, rfl⟩ := (hr.1 d).mp hd
    obtain ⟨ts, a1, a2⟩ := h.2 c hc
    obtain ⟨us, b1, b2⟩ := hr.2 c ts hc a1
    obtain ⟨vs, c1, c2⟩ := ht.2 c ts ((h.1 c).mp hc) a2
    have : vs = us := BSet.ext fun u => by rw [b2, c2]
    subst this
    exact ⟨_, b1, c1⟩

theorem renamesFor_any {f : Str → Str} (hf : RenamesFor (common (σ := Mem)) f) : RenamesFor (common (σ := σ)) f where
  toRenames := hf.toRenames
  docString := hf.docString
  name p hp := by
    have e : (common (σ := σ)).map (fun p => (p.1, p.2.doc)) = (common (σ := Mem)).map (fun p => (p.1, p.2.doc)) := rfl
    have := List.mem_map_of_mem (f := fun p : Str × Command σ => (p.1, p.2.doc)) hp
    rw [e] at this
    obtain ⟨q, hq, e⟩ := List.mem_map.mp this
    have := hf.name q hq
    simp only [Prod.mk.injEq] at e
    rw [← e.1]; exact this
  doc p hp := by
    have e : (common (σ := σ)).map (fun p => (p.1, p.2.doc)) = (common (σ := Mem)).map (fun p => (p.1, p.2.doc)) := rfl
    have := List.mem_map_of_mem (f := fun p : Str × Command σ => (p.1, p.2.doc)) hp
    rw [e] at this
    obtain ⟨q, hq, e⟩ := List.mem_map.mp this
    have := hf.doc q hq
    simp only [Prod.mk.injEq] at e
    rw [← e.2]; exact this

/-- Renaming on any store that follows the guarded one. -/
theorem ren_follower {T : TripsOps τ} {Inv : τ → Nat → Prop} {world : τ → World} (F : Follower T Inv world)
    (mono : ∀ t k k', k' ≤ k → Inv t k → Inv t k')
    (f : Str → Str) (hf : RenamesFor (common (σ := Mem)) f) (hk : ∀ x, Heed.lmdbKey (f x) = Heed.lmdbKey x)
    (script script' : Str) (calls : List Call) (h1 : Means script calls) (h2 : Means script' (calls.map (renCall f)))
    (m : Mem) (n : Nat) (s t : τ) (hs : Inv s n) (ht : Inv t n) (hm : SameView Mem.ops m T s) (hr : RenamedView f T s t)
    (hp : (run strictOps common script (m, n)).1 ≠ .panic) :
    ResRen (renValue f) (run (Graph.ops T) common script s).1 (run (Graph.ops T) common script' t).1 ∧
    RenamedView f T (run (Graph.ops T) common script s).2 (run (Graph.ops T) common script' t).2 := by
  obtain ⟨m', hmm⟩ := memR_exists hf.inj m
  have hmv := (memR_iff m m' hf.inj).mp hmm
  have hm' := sameView_renamed hm hmv hr
  have hf' : RenamesFor (common (σ := Mem × Nat)) f := renamesFor_any hf
  have hren := runCallsLoop_ren (cmds := common) (cmds' := common) hf'.toRenames (strictLig hf.toRenames hk)
    (Ren.common_get hf') (Ren.common_docs hf') calls emptyNet (m, n) (m', n) ⟨hmm, rfl⟩
  rw [ren_empty] at hren
  have hren : OutRen f (fun s t : Mem × Nat => MemR f s.1 t.1 ∧ s.2 = t.2) (run strictOps common script (m, n))
      (run strictOps common script' (m', n)) := by
    rw [run_means strictOps common h1, run_means strictOps common h2]
    exact hren
  have hp' : (run strictOps common script' (m', n)).1 ≠ .panic := by
    intro e
    have := hren.1
    rw [e] at this
    cases e2 : (run strictOps common script (m, n)).1 with
    | panic => exact hp e2
    | ok v => rw [e2] at this; exact this
    | err v => rw [e2] at this; exact this
  obtain ⟨a1, ⟨_, _, i1⟩, w1⟩ := C58_simulation _ _ _ (follower_sim F mono) script (m, n) s
    ⟨⟨n, Nat.le_refl _, hs⟩, world_eq_of_memView (F.agrees _ _ hs) m hm⟩ hp
  obtain ⟨a2, ⟨_, _, i2⟩, w2⟩ := C58_simulation _ _ _ (follower_sim F mono) script' (m', n) t
    ⟨⟨n, Nat.le_refl _, ht⟩, world_eq_of_memView (F.agrees _ _ ht) m' hm'⟩ hp'
  refine ⟨by rw [← a1, ← a2]; exact hren.1, ?_⟩
  have v1 := Mem.agrees (run strictOps common script (m, n)).2.1
  rw [← w1] at v1
  have v2 := Mem.agrees (run strictOps common script' (m', n)).2.1
  rw [← w2] at v2
  exact renamed_transfer (v1.sameView (F.agrees _ _ i1)) (v2.sameView (F.agrees _ _ i2)) ((memR_iff _ _ hf.inj).mp hren.2.1)

/-- C67 on the LMDB-backed store, from any reachable contents: if a script keeps to what all stores support (see C58: the guarded store with
the same contents and `n` identifiers left runs it without panic), its renamed version has the renamed outcome on a store with renamed contents,
whatever the histories of the two stores, and leaves renamed contents.  The renaming must not turn a name LMDB accepts into one it refuses. -/
theorem C67_heed (f : Str → Str) (hf : RenamesFor (common (σ := Mem)) f) (hk : ∀ x, Heed.lmdbKey (f x) = Heed.lmdbKey x)
    (script script' : Str) (calls : List Call) (h1 : Means script calls) (h2 : Means script' (calls.map (renCall f)))
    (l l' : List Op) (n : Nat) (hl : costOf l + n ≤ 2 ^ 64) (hl' : costOf l' + n ≤ 2 ^ 64) (m : Mem)
    (hm : SameView Mem.ops m Heed.ops (runOps Heed.ops Heed.new l).2)
    (hr : RenamedView f Heed.ops (runOps Heed.ops Heed.new l).2 (runOps Heed.ops Heed.new l').2)
    (hp : (run strictOps common script (m, n)).1 ≠ .panic) :
    let a := run (Graph.ops Heed.ops) common script (runOps Heed.ops Heed.new l).2
    let b := run (Graph.ops Heed.ops) common script' (runOps Heed.ops Heed.new l').2
    ResRen (renValue f) a.1 b.1 ∧ RenamedView f Heed.ops a.2 b.2 := by
  have room : ∀ l : List Op, costOf l + n ≤ 2 ^ 64 → heedInv (runOps Heed.ops Heed.new l).2 n := fun l h =>
    ⟨heed_good l, Heed.room_runOps l Heed.new n Heed.good_new (by simpa [Heed.Room, Heed.used, Heed.new] using h)⟩
  exact ren_follower heed_follower (fun _ _ _ hk h => ⟨h.1, by have := h.2; unfold Heed.Room at *; omega⟩) f hf hk script script' calls h1 h2 m n _ _
    (room l hl) (room l' hl') hm hr hp

/-- C67 on the DuckDB-backed store. -/
theorem C67_duck (f : Str → Str) (hf : RenamesFor (common (σ := Mem)) f) (hk : ∀ x, Heed.lmdbKey (f x) = Heed.lmdbKey x)
    (script script' : Str) (calls : List Call) (h1 : Means script calls) (h2 : Means script' (calls.map (renCall f)))
    (l l' : List Op) (n : Nat) (m : Mem)
    (hm : SameView Mem.ops m Duck.ops (runOps Duck.ops Duck.new l).2)
    (hr : RenamedView f Duck.ops (runOps Duck.ops Duck.new l).2 (runOps Duck.ops Duck.new l').2)
    (hp : (run strictOps common script (m, n)).1 ≠ .panic) :
    let a := run (Graph.ops Duck.ops) common script (runOps Duck.ops Duck.new l).2
    let b := run (Graph.ops Duck.ops) common script' (runOps Duck.ops Duck.new l').2
    ResRen (renValue f) a.1 b.1 ∧ RenamedView f Duck.ops a.2 b.2 :=
  ren_follower duck_follower (fun _ _ _ _ h => h) f hf hk script script' calls h1 h2 m n _ _ (duck_inv l) (duck_inv l') hm hr hp

/-- Two short histories of which the second is the first with the two names swapped. -/
def aliceOps : List Op := [.addCollection (lit "alice"), .addTriples (lit "alice") (BSet.ofList [⟨lit "bob", lit "knows", lit "carol"⟩])]
def bobOps : List Op := [.addCollection (lit "bob"), .addTriples (lit "bob") (BSet.ofList [⟨lit "alice", lit "knows", lit "carol"⟩])]

theorem bobOps_eq : bobOps = aliceOps.map (renOp (swapText (lit "alice") (lit "bob"))) := by
  have : BSet.ofList [(⟨lit "alice", lit "knows", lit "carol"⟩ : Trip)] =
      (BSet.ofList [(⟨lit "bob", lit "knows", lit "carol"⟩ : Trip)]).map (renTrip (swapText (lit "alice") (lit "bob"))) := by
    decide +kernel
  have n : swapText (lit "alice") (lit "bob") (lit "alice") = lit "bob" := by decide +kernel
  simp only [bobOps, aliceOps, List.map_cons, List.map_nil, renOp, this, n]

theorem disciplined_two (c : Str) (t : Trip) (hc : Heed.lmdbKey c = true) (ht : ∀ x ∈ tripTexts t, Heed.lmdbKey x = true) :
    Disciplined (fun x => Heed.lmdbKey x = true) emptyWorld (fun _ => False) [.addCollection c, .addTriples c (BSet.ofList [t])] := by
  refine ⟨rfl, hc, ?_, ?_, trivial⟩
  · show ((emptyWorld.set c (some fun _ => False)) c).isSome = true
    rw [World.set_same]; rfl
  · intro t' h
    simp only [BSet.mem_ofList, List.mem_singleton] at h
    subst h; exact ht

theorem swapAB_key (x : Str) : Heed.lmdbKey (swapText (lit "alice") (lit "bob") x) = Heed.lmdbKey x := by
  unfold swapText
  split
  · rename_i e; subst e; decide
  · split
    · rename_i e; subst e; decide
    · rfl


theorem alice_runs : (run strictOps common (lit "let x {alice : bob}, read alice") ((runOps Mem.ops Mem.new aliceOps).2, 2 ^ 63)).1 ≠ .panic := by
  decide +kernel

/-- The hypotheses of `C67_heed` and `C67_duck` are met by two stores with contents and a script that writes and reads. -/
example :
    let f := swapText (lit "alice") (lit "bob")
    let m := (runOps Mem.ops Mem.new aliceOps).2
    let calls := [call "let" [.element (.of (lit "x")), .network (BSet.ofList [.ext (.of (lit "alice")) (.of (lit "bob"))])],
       call "read" [.element (.of (lit "alice"))]]
    let script := lit "let x {alice : bob}, read alice"
    RenamesFor (common (σ := Mem)) f ∧ (∀ x, Heed.lmdbKey (f x) = Heed.lmdbKey x) ∧
    Means script calls ∧ Means (lit "let x {bob : alice}, read bob") (calls.map (renCall f)) ∧
    costOf aliceOps + 2 ^ 63 ≤ 2 ^ 64 ∧ costOf bobOps + 2 ^ 63 ≤ 2 ^ 64 ∧
    SameView Mem.ops m Heed.ops (runOps Heed.ops Heed.new aliceOps).2 ∧
    RenamedView f Heed.ops (runOps Heed.ops Heed.new aliceOps).2 (runOps Heed.ops Heed.new bobOps).2 ∧
    SameView Mem.ops m Duck.ops (runOps Duck.ops Duck.new aliceOps).2 ∧
    RenamedView f Duck.ops (runOps Duck.ops Duck.new aliceOps).2 (runOps Duck.ops Duck.new bobOps).2 ∧
    (run strictOps common script (m, 2 ^ 63)).1 ≠ .panic := by
  intro f m calls script
  have da := C48_stores_agree aliceOps (disciplined_two _ _ (by decide) (by decide)) (by decide +kernel)
  have db := C48_stores_agree bobOps (disciplined_two _ _ (by decide) (by decide)) (by decide +kernel)
  have hr : RenamedView f Mem.ops (runOps Mem.ops Mem.new aliceOps).2 (runOps Mem.ops Mem.new bobOps).2 := by
    have := (C67_store f (fun _ _ => swap_inj) aliceOps Mem.new Mem.new
      ((memR_iff _ _ (fun _ _ => swap_inj)).mp ⟨fun _ => rfl, fun _ _ => rfl⟩)).2
    rw [← bobOps_eq] at this
    exact this
  refine ⟨swapAB, swapAB_key, ?_, ?_, by decide +kernel, by decide +kernel, da.2.1, renamed_transfer da.2.1 db.2.1 hr, da.2.2,
    renamed_transfer da.2.2 db.2.2 hr, alice_runs⟩
  · exact means_of (ts := [.element (.of (lit "let")), .element (.of (lit "x")), .openBrace, .element (.of (lit "alice")), .element (.of (lit ":")),
      .element (.of (lit "bob")), .closeBrace, .comma, .element (.of (lit "read")),
      .element (.of (lit "alice"))])
      (by decide +kernel) (by decide +kernel)
  · exact means_of (ts := [.element (.of (lit "let")), .element (.of (lit "x")), .openBrace, .element (.of (lit "bob")), .element (.of (lit ":")),
      .element (.of (lit "alice")), .closeBrace, .comma, .element (.of (lit "read")),
      .element (.of (lit "bob"))])
      (by decide +kernel) (by decide +kernel)

end Props
end Verif
