import Verif.Spec.Backup
import Verif.Props.Printing
import Verif.Props.ScriptsCross
/-!
# Saving a store as a script and loading it: C65
-/
namespace Verif
namespace Props
open Spec Eval

variable {σ : Type u}

/-- The listing of a store with what each collection holds. -/
def Lists (T : TripsOps σ) (s : σ) (cs : List (Str × BSet Trip)) : Prop :=
  T.collections s = .ok (cs.map Prod.fst) ∧ (cs.map Prod.fst).Nodup ∧ ∀ p ∈ cs, T.triples s p.1 = .ok p.2

theorem lists_of_agrees {T : TripsOps σ} {s : σ} {w : World} (h : Agrees T s w) : ∃ cs, Lists T s cs := by
  obtain ⟨⟨l, h1, h2, h3⟩, h4⟩ := h
  have : ∀ l : List Str, (∀ c ∈ l, (w c).isSome) → ∃ cs : List (Str × BSet Trip), cs.map Prod.fst = l ∧ ∀ p ∈ cs, T.triples s p.1 = .ok p.2 := by
    intro l
    induction l with
    | nil => intro _; exact ⟨[], rfl, nofun⟩
    | cons c l ih =>
      intro hl
      obtain ⟨cs, e1, e2⟩ := ih (fun c hc => hl c (List.mem_cons_of_mem _ hc))
      obtain ⟨p, hp⟩ := Option.isSome_iff_exists.mp (hl c List.mem_cons_self)
      obtain ⟨ts, ht, _⟩ := h4 c p hp
      refine ⟨(c, ts) :: cs, by simp [e1], ?_⟩
      intro p hp
      rcases List.mem_cons.mp hp with rfl | hp
      · exact ht
      · exact e2 p hp
  obtain ⟨cs, e1, e2⟩ := this l (fun c hc => (h3 c).mp hc)
  exact ⟨cs, by rw [e1]; exact h1, by rw [e1]; exact h2, e2⟩

/-- The calls of a backup. -/
def letCall (p : Str × BSet Trip) : Call := ⟨⟨lit "let", none, none⟩, [.element (.of p.1), .network (p.2.map Graph.tripToEntry)]⟩

theorem plain_of {T : TripsOps σ} {s : σ} {cs : List (Str × BSet Trip)} (hl : Lists T s cs) (hp : PlainTexts T s) (p : Str × BSet Trip)
    (h : p ∈ cs) : (∀ x ∈ p.1, ¬ Special x) ∧ ∀ t ∈ p.2, ∀ v ∈ tripTexts t, ∀ x ∈ v, ¬ Special x := by
  have := hp p.1 ⟨_, hl.1, List.mem_map_of_mem h⟩
  exact ⟨this.1, this.2 _ (hl.2.2 p h)⟩

theorem reread_plain (p : Str × BSet Trip) (h1 : ∀ x ∈ p.1, ¬ Special x)
    (h2 : ∀ t ∈ p.2, ∀ v ∈ tripTexts t, ∀ x ∈ v, ¬ Special x) :
    reread (.element (.of p.1)) = .element (.of p.1) ∧
    reread (.network (p.2.map Graph.tripToEntry)) = .network (p.2.map Graph.tripToEntry) := by
  constructor
  · rw [C10_unchanged]
    intro x hx
    cases hx
    refine ⟨?_, nofun⟩
    intro e he; cases he
    exact ⟨rfl, rfl, h1⟩
  · rw [reread, Display.reread_network.mpr]
    intro e he
    rw [BSet.mem_map] at he
    obtain ⟨t, ht, rfl⟩ := he
    have := h2 t ht
    refine ⟨Graph.parserForm_trip t, ?_⟩
    rw [Graph.parts_tripToEntry]
    exact ⟨this _ (by simp [tripTexts]), this _ (by simp [tripTexts]), this _ (by simp [tripTexts])⟩

/-- What a backup is, in terms of the listing. -/
theorem backup_iff {T : TripsOps σ} {s : σ} {cs : List (Str × BSet Trip)} (hl : Lists T s cs) (script : Str) :
    Backup (Graph.ops T) s script ↔
      script = printedScript (cs.map fun p => (lit "let", [.element (.of p.1), .network (p.2.map Graph.tripToEntry)])) := by
  have hc : (Graph.ops T).collections s = .ok ((cs.map Prod.fst).map Element.of) := by
    show Graph.collections T s = _
    rw [Graph.collections, hl.1]; rfl
  have he : ∀ p ∈ cs, (Graph.ops T).entries s (.of p.1) = .ok (p.2.map Graph.tripToEntry) := by
    intro p hp
    show Graph.entries T s _ = _
    rw [Graph.entries, show (Element.of p.1).text = p.1 from rfl, hl.2.2 p hp]; rfl
  constructor
  · rintro ⟨ds, h1, h2, rfl⟩
    rw [hc] at h1
    replace h1 : (cs.map Prod.fst).map Element.of = ds.map Prod.fst := by injection h1
    congr 1
    have : ds = cs.map fun p => (Element.of p.1, p.2.map Graph.tripToEntry) := by
      clear hc hl
      revert he
      induction cs generalizing ds with
      | nil =>
        intro _
        cases ds with
        | nil => rfl
        | cons => cases h1
      | cons p cs ih =>
        intro he
        cases ds with
        | nil => cases h1
        | cons d ds =>
          simp only [List.map_cons, List.cons.injEq] at h1 ⊢
          refine ⟨?_, ih ds (fun p hp => h2 p (List.mem_cons_of_mem _ hp)) h1.2 (fun p hp => he p (List.mem_cons_of_mem _ hp))⟩
          have a := h2 d List.mem_cons_self
          rw [← h1.1, he p List.mem_cons_self] at a
          injection a with a
          exact Prod.ext h1.1.symm a.symm
    rw [this, List.map_map]; rfl
  · rintro rfl
    refine ⟨cs.map fun p => (Element.of p.1, p.2.map Graph.tripToEntry), ?_, ?_, ?_⟩
    · rw [hc, List.map_map, List.map_map]; rfl
    · intro p hp
      rw [List.mem_map] at hp
      obtain ⟨q, hq, rfl⟩ := hp
      exact he q hq
    · rw [List.map_map]; rfl

/-- Running a backup, on any store. -/
theorem run_backup {τ : Type v} {T : TripsOps σ} {s : σ} {cs : List (Str × BSet Trip)} (hl : Lists T s cs) (hp : PlainTexts T s) (script : Str)
    (hb : Backup (Graph.ops T) s script) (L : LigOps τ) (t : τ) : run L common script t = runCalls L common (cs.map letCall) t := by
  rw [(backup_iff hl script).mp hb, run_printed]
  · congr 1
    rw [List.map_map]
    apply List.map_congr_left
    intro p hp'
    obtain ⟨h1, h2⟩ := plain_of hl hp p hp'
    obtain ⟨e1, e2⟩ := reread_plain p h1 h2
    simp only [Function.comp, List.map, e1, e2, letCall]
  · intro c hc
    rw [List.mem_map] at hc
    obtain ⟨p, _, rfl⟩ := hc
    refine ⟨bare_of (w := lit "let") (by decide), ?_⟩
    intro v hv
    simp only [List.mem_cons, List.not_mem_nil, or_false] at hv
    rcases hv with rfl | rfl <;> trivial

theorem loop_let {τ : Type v} (L : LigOps τ) (p : Str × BSet Trip) (cs : List Call) (r : Value) (t : τ) :
    runCallsLoop L common (letCall p :: cs) r t =
      match letStore L (.of p.1) (p.2.map Graph.tripToEntry) t with
      | (.ok res, t1) => runCallsLoop L common cs res t1
      | (.err m, t1) => (.err m, t1)
      | (.panic, t1) => (.panic, t1) := by
  have h := common_let L (.of p.1) (p.2.map Graph.tripToEntry) t
  rw [runCalls_single] at h
  rw [runCallsLoop]
  have e : letCall p = Spec.call "let" [.element (.of p.1), .network (p.2.map Graph.tripToEntry)] := rfl
  rw [e, h]
  rcases letStore L (.of p.1) (p.2.map Graph.tripToEntry) t with ⟨a, b⟩
  cases a <;> rfl

theorem map_back (ts : BSet Trip) : (ts.map Graph.tripToEntry).map Graph.entryToTrip = ts := by
  apply BSet.ext; intro t
  simp only [BSet.mem_map]
  constructor
  · rintro ⟨e, ⟨u, hu, rfl⟩, rfl⟩; rw [Graph.entryToTrip_tripToEntry]; exact hu
  · intro h; exact ⟨_, ⟨t, h, rfl⟩, Graph.entryToTrip_tripToEntry t⟩

/-- The in-memory store with collections set one after the other. -/
def restored (m : Mem) (cs : List (Str × BSet Trip)) : Mem := cs.foldl (fun m p => ⟨m.colls.insert p.1 p.2⟩) m

theorem restored_get : ∀ (cs : List (Str × BSet Trip)) (m : Mem), (cs.map Prod.fst).Nodup →
    (∀ p ∈ cs, (restored m cs).colls.get? p.1 = some p.2) ∧ ∀ c, c ∉ cs.map Prod.fst → (restored m cs).colls.get? c = m.colls.get? c
  | [], m, _ => ⟨nofun, fun _ _ => rfl⟩
  | p :: cs, m, h => by
    simp only [List.map_cons, List.nodup_cons] at h
    obtain ⟨h1, h2⟩ := restored_get cs ⟨m.colls.insert p.1 p.2⟩ h.2
    constructor
    · intro q hq
      rcases List.mem_cons.mp hq with rfl | hq
      · show (restored _ cs).colls.get? _ = _
        rw [h2 _ h.1]; simp
      · exact h1 q hq
    · intro c hc
      simp only [List.map_cons, List.mem_cons, not_or] at hc
      show (restored _ cs).colls.get? _ = _
      rw [h2 c hc.2, BMap.get?_insert_ne _ _ hc.1]

theorem union_empty_trips (ts : BSet Trip) : BSet.union ∅ ts = ts := by
  apply BSet.ext; intro t; simp [BSet.mem_union]

theorem mem_lets : ∀ (cs : List (Str × BSet Trip)) (r : Value) (m : Mem), r = .network ∅ →
    runCallsLoop Graph.memOps common (cs.map letCall) r m = (.ok (.network ∅), restored m cs)
  | [], r, m, h => by rw [h]; rfl
  | p :: cs, r, m, h => by
    rw [List.map_cons, loop_let, memLet, map_back, union_empty_trips]
    exact mem_lets cs _ _ rfl

theorem strict_let (p : Str × BSet Trip) (m : Mem) (k : Nat) (h1 : m.colls.get? p.1 = none) (h2 : Heed.lmdbKey p.1 = true)
    (h3 : 1 + 3 * p.2.toList.length ≤ k) :
    ∃ k', k - (1 + 3 * p.2.toList.length) ≤ k' ∧
      letStore strictOps (.of p.1) (p.2.map Graph.tripToEntry) (m, k) = (.ok (.network ∅), (⟨m.colls.insert p.1 p.2⟩, k')) := by
  have hlen := length_map_le Graph.tripToEntry p.2
  refine ⟨k - 1 - 3 * (p.2.map Graph.tripToEntry).toList.length, by omega, ?_⟩
  have hm := memLet (.of p.1) (p.2.map Graph.tripToEntry) m
  rw [map_back, union_empty_trips] at hm
  have ha : Graph.memOps.addCollection m (.of p.1) = (.ok (), ⟨m.colls.insert p.1 ∅⟩) := rfl
  unfold letStore at hm ⊢
  rw [ha] at hm
  have hs : strictOps.addCollection (m, k) (.of p.1) = (.ok (), (⟨m.colls.insert p.1 ∅⟩, k - 1)) := by
    simp only [strictOps]
    rw [if_neg, ha]
    simp only [h1, h2]
    simp; omega
  rw [hs]
  simp only at hm ⊢
  have he : strictOps.addEntries (⟨m.colls.insert p.1 ∅⟩, k - 1) (.of p.1) (p.2.map Graph.tripToEntry) =
      ((Graph.memOps.addEntries ⟨m.colls.insert p.1 ∅⟩ (.of p.1) (p.2.map Graph.tripToEntry)).1,
        ((Graph.memOps.addEntries ⟨m.colls.insert p.1 ∅⟩ (.of p.1) (p.2.map Graph.tripToEntry)).2.1,
          k - 1 - 3 * (p.2.map Graph.tripToEntry).toList.length), p.2.map Graph.tripToEntry) := by
    simp only [strictOps]
    rw [if_pos]
    refine ⟨by simp, ?_⟩
    show _ ≤ k - 1
    omega
  rw [he]
  revert hm
  rcases Graph.memOps.addEntries ⟨m.colls.insert p.1 ∅⟩ (.of p.1) (p.2.map Graph.tripToEntry) with ⟨a, b, c⟩
  cases a <;> (intro hm; simp only [Prod.mk.injEq] at hm; simp [hm.1, hm.2])

theorem strict_lets : ∀ (cs : List (Str × BSet Trip)) (r : Value) (m : Mem) (k : Nat), r = .network ∅ →
    (cs.map Prod.fst).Nodup → (∀ p ∈ cs, m.colls.get? p.1 = none ∧ Heed.lmdbKey p.1 = true) →
    (cs.map fun p => 1 + 3 * p.2.toList.length).sum ≤ k →
    ∃ k', runCallsLoop strictOps common (cs.map letCall) r (m, k) = (.ok (.network ∅), (restored m cs, k'))
  | [], r, m, k, h, _, _, _ => ⟨k, by rw [h]; rfl⟩
  | p :: cs, r, m, k, h, hn, hl, hk => by
    simp only [List.map_cons, List.nodup_cons, List.sum_cons] at hn hk
    obtain ⟨g1, g2⟩ := hl p List.mem_cons_self
    obtain ⟨k', hk', e⟩ := strict_let p m k g1 g2 (by omega)
    rw [List.map_cons, loop_let, e]
    exact strict_lets cs _ _ k' rfl hn.2 (fun q hq => by
      obtain ⟨a, b⟩ := hl q (List.mem_cons_of_mem _ hq)
      refine ⟨?_, b⟩
      rw [BMap.get?_insert_ne _ _ ?_]; exact a
      intro e; exact hn.1 (e ▸ List.mem_map_of_mem hq)) (by omega)

/-! ## C65 -/

/-- C65: a store that shows a map has a backup, and only one. -/
theorem C65_backup_unique (T : TripsOps σ) (s : σ) (w : World) (h : Agrees T s w) :
    ∃ script, Backup (Graph.ops T) s script ∧ ∀ other, Backup (Graph.ops T) s other → other = script := by
  obtain ⟨cs, hl⟩ := lists_of_agrees h
  exact ⟨_, (backup_iff hl _).mpr rfl, fun o ho => (backup_iff hl o).mp ho⟩

theorem load_mem_of {T : TripsOps σ} {s : σ} {cs : List (Str × BSet Trip)} (hl : Lists T s cs) (m : Mem) :
    ∃ m', runCalls Graph.memOps common (cs.map letCall) m = (.ok (.network ∅), m') ∧
      (∀ c, Listed T s c → Listed Mem.ops m' c ∧ Mem.ops.triples m' c = T.triples s c) ∧
      (∀ c, ¬ Listed T s c → (Listed Mem.ops m' c ↔ Listed Mem.ops m c) ∧ Mem.ops.triples m' c = Mem.ops.triples m c) := by
  obtain ⟨g1, g2⟩ := restored_get cs m hl.2.1
  have hlist : ∀ c, Listed T s c ↔ c ∈ cs.map Prod.fst := by
    intro c
    constructor
    · rintro ⟨l, h1, h2⟩; rw [hl.1] at h1; cases h1; exact h2
    · intro h; exact ⟨_, hl.1, h⟩
  refine ⟨restored m cs, mem_lets cs _ m rfl, ?_, ?_⟩
  · intro c hc
    obtain ⟨p, hp, rfl⟩ := List.mem_map.mp ((hlist c).mp hc)
    refine ⟨((Mem.agrees _).listed _).mpr ?_, ?_⟩
    · simp [Mem.world, g1 p hp]
    · rw [hl.2.2 p hp]; simp [Mem.ops, Mem.triples, g1 p hp]
  · intro c hc
    rw [hlist] at hc
    rw [(Mem.agrees _).listed, (Mem.agrees _).listed]
    simp only [Mem.ops, Mem.triples, Mem.world, g2 c hc, and_self]

/-- C65: loading the backup of any store into an in-memory store gives every collection of the backup exactly its triples, and leaves
all other collections as they are. -/
theorem C65_load_mem (T : TripsOps σ) (s : σ) (w : World) (h : Agrees T s w) (hp : PlainTexts T s) (script : Str)
    (hb : Backup (Graph.ops T) s script) (m : Mem) :
    ∃ m', run Graph.memOps common script m = (.ok (.network ∅), m') ∧
      (∀ c, Listed T s c → Listed Mem.ops m' c ∧ Mem.ops.triples m' c = T.triples s c) ∧
      (∀ c, ¬ Listed T s c → (Listed Mem.ops m' c ↔ Listed Mem.ops m c) ∧ Mem.ops.triples m' c = Mem.ops.triples m c) := by
  obtain ⟨cs, hl⟩ := lists_of_agrees h
  rw [run_backup hl hp script hb]
  exact load_mem_of hl m

/-- C65: loading the backup of an in-memory store into a new one gives the store itself. -/
theorem C65_mem_exact (m : Mem) (hp : PlainTexts Mem.ops m) (script : Str) (hb : Backup Graph.memOps m script) :
    run Graph.memOps common script Graph.memNew = (.ok (.network ∅), m) := by
  obtain ⟨cs, hl⟩ := lists_of_agrees (Mem.agrees m)
  rw [run_backup hl hp script hb]
  show runCallsLoop _ _ _ _ _ = _
  rw [mem_lets cs emptyNet _ rfl]
  have : (restored Graph.memNew cs) = m := by
    obtain ⟨g1, g2⟩ := restored_get cs Graph.memNew hl.2.1
    have hk : m.colls.keys = cs.map Prod.fst := by
      have := hl.1; simp only [Mem.ops, Mem.collections, Res.ok.injEq] at this; exact this
    have : (restored Graph.memNew cs).colls = m.colls := by
      apply BMap.ext_get
      intro c
      by_cases hc : c ∈ cs.map Prod.fst
      · obtain ⟨p, hp, rfl⟩ := List.mem_map.mp hc
        rw [g1 p hp]
        have := hl.2.2 p hp
        simp only [Mem.ops, Mem.triples] at this
        cases e : m.colls.get? p.1 with
        | none => rw [e] at this; cases this
        | some ts => rw [e] at this; cases this; rfl
      · rw [g2 c hc]
        have h0 : m.colls.get? c = none := by
          cases e : m.colls.get? c with
          | none => rfl
          | some v => exact absurd (hk ▸ BMap.mem_keys.mpr ⟨v, e⟩) hc
        rw [h0]; rfl
    show (⟨(restored Graph.memNew cs).colls⟩ : Mem) = ⟨m.colls⟩
    rw [this]
  rw [this]

theorem migrate_of {T : TripsOps σ} {s : σ} {w : World} (h : Agrees T s w) (hk : ∀ c, Listed T s c → Heed.lmdbKey c = true)
    (h64 : Fits64 T s) {cs : List (Str × BSet Trip)} (hl : Lists T s cs) (script : Str)
    (hrun : ∀ {τ : Type} (L : LigOps τ) (t : τ), run L common script t = runCalls L common (cs.map letCall) t) :
    let m := run (Graph.ops Mem.ops) common script Mem.new
    let e := run (Graph.ops Heed.ops) common script Heed.new
    let d := run (Graph.ops Duck.ops) common script Duck.new
    (m.1 = .ok (.network ∅) ∧ SameView T s Mem.ops m.2) ∧ (e.1 = .ok (.network ∅) ∧ SameView T s Heed.ops e.2) ∧
      (d.1 = .ok (.network ∅) ∧ SameView T s Duck.ops d.2) := by
  intro m e d
  have h64' : (cs.map fun p => 1 + 3 * p.2.toList.length).sum ≤ 2 ^ 64 := by
    obtain ⟨ds, a1, a2, a3⟩ := h64
    have : ds = cs := by
      have e1 : ds.map Prod.fst = cs.map Prod.fst := by rw [hl.1] at a1; injection a1 with a1; exact a1.symm
      have c2 := hl.2.2
      clear hl a3 hrun a1
      induction ds generalizing cs with
      | nil => cases cs with
        | nil => rfl
        | cons => cases e1
      | cons x ds ih => cases cs with
        | nil => cases e1
        | cons y cs =>
          simp only [List.map_cons, List.cons.injEq] at e1
          rw [ih (fun p hp => a2 p (List.mem_cons_of_mem _ hp)) e1.2 (fun p hp => c2 p (List.mem_cons_of_mem _ hp))]
          congr 1
          have q := a2 x List.mem_cons_self
          rw [e1.1, c2 y List.mem_cons_self] at q
          injection q with q
          exact Prod.ext e1.1 q.symm
    rw [← this]; exact a3
  obtain ⟨k', hs⟩ := strict_lets cs (.network ∅) Mem.new (2 ^ 64) rfl hl.2.1
    (fun p hp => ⟨rfl, hk _ ⟨_, hl.1, List.mem_map_of_mem hp⟩⟩) h64'
  have hstrict : (run strictOps common script (Mem.new, 2 ^ 64)).1 = .ok (.network ∅) := by
    rw [hrun]
    show (runCallsLoop _ _ _ _ _).1 = _
    rw [show emptyNet = .network ∅ from rfl, hs]
  obtain ⟨e1, e2, v1, v2⟩ := C58_same_on_all_stores script (by rw [hstrict]; exact nofun)
  obtain ⟨m', r1, r2, r3⟩ := load_mem_of hl Mem.new
  have hm : m = (.ok (.network ∅), m') := (hrun Graph.memOps Mem.new).trans r1
  have hnew : ∀ c, ¬ Listed Mem.ops Mem.new c := by rintro c ⟨l, h1, h2⟩; cases h1; cases h2
  have vm : SameView T s Mem.ops m' := by
    have hiff : ∀ c, Listed T s c ↔ Listed Mem.ops m' c := by
      intro c
      refine ⟨fun hc => (r2 c hc).1, fun hc => ?_⟩
      apply Classical.byContradiction
      intro hn
      exact hnew c ((r3 c hn).1.mp hc)
    refine ⟨hiff, fun c hc => ?_⟩
    obtain ⟨p, hp'⟩ := Option.isSome_iff_exists.mp ((h.listed c).mp hc)
    obtain ⟨ts, ht, _⟩ := h.2 c p hp'
    exact ⟨ts, ht, by rw [(r2 c hc).2, ht]⟩
  have trans : ∀ {τ : Type} (T' : TripsOps τ) (t : τ), SameView Mem.ops m.2 T' t → SameView T s T' t := by
    intro τ T' t hv
    rw [hm] at hv
    refine ⟨fun c => (vm.1 c).trans (hv.1 c), fun c hc => ?_⟩
    obtain ⟨ts, a, b⟩ := vm.2 c hc
    obtain ⟨ts', a', b'⟩ := hv.2 c ((vm.1 c).mp hc)
    rw [b] at a'; cases a'
    exact ⟨ts, a, b'⟩
  refine ⟨⟨by rw [hm], by rw [hm]; exact vm⟩, ⟨?_, trans _ _ v1⟩, ⟨?_, trans _ _ v2⟩⟩
  · show e.1 = _
    rw [show e.1 = m.1 from e1, hm]
  · show d.1 = _
    rw [show d.1 = m.1 from e2, hm]

/-- C65: loading the backup of any store into a new store of any of the three kinds gives a store with the same collections and
triples, as long as the names are legal LMDB keys and 2^64 identifiers are enough. -/
theorem C65_migrate (T : TripsOps σ) (s : σ) (w : World) (h : Agrees T s w) (hp : PlainTexts T s) (hk : ∀ c, Listed T s c → Heed.lmdbKey c = true)
    (h64 : Fits64 T s) (script : Str) (hb : Backup (Graph.ops T) s script) :
    let m := run (Graph.ops Mem.ops) common script Mem.new
    let e := run (Graph.ops Heed.ops) common script Heed.new
    let d := run (Graph.ops Duck.ops) common script Duck.new
    (m.1 = .ok (.network ∅) ∧ SameView T s Mem.ops m.2) ∧ (e.1 = .ok (.network ∅) ∧ SameView T s Heed.ops e.2) ∧
      (d.1 = .ok (.network ∅) ∧ SameView T s Duck.ops d.2) := by
  obtain ⟨cs, hl⟩ := lists_of_agrees h
  exact migrate_of h hk h64 hl script (fun L t => run_backup hl hp script hb L t)

/-- C65: in particular after any history of operations on the LMDB-backed or the DuckDB-backed store, its backup loaded into a new
in-memory store shows the same collections with the same triples, and the other way round. -/
theorem C65_histories (l : List Op) :
    ((∀ op ∈ l, Heed.LegalOp op) → ∀ script, PlainTexts Heed.ops (runOps Heed.ops Heed.new l).2 →
      Backup (Graph.ops Heed.ops) (runOps Heed.ops Heed.new l).2 script →
      SameView Heed.ops (runOps Heed.ops Heed.new l).2 Mem.ops (run Graph.memOps common script Graph.memNew).2) ∧
    (∀ script, PlainTexts Duck.ops (runOps Duck.ops Duck.new l).2 →
      Backup (Graph.ops Duck.ops) (runOps Duck.ops Duck.new l).2 script →
      SameView Duck.ops (runOps Duck.ops Duck.new l).2 Mem.ops (run Graph.memOps common script Graph.memNew).2) := by
  have key : ∀ {τ : Type} (T : TripsOps τ) (s : τ) (w : World), Agrees T s w → PlainTexts T s → ∀ script, Backup (Graph.ops T) s script →
      SameView T s Mem.ops (run Graph.memOps common script Graph.memNew).2 := by
    intro τ T s w h hp script hb
    obtain ⟨m', r1, r2, r3⟩ := C65_load_mem T s w h hp script hb Graph.memNew
    rw [r1]
    have hnew : ∀ c, ¬ Listed Mem.ops Graph.memNew c := by rintro c ⟨l, h1, h2⟩; cases h1; cases h2
    refine ⟨fun c => ⟨fun hc => (r2 c hc).1, fun hc => ?_⟩, fun c hc => ?_⟩
    · apply Classical.byContradiction
      intro hn
      exact hnew c ((r3 c hn).1.mp hc)
    · obtain ⟨p, hp'⟩ := Option.isSome_iff_exists.mp ((h.listed c).mp hc)
      obtain ⟨ts, ht, _⟩ := h.2 c p hp'
      exact ⟨ts, ht, by show Mem.ops.triples m' c = _; rw [(r2 c hc).2, ht]⟩
  exact ⟨fun hl script hp hb => key _ _ _ (C39_heed_refines_map l hl) hp script hb,
    fun script hp hb => key _ _ _ (C47_duck_refines_map l).1 hp script hb⟩

/-- A store with two collections, one of them empty, and names that are not bare words. -/
def backupOps : List Op := [.addCollection (lit "T é"), .addCollection (lit "S"),
  .addTriples (lit "T é") (BSet.ofList [⟨lit "a b", lit ":", lit "c"⟩, ⟨lit "a b", lit "r", lit "--"⟩])]
def backupText : Str := lit "let \"S\" {}, let \"T é\" {\"a b\" \"r\" \"--\", \"a b\" : \"c\"}"

example : Backup Graph.memOps (runOps Mem.ops Mem.new backupOps).2 backupText :=
  ⟨[(.of (lit "S"), ∅), (.of (lit "T é"), BSet.ofList [.ext (.of (lit "a b")) (.of (lit "c")), .role (.of (lit "a b")) (.of (lit "--")) (.of (lit "r"))])],
    by decide +kernel, by decide +kernel, by decide +kernel⟩

theorem backup_plain : PlainTexts Mem.ops (runOps Mem.ops Mem.new backupOps).2 := by
  have hs : (runOps Mem.ops Mem.new backupOps).2 = ⟨(BMap.insert (∅ : BMap Str (BSet Trip)) (lit "S") ∅).insert (lit "T é")
    (BSet.ofList [⟨lit "a b", lit ":", lit "c"⟩, ⟨lit "a b", lit "r", lit "--"⟩])⟩ := by decide +kernel
  rw [hs]
  rintro c ⟨l, h1, h2⟩
  have h1 : [lit "S", lit "T é"] = l := by injection h1
  subst h1
  simp only [List.mem_cons, List.not_mem_nil, or_false] at h2
  unfold Special
  rcases h2 with rfl | rfl
  · refine ⟨by decide, fun ts h => ?_⟩
    have : ts = ∅ := by injection h with h; exact h.symm
    subst this
    decide
  · refine ⟨by decide, fun ts h => ?_⟩
    have : ts = BSet.ofList [⟨lit "a b", lit ":", lit "c"⟩, ⟨lit "a b", lit "r", lit "--"⟩] := by injection h with h; exact h.symm
    subst this
    decide

example : Fits64 Mem.ops (runOps Mem.ops Mem.new backupOps).2 :=
  ⟨[(lit "S", ∅), (lit "T é", BSet.ofList [⟨lit "a b", lit ":", lit "c"⟩, ⟨lit "a b", lit "r", lit "--"⟩])], by decide +kernel, by decide +kernel,
    by decide +kernel⟩

/-- C65: plain texts are needed: the backup of a store with a quotation mark in a triple restores a different one. -/
theorem C65_needs_plain : ∃ m script, Backup Graph.memOps m script ∧ (run Graph.memOps common script Graph.memNew).2 ≠ m := by
  refine ⟨(runOps Mem.ops Mem.new [.addCollection (lit "T"), .addTriples (lit "T") (BSet.ofList [⟨lit "\"", lit "r", lit "b"⟩])]).2,
    lit "let \"T\" {\"\\\"\" \"r\" \"b\"}", ⟨[(.of (lit "T"), BSet.ofList [.role (.of (lit "\"")) (.of (lit "b")) (.of (lit "r"))])],
      ?_, ?_, ?_⟩, ?_⟩ <;> decide +kernel

end Props
end Verif
