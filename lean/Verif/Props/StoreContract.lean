import Verif.Props.StoreMem
import Verif.Proofs.HeedOut
import Verif.Proofs.Duck
/-!
# C28–C34, C37, C43, C44: the documented store contract, store by store

`Spec.AddExistingIsNoop` etc. state each clause of the documentation for an arbitrary store; here every clause is proved or
refuted for every store.
-/
namespace Verif
namespace Props
open Spec

theorem mem_listed (s : Mem) (c : Str) : Listed Mem.ops s c ↔ (s.colls.get? c).isSome := by
  rw [(Mem.agrees s).listed]; simp [Mem.world]

theorem heed_agrees {s : Heed} (h : Heed.Good s) : Agrees Heed.ops s (Heed.worldOf s) := Heed.agrees h
theorem heed_listed {s : Heed} (h : Heed.Good s) (c : Str) : Listed Heed.ops s c ↔ (Heed.worldOf s c).isSome :=
  (heed_agrees h).listed c
theorem heed_listed' {s : Heed} (h : Heed.Good s) (c : Str) : Listed Heed.ops s c ↔ (s.collToId.get? c).isSome := by
  rw [heed_listed h, Heed.world_isSome]
theorem duck_listed {s : Duck} (h : Duck.Inv s) (c : Str) : Listed Duck.ops s c ↔ (Duck.world s c).isSome :=
  (Duck.agrees h).listed c
theorem duck_inv (l : List Op) : Duck.Inv (runOps Duck.ops Duck.new l).2 := (Duck.rel_runOps l).1
theorem heed_good (l : List Op) : Heed.Good (runOps Heed.ops Heed.new l).2 := Heed.good_runOps l _ Heed.good_new

theorem SameAnswers.refl (T : TripsOps σ) (s : σ) : SameAnswers T s s := ⟨rfl, fun _ => rfl⟩

/-! ## C28: adding a collection that exists -/

/-- C28, LMDB store: the documented behaviour. -/
theorem C28_heed_add_existing_noop : AddExistingIsNoop Heed.ops Heed.new := by
  intro l c hc
  have hg := heed_good l
  generalize (runOps Heed.ops Heed.new l).2 = s at *
  obtain ⟨i, hi⟩ := Option.isSome_iff_exists.mp ((heed_listed' hg c).mp hc)
  rcases Heed.addCollection_cases hg true c with ⟨_, e⟩ | ⟨hn, _⟩ | ⟨hn, _⟩
  · have e' : Heed.ops.addCollection s c = (.ok (), s) := by
      show ((Heed.addCollectionTx true s c).1, (Heed.addCollectionTx true s c).2.durable) = _
      rw [e]; rfl
    rw [e']; exact ⟨rfl, SameAnswers.refl _ _⟩
  · rw [hi] at hn; cases hn
  · rw [hi] at hn; cases hn

example : Listed Heed.ops (runOps Heed.ops Heed.new sampleOps).2 (lit "T") := ⟨[lit "S", lit "T"], by decide +kernel⟩

/-- C28, in-memory store: the collection is emptied instead, whatever it held; nothing else changes. -/
theorem C28_mem_add_existing_empties (l : List Op) (c : Str) :
    let s := (runOps Mem.ops Mem.new l).2
    (Mem.ops.addCollection s c).1 = .ok () ∧
    Mem.ops.triples (Mem.ops.addCollection s c).2 c = .ok ∅ ∧
    (∀ d, d ≠ c → Mem.ops.triples (Mem.ops.addCollection s c).2 d = Mem.ops.triples s d) := by
  intro s
  refine ⟨rfl, ?_, fun d hd => ?_⟩
  · simp [Mem.ops, Mem.triples, Mem.addCollection]
  · simp only [Mem.ops, Mem.triples, Mem.addCollection, BMap.get?_insert_ne _ _ hd]

/-- C28, in-memory store: so the documented behaviour fails. -/
theorem C28_mem_violates : ¬ AddExistingIsNoop Mem.ops Mem.new := by
  intro h
  have h1 : Listed Mem.ops (runOps Mem.ops Mem.new sampleOps).2 (lit "T") := ⟨[lit "S", lit "T"], by decide +kernel⟩
  have h2 := (h sampleOps (lit "T") h1).2.2 (lit "T")
  revert h2; decide +kernel

/-- C28, DuckDB store: the operation panics and changes nothing. -/
theorem C28_duck_add_existing_panics (l : List Op) (c : Str) (h : Listed Duck.ops (runOps Duck.ops Duck.new l).2 c) :
    Duck.ops.addCollection (runOps Duck.ops Duck.new l).2 c = (.panic, (runOps Duck.ops Duck.new l).2) := by
  have hg := duck_inv l
  generalize (runOps Duck.ops Duck.new l).2 = s at *
  rw [duck_listed hg] at h
  simp only [Duck.world, Option.isSome_map] at h
  obtain ⟨i, hi⟩ := Option.isSome_iff_exists.mp h
  simp [Duck.ops, Duck.addCollection, hi]

/-- `C28_duck_add_existing_panics` applies to a listed collection. -/
example := C28_duck_add_existing_panics sampleOps (lit "T") ⟨_, rfl, by decide +kernel⟩

/-- C28, DuckDB store: so the documented behaviour fails. -/
theorem C28_duck_violates : ¬ AddExistingIsNoop Duck.ops Duck.new := by
  intro h
  have h1 : Listed Duck.ops (runOps Duck.ops Duck.new sampleOps).2 (lit "T") := ⟨[lit "T", lit "S"], by decide +kernel⟩
  have h2 := (h sampleOps (lit "T") h1).1
  revert h2; decide +kernel

/-! ## C29: removing a collection that does not exist -/

/-- C29, in-memory store: the documented behaviour. -/
theorem C29_mem_remove_missing_noop : RemoveMissingIsNoop Mem.ops Mem.new := by
  intro l c hc
  generalize (runOps Mem.ops Mem.new l).2 = s at *
  rw [mem_listed] at hc
  simp only [Bool.not_eq_true, Option.isSome_eq_false_iff, Option.isNone_iff_eq_none] at hc
  have hget : ∀ d, (s.colls.erase c).get? d = s.colls.get? d := by
    intro d
    by_cases e : d = c
    · subst e; simp [hc]
    · exact BMap.get?_erase_ne _ e
  refine ⟨rfl, ?_, fun d => ?_⟩
  · show Res.ok (s.colls.erase c).keys = Res.ok s.colls.keys
    congr 1
    refine asc_ext (BMap.keys_sorted _) (BMap.keys_sorted _) fun x => ?_
    rw [BMap.mem_keys_isSome, BMap.mem_keys_isSome, hget]
  · simp only [Mem.ops, Mem.triples, Mem.removeCollection, hget]

example : ¬ Listed Mem.ops (runOps Mem.ops Mem.new sampleOps).2 (lit "U") := by
  rw [mem_listed]; decide +kernel

/-- C29, DuckDB store: the documented behaviour. -/
theorem C29_duck_remove_missing_noop : RemoveMissingIsNoop Duck.ops Duck.new := by
  intro l c hc
  have hg := duck_inv l
  generalize (runOps Duck.ops Duck.new l).2 = s at *
  rw [duck_listed hg] at hc
  simp only [Duck.world, Option.isSome_map, Bool.not_eq_true, Option.isSome_eq_false_iff, Option.isNone_iff_eq_none] at hc
  have e : Duck.ops.removeCollection s c = (.ok (), s) := by simp [Duck.ops, Duck.removeCollection, hc]
  rw [e]; exact ⟨rfl, SameAnswers.refl _ _⟩

/-- C29, LMDB store: the operation panics and changes nothing. -/
theorem C29_heed_remove_missing_panics (l : List Op) (c : Str) (h : ¬ Listed Heed.ops (runOps Heed.ops Heed.new l).2 c) :
    Heed.ops.removeCollection (runOps Heed.ops Heed.new l).2 c = (.panic, (runOps Heed.ops Heed.new l).2) := by
  have hg := heed_good l
  generalize (runOps Heed.ops Heed.new l).2 = s at *
  rw [heed_listed' hg] at h
  show ((Heed.removeCollectionTx true s c).1, (Heed.removeCollectionTx true s c).2.durable) = _
  rcases Heed.removeCollection_cases hg true c with ⟨_, e⟩ | ⟨i, hi, _⟩
  · rw [e]; rfl
  · rw [hi] at h; simp at h

/-- `C29_heed_remove_missing_panics` applies to a store with other collections. -/
example := C29_heed_remove_missing_panics sampleOps (lit "U") (by rw [heed_listed' (heed_good _)]; decide +kernel)

/-- C29, LMDB store: so the documented behaviour fails. -/
theorem C29_heed_violates : ¬ RemoveMissingIsNoop Heed.ops Heed.new := by
  intro h
  have h1 : ¬ Listed Heed.ops (runOps Heed.ops Heed.new []).2 (lit "T") := by
    rw [heed_listed' (heed_good [])]; decide +kernel
  have h2 := (h [] (lit "T") h1).1
  revert h2; decide +kernel

/-! ## C30: writing to a collection that does not exist -/

/-- C30, DuckDB store: the documented behaviour. -/
theorem C30_duck_write_missing_errs : WriteMissingIsError Duck.ops Duck.new := by
  intro l c ts hc
  have hg := duck_inv l
  generalize (runOps Duck.ops Duck.new l).2 = s at *
  rw [duck_listed hg] at hc
  simp only [Duck.world, Option.isSome_map, Bool.not_eq_true, Option.isSome_eq_false_iff, Option.isNone_iff_eq_none] at hc
  have e1 : Duck.ops.addTriples s c ts = (.err (lit "Collection " ++ c ++ lit " not found."), s, ts) := by
    simp [Duck.ops, Duck.addTriples, Duck.getCollectionId, hc]
  have e2 : Duck.ops.removeTriples s c ts = (.err (lit "Collection " ++ c ++ lit " not found."), s, ts) := by
    simp [Duck.ops, Duck.removeTriples, Duck.getCollectionId, hc]
  rw [e1, e2]
  exact ⟨⟨⟨_, rfl⟩, SameAnswers.refl _ _⟩, ⟨_, rfl⟩, SameAnswers.refl _ _⟩

example : ¬ Listed Duck.ops (runOps Duck.ops Duck.new sampleOps).2 (lit "U") := by
  rw [duck_listed (duck_inv _)]; decide +kernel

/-- C30, in-memory store: both operations panic and change nothing. -/
theorem C30_mem_write_missing_panics (l : List Op) (c : Str) (ts : BSet Trip)
    (h : ¬ Listed Mem.ops (runOps Mem.ops Mem.new l).2 c) :
    Mem.ops.addTriples (runOps Mem.ops Mem.new l).2 c ts = (.panic, (runOps Mem.ops Mem.new l).2, ts) ∧
    Mem.ops.removeTriples (runOps Mem.ops Mem.new l).2 c ts = (.panic, (runOps Mem.ops Mem.new l).2, ts) := by
  generalize (runOps Mem.ops Mem.new l).2 = s at *
  rw [mem_listed] at h
  simp only [Bool.not_eq_true, Option.isSome_eq_false_iff, Option.isNone_iff_eq_none] at h
  simp [Mem.ops, Mem.addTriples, Mem.removeTriples, h]

/-- C30, in-memory store: so the documented behaviour fails. -/
theorem C30_mem_violates : ¬ WriteMissingIsError Mem.ops Mem.new := by
  intro h
  have h1 : ¬ Listed Mem.ops (runOps Mem.ops Mem.new []).2 (lit "T") := by rw [mem_listed]; decide +kernel
  obtain ⟨⟨⟨m, h2⟩, _⟩, _⟩ := h [] (lit "T") sampleSet h1
  rw [(C30_mem_write_missing_panics [] _ _ h1).1] at h2
  cases h2

/-- C30, LMDB store: both operations panic and change nothing. -/
theorem C30_heed_write_missing_panics (l : List Op) (c : Str) (ts : BSet Trip)
    (h : ¬ Listed Heed.ops (runOps Heed.ops Heed.new l).2 c) :
    Heed.ops.addTriples (runOps Heed.ops Heed.new l).2 c ts = (.panic, (runOps Heed.ops Heed.new l).2, ts) ∧
    Heed.ops.removeTriples (runOps Heed.ops Heed.new l).2 c ts = (.panic, (runOps Heed.ops Heed.new l).2, ts) := by
  have hg := heed_good l
  generalize (runOps Heed.ops Heed.new l).2 = s at *
  rw [heed_listed' hg] at h
  constructor
  · show ((Heed.addTriplesTx true s c ts).1, (Heed.addTriplesTx true s c ts).2.durable, ts) = _
    rcases Heed.addTriples_cases hg true c ts with ⟨_, e⟩ | ⟨i, hi, _⟩
    · rw [e]; rfl
    · rw [hi] at h; simp at h
  · show ((Heed.removeTriplesTx true s c ts).1, (Heed.removeTriplesTx true s c ts).2.durable, ts) = _
    rcases Heed.removeTriples_cases hg true c ts with ⟨_, e⟩ | ⟨i, hi, _⟩
    · rw [e]; rfl
    · rw [hi] at h; simp at h

/-- `C30_heed_write_missing_panics` applies to a store with other collections. -/
example := C30_heed_write_missing_panics sampleOps (lit "U") sampleSet (by rw [heed_listed' (heed_good _)]; decide +kernel)

/-- C30, LMDB store: so the documented behaviour fails. -/
theorem C30_heed_violates : ¬ WriteMissingIsError Heed.ops Heed.new := by
  intro h
  have h1 : ¬ Listed Heed.ops (runOps Heed.ops Heed.new []).2 (lit "T") := by
    rw [heed_listed' (heed_good [])]; decide +kernel
  obtain ⟨⟨⟨m, h2⟩, _⟩, _⟩ := h [] (lit "T") sampleSet h1
  rw [(C30_heed_write_missing_panics [] _ _ h1).1] at h2
  cases h2

/-! ## C31: removing triples that are not there -/

/-- C31, in-memory store: the documented behaviour. -/
theorem C31_mem_remove_absent_noop : RemoveAbsentIsNoop Mem.ops Mem.new := by
  intro l c ts held hc ht hts
  generalize (runOps Mem.ops Mem.new l).2 = s at *
  rw [mem_listed] at hc
  obtain ⟨S, hS⟩ := Option.isSome_iff_exists.mp hc
  have hh : S = held := by simpa [Mem.ops, Mem.triples, hS] using ht
  subst hh
  have he : S.eraseAll ts.toList = S := by
    apply BSet.ext; intro t
    rw [BSet.mem_eraseAll]
    exact ⟨fun h => h.1, fun h => ⟨h, fun h' => hts t h' h⟩⟩
  have e : Mem.ops.removeTriples s c ts = (.ok (), ⟨s.colls.insert c S⟩, ts) := by
    simp [Mem.ops, Mem.removeTriples, hS, he]
  have hget : ∀ d, (s.colls.insert c S).get? d = s.colls.get? d := by
    intro d
    by_cases e : d = c
    · subst e; simp [hS]
    · exact BMap.get?_insert_ne _ _ e
  rw [e]
  refine ⟨rfl, ?_, fun d => ?_⟩
  · show Res.ok (s.colls.insert c S).keys = Res.ok s.colls.keys
    congr 1
    refine asc_ext (BMap.keys_sorted _) (BMap.keys_sorted _) fun x => ?_
    rw [BMap.mem_keys_isSome, BMap.mem_keys_isSome, hget]
  · simp only [Mem.ops, Mem.triples, hget]

example : Listed Mem.ops (runOps Mem.ops Mem.new sampleOps).2 (lit "T") ∧
    Mem.ops.triples (runOps Mem.ops Mem.new sampleOps).2 (lit "T") = .ok (BSet.ofList [sampleTrip]) ∧
    ∀ t ∈ BSet.ofList [sampleTrip2], t ∉ BSet.ofList [sampleTrip] := by
  refine ⟨⟨[lit "S", lit "T"], by decide +kernel⟩, by decide +kernel, ?_⟩
  intro t ht h
  simp only [BSet.mem_ofList, List.mem_singleton] at ht h
  rw [ht] at h; revert h; decide

/-- C31, DuckDB store: the documented behaviour. -/
theorem C31_duck_remove_absent_noop : RemoveAbsentIsNoop Duck.ops Duck.new := by
  intro l c ts held hc ht hts
  have hg := duck_inv l
  generalize (runOps Duck.ops Duck.new l).2 = s at *
  rw [duck_listed hg] at hc
  obtain ⟨p, hp⟩ := Option.isSome_iff_exists.mp hc
  obtain ⟨ts', ht', hts'⟩ := (Duck.agrees hg).2 c p hp
  rw [ht] at ht'; cases ht'
  have hi : ∃ i, Duck.idOf s.colls c = some i ∧ p = Duck.held s i := by
    simp only [Duck.world, Option.map_eq_some_iff] at hp
    obtain ⟨i, hi, rfl⟩ := hp; exact ⟨i, hi, rfl⟩
  obtain ⟨i, hi, rfl⟩ := hi
  have e : Duck.ops.removeTriples s c ts = (.ok (), s, ts) := by
    simp only [Duck.ops, Duck.removeTriples, Duck.getCollectionId, hi]
    have : ∀ (l : List Trip), (∀ t ∈ l, ¬ Duck.held s i t) → l.foldl (fun s t => Duck.removeTrip s i t) s = s := by
      intro l
      induction l with
      | nil => intro _; rfl
      | cons t l ih =>
        intro hl
        have h1 : Duck.removeTrip s i t = s := by
          unfold Duck.removeTrip
          have : s.trips.filter (fun r =>
            !(r.coll == i && Duck.sqlEq r.fst (Duck.idOf s.parts t.fst) && Duck.sqlEq r.snd (Duck.idOf s.parts t.snd) &&
              Duck.sqlEq r.thd (Duck.idOf s.parts t.thd))) = s.trips := by
            rw [List.filter_eq_self]
            intro r hr
            rw [Bool.not_eq_true', Bool.eq_false_iff]
            intro hb
            simp only [Bool.and_eq_true, beq_iff_eq, Duck.sqlEq_iff, hg.parts.idOf_eq] at hb
            obtain ⟨⟨⟨hc, i', e1, m1⟩, j, e2, m2⟩, k, e3, m3⟩ := hb
            exact hl t List.mem_cons_self ⟨r, hr, hc, i', j, k, e1, e2, e3, m1, m2, m3⟩
          rw [this]
        rw [List.foldl_cons, h1]
        exact ih (fun t' ht' => hl t' (List.mem_cons_of_mem _ ht'))
    rw [this ts.toList (fun t htm hh => hts t htm ((hts' t).mpr hh))]
  rw [e]; exact ⟨rfl, SameAnswers.refl _ _⟩

/-- C31, LMDB store: the operation panics (changing nothing) exactly when some text of the triples was never stored by an
acknowledged `add_triples`; otherwise it returns `Ok` and nothing changes. -/
theorem C31_heed_remove_absent (l : List Op) (c : Str) (ts held : BSet Trip)
    (hc : Listed Heed.ops (runOps Heed.ops Heed.new l).2 c)
    (hh : Heed.ops.triples (runOps Heed.ops Heed.new l).2 c = .ok held) (hts : ∀ t ∈ ts, t ∉ held) :
    let s := (runOps Heed.ops Heed.new l).2
    let r := Heed.ops.removeTriples s c ts
    (r.1 = .ok () ↔ ∀ t ∈ ts, ∀ v ∈ tripTexts t, Heed.StoredBy (runOps Heed.ops Heed.new l).1 v) ∧
    (r.1 ≠ .ok () → r.1 = .panic) ∧
    SameView Heed.ops s Heed.ops r.2.1 := by
  intro s r
  have hg := heed_good l
  have ho := Heed.outcome_removeTriples hg true c ts
  have hk : ∀ v, Heed.KnowsText s v ↔ Heed.StoredBy (runOps Heed.ops Heed.new l).1 v := by
    intro v
    rw [Heed.known_runOps l _ Heed.good_new]
    simp [Heed.KnowsText, Heed.new]
  have hl := (heed_listed hg c).mp hc
  have hr : r.1 = (Heed.execTx true s (.removeTriples c ts)).1 := rfl
  refine ⟨?_, ?_, ?_⟩
  · rw [hr, ho.1]
    simp only [hl, true_and]
    exact ⟨fun h t ht v hv => (hk v).mp (h t ht v hv), fun h t ht v hv => (hk v).mpr (h t ht v hv)⟩
  · rw [hr]; exact ho.2
  · have hg' : Heed.Good r.2.1 := by
      have := Heed.good_exec hg true (.removeTriples c ts); exact this
    have hw : Heed.worldOf r.2.1 = Heed.worldOf s := by
      have e := Heed.worldOf_exec hg (.removeTriples c ts) trivial
      have e1 : (exec Heed.ops s (.removeTriples c ts)).2 = r.2.1 := rfl
      rw [e1] at e
      rw [e]
      simp only [applyEvent]
      split
      · obtain ⟨p, hp⟩ := Option.isSome_iff_exists.mp hl
        simp only [apply]
        rw [show Heed.worldOf (runOps Heed.ops Heed.new l).2 c = some p from hp]
        obtain ⟨ts', ht', hts'⟩ := (heed_agrees hg).2 c p hp
        rw [hh] at ht'; cases ht'
        have hp' : (fun t => p t ∧ ¬ t ∈ ts) = p := by
          funext t; apply propext
          exact ⟨fun h => h.1, fun h => ⟨h, fun hm => hts t hm ((hts' t).mpr h)⟩⟩
        dsimp only
        rw [hp']
        funext d
        by_cases e : d = c
        · subst e; rw [World.set_same]; exact hp.symm
        · rw [World.set_other _ _ e]
      · rfl
    have h1 := heed_agrees hg
    have h2 := heed_agrees hg'
    rw [hw] at h2
    exact h1.sameView h2

example : Heed.ops.triples (runOps Heed.ops Heed.new sampleOps).2 (lit "T") = .ok (BSet.ofList [sampleTrip]) ∧
    (Heed.ops.removeTriples (runOps Heed.ops Heed.new sampleOps).2 (lit "T") (BSet.ofList [sampleTrip2])).1 = .ok () := by
  decide +kernel

/-- C31, LMDB store: so the documented behaviour fails. -/
theorem C31_heed_violates : ¬ RemoveAbsentIsNoop Heed.ops Heed.new := by
  intro h
  have h1 : Listed Heed.ops (runOps Heed.ops Heed.new [.addCollection (lit "T")]).2 (lit "T") :=
    ⟨[lit "T"], by decide +kernel⟩
  have h2 := (h [.addCollection (lit "T")] (lit "T") sampleSet ∅ h1 (by decide +kernel) (by simp)).1
  revert h2; decide +kernel

end Props
end Verif
