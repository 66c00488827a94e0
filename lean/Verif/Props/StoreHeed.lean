import Verif.Props.StoreLaws
/-!
# C39–C42, C45, C46: the LMDB-backed store
-/
namespace Verif
namespace Props
open Spec

/-! ## C39 -/

/-- C39: after any history on a fresh store (collection names of 1 to 511 bytes), listing and reading answer like the plain map
updated by the acknowledged operations.  Operations that panic are not acknowledged and change nothing. -/
theorem C39_heed_refines_map (l : List Op) (hl : ∀ op ∈ l, Heed.LegalOp op) :
    Agrees Heed.ops (runOps Heed.ops Heed.new l).2 (worldAfter false (runOps Heed.ops Heed.new l).1) := by
  obtain ⟨h1, h2⟩ := Heed.rel_runOps l hl
  rw [← h2]; exact heed_agrees h1

example : (runOps Heed.ops Heed.new sampleOps).1.map Prod.snd = [.ok (), .ok (), .ok (), .ok (), .panic] ∧
    Heed.ops.triples (runOps Heed.ops Heed.new sampleOps).2 (lit "T") = .ok (BSet.ofList [sampleTrip]) := by decide +kernel

/-- C39: which operations are acknowledged, as long as the history and the next operation use at most 2^64 identifiers:
adding a collection always; removing one, and adding triples, exactly when the collection exists; removing triples exactly when
the collection exists and all texts were stored before.  Every other outcome is a panic. -/
theorem C39_heed_outcomes (l : List Op) (op : Op) (hl : ∀ op ∈ l, Heed.LegalOp op) (hsize : costOf l + op.cost ≤ 2 ^ 64) :
    let h := (runOps Heed.ops Heed.new l).1
    let r := (exec Heed.ops (runOps Heed.ops Heed.new l).2 op).1
    (r = .ok () ↔ match op with
      | .addCollection _ => True
      | .removeCollection c => (worldAfter false h c).isSome
      | .addTriples c _ => (worldAfter false h c).isSome
      | .removeTriples c ts => (worldAfter false h c).isSome ∧ ∀ t ∈ ts, ∀ v ∈ tripTexts t, Heed.StoredBy h v) ∧
    (r ≠ .ok () → r = .panic) := by
  intro h r
  obtain ⟨hg, hw⟩ := Heed.rel_runOps l hl
  have hroom : Heed.Room (runOps Heed.ops Heed.new l).2 op.cost :=
    Heed.room_runOps l Heed.new op.cost Heed.good_new (by simpa [Heed.Room, Heed.used, Heed.new] using hsize)
  have hr : r = (Heed.execTx true (runOps Heed.ops Heed.new l).2 op).1 := by
    show (exec (Heed.opsWith true) _ op).1 = _
    rw [Heed.exec_eq]
  cases op with
  | addCollection c => rw [hr, Heed.outcome_addCollection hg true c hroom]; simp
  | removeCollection c =>
    rw [hr, Heed.outcome_removeCollection hg true c, hw]
    cases hc : (worldAfter false h c).isSome <;> simp [h, hc]
  | addTriples c ts =>
    rw [hr, Heed.outcome_addTriples hg true c ts hroom, hw]
    cases hc : (worldAfter false h c).isSome <;> simp [h, hc]
  | removeTriples c ts =>
    obtain ⟨h1, h2⟩ := Heed.outcome_removeTriples hg true c ts
    refine ⟨?_, by rw [hr]; exact h2⟩
    rw [hr, h1, hw]
    have hk : ∀ v, Heed.KnowsText (runOps Heed.ops Heed.new l).2 v ↔ Heed.StoredBy h v := by
      intro v
      rw [Heed.known_runOps l _ Heed.good_new]
      simp [Heed.KnowsText, Heed.new, h]
    exact ⟨fun ⟨a, b⟩ => ⟨a, fun t ht v hv => (hk v).mp (b t ht v hv)⟩,
      fun ⟨a, b⟩ => ⟨a, fun t ht v hv => (hk v).mpr (b t ht v hv)⟩⟩

example : costOf sampleOps + (Op.addTriples (lit "T") sampleSet).cost ≤ 2 ^ 64 := by decide +kernel

/-! ## C40 -/

/-- C40: in every stored state (also after crashes and failed commits) no identifier names two things. -/
theorem C40_ids_unique {s : Heed} (h : Heed.Reach s) :
    (∀ i v, s.idToVal.get? i = some v → s.idToColl.get? i = none) ∧
    (∀ i v, (s.idToVal.get? i = some v ∨ s.idToColl.get? i = some v) → ∃ n, s.ctr = some n ∧ i ≤ n ∧ n < 2 ^ 64) ∧
    (∀ v v' i, s.valToId.get? v = some i → s.valToId.get? v' = some i → v = v') ∧
    (∀ c c' i, s.collToId.get? c = some i → s.collToId.get? c' = some i → c = c') ∧
    (∀ v c i, s.valToId.get? v = some i → s.collToId.get? c ≠ some i) ∧
    (∀ v i, s.valToId.get? v = some i → s.idToVal.get? i = some v) ∧
    (∀ c i, s.collToId.get? c = some i → s.idToColl.get? i = some c) := by
  have hg := h.good
  refine ⟨hg.disj, ?_, ?_, ?_, ?_, fun v i h => (hg.v2i v i h).1, fun c i h => (hg.c2i c i h).1⟩
  · rintro i v (h | h)
    · obtain ⟨n, hn, hle⟩ := hg.valLe i v h
      exact ⟨n, hn, hle, hg.bound n hn⟩
    · obtain ⟨n, hn, hle⟩ := hg.collLe i v h
      exact ⟨n, hn, hle, hg.bound n hn⟩
  · intro v v' i h1 h2
    have e1 := (hg.v2i v i h1).1
    have e2 := (hg.v2i v' i h2).1
    rw [e1] at e2; cases e2; rfl
  · intro c c' i h1 h2
    exact Heed.coll_inj hg h2 h1 rfl
  · intro v c i h1 h2
    have e1 := hg.disj i v (hg.v2i v i h1).1
    rw [(hg.c2i c i h2).1] at e1; cases e1

/-- `C40_ids_unique` applies to the store after a history that adds and removes. -/
example := C40_ids_unique (Heed.Reach.of_runOps sampleOps)

/-- C40: an identifier once handed out (at most the stored counter) never gets another meaning later, through any operations,
crashes and failed commits: whatever it names later it named before. -/
theorem C40_ids_never_reused {s t : Heed} (hs : Heed.Reach s) (h : Heed.Later s t) {i n : Nat} (hn : s.ctr = some n) (hi : i ≤ n) :
    (∀ v, t.idToVal.get? i = some v → s.idToVal.get? i = some v) ∧
    (∀ c, t.idToColl.get? i = some c → s.idToColl.get? i = some c) ∧ ∃ m, t.ctr = some m ∧ n ≤ m := by
  obtain ⟨_, hf⟩ := h.good_fresh hs.good
  refine ⟨fun v hv => ?_, fun c hc => ?_, hf.mono n hn⟩
  · rcases hf.val i v hv with h1 | h1
    · exact h1
    · have := h1 n hn; omega
  · rcases hf.coll i c hc with h1 | h1
    · exact h1
    · have := h1 n hn; omega

example : Heed.Reach (runOps Heed.ops Heed.new sampleOps).2 ∧ (runOps Heed.ops Heed.new sampleOps).2.ctr = some 6 ∧
    (runOps Heed.ops Heed.new sampleOps).2.idToVal.get? 1 = some (lit "a") :=
  ⟨Heed.Reach.of_runOps _, by decide +kernel, by decide +kernel⟩

/-! ## C41 -/

/-- C41: in every stored state the six index tables hold the same quadruples of identifiers, each in its own column order, and
nothing else. -/
theorem C41_indexes_agree {s : Heed} (h : Heed.Reach s) :
    ∃ rows : Nat → Nat → Nat → Nat → Prop,
      (∀ c f se t, rows c f se t → c < 2 ^ 64 ∧ f < 2 ^ 64 ∧ se < 2 ^ 64 ∧ t < 2 ^ 64) ∧
      (∀ k, k ∈ s.cfst ↔ ∃ c f se t, rows c f se t ∧
        k = Heed.beBytes c ++ Heed.beBytes f ++ Heed.beBytes se ++ Heed.beBytes t) ∧
      (∀ k, k ∈ s.cfts ↔ ∃ c f se t, rows c f se t ∧
        k = Heed.beBytes c ++ Heed.beBytes f ++ Heed.beBytes t ++ Heed.beBytes se) ∧
      (∀ k, k ∈ s.csft ↔ ∃ c f se t, rows c f se t ∧
        k = Heed.beBytes c ++ Heed.beBytes se ++ Heed.beBytes f ++ Heed.beBytes t) ∧
      (∀ k, k ∈ s.cstf ↔ ∃ c f se t, rows c f se t ∧
        k = Heed.beBytes c ++ Heed.beBytes se ++ Heed.beBytes t ++ Heed.beBytes f) ∧
      (∀ k, k ∈ s.ctfs ↔ ∃ c f se t, rows c f se t ∧
        k = Heed.beBytes c ++ Heed.beBytes t ++ Heed.beBytes f ++ Heed.beBytes se) ∧
      (∀ k, k ∈ s.ctsf ↔ ∃ c f se t, rows c f se t ∧
        k = Heed.beBytes c ++ Heed.beBytes t ++ Heed.beBytes se ++ Heed.beBytes f) := by
  have hg := h.good
  exact ⟨Heed.quads s, fun c f se t hq => hg.lt hq, hg.cfst, hg.cfts, hg.csft, hg.cstf, hg.ctfs, hg.ctsf⟩

example : (runOps Heed.ops Heed.new sampleOps).2.ctsf.toList.length = 1 := by decide +kernel

/-! ## C42 -/

/-- C42: the key of four identifiers decodes to them by reading eight bytes at a time. -/
theorem C42_key_decodes (a b c d : Nat) (ha : a < 2 ^ 64) (hb : b < 2 ^ 64) (hc : c < 2 ^ 64) (hd : d < 2 ^ 64) :
    let k := Heed.mergeArrays (Heed.beBytes a) (Heed.beBytes b) (Heed.beBytes c) (Heed.beBytes d)
    k.length = 32 ∧ Heed.readId (k.take 8) = a ∧ Heed.readId ((k.drop 8).take 8) = b ∧
    Heed.readId ((k.drop 16).take 8) = c ∧ Heed.readId ((k.drop 24).take 8) = d := by
  intro k
  refine ⟨rfl, ?_, ?_, ?_, ?_⟩
  · exact Heed.readId_beBytes ha
  · exact Heed.readId_beBytes hb
  · exact Heed.readId_beBytes hc
  · exact Heed.readId_beBytes hd

/-- C42: different quadruples have different keys. -/
theorem C42_key_injective {a b c d a' b' c' d' : Nat} (ha : a < 2 ^ 64) (hb : b < 2 ^ 64) (hc : c < 2 ^ 64) (hd : d < 2 ^ 64)
    (ha' : a' < 2 ^ 64) (hb' : b' < 2 ^ 64) (hc' : c' < 2 ^ 64) (hd' : d' < 2 ^ 64)
    (h : Heed.mergeArrays (Heed.beBytes a) (Heed.beBytes b) (Heed.beBytes c) (Heed.beBytes d) =
      Heed.mergeArrays (Heed.beBytes a') (Heed.beBytes b') (Heed.beBytes c') (Heed.beBytes d')) :
    a = a' ∧ b = b' ∧ c = c' ∧ d = d' := Heed.key_inj ha hb hc hd ha' hb' hc' hd' h

/-- C42: comparing keys byte by byte is comparing the quadruples of numbers lexicographically. -/
theorem C42_key_order (a b c d a' b' c' d' : Nat) (ha : a < 2 ^ 64) (hb : b < 2 ^ 64) (hc : c < 2 ^ 64) (hd : d < 2 ^ 64)
    (ha' : a' < 2 ^ 64) (hb' : b' < 2 ^ 64) (hc' : c' < 2 ^ 64) (hd' : d' < 2 ^ 64) :
    SOrd.lt (Heed.mergeArrays (Heed.beBytes a) (Heed.beBytes b) (Heed.beBytes c) (Heed.beBytes d))
      (Heed.mergeArrays (Heed.beBytes a') (Heed.beBytes b') (Heed.beBytes c') (Heed.beBytes d')) = true ↔
    a < a' ∨ a = a' ∧ (b < b' ∨ b = b' ∧ (c < c' ∨ c = c' ∧ d < d')) := by
  show SOrd.lt (Heed.key a b c d) (Heed.key a' b' c' d') = true ↔ _
  rw [Heed.listLt_beVal (Heed.key a b c d) (Heed.key a' b' c' d') rfl]
  simp only [Heed.key, Heed.mergeArrays, Heed.beVal_append, Heed.beVal_beBytes ha, Heed.beVal_beBytes hb, Heed.beVal_beBytes hc,
    Heed.beVal_beBytes hd, Heed.beVal_beBytes ha', Heed.beVal_beBytes hb', Heed.beVal_beBytes hc',
    Heed.beVal_beBytes hd', Heed.beBytes_length]
  simp only [Nat.reducePow] at *
  omega

/-- `C42_key_order` applies to identifiers whose bytes differ in number of digits: 255 sorts before 256. -/
example := C42_key_order 1 255 7 (2 ^ 64 - 1) 1 256 0 0 (by decide) (by decide) (by decide) (by decide) (by decide) (by decide) (by decide) (by decide)

/-- C42: so the keys of one collection are contiguous. -/
theorem C42_keys_contiguous (a b c d e f g h i j k l : Nat)
    (h1 : a < 2 ^ 64) (h2 : b < 2 ^ 64) (h3 : c < 2 ^ 64) (h4 : d < 2 ^ 64) (h5 : e < 2 ^ 64) (h6 : f < 2 ^ 64)
    (h7 : g < 2 ^ 64) (h8 : h < 2 ^ 64) (h10 : j < 2 ^ 64) (h11 : k < 2 ^ 64) (h12 : l < 2 ^ 64) (hi : i = a)
    (hl : SOrd.lt (Heed.mergeArrays (Heed.beBytes a) (Heed.beBytes b) (Heed.beBytes c) (Heed.beBytes d))
      (Heed.mergeArrays (Heed.beBytes e) (Heed.beBytes f) (Heed.beBytes g) (Heed.beBytes h)) = true)
    (hu : SOrd.lt (Heed.mergeArrays (Heed.beBytes e) (Heed.beBytes f) (Heed.beBytes g) (Heed.beBytes h))
      (Heed.mergeArrays (Heed.beBytes i) (Heed.beBytes j) (Heed.beBytes k) (Heed.beBytes l)) = true) : e = a := by
  subst hi
  rw [C42_key_order] at hl hu <;> try assumption
  omega

example : SOrd.lt (Heed.mergeArrays (Heed.beBytes 1) (Heed.beBytes 255) (Heed.beBytes 7) (Heed.beBytes 0))
    (Heed.mergeArrays (Heed.beBytes 1) (Heed.beBytes 256) (Heed.beBytes 0) (Heed.beBytes 3)) = true := by decide +kernel

/-! ## C45 -/

/-- C45: whatever is stored when the process stops during an operation is the state before or the state the completed
operation leaves; a panicking operation leaves the state before. -/
theorem C45_crash_atomic {s : Heed} (h : Heed.Reach s) (op : Op) :
    (∀ d ∈ (Heed.execTx true s op).2.seen, d = s ∨ d = (exec Heed.ops s op).2) ∧
    ((exec Heed.ops s op).1 ≠ .ok () → (exec Heed.ops s op).2 = s) := by
  have hs := Heed.exec_spec h.good true op
  have e : exec Heed.ops s op = ((Heed.execTx true s op).1, (Heed.execTx true s op).2.durable) := Heed.exec_eq true s op
  rw [e]
  exact ⟨hs.1, hs.2.1⟩

/-- `C45_crash_atomic` applies to adding triples after a history. -/
example := C45_crash_atomic (Heed.Reach.of_runOps sampleOps) (.addTriples (lit "T") sampleSet)

/-- C45: with a failing commit nothing is stored at any time. -/
theorem C45_failed_commit {s : Heed} (h : Heed.Reach s) (op : Op) :
    (Heed.execTx false s op).2.durable = s ∧ ∀ d ∈ (Heed.execTx false s op).2.seen, d = s := by
  have hs := Heed.exec_spec h.good false op
  have hd := hs.2.2.1 rfl
  refine ⟨hd, fun d hm => ?_⟩
  rcases hs.1 d hm with h | h
  · exact h
  · exact h.trans hd

/-- `C45_failed_commit` applies to the same operation. -/
example := C45_failed_commit (Heed.Reach.of_runOps sampleOps) (.addTriples (lit "T") sampleSet)

/-- C45: the store found after a crash answers every question (it agrees with some world), so it can be used further. -/
theorem C45_recovered_usable {s : Heed} (h : Heed.Reach s) : ∃ w, Agrees Heed.ops s w := ⟨_, heed_agrees h.good⟩

example : (Heed.execTx true (runOps Heed.ops Heed.new sampleOps).2 (.addTriples (lit "S") sampleSet)).2.seen.length = 16 := by
  decide +kernel

/-! ## C46 -/

/-- C46: with successful commits and legal collection names, an acknowledged operation is stored: the answers after it are those
of the world updated by it. -/
theorem C46_acknowledged_is_stored {s : Heed} (h : Heed.Reach s) (op : Op) (hl : Heed.LegalOp op) (w : World)
    (hw : Agrees Heed.ops s w) (hok : (exec Heed.ops s op).1 = .ok ()) :
    Agrees Heed.ops (exec Heed.ops s op).2 (apply false w op) := by
  have hg := h.good
  have hww : w = Heed.worldOf s := by
    funext c
    have h1 := hw.listed c
    have h2 := (heed_agrees hg).listed c
    cases hc : w c with
    | none =>
      rw [hc] at h1
      rw [h1] at h2
      cases hc' : Heed.worldOf s c with
      | none => rfl
      | some p => rw [hc'] at h2; simp at h2
    | some p =>
      rw [hc] at h1
      rw [h1] at h2
      cases hc' : Heed.worldOf s c with
      | none => rw [hc'] at h2; simp at h2
      | some q =>
        obtain ⟨ts, ht, hts⟩ := hw.2 c p hc
        obtain ⟨ts', ht', hts'⟩ := (heed_agrees hg).2 c q hc'
        rw [ht] at ht'; cases ht'
        congr 1
        funext t
        exact propext ((hts t).symm.trans (hts' t))
  have e := Heed.worldOf_exec hg op hl
  rw [hok] at e
  simp only [applyEvent] at e
  rw [hww, ← e]
  exact heed_agrees (Heed.good_exec hg true op)

example : Heed.LegalOp (.addCollection (lit "V")) ∧
    (exec Heed.ops (runOps Heed.ops Heed.new sampleOps).2 (.addCollection (lit "V"))).1 = .ok () := by
  refine ⟨?_, by decide +kernel⟩
  show Heed.lmdbKey _ = true; decide

/-- C46: a failed commit is reported as `Ok`, so in general acknowledgement does not mean stored. -/
theorem C46_failed_commit_acknowledged : ∃ (s : Heed) (op : Op) (w : World), Heed.Reach s ∧ Heed.LegalOp op ∧
    Agrees (Heed.opsWith false) s w ∧ (exec (Heed.opsWith false) s op).1 = .ok () ∧
    ¬ Agrees (Heed.opsWith false) (exec (Heed.opsWith false) s op).2 (apply false w op) := by
  refine ⟨Heed.new, .addCollection (lit "T"), emptyWorld, .new, ?_, ?_, by decide +kernel, ?_⟩
  · show Heed.lmdbKey _ = true; decide
  · have := heed_agrees Heed.good_new; rw [Heed.worldOf_new] at this; exact this
  · rintro ⟨⟨l, h1, _, h2⟩, _⟩
    have h3 := (h2 (lit "T")).mpr (by simp [apply, emptyWorld])
    have h4 : (Heed.opsWith false).collections (exec (Heed.opsWith false) Heed.new (.addCollection (lit "T"))).2 = .ok [] := by
      decide +kernel
    rw [h4] at h1; cases h1; cases h3

/-- C46: whether the commit succeeds makes no difference to what any operation reports, in any state; if it fails nothing is stored. -/
theorem C46_failed_commit_same_answer {s : Heed} (h : Heed.Reach s) (op : Op) :
    (exec (Heed.opsWith false) s op).1 = (exec Heed.ops s op).1 ∧ (exec (Heed.opsWith false) s op).2 = s := by
  refine ⟨?_, ?_⟩
  · show _ = (exec (Heed.opsWith true) s op).1
    rw [Heed.exec_eq, Heed.exec_eq]
    cases op with
    | addCollection c =>
      simp only [Heed.execTx, Heed.addCollectionTx]
      repeat' split
      all_goals first | rfl | simp_all
    | removeCollection c =>
      simp only [Heed.execTx, Heed.removeCollectionTx]
      repeat' split
      all_goals first | rfl | simp_all
    | addTriples c ts =>
      simp only [Heed.execTx, Heed.addTriplesTx]
      repeat' split
      all_goals first | rfl | simp_all
    | removeTriples c ts =>
      simp only [Heed.execTx, Heed.removeTriplesTx]
      repeat' split
      all_goals first | rfl | simp_all
  · rw [Heed.exec_eq]
    exact (Heed.exec_spec h.good false op).2.2.1 rfl

/-- `C46_failed_commit_same_answer` applies to the same operation. -/
example := C46_failed_commit_same_answer (Heed.Reach.of_runOps sampleOps) (.addTriples (lit "T") sampleSet)

/-- C46: adding a collection whose name is empty or longer than 511 bytes is reported as `Ok` from every state (with room for an
identifier) and stores no collection. -/
theorem C46_illegal_name_acknowledged {s : Heed} (h : Heed.Reach s) (c : Str) (hc : Heed.lmdbKey c = false)
    (hroom : ∀ n, s.ctr = some n → n + 1 < 2 ^ 64) :
    (Heed.ops.addCollection s c).1 = .ok () ∧ ¬ Listed Heed.ops (Heed.ops.addCollection s c).2 c := by
  have hg := h.good
  refine ⟨?_, ?_⟩
  · refine Heed.outcome_addCollection hg true c ?_
    unfold Heed.Room Heed.used
    cases hn : s.ctr with
    | none => simp
    | some n => have := hroom n hn; simp only; omega
  · have hg' : Heed.Good (Heed.ops.addCollection s c).2 := Heed.good_exec hg true (.addCollection c)
    rw [heed_listed' hg']
    intro hs
    obtain ⟨i, hi⟩ := Option.isSome_iff_exists.mp hs
    have := (hg'.c2i c i hi).2
    rw [hc] at this; cases this

example : Heed.lmdbKey [] = false := rfl

end Props
end Verif
