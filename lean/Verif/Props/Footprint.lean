import Verif.Proofs.FootprintHist
import Verif.Proofs.FootprintDuck
/-!
# C86: how much the database-backed stores keep
-/
namespace Verif
namespace Heed
open Spec

/-- A sample history: a collection with two triples is filled, one triple removed, the collection removed, another one filled. -/
def footSample : List Op :=
  [.addCollection (lit "c"), .addTriples (lit "c") (BSet.ofList [⟨lit "a", lit "b", lit "x"⟩, ⟨lit "a", lit "b", lit "y"⟩]),
   .removeTriples (lit "c") (BSet.ofList [⟨lit "a", lit "b", lit "x"⟩]),
   .removeCollection (lit "c"), .addCollection (lit "d"), .addTriples (lit "d") (BSet.ofList [⟨lit "a", lit "a", lit "z"⟩])]

theorem isSome_ctr (l : List Op) (hl : ∀ op ∈ l, LegalIn op) :
    (runOps ops new l).2.ctr.isSome = true ↔ created ops new l ≠ 0 := by
  obtain ⟨_, _, hu⟩ := clean_runOps l new [] clean_new dead_new hl
  rw [texts_len l hl] at hu
  have z : used new = 0 := rfl
  have z' : new.valToId.toList.length = 0 := rfl
  have hs : (runOps ops new l).2.ctr.isSome = true ↔ used (runOps ops new l).2 ≠ 0 := by
    unfold used; cases (runOps ops new l).2.ctr <;> simp
  rw [hs]
  constructor
  · intro h hc
    -- no collection was ever created, so none was listed and nothing could be added
    have hnone : ∀ (l : List Op) (s : Heed), Good s → s.collToId.toList = [] → created ops s l = 0 →
        ∀ c ts, (Op.addTriples c ts, Res.ok ()) ∉ (runOps ops s l).1 := by
      intro l
      induction l with
      | nil => intro s _ _ _ c ts; simp [runOps]
      | cons op l ih =>
        intro s hg he hcr c ts
        rw [created_cons] at hcr
        have hget : ∀ x, s.collToId.get? x = none := by
          intro x
          cases hx : s.collToId.get? x with
          | none => rfl
          | some i => have := BMap.mem_toList_iff.mpr hx; rw [he] at this; cases this
        have eo := exec_eq true s op
        simp only [runOps, List.mem_cons, not_or]
        have key : (exec ops s op).2.collToId.toList = [] ∧ ∀ c ts, (Op.addTriples c ts, Res.ok ()) ≠ (op, (exec ops s op).1) := by
          cases op with
          | addCollection x =>
            refine ⟨?_, by simp⟩
            have hno : (exec ops s (.addCollection x)).1 ≠ .ok () := by
              intro h1
              have : createdBy s (.addCollection x) = 1 := by
                unfold createdBy; rw [h1]; dsimp only; rw [listedB_eq, hget]; rfl
              omega
            have : (exec ops s (.addCollection x)).2 = s := by
              unfold ops at hno ⊢
              rw [eo] at hno ⊢
              exact (exec_spec hg true _).2.1 hno
            rw [this]; exact he
          | removeCollection x =>
            refine ⟨?_, by simp⟩
            unfold ops; rw [eo]; simp only [execTx]
            rcases removeCollection_cases hg true x with ⟨_, e⟩ | ⟨i, hi, _⟩
            · rw [e]; exact he
            · rw [hget] at hi; cases hi
          | addTriples x xs =>
            unfold ops; rw [eo]; simp only [execTx]
            rcases addTriples_cases hg true x xs with ⟨_, e⟩ | ⟨i, hi, _⟩
            · rw [e]; exact ⟨he, by simp⟩
            · rw [hget] at hi; cases hi
          | removeTriples x xs =>
            refine ⟨?_, by simp⟩
            unfold ops; rw [eo]; simp only [execTx]
            rcases removeTriples_cases hg true x xs with ⟨_, e⟩ | ⟨i, hi, _⟩
            · rw [e]; exact he
            · rw [hget] at hi; cases hi
        exact ⟨key.2 c ts, ih (exec ops s op).2 (good_exec hg true op) key.1 (by omega) c ts⟩
    have hv : (storedTexts (runOps ops new l).1).toList.length = 0 := by
      cases hx : (storedTexts (runOps ops new l).1).toList with
      | nil => rfl
      | cons v r =>
        have hm : v ∈ storedTexts (runOps ops new l).1 := by rw [BSet.mem_def, hx]; simp
        obtain ⟨c, ts, hm, _⟩ := mem_storedTexts.mp hm
        exact absurd hm (hnone l new good_new rfl hc c ts)
    omega
  · intro h; omega

/-- C86: how many records the LMDB environment holds after any history with names and texts of 1 to 511 bytes: one for the counter
once a collection was created, two per listed collection, two per text ever stored (removed or not), and six per triple shown
*and per triple that was in a collection when that collection was removed*. -/
theorem C86_lmdb_records (l : List Op) (hl : ∀ op ∈ l, LegalIn op) :
    records (runOps ops new l).2 =
      (if created ops new l = 0 then 0 else 1) + 2 * listedCount ops (runOps ops new l).2 +
      2 * (storedTexts (runOps ops new l).1).toList.length +
      6 * (shown ops (runOps ops new l).2 + orphaned ops new l) := by
  obtain ⟨h, ⟨D, hd, hD⟩, _⟩ := clean_runOps l new [] clean_new dead_new hl
  have h6 := h.six hd
  have hv := h.vals_len
  have hc := h.colls_len
  have ht := texts_len l hl
  have hs := isSome_ctr l hl
  have hk : listedCount ops (runOps ops new l).2 = (runOps ops new l).2.collToId.toList.length := by
    rw [length_keys]; rfl
  simp only [List.length_nil, Nat.zero_add] at hD
  unfold records
  rw [h6, hD, hv, hc, ht, hk]
  by_cases hz : created ops new l = 0
  · have : (runOps ops new l).2.ctr.isSome = false := by
      cases hb : (runOps ops new l).2.ctr.isSome with
      | false => rfl
      | true => exact absurd hz (hs.mp hb)
    simp only [this, hz, if_true]; simp; omega
  · simp only [hs.mpr hz, hz, if_true, if_false]; omega

/-- The sample: one listed collection, five texts (three no longer in any triple), one triple shown, one left behind. -/
example : records (runOps ops new footSample).2 = 1 + 2 * 1 + 2 * 5 + 6 * (1 + 1) := by decide +kernel

example : ∀ op ∈ footSample, LegalIn op := by
  intro op h
  simp only [footSample, List.mem_cons, List.not_mem_nil, or_false] at h
  rcases h with rfl | rfl | rfl | rfl | rfl | rfl <;> simp only [LegalIn] <;> decide +kernel

/-- C86: the identifiers handed out are exactly one per collection created and one per text ever stored, in order, none ever reused:
`add_collection` of a new name fails (panics) exactly when there are 2^64 of those. -/
theorem C86_lmdb_identifiers (l : List Op) (hl : ∀ op ∈ l, LegalIn op) :
    (runOps ops new l).2.ctr =
      (if created ops new l + (storedTexts (runOps ops new l).1).toList.length = 0 then none
       else some (created ops new l + (storedTexts (runOps ops new l).1).toList.length - 1)) ∧
    ∀ c, ¬ Listed ops (runOps ops new l).2 c →
      ((ops.addCollection (runOps ops new l).2 c).1 = .panic ↔
        created ops new l + (storedTexts (runOps ops new l).1).toList.length = 2 ^ 64) ∧
      ((ops.addCollection (runOps ops new l).2 c).1 ≠ .panic → (ops.addCollection (runOps ops new l).2 c).1 = .ok ()) := by
  obtain ⟨h, _, hu⟩ := clean_runOps l new [] clean_new dead_new hl
  rw [texts_len l hl] at hu
  have z : used new = 0 := rfl
  have z' : new.valToId.toList.length = 0 := rfl
  have hu' : used (runOps ops new l).2 = created ops new l + (storedTexts (runOps ops new l).1).toList.length := by omega
  rw [← hu']
  refine ⟨by unfold used; cases (runOps ops new l).2.ctr <;> simp, ?_⟩
  intro c hc
  revert hc h
  generalize (runOps ops new l).2 = s
  intro h hc
  have hn : s.collToId.get? c = none := by
    cases hx : s.collToId.get? c with
    | none => rfl
    | some i => exact absurd ⟨_, rfl, BMap.mem_keys.mpr ⟨i, hx⟩⟩ hc
  show (((addCollectionTx true s c).1 = .panic) ↔ _) ∧ ((addCollectionTx true s c).1 ≠ .panic → (addCollectionTx true s c).1 = .ok ())
  rcases addCollection_cases h.good true c with ⟨⟨i, hi⟩, e⟩ | ⟨_, hex, e⟩ | ⟨_, hex, i, hi, hgt, t, e, _⟩
  · rw [hn] at hi; cases hi
  · rw [e]; refine ⟨⟨fun _ => ?_, fun _ => rfl⟩, fun h => absurd rfl h⟩
    unfold used; rw [show s.ctr = _ from hex]
  · rw [e]; refine ⟨⟨fun h => (nomatch h), fun hu => absurd ?_ hex⟩, fun _ => rfl⟩
    unfold used at hu
    cases hc : s.ctr with
    | none => rw [hc] at hu; simp at hu
    | some n => rw [hc] at hu; unfold Exhausted; rw [hc]; congr 1; dsimp only at hu; omega

example : (runOps ops new footSample).2.ctr = some (2 + 5 - 1) ∧ created ops new footSample = 2 := by decide +kernel

/-- C86: removing a collection frees exactly two records, however many triples it held: after any history (any names and texts). -/
theorem C86_lmdb_remove_frees_two (l : List Op) (c : Str)
    (hc : Listed ops (runOps ops new l).2 c) :
    (ops.removeCollection (runOps ops new l).2 c).1 = .ok () ∧
    records (ops.removeCollection (runOps ops new l).2 c).2 + 2 = records (runOps ops new l).2 := by
  have h := (Reach.of_runOps l).good
  revert h hc
  generalize (runOps ops new l).2 = s
  intro hc h
  obtain ⟨ks, e, hm⟩ := hc
  cases e
  obtain ⟨i, hi⟩ := BMap.mem_keys.mp hm
  show (removeCollectionTx true s c).1 = .ok () ∧ records (removeCollectionTx true s c).2.durable + 2 = _
  rcases removeCollection_cases h true c with ⟨hn, _⟩ | ⟨j, hj, t, e, _, hd⟩
  · rw [hi] at hn; cases hn
  · rw [e]; refine ⟨rfl, ?_⟩
    simp only [if_true] at hd
    dsimp only
    rw [hd]
    have a := length_erase_old _ _ _ hj
    have b := length_erase_old _ _ _ (h.c2i c j hj).1
    simp only [records]
    omega

example := C86_lmdb_remove_frees_two footSample (lit "d") ⟨[lit "d"], by decide +kernel, by simp⟩

/-- Three triples in, two records out. -/
example : records (runOps ops new (footSample.take 2)).2 = 23 ∧ records (runOps ops new (footSample.take 2 ++ [.removeCollection (lit "c")])).2 = 21 := by
  decide +kernel

theorem runOps_append (T : TripsOps σ) (l m : List Op) : ∀ s : σ,
    runOps T s (l ++ m) = ((runOps T s l).1 ++ (runOps T (runOps T s l).2 m).1, (runOps T (runOps T s l).2 m).2) := by
  induction l with
  | nil => intro s; rfl
  | cons op l ih => intro s; simp only [List.cons_append, runOps, ih]

theorem orphaned_append (T : TripsOps σ) (l m : List Op) : ∀ s : σ,
    orphaned T s (l ++ m) = orphaned T s l + orphaned T (runOps T s l).2 m := by
  induction l with
  | nil => intro s; simp [orphaned, runOps]
  | cons op l ih => intro s; simp only [List.cons_append, runOps, orphaned, ih]; omega

/-- C86: what a removed collection held stays for good: whatever happens afterwards (adding the name again, removing everything), the
environment keeps at least six records per triple the collection held when it was removed. -/
theorem C86_lmdb_leak (l l' : List Op) (c : Str) (hl : ∀ op ∈ l ++ .removeCollection c :: l', LegalIn op)
    (hc : Listed ops (runOps ops new l).2 c) :
    6 * sizeIn ops (runOps ops new l).2 c ≤ records (runOps ops new (l ++ .removeCollection c :: l')).2 := by
  have e : (exec ops (runOps ops new l).2 (.removeCollection c)).1 = .ok () := (C86_lmdb_remove_frees_two l c hc).1
  have o : orphanedBy (runOps ops new l).2 (.removeCollection c) = sizeIn ops (runOps ops new l).2 c := by
    unfold orphanedBy; rw [e]
  rw [C86_lmdb_records _ hl, orphaned_append, orphaned_cons, o]
  omega

example : sizeIn ops (runOps ops new (footSample.take 3)).2 (lit "c") = 1 ∧
    Listed ops (runOps ops new (footSample.take 3)).2 (lit "c") := ⟨by decide +kernel, [lit "c"], by decide +kernel, by simp⟩

/-! ## Writing what is there already -/

theorem insert_of_mem {α : Type u} [SOrd α] (S : BSet α) {k : α} (h : k ∈ S) : S.insert k = S :=
  BSet.ext fun x => by
    rw [BSet.mem_insert]
    constructor
    · rintro (rfl | h')
      · exact h
      · exact h'
    · exact .inr

theorem addTrip_again {s : Heed} (h : Clean s) {cid n : Nat} (hn : s.ctr = some n) {t : Trip} (ht : held s (quads s) cid t)
    (tx : Tx) (hw : tx.work = s) : ∃ tx', addTrip cid t (tx, n) = (true, tx', n) ∧ tx'.work = s ∧ tx'.durable = tx.durable := by
  obtain ⟨f, se, th, q, e1, e2, e3⟩ := ht
  have g1 := h.good.i2v _ _ (h.vals _ _ e1) e1
  have g2 := h.good.i2v _ _ (h.vals _ _ e2) e2
  have g3 := h.good.i2v _ _ (h.vals _ _ e3) e3
  have v : ∀ (x : Str) (i : Nat), s.valToId.get? x = some i → valueId x (tx, n) = (some i, tx, n) := by
    intro x i hx
    unfold valueId
    rw [show getStr (tx, n).1.work.valToId x = some i by rw [hw, getVal_eq h.good]; exact hx]
  unfold addTrip
  rw [v _ _ g1]; dsimp only
  rw [v _ _ g2]; dsimp only
  rw [v _ _ g3]; dsimp only
  refine ⟨_, rfl, ?_, rfl⟩
  have k1 := insert_of_mem s.cfst ((h.good.cfst _).mpr ⟨_, _, _, _, q, rfl⟩)
  have k2 := insert_of_mem s.cfts ((h.good.cfts _).mpr ⟨_, _, _, _, q, rfl⟩)
  have k3 := insert_of_mem s.csft ((h.good.csft _).mpr ⟨_, _, _, _, q, rfl⟩)
  have k4 := insert_of_mem s.cstf ((h.good.cstf _).mpr ⟨_, _, _, _, q, rfl⟩)
  have k5 := insert_of_mem s.ctfs ((h.good.ctfs _).mpr ⟨_, _, _, _, q, rfl⟩)
  have k6 := insert_of_mem s.ctsf ((h.good.ctsf _).mpr ⟨_, _, _, _, q, rfl⟩)
  simp only [key] at k1 k2 k3 k4 k5 k6
  simp only [putIndexes, Tx.write, hw, k1, k2, k3, k4, k5, k6, ← hn]

theorem again_nothing {s : Heed} (h : Clean s) {c : Str} (hc : Listed ops s c) :
    ops.addCollection s c = (.ok (), s) ∧
    ∀ ts us, ops.triples s c = .ok us → (∀ t ∈ ts, t ∈ us) → ops.addTriples s c ts = (.ok (), s, ts) := by
  obtain ⟨ks, e, hm⟩ := hc
  cases e
  obtain ⟨cid, hi⟩ := BMap.mem_keys.mp hm
  constructor
  · show ((addCollectionTx true s c).1, (addCollectionTx true s c).2.durable) = _
    rcases addCollection_cases h.good true c with ⟨_, e⟩ | ⟨hn, _⟩ | ⟨hn, _⟩
    · rw [e]; rfl
    · rw [hi] at hn; cases hn
    · rw [hi] at hn; cases hn
  · intro ts us hus hsub
    show ((addTriplesTx true s c ts).1, (addTriplesTx true s c ts).2.durable, ts) = _
    obtain ⟨n, hn, _⟩ := coll_ctr h.good hi
    obtain ⟨us', eu, hu⟩ := triples_ok h.good (c := c) (p := held s (quads s) cid) (by simp [world, hi])
    have : us' = us := by
      have : triples s c = .ok us := hus
      rw [eu] at this; cases this; rfl
    subst this
    have loop : ∀ (m : List Trip) (tx : Tx), (∀ t ∈ m, held s (quads s) cid t) → tx.work = s →
        ∃ tx', addTripsLoop cid m (tx, n) = (true, tx', n) ∧ tx'.work = s ∧ tx'.durable = tx.durable := by
      intro m
      induction m with
      | nil => intro tx _ hw; exact ⟨tx, rfl, hw, rfl⟩
      | cons t m ih =>
        intro tx hm hw
        obtain ⟨t1, e1, w1, d1⟩ := addTrip_again h hn (hm t (by simp)) tx hw
        obtain ⟨t2, e2, w2, d2⟩ := ih t1 (fun t ht => hm t (by simp [ht])) w1
        rw [addTripsLoop, e1]
        exact ⟨t2, e2, w2, d2.trans d1⟩
    obtain ⟨tx, e, w, d⟩ := loop ts.toList (Tx.begin s) (fun t ht => (hu t).mp (hsub t ht)) rfl
    have : addTriplesTx true s c ts = (.ok (), tx.commit true) := by
      unfold addTriplesTx
      simp only [Tx.begin, getStr_eq h.good, hi, hn] at e ⊢
      rw [e]
    rw [this]
    simp [Tx.commit, w]

/-- C86: adding triples a collection holds already (names and texts of 1 to 511 bytes) leaves the LMDB environment exactly as it was,
record for record; and so does adding a collection that is listed. -/
theorem C86_lmdb_again_nothing (l : List Op) (hl : ∀ op ∈ l, LegalIn op) (c : Str) (hc : Listed ops (runOps ops new l).2 c) :
    ops.addCollection (runOps ops new l).2 c = (.ok (), (runOps ops new l).2) ∧
    ∀ ts us, ops.triples (runOps ops new l).2 c = .ok us → (∀ t ∈ ts, t ∈ us) →
      ops.addTriples (runOps ops new l).2 c ts = (.ok (), (runOps ops new l).2, ts) :=
  again_nothing (clean_runOps l new [] clean_new dead_new hl).1 hc

example := C86_lmdb_again_nothing footSample (by
    intro op h
    simp only [footSample, List.mem_cons, List.not_mem_nil, or_false] at h
    rcases h with rfl | rfl | rfl | rfl | rfl | rfl <;> simp only [LegalIn] <;> decide +kernel)
  (lit "d") ⟨[lit "d"], by decide +kernel, by simp⟩

/-! ## A store that looks empty can be as large as you like -/

theorem churn_succ (n : Nat) (c : Str) (ts : BSet Trip) :
    churn (n + 1) c ts = .addCollection c :: .addTriples c ts :: .removeCollection c :: churn n c ts := by
  simp [churn, List.replicate_succ]

theorem legal_churn {n : Nat} {c : Str} {ts : BSet Trip} (hc : lmdbKey c = true)
    (ht : ∀ t ∈ ts, ∀ v ∈ tripTexts t, lmdbKey v = true) : ∀ op ∈ churn n c ts, LegalIn op := by
  intro op hop
  simp only [churn, List.mem_flatten, List.mem_replicate] at hop
  obtain ⟨b, ⟨_, rfl⟩, hb⟩ := hop
  simp only [List.mem_cons, List.not_mem_nil, or_false] at hb
  rcases hb with rfl | rfl | rfl
  · exact hc
  · exact ht
  · exact trivial

theorem churn_spec {c : Str} {ts : BSet Trip} (hc : lmdbKey c = true) :
    ∀ (n : Nat) (s : Heed), Good s → worldOf s = emptyWorld → Room s (n * (2 + 3 * ts.toList.length)) →
      Acked ops s (churn n c ts) ∧ worldOf (runOps ops s (churn n c ts)).2 = emptyWorld ∧
      orphaned ops s (churn n c ts) = n * ts.toList.length := by
  intro n
  induction n with
  | zero => intro s _ hw _; exact ⟨by simp [Acked, churn, runOps], hw, by simp [churn, orphaned]⟩
  | succ n ih =>
    intro s hg hw hr
    rw [Nat.succ_mul] at hr
    rw [churn_succ]
    -- the three operations of one round
    have x1 : (exec ops s (.addCollection c)).1 = .ok () := by
      unfold ops; rw [exec_eq]
      exact outcome_addCollection hg true c (by unfold Room at *; omega)
    have g1 : Good (exec ops s (.addCollection c)).2 := good_exec hg true _
    have w1 : worldOf (exec ops s (.addCollection c)).2 = emptyWorld.set c (some fun _ => False) := by
      rw [worldOf_exec hg (.addCollection c) hc, x1, hw]; rfl
    have r1 : Room (exec ops s (.addCollection c)).2 (n * (2 + 3 * ts.toList.length) + 1 + 3 * ts.toList.length) :=
      room_exec hg _ _ (by simp only [Op.cost]; unfold Room at *; omega)
    simp only [runOps, Acked, orphaned_cons]
    generalize (exec ops s (.addCollection c)).2 = s1 at *
    have x2 : (exec ops s1 (.addTriples c ts)).1 = .ok () := by
      unfold ops; rw [exec_eq]
      dsimp only
      rw [outcome_addTriples g1 true c ts (by unfold Room at *; omega), w1]
      simp
    have g2 : Good (exec ops s1 (.addTriples c ts)).2 := good_exec g1 true _
    have w2 : worldOf (exec ops s1 (.addTriples c ts)).2 = emptyWorld.set c (some fun t => t ∈ ts) := by
      rw [worldOf_exec g1 (.addTriples c ts) trivial, x2, w1]
      funext d
      simp only [applyEvent, apply, World.set_same]
      by_cases e : d = c
      · subst e; simp
      · rw [World.set_other _ _ e, World.set_other _ _ e, World.set_other _ _ e]
    have r2 : Room (exec ops s1 (.addTriples c ts)).2 (n * (2 + 3 * ts.toList.length) + 1) :=
      room_exec g1 _ _ (by simp only [Op.cost]; unfold Room at *; omega)
    generalize (exec ops s1 (.addTriples c ts)).2 = s2 at *
    have x3 : (exec ops s2 (.removeCollection c)).1 = .ok () := by
      unfold ops; rw [exec_eq]
      dsimp only
      rw [outcome_removeCollection g2 true c, w2]
      simp
    have o3 : orphanedBy s2 (.removeCollection c) = ts.toList.length := by
      unfold orphanedBy; rw [x3]
      have hh := congrFun w2 c
      rw [World.set_same] at hh
      simp only [worldOf, world, Option.map_eq_some_iff] at hh
      obtain ⟨i, hi, hp⟩ := hh
      obtain ⟨us, e, hu⟩ := sizeIn_eq g2 hi
      dsimp only
      rw [e]
      have : us = ts := BSet.ext fun t => by rw [hu, hp]
      rw [this]
    have g3 : Good (exec ops s2 (.removeCollection c)).2 := good_exec g2 true _
    have w3 : worldOf (exec ops s2 (.removeCollection c)).2 = emptyWorld := by
      rw [worldOf_exec g2 (.removeCollection c) trivial, x3, w2]
      funext d
      simp only [applyEvent, apply]
      by_cases e : d = c
      · subst e; rw [World.set_same]; rfl
      · rw [World.set_other _ _ e, World.set_other _ _ e]
    have r3 : Room (exec ops s2 (.removeCollection c)).2 (n * (2 + 3 * ts.toList.length)) :=
      room_exec g2 _ _ (by simp only [Op.cost]; unfold Room at *; omega)
    generalize (exec ops s2 (.removeCollection c)).2 = s3 at *
    obtain ⟨ha, hw', ho⟩ := ih s3 g3 w3 r3
    refine ⟨?_, hw', ?_⟩
    · intro e he
      simp only [List.mem_cons] at he
      rcases he with rfl | rfl | rfl | he
      · exact x1
      · exact x2
      · exact x3
      · exact ha e he
    · rw [o3, ho, Nat.succ_mul]
      simp only [orphanedBy]
      omega

/-- C86: an environment that lists no collection at all can hold any amount of data: `n` times creating, filling and removing the
same collection is acknowledged throughout, leaves an empty listing, and leaves six records per triple and round. -/
theorem C86_lmdb_churn (n : Nat) (c : Str) (ts : BSet Trip) (hc : lmdbKey c = true)
    (ht : ∀ t ∈ ts, ∀ v ∈ tripTexts t, lmdbKey v = true) (hn : n * (2 + 3 * ts.toList.length) ≤ 2 ^ 64) :
    Acked ops new (churn n c ts) ∧
    ops.collections (runOps ops new (churn n c ts)).2 = .ok [] ∧
    6 * (n * ts.toList.length) ≤ records (runOps ops new (churn n c ts)).2 := by
  have hr : Room new (n * (2 + 3 * ts.toList.length)) := by simp only [Room, used, new]; omega
  obtain ⟨ha, hw, ho⟩ := churn_spec hc n new good_new worldOf_new hr
  refine ⟨ha, ?_, ?_⟩
  · have hg := (Reach.of_runOps (churn n c ts)).good
    obtain ⟨⟨ks, e, _, hk⟩, _⟩ := agrees hg
    rw [e]
    congr 1
    cases ks with
    | nil => rfl
    | cons k r =>
      have := (hk k).mp (by simp)
      rw [show world _ _ = worldOf _ from rfl, hw] at this
      cases this
  · rw [C86_lmdb_records _ (legal_churn hc ht), ho]; omega

/-- A million rounds: a million dead copies of the triple, no collection. -/
example : 6 * (1000000 * 1) ≤ records (runOps ops new (churn 1000000 (lit "c") (BSet.ofList [⟨lit "a", lit "b", lit "x"⟩]))).2 :=
  (C86_lmdb_churn 1000000 (lit "c") (BSet.ofList [⟨lit "a", lit "b", lit "x"⟩]) (by decide) (by decide +kernel) (by decide +kernel)).2.2

/-! ## Names and texts LMDB does not accept as keys -/

/-- C86: adding a collection whose name LMDB does not accept as a key is acknowledged every time, never lists the name, and leaves one
more record each time (two the first time anything is stored). -/
theorem C86_lmdb_bad_name (l : List Op) (c : Str) (hc : lmdbKey c = false)
    (hok : (ops.addCollection (runOps ops new l).2 c).1 = .ok ()) :
    SameAnswers ops (runOps ops new l).2 (ops.addCollection (runOps ops new l).2 c).2 ∧
    records (runOps ops new l).2 + 1 ≤ records (ops.addCollection (runOps ops new l).2 c).2 := by
  have h := (Reach.of_runOps l).good
  revert hok h
  generalize (runOps ops new l).2 = s
  intro hok h
  have hok : (addCollectionTx true s c).1 = .ok () := hok
  show SameAnswers ops s (addCollectionTx true s c).2.durable ∧ _ ≤ records (addCollectionTx true s c).2.durable
  rcases addCollection_cases h true c with ⟨⟨i, hi⟩, e⟩ | ⟨_, hex, e⟩ | ⟨_, hex, i, hi, hgt, t, e, _, hd⟩
  · have := (h.c2i c i hi).2; rw [hc] at this; cases this
  · rw [e] at hok; cases hok
  · rw [e]; dsimp only
    simp only [if_true] at hd
    have hp : putStr s.collToId c i = s.collToId := by rw [putStr_def]; simp [hc]
    rw [hp] at hd
    have hnew : s.idToColl.get? i = none := by
      cases hx : s.idToColl.get? i with
      | none => rfl
      | some v =>
        obtain ⟨n, hn, hle⟩ := h.collLe i v hx
        have := hgt n hn; omega
    rw [hd]
    refine ⟨⟨rfl, ?_⟩, ?_⟩
    · intro d
      show triples _ d = triples s d
      unfold triples
      have key : ∀ cid ks acc, triplesLoop { s with ctr := some i, collToId := s.collToId, idToColl := s.idToColl.insert i c } cid ks acc =
          triplesLoop s cid ks acc := by
        intro cid ks
        induction ks with
        | nil => intro acc; rfl
        | cons k ks ih => intro acc; simp only [triplesLoop, ih]
      simp only [key]
    · simp only [records, length_insert_new _ _ _ hnew, Option.isSome_some, if_true]
      split <;> omega

example := C86_lmdb_bad_name footSample [] (by decide) (by decide +kernel)

/-! ### texts LMDB does not accept as keys -/

theorem valueId_grows {Q} {v : Str} {st : Tx × Nat} {id tx vid} (h : Inv { st.1.work with ctr := some st.2 } Q)
    (e : valueId v st = (some id, tx, vid)) :
    st.1.work.valToId.toList.length ≤ tx.work.valToId.toList.length ∧
    st.1.work.idToVal.toList.length ≤ tx.work.idToVal.toList.length ∧ st.2 ≤ vid ∧
    (lmdbKey v = false → st.1.work.idToVal.toList.length + 1 ≤ tx.work.idToVal.toList.length ∧ st.2 < id) ∧
    tx.work.collToId = st.1.work.collToId ∧ tx.work.idToColl = st.1.work.idToColl ∧ tx.work.cfst = st.1.work.cfst ∧
    tx.work.cfts = st.1.work.cfts ∧ tx.work.csft = st.1.work.csft ∧ tx.work.cstf = st.1.work.cstf ∧
    tx.work.ctfs = st.1.work.ctfs ∧ tx.work.ctsf = st.1.work.ctsf := by
  unfold valueId at e
  rw [getStr_def] at e
  split at e
  · rename_i hs
    cases e
    refine ⟨Nat.le_refl _, Nat.le_refl _, Nat.le_refl _, ?_, rfl, rfl, rfl, rfl, rfl, rfl, rfl, rfl⟩
    intro hv; rw [hv] at hs; simp at hs
  · rename_i hs
    unfold inc at e
    by_cases hlt : st.2 + 1 < 2 ^ 64 <;> simp only [hlt, if_true, if_false] at e <;> cases e
    have hn : st.1.work.idToVal.get? (st.2 + 1) = none := by
      cases hx : st.1.work.idToVal.get? (st.2 + 1) with
      | none => rfl
      | some x =>
        obtain ⟨n, hn, hle⟩ := h.valLe _ _ hx
        cases hn; omega
    simp only [Tx.write]
    rw [length_insert_new _ _ _ hn]
    refine ⟨?_, Nat.le_succ _, Nat.le_succ _, fun _ => ⟨Nat.le_refl _, Nat.lt_succ_self _⟩, by trivial, by trivial, by trivial, by trivial, by trivial, by trivial,
      by trivial, by trivial⟩
    rw [putStr_def]
    split
    · rename_i hl
      simp only [hl, if_true] at hs
      rw [length_insert_new _ _ _ hs]; exact Nat.le_succ _
    · exact Nat.le_refl _

theorem length_insertSet_new {α : Type u} [SOrd α] [DecidableEq α] (S : BSet α) (k : α) (h : k ∉ S) :
    (S.insert k).toList.length = S.toList.length + 1 := by
  have hn : (k :: S.toList).Nodup := List.nodup_cons.mpr ⟨h, S.nodup⟩
  rw [length_eq_of_bij (l := k :: S.toList) (m := (S.insert k).toList) id hn (BSet.nodup _) (fun _ _ _ _ h => h) (by
    intro y
    simp only [id, exists_eq_right, List.mem_cons]
    exact BSet.mem_insert), List.length_cons]

/-- C86: storing a triple one of whose texts is not a legal key (empty, or over 511 bytes) leaves at least seven more records every
time, even if the very same triple is there already and nothing visible changes. -/
theorem C86_lmdb_bad_text (l : List Op) (c : Str) (t : Trip) (ht : ∃ v ∈ tripTexts t, lmdbKey v = false)
    (hok : (ops.addTriples (runOps ops new l).2 c (BSet.ofList [t])).1 = .ok ()) :
    records (runOps ops new l).2 + 7 ≤ records (ops.addTriples (runOps ops new l).2 c (BSet.ofList [t])).2.1 ∧
    (∀ ts, (runOps ops new l).2.triples c = .ok ts → t ∈ ts →
      SameView ops (runOps ops new l).2 ops (ops.addTriples (runOps ops new l).2 c (BSet.ofList [t])).2.1) := by
  have h := (Reach.of_runOps l).good
  revert hok h
  generalize (runOps ops new l).2 = s
  intro hok h
  have hok : (addTriplesTx true s c (BSet.ofList [t])).1 = .ok () := hok
  show _ ≤ records (addTriplesTx true s c (BSet.ofList [t])).2.durable ∧
    (∀ ts, _ → _ → SameView ops s ops (addTriplesTx true s c (BSet.ofList [t])).2.durable)
  have one : (BSet.ofList [t]).toList = [t] := rfl
  constructor
  · have e := rfl (a := addTriplesTx true s c (BSet.ofList [t]))
    revert hok
    unfold addTriplesTx
    simp only [Tx.begin, getStr_eq h, one]
    cases hc : s.collToId.get? c with
    | none => intro hok; cases hok
    | some cid =>
    obtain ⟨n, hn, hle⟩ := coll_ctr h hc
    simp only [hn, addTripsLoop, addTrip]
    have hq : Quiet (⟨s, s, [s]⟩ : Tx) := by intro d hd; simpa using hd
    have hI := inv_ctr h hn
    rcases valueId_spec t.fst (⟨s, s, [s]⟩, n) hI hq with ⟨e1, e2, e3⟩ | ⟨fid, tx1, v1, e1, q1, d1, i1, g1, hf⟩
    · rw [show valueId t.fst (⟨s, s, [s]⟩, n) = (none, (⟨s, s, [s]⟩, n)) from Prod.ext e1 e3]
      intro hok; cases hok
    rw [e1]; dsimp only
    rcases valueId_spec t.snd (tx1, v1) i1 q1 with ⟨e1', e2, e3⟩ | ⟨sid, tx2, v2, e1', q2, d2, i2, g2, hse⟩
    · rw [show valueId t.snd (tx1, v1) = (none, (tx1, v1)) from Prod.ext e1' e3]
      intro hok; cases hok
    rw [e1']; dsimp only
    rcases valueId_spec t.thd (tx2, v2) i2 q2 with ⟨e1'', e2, e3⟩ | ⟨tid, tx3, v3, e1'', q3, d3, i3, g3, hth⟩
    · rw [show valueId t.thd (tx2, v2) = (none, (tx2, v2)) from Prod.ext e1'' e3]
      intro hok; cases hok
    rw [e1'']; dsimp only
    intro _
    obtain ⟨a1, a2, a3, a4, a5, a6, a7, a8, a9, a10, a11, a12⟩ := valueId_grows hI e1
    obtain ⟨b1, b2, b3, b4, b5, b6, b7, b8, b9, b10, b11, b12⟩ := valueId_grows i1 e1'
    obtain ⟨c1, c2, c3, c4, c5, c6, c7, c8, c9, c10, c11, c12⟩ := valueId_grows i2 e1''
    dsimp only at a1 a2 a3 a4 a5 a6 a7 a8 a9 a10 a11 a12 b1 b2 b3 b4 b5 b6 b7 b8 b9 b10 b11 b12 c1 c2 c3 c4 c5 c6 c7 c8 c9 c10 c11 c12
    have hbig : n < fid ∨ n < sid ∨ n < tid := by
      obtain ⟨v, hv, hl⟩ := ht
      simp only [tripTexts, List.mem_cons, List.not_mem_nil, or_false] at hv
      rcases hv with rfl | rfl | rfl
      · exact .inl (a4 hl).2
      · have := (b4 hl).2; exact .inr (.inl (by omega))
      · have := (c4 hl).2; exact .inr (.inr (by omega))
    have hval : s.idToVal.toList.length + 1 ≤ tx3.work.idToVal.toList.length := by
      obtain ⟨v, hv, hl⟩ := ht
      simp only [tripTexts, List.mem_cons, List.not_mem_nil, or_false] at hv
      rcases hv with rfl | rfl | rfl
      · have := (a4 hl).1; omega
      · have := (b4 hl).1; omega
      · have := (c4 hl).1; omega
    have lt3 : ∀ {i v}, tx3.work.idToVal.get? i = some v → i < 2 ^ 64 := by
      intro i v hi
      obtain ⟨m, hm, hl⟩ := i3.valLe i v hi
      have := i3.bound m hm; omega
    have lf := lt3 (g3.ext _ _ (g2.ext _ _ hf))
    have ls := lt3 (g3.ext _ _ hse)
    have lth := lt3 hth
    have lc : cid < 2 ^ 64 := Nat.lt_of_le_of_lt hle (h.bound n hn)
    have fresh : ¬ quads s cid fid sid tid := by
      intro q
      obtain ⟨⟨x1, h1⟩, ⟨x2, h2⟩, ⟨x3, h3⟩⟩ := h.qVal _ _ _ _ q
      obtain ⟨m1, y1, z1⟩ := h.valLe _ _ h1
      obtain ⟨m2, y2, z2⟩ := h.valLe _ _ h2
      obtain ⟨m3, y3, z3⟩ := h.valLe _ _ h3
      rw [hn] at y1 y2 y3; cases y1; cases y2; cases y3
      omega
    have k1 : key cid fid sid tid ∉ s.cfst := by
      intro hk
      obtain ⟨a, b, c, d, q, e⟩ := (h.cfst _).mp hk
      obtain ⟨m1, m2, m3, m4⟩ := h.lt q
      obtain ⟨rfl, rfl, rfl, rfl⟩ := key_inj lc lf ls lth m1 m2 m3 m4 e
      exact fresh q
    have k2 : key cid fid tid sid ∉ s.cfts := by
      intro hk
      obtain ⟨a, b, c, d, q, e⟩ := (h.cfts _).mp hk
      obtain ⟨m1, m2, m3, m4⟩ := h.lt q
      obtain ⟨rfl, rfl, rfl, rfl⟩ := key_inj lc lf lth ls m1 m2 m4 m3 e
      exact fresh q
    have k3 : key cid sid fid tid ∉ s.csft := by
      intro hk
      obtain ⟨a, b, c, d, q, e⟩ := (h.csft _).mp hk
      obtain ⟨m1, m2, m3, m4⟩ := h.lt q
      obtain ⟨rfl, rfl, rfl, rfl⟩ := key_inj lc ls lf lth m1 m3 m2 m4 e
      exact fresh q
    have k4 : key cid sid tid fid ∉ s.cstf := by
      intro hk
      obtain ⟨a, b, c, d, q, e⟩ := (h.cstf _).mp hk
      obtain ⟨m1, m2, m3, m4⟩ := h.lt q
      obtain ⟨rfl, rfl, rfl, rfl⟩ := key_inj lc ls lth lf m1 m3 m4 m2 e
      exact fresh q
    have k5 : key cid tid fid sid ∉ s.ctfs := by
      intro hk
      obtain ⟨a, b, c, d, q, e⟩ := (h.ctfs _).mp hk
      obtain ⟨m1, m2, m3, m4⟩ := h.lt q
      obtain ⟨rfl, rfl, rfl, rfl⟩ := key_inj lc lth lf ls m1 m4 m2 m3 e
      exact fresh q
    have k6 : key cid tid sid fid ∉ s.ctsf := by
      intro hk
      obtain ⟨a, b, c, d, q, e⟩ := (h.ctsf _).mp hk
      obtain ⟨m1, m2, m3, m4⟩ := h.lt q
      obtain ⟨rfl, rfl, rfl, rfl⟩ := key_inj lc lth ls lf m1 m4 m3 m2 e
      exact fresh q
    have r1 := length_insertSet_new _ _ k1
    have r2 := length_insertSet_new _ _ k2
    have r3 := length_insertSet_new _ _ k3
    have r4 := length_insertSet_new _ _ k4
    have r5 := length_insertSet_new _ _ k5
    have r6 := length_insertSet_new _ _ k6
    simp only [key] at r1 r2 r3 r4 r5 r6
    simp only [records, Tx.commit, if_true, putIndexes, Tx.write, c5, c6, c7, c8, c9, c10, c11, c12, b5, b6, b7, b8, b9, b10, b11, b12,
      a5, a6, a7, a8, a9, a10, a11, a12, Option.isSome_some, hn]
    omega
  · intro ts hts hmem
    rcases addTriples_cases h true c (BSet.ofList [t]) with ⟨hc, e⟩ | ⟨cid, hi, ⟨t', e, _⟩ | ⟨t', e, _, hd⟩⟩
    · rw [e] at hok; cases hok
    · rw [e] at hok; cases hok
    rw [e]; dsimp only
    simp only [if_true] at hd
    obtain ⟨Q', hinv, g, _, hh⟩ := hd
    have := hinv.quads_eq; subst this
    have hcoll : t'.durable.collToId = s.collToId := g.coll
    obtain ⟨us, eu, hu⟩ := triples_ok h (c := c) (p := held s (quads s) cid) (by simp [world, hi])
    have : us = ts := by
      have : triples s c = .ok ts := hts
      rw [eu] at this; cases this; rfl
    subst this
    have hht : held s (quads s) cid t := (hu t).mp hmem
    refine ⟨?_, ?_⟩
    · intro d
      show (∃ l, Res.ok s.collToId.keys = .ok l ∧ d ∈ l) ↔ (∃ l, Res.ok t'.durable.collToId.keys = .ok l ∧ d ∈ l)
      rw [hcoll]
    · rintro d ⟨ks, ek, hm⟩
      cases ek
      obtain ⟨j, hj⟩ := BMap.mem_keys.mp hm
      obtain ⟨as, ea, ha⟩ := triples_ok h (c := d) (p := held s (quads s) j) (by simp [world, hj])
      obtain ⟨bs, eb, hb⟩ := triples_ok hinv (c := d) (p := held t'.durable (quads t'.durable) j) (by simp [world, hcoll, hj])
      refine ⟨as, ea, ?_⟩
      show triples _ d = _
      rw [eb]; congr 1
      refine BSet.ext fun x => ?_
      rw [ha, hb, hh]
      constructor
      · rintro (h' | ⟨rfl, hx⟩)
        · exact h'
        · have : x = t := by simpa [BSet.mem_ofList] using hx
          rw [this]; exact hht
      · exact .inl

/-- The empty text, twice: the second time nothing visible changes. -/
example : records (runOps ops new [.addCollection (lit "c"), .addTriples (lit "c") (BSet.ofList [⟨[], lit "b", lit "x"⟩])]).2 + 7 ≤
    records (runOps ops new [.addCollection (lit "c"), .addTriples (lit "c") (BSet.ofList [⟨[], lit "b", lit "x"⟩]),
      .addTriples (lit "c") (BSet.ofList [⟨[], lit "b", lit "x"⟩])]).2 :=
  (C86_lmdb_bad_text [.addCollection (lit "c"), .addTriples (lit "c") (BSet.ofList [⟨[], lit "b", lit "x"⟩])] (lit "c")
    ⟨[], lit "b", lit "x"⟩ ⟨[], by simp [tripTexts], by decide⟩ (by decide +kernel)).1

end Heed

namespace Duck
open Spec

/-- C86: the `trip` table of the DuckDB store is, row by row, the log of the acknowledged additions not struck out since: a triple
added again gets another row each time, and removing it once removes all its rows. -/
theorem C86_duck_rows (l : List Op) :
    (runOps ops new l).2.trips.map (says (runOps ops new l).2) = (linesAfter (runOps ops new l).1).map some :=
  logged_runOps l new [] inv_new rfl

/-- Added twice: two rows; removed once: none. -/
example :
    let a : Op := .addTriples (lit "c") (BSet.ofList [⟨lit "a", lit "b", lit "x"⟩])
    linesAfter (runOps ops new [.addCollection (lit "c"), a, a]).1 =
      [(lit "c", ⟨lit "a", lit "b", lit "x"⟩), (lit "c", ⟨lit "a", lit "b", lit "x"⟩)] ∧
    (runOps ops new [.addCollection (lit "c"), a, a]).2.trips.length = 2 ∧
    (runOps ops new [.addCollection (lit "c"), a, a, .removeTriples (lit "c") (BSet.ofList [⟨lit "a", lit "b", lit "x"⟩])]).2.trips.length = 0 := by
  decide +kernel

/-- C86: the DuckDB store has one row per listed collection and one row per text ever stored, whether or not any triple still has it. -/
theorem C86_duck_tables (l : List Op) :
    (runOps ops new l).2.colls.length = listedCount ops (runOps ops new l).2 ∧
    (runOps ops new l).2.parts.length = (storedTexts (runOps ops new l).1).toList.length := by
  refine ⟨by simp [listedCount, ops, collections], ?_⟩
  have h := (rel_runOps l).1
  rw [← List.length_map (f := Prod.snd)]
  refine Heed.length_eq_of_bij id (BSet.nodup _) h.parts.names (fun _ _ _ _ h => h) ?_
  intro v
  simp only [id, exists_eq_right]
  show _ ↔ v ∈ storedTexts _
  rw [Heed.mem_storedTexts, List.mem_map]
  have := parts_runOps l new inv_new v
  constructor
  · rintro ⟨⟨i, x⟩, hm, rfl⟩
    rcases this.mp ⟨i, hm⟩ with ⟨i, hi⟩ | h'
    · simp [new] at hi
    · exact h'
  · intro h'
    obtain ⟨i, hi⟩ := this.mpr (.inr h')
    exact ⟨(i, v), hi, rfl⟩

/-- The sample: the collection that holds a triple is not removed; five texts, one of them in no triple any more. -/
example : (runOps ops new Heed.footSample).2.parts.length = 5 ∧ (runOps ops new Heed.footSample).2.colls.length = 2 := by decide +kernel

/-- C86: adding a batch the store acknowledges adds one row per triple, present or not. -/
theorem C86_duck_add_again (l : List Op) (c : Str) (ts : BSet Trip) (hc : Listed ops (runOps ops new l).2 c) :
    (ops.addTriples (runOps ops new l).2 c ts).1 = .ok () ∧
    (ops.addTriples (runOps ops new l).2 c ts).2.1.trips.length = (runOps ops new l).2.trips.length + ts.toList.length := by
  have h := (rel_runOps l).1
  revert h hc
  generalize (runOps ops new l).2 = s
  rintro ⟨ks, e, hm⟩ h
  cases e
  obtain ⟨⟨i, x⟩, hx, rfl⟩ := List.mem_map.mp hm
  have hi := (h.colls.idOf_eq _ _).mpr hx
  simp only [ops, addTriples, getCollectionId, hi]
  refine ⟨trivial, ?_⟩
  have : ∀ (m : List Trip) (s : Duck), (m.foldl (addOne i) s).trips.length = s.trips.length + m.length := by
    intro m
    induction m with
    | nil => intro s; rfl
    | cons t m ih =>
      intro s
      rw [List.foldl_cons, ih]
      have pt : ∀ (s : Duck) x, (addPart s x).trips = s.trips := by
        intro s x; unfold addPart; split <;> rfl
      simp only [addOne, addTrip, List.length_append, pt, List.length_cons, List.length_nil]
      omega
  exact this _ _

example := C86_duck_add_again (Heed.footSample.take 2) (lit "c") (BSet.ofList [⟨lit "a", lit "b", lit "x"⟩])
  ⟨[lit "c"], by decide +kernel, by simp⟩

end Duck
end Verif
