import Verif.Spec.Slots
import Verif.Proofs.HeedOut
/-!
# Lemmas about the LMDB-backed store over an environment with few database slots
-/
namespace Verif
namespace Heed
open Spec

theorem opens_iff (n : Nat) (db : Db) : opens n db = true ↔ db.index < n := by simp [opens]

theorem opens_all {n : Nat} (h : 11 ≤ n) (db : Db) : opens n db = true := by
  rw [opens_iff]; cases db <;> simp only [Db.index] <;> omega

/-- Nothing has been stored. -/
def Idle (s : Heed) (t : Tx) : Prop := t.durable = s ∧ ∀ d ∈ t.seen, d = s

theorem Idle.begin (s : Heed) : Idle s (Tx.begin s) := ⟨rfl, by simp [Tx.begin]⟩

theorem Idle.write {s : Heed} {t : Tx} (h : Idle s t) (f) : Idle s (t.write f) := by
  refine ⟨h.1, fun d hd => ?_⟩
  simp only [Tx.write, List.mem_cons] at hd
  rcases hd with rfl | hd
  · exact h.1
  · exact h.2 d hd

/-! ## Enough slots -/

theorem valueIdN_all (h : 11 ≤ n) (v : Str) (st) : valueIdN n v st = valueId v st := by
  unfold valueIdN valueId
  simp only [opens_all h, if_true]
  rfl

theorem putIndexesN_all (h : 11 ≤ n) (c f s t tx) : putIndexesN n c f s t tx = (true, putIndexes c f s t tx) := by
  simp only [putIndexesN, indexN, opens_all h, if_true]; rfl

theorem delIndexesN_all (h : 11 ≤ n) (c f s t tx) : delIndexesN n c f s t tx = (true, delIndexes c f s t tx) := by
  simp only [delIndexesN, indexN, opens_all h, if_true]; rfl

theorem addTripN_all (h : 11 ≤ n) (cid trip st) : addTripN n cid trip st = addTrip cid trip st := by
  unfold addTripN addTrip
  simp only [opens_all h, if_true, valueIdN_all h, putIndexesN_all h]
  rfl

theorem addTripsLoopN_all (h : 11 ≤ n) (cid l) : ∀ st, addTripsLoopN n cid l st = addTripsLoop cid l st := by
  induction l with
  | nil => intro st; rfl
  | cons t l ih => intro st; simp only [addTripsLoopN, addTripsLoop, addTripN_all h, ih]; rfl

theorem removeTripsLoopN_all (h : 11 ≤ n) (cid l) : ∀ tx, removeTripsLoopN n cid l tx = removeTripsLoop cid l tx := by
  induction l with
  | nil => intro tx; rfl
  | cons t l ih => intro tx; simp only [removeTripsLoopN, removeTripsLoop, delIndexesN_all h, ih]; rfl

/-! ## Too few slots -/

theorem valueIdN_still (v : Str) (st : Tx × Nat) (h : Idle s st.1) : Idle s (valueIdN n v st).2.1 := by
  unfold valueIdN
  split
  · exact h
  · split
    · split
      · exact h
      · exact (h.write _).write _
    · exact h

theorem indexN_still (db f) (r : Bool × Tx) (h : Idle s r.2) : Idle s (indexN n db f r).2 := by
  unfold indexN
  split
  · exact h
  · split
    · exact h.write _
    · exact h

theorem putIndexesN_still (c f s t) (tx : Tx) (h : Idle d tx) : Idle d (putIndexesN n c f s t tx).2 := by
  unfold putIndexesN
  exact indexN_still _ _ _ (indexN_still _ _ _ (indexN_still _ _ _ (indexN_still _ _ _ (indexN_still _ _ _ (indexN_still _ _ _ h)))))

theorem delIndexesN_still (c f s t) (tx : Tx) (h : Idle d tx) : Idle d (delIndexesN n c f s t tx).2 := by
  unfold delIndexesN
  exact indexN_still _ _ _ (indexN_still _ _ _ (indexN_still _ _ _ (indexN_still _ _ _ (indexN_still _ _ _ (indexN_still _ _ _ h)))))

theorem indexN_few (h : n < 11) (f r) : (indexN n .ctsf f r).1 = false := by
  unfold indexN
  split
  · rfl
  · rw [if_neg (by rw [opens_iff]; simp only [Db.index]; omega)]

theorem addTripN_few (h : n < 11) (cid trip) (st : Tx × Nat) (hs : Idle s st.1) :
    (addTripN n cid trip st).1 = false ∧ Idle s (addTripN n cid trip st).2.1 := by
  unfold addTripN
  split
  case isFalse => exact ⟨rfl, hs⟩
  have h1 := valueIdN_still (n := n) trip.fst st hs
  split
  · rename_i e; rw [e] at h1; exact ⟨rfl, h1⟩
  rename_i fid st1 e1; rw [e1] at h1
  have h2 := valueIdN_still (n := n) trip.snd st1 h1
  split
  · rename_i e; rw [e] at h2; exact ⟨rfl, h2⟩
  rename_i sid st2 e2; rw [e2] at h2
  have h3 := valueIdN_still (n := n) trip.thd st2 h2
  split
  · rename_i e; rw [e] at h3; exact ⟨rfl, h3⟩
  rename_i tid tx vid e
  rw [e] at h3
  split
  case isFalse => exact ⟨rfl, h3⟩
  have h4 := putIndexesN_still (n := n) cid fid sid tid _ (h3.write (fun w => { w with ctr := some vid }))
  have h5 : (putIndexesN n cid fid sid tid (tx.write (fun w => { w with ctr := some vid }))).1 = false := indexN_few h _ _
  dsimp only
  split
  · rename_i e; rw [e] at h4; exact ⟨rfl, h4⟩
  · rename_i e; rw [e] at h5; cases h5

theorem addTripsLoopN_few (h : n < 11) (cid) (l : List Trip) (hl : l ≠ []) (st : Tx × Nat) (hs : Idle s st.1) :
    (addTripsLoopN n cid l st).1 = false ∧ Idle s (addTripsLoopN n cid l st).2.1 := by
  cases l with
  | nil => exact absurd rfl hl
  | cons t l =>
    have := addTripN_few h cid t st hs
    unfold addTripsLoopN
    split
    · rename_i e; rw [e] at this; exact ⟨rfl, this.2⟩
    · rename_i e; rw [e] at this; cases this.1

theorem removeTripsLoopN_few (h : n < 11) (cid) (l : List Trip) (hl : l ≠ []) (tx : Tx) (hs : Idle s tx) :
    (removeTripsLoopN n cid l tx).1 = false ∧ Idle s (removeTripsLoopN n cid l tx).2 := by
  cases l with
  | nil => exact absurd rfl hl
  | cons t l =>
    unfold removeTripsLoopN
    split
    · rename_i fid sid tid _ _ _
      have h4 := delIndexesN_still (n := n) cid fid sid tid tx hs
      have h5 : (delIndexesN n cid fid sid tid tx).1 = false := indexN_few h _ _
      split
      · rename_i e; rw [e] at h4; exact ⟨rfl, h4⟩
      · rename_i e; rw [e] at h5; cases h5
    · exact ⟨rfl, hs⟩

theorem toList_nil {ts : BSet Trip} : ts.toList = [] ↔ ∀ t, ¬ t ∈ ts := by
  constructor
  · intro h t ht
    have : t ∈ ts.toList := ht
    rw [h] at this; cases this
  · intro h
    cases e : ts.toList with
    | nil => rfl
    | cons t l => exact absurd (show t ∈ ts.toList by rw [e]; exact .head _) (h t)

/-! ## The operations -/

theorem listed_iff {s : Heed} (c : Str) : Listed ops s c ↔ ∃ i, s.collToId.get? c = some i := by
  have : (∃ l, ops.collections s = .ok l ∧ c ∈ l) ↔ c ∈ s.collToId.keys :=
    ⟨fun ⟨_, e, h⟩ => by cases e; exact h, fun h => ⟨_, rfl, h⟩⟩
  unfold Listed
  rw [this, BMap.mem_keys]

theorem execSlots_enough (n : Nat) (ok : Bool) {s : Heed} (hg : Good s) (op : Op) (h : Enough n s op) :
    execSlots n ok s op = execTx ok s op := by
  obtain ⟨Q, hg⟩ : ∃ Q, Inv s Q := ⟨_, hg⟩
  cases op with
  | addCollection c =>
    simp only [execSlots, execTx, addCollectionN, addCollectionTx]
    rcases h with h | ⟨h, hl⟩
    · have o1 : opens n .collToId = true := by rw [opens_iff]; simp only [Db.index]; omega
      have o2 : opens n .ids = true := by rw [opens_iff]; simp only [Db.index]; omega
      have o3 : opens n .idToColl = true := by rw [opens_iff]; simp only [Db.index]; omega
      simp only [o1, o2, o3, if_true]
      rfl
    · have o1 : opens n .collToId = true := by rw [opens_iff]; simp only [Db.index]; omega
      obtain ⟨i, hi⟩ := (listed_iff c).mp hl
      rw [← getStr_eq hg] at hi
      simp only [o1, if_true, Tx.begin, hi]
  | removeCollection c =>
    have h : 3 ≤ n := h
    simp only [execSlots, execTx, removeCollectionN, removeCollectionTx]
    have o1 : opens n .collToId = true := by rw [opens_iff]; simp only [Db.index]; omega
    have o3 : opens n .idToColl = true := by rw [opens_iff]; simp only [Db.index]; omega
    simp only [o1, o3, if_true]
    rfl
  | addTriples c ts =>
    simp only [execSlots, execTx, addTriplesN, addTriplesTx]
    rcases h with h | ⟨h, hl⟩
    · simp only [opens_all h, if_true, addTripsLoopN_all h]
      rfl
    · have o1 : opens n .collToId = true := by rw [opens_iff]; simp only [Db.index]; omega
      have o2 : opens n .ids = true := by rw [opens_iff]; simp only [Db.index]; omega
      simp only [o1, o2, if_true, toList_nil.mpr hl]
      rfl
  | removeTriples c ts =>
    simp only [execSlots, execTx, removeTriplesN, removeTriplesTx]
    rcases h with h | ⟨h, hl⟩
    · simp only [opens_all h, if_true, removeTripsLoopN_all h]
      rfl
    · have o1 : opens n .collToId = true := by rw [opens_iff]; simp only [Db.index]; omega
      have o2 : opens n .valToId = true := by rw [opens_iff]; simp only [Db.index]; omega
      simp only [o1, o2, if_true, toList_nil.mpr hl]
      rfl

theorem execSlots_few (n : Nat) (ok : Bool) {s : Heed} (hg : Good s) (op : Op) (h : ¬ Enough n s op) :
    (execSlots n ok s op).1 = .panic ∧ Idle s (execSlots n ok s op).2 := by
  obtain ⟨Q, hg⟩ : ∃ Q, Inv s Q := ⟨_, hg⟩
  have b := Idle.begin s
  cases op with
  | addCollection c =>
    simp only [Enough, not_or, not_and] at h
    simp only [execSlots, addCollectionN]
    have o3 : opens n .idToColl = false := by
      rw [← Bool.not_eq_true, opens_iff]; simp only [Db.index]; omega
    split
    case isFalse => exact ⟨rfl, b⟩
    rename_i o1
    rw [opens_iff] at o1; simp only [Db.index] at o1
    have hn := h.2 (by omega)
    rw [listed_iff, not_exists] at hn
    have : getStr s.collToId c = none := by
      rw [getStr_eq hg]
      cases e : s.collToId.get? c with
      | none => rfl
      | some i => exact absurd e (hn i)
    simp only [Tx.begin, this, o3, Bool.false_eq_true, if_false]
    split
    case isFalse => exact ⟨rfl, b⟩
    split
    · exact ⟨rfl, b⟩
    · rename_i id tx hnext
      have ht : Idle s tx := by
        split at hnext
        · split at hnext
          · cases hnext; exact b.write _
          · cases hnext
        · cases hnext; exact b.write _
      exact ⟨rfl, ht.write _⟩
  | removeCollection c =>
    have h : ¬ 3 ≤ n := h
    have o3 : opens n .idToColl = false := by
      rw [← Bool.not_eq_true, opens_iff]; simp only [Db.index]; omega
    simp only [execSlots, removeCollectionN, o3, Bool.false_eq_true, if_false]
    split
    case isFalse => exact ⟨rfl, b⟩
    split
    · exact ⟨rfl, b⟩
    · exact ⟨rfl, b.write _⟩
  | addTriples c ts =>
    simp only [Enough, not_or, not_and] at h
    simp only [execSlots, addTriplesN]
    split
    case isFalse => exact ⟨rfl, b⟩
    rename_i o1
    rw [opens_iff] at o1; simp only [Db.index] at o1
    have hl : ts.toList ≠ [] := fun e => h.2 (by omega) (toList_nil.mp e)
    split
    · exact ⟨rfl, b⟩
    split
    case isFalse => exact ⟨rfl, b⟩
    split
    · exact ⟨rfl, b⟩
    · rename_i cid _ _ _ vid _
      have := addTripsLoopN_few (n := n) (by omega) cid ts.toList hl (Tx.begin s, vid) b
      split
      · rename_i e; rw [e] at this; exact ⟨rfl, this.2⟩
      · rename_i e; rw [e] at this; cases this.1
  | removeTriples c ts =>
    simp only [Enough, not_or, not_and] at h
    simp only [execSlots, removeTriplesN]
    split
    case isFalse => exact ⟨rfl, b⟩
    split
    · exact ⟨rfl, b⟩
    split
    case isFalse => exact ⟨rfl, b⟩
    rename_i cid _ o1
    rw [opens_iff] at o1; simp only [Db.index] at o1
    have hl : ts.toList ≠ [] := fun e => h.2 (by omega) (toList_nil.mp e)
    have := removeTripsLoopN_few (n := n) (by omega) cid ts.toList hl (Tx.begin s) b
    split
    · rename_i e; rw [e] at this; exact ⟨rfl, this.2⟩
    · rename_i e; rw [e] at this; cases this.1

theorem exec_slots_eq (n : Nat) (ok : Bool) (s : Heed) (op : Op) :
    exec (opsSlots n ok) s op = ((execSlots n ok s op).1, (execSlots n ok s op).2.durable) := by
  cases op <;> rfl

theorem triplesLoopN_eq (h : opens n .idToVal = true) (s cid) (l : List (List UInt8)) :
    ∀ acc, triplesLoopN n s cid l acc = triplesLoop s cid l acc := by
  induction l with
  | nil => intro acc; rfl
  | cons k l ih => intro acc; simp only [triplesLoopN, triplesLoop, h, if_true, ih]; rfl

theorem triplesN_eq (n : Nat) (s : Heed) (c : Str) : triplesN n s c = if 6 ≤ n then triples s c else .panic := by
  unfold triplesN triples
  by_cases h : 6 ≤ n
  · have o1 : opens n .collToId = true := by rw [opens_iff]; simp only [Db.index]; omega
    have o2 : opens n .cfst = true := by rw [opens_iff]; simp only [Db.index]; omega
    have o3 : opens n .idToVal = true := by rw [opens_iff]; simp only [Db.index]; omega
    simp only [h, o1, o2, if_true, triplesLoopN_eq o3]
    rfl
  · have o2 : opens n .cfst = false := by rw [← Bool.not_eq_true, opens_iff]; simp only [Db.index]; omega
    simp only [h, o2, Bool.false_eq_true, if_false]
    split
    · split <;> rfl
    · rfl

theorem collectionsN_eq (n : Nat) (s : Heed) : collectionsN n s = if 2 ≤ n then collections s else .panic := by
  unfold collectionsN
  by_cases h : 2 ≤ n
  · rw [if_pos h, if_pos (by rw [opens_iff]; simp only [Db.index]; omega)]
  · rw [if_neg h, if_neg (by rw [opens_iff]; simp only [Db.index]; omega)]

end Heed
end Verif
