import Verif.Proofs.HeedHist
/-!
# Identifiers of the LMDB store are never reused
-/
namespace Verif
namespace Heed
open Spec

/-- Every identifier that means something after means the same before, or was not yet allocated before. -/
structure Fresh (w w' : Heed) : Prop where
  mono : ∀ n, w.ctr = some n → ∃ n', w'.ctr = some n' ∧ n ≤ n'
  val : ∀ i v, w'.idToVal.get? i = some v → w.idToVal.get? i = some v ∨ ∀ n, w.ctr = some n → n < i
  coll : ∀ i v, w'.idToColl.get? i = some v → w.idToColl.get? i = some v ∨ ∀ n, w.ctr = some n → n < i

theorem Fresh.refl (w : Heed) : Fresh w w := ⟨fun n h => ⟨n, h, Nat.le_refl n⟩, fun _ _ h => .inl h, fun _ _ h => .inl h⟩

theorem Fresh.trans {a b c : Heed} (h : Fresh a b) (h' : Fresh b c) : Fresh a c where
  mono n hn := by
    obtain ⟨m, hm, l⟩ := h.mono n hn
    obtain ⟨k, hk, l'⟩ := h'.mono m hm
    exact ⟨k, hk, Nat.le_trans l l'⟩
  val i v hv := by
    rcases h'.val i v hv with h1 | h1
    · exact h.val i v h1
    · refine .inr fun n hn => ?_
      obtain ⟨m, hm, l⟩ := h.mono n hn
      exact Nat.lt_of_le_of_lt l (h1 m hm)
  coll i v hv := by
    rcases h'.coll i v hv with h1 | h1
    · exact h.coll i v h1
    · refine .inr fun n hn => ?_
      obtain ⟨m, hm, l⟩ := h.mono n hn
      exact Nat.lt_of_le_of_lt l (h1 m hm)

/-- Only the indexes and forward tables differ. -/
theorem Fresh.of_eq {w w' : Heed} (h1 : w'.ctr = w.ctr) (h2 : w'.idToVal = w.idToVal) (h3 : w'.idToColl = w.idToColl) : Fresh w w' where
  mono n h := ⟨n, h1.trans h, Nat.le_refl n⟩
  val _ _ h := .inl (h2 ▸ h)
  coll _ _ h := .inl (h3 ▸ h)

theorem fresh_valueId (v : Str) (st : Tx × Nat) :
    Fresh { st.1.work with ctr := some st.2 } { (valueId v st).2.1.work with ctr := some (valueId v st).2.2 } := by
  unfold valueId
  cases getStr st.1.work.valToId v with
  | some id => exact Fresh.refl _
  | none =>
    simp only [inc]
    by_cases h : st.2 + 1 < 2 ^ 64
    · simp only [h, if_true, Tx.write]
      refine ⟨?_, ?_, ?_⟩
      · rintro n ⟨⟩; exact ⟨_, rfl, Nat.le_succ _⟩
      · intro i x hx
        simp only at hx
        rw [BMap.get?_insert] at hx
        split at hx
        · rename_i e; subst e
          right; rintro n ⟨⟩; exact Nat.lt_succ_self _
        · exact .inl hx
      · intro i x hx; exact .inl hx
    · simp only [h, if_false]
      exact Fresh.refl _

theorem fresh_addTrip (cid : Nat) (t : Trip) (st : Tx × Nat) :
    Fresh { st.1.work with ctr := some st.2 } { (addTrip cid t st).2.1.work with ctr := some (addTrip cid t st).2.2 } := by
  unfold addTrip
  have h1 := fresh_valueId t.fst st
  rcases e1 : valueId t.fst st with ⟨_ | fid, st1⟩ <;> rw [e1] at h1 <;> dsimp only
  · exact h1
  have h2 := fresh_valueId t.snd st1
  rcases e2 : valueId t.snd st1 with ⟨_ | sid, st2⟩ <;> rw [e2] at h2 <;> dsimp only
  · exact h1.trans h2
  have h3 := fresh_valueId t.thd st2
  rcases e3 : valueId t.thd st2 with ⟨_ | tid, tx, vid⟩ <;> rw [e3] at h3 <;> dsimp only
  · exact (h1.trans h2).trans h3
  · refine ((h1.trans h2).trans h3).trans (Fresh.of_eq rfl ?_ ?_) <;> simp [putIndexes, Tx.write]

theorem fresh_addTripsLoop (cid : Nat) (l : List Trip) : ∀ st : Tx × Nat,
    Fresh { st.1.work with ctr := some st.2 }
      { (addTripsLoop cid l st).2.1.work with ctr := some (addTripsLoop cid l st).2.2 } := by
  induction l with
  | nil => intro st; exact Fresh.refl _
  | cons t l ih =>
    intro st
    unfold addTripsLoop
    have h1 := fresh_addTrip cid t st
    rcases e1 : addTrip cid t st with ⟨_ | _, st1⟩ <;> rw [e1] at h1 <;> dsimp only
    · exact h1
    · exact h1.trans (ih st1)

/-- After a run of the loop the stored counter is the local one (or the loop did nothing). -/
theorem addTripsLoop_ctr (cid : Nat) (l : List Trip) : ∀ st : Tx × Nat, st.1.work.ctr = some st.2 →
    ∀ tx vid, addTripsLoop cid l st = (true, tx, vid) → tx.work.ctr = some vid := by
  induction l with
  | nil => intro st h tx vid e; cases e; exact h
  | cons t l ih =>
    intro st h tx vid e
    unfold addTripsLoop at e
    rcases e1 : addTrip cid t st with ⟨_ | _, st1⟩ <;> rw [e1] at e <;> dsimp only at e
    · cases e
    · refine ih st1 ?_ tx vid e
      unfold addTrip at e1
      rcases e2 : valueId t.fst st with ⟨_ | fid, s1⟩ <;> rw [e2] at e1 <;> dsimp only at e1
      · cases e1
      rcases e3 : valueId t.snd s1 with ⟨_ | sid, s2⟩ <;> rw [e3] at e1 <;> dsimp only at e1
      · cases e1
      rcases e4 : valueId t.thd s2 with ⟨_ | tid, tx', vid'⟩ <;> rw [e4] at e1 <;> dsimp only at e1
      · cases e1
      · cases e1
        simp [putIndexes, Tx.write]

theorem removeTripsLoop_tables (cid : Nat) (l : List Trip) : ∀ tx : Tx, ∀ b tx', removeTripsLoop cid l tx = (b, tx') →
    tx'.durable = tx.durable ∧ tx'.work.ctr = tx.work.ctr ∧ tx'.work.idToVal = tx.work.idToVal ∧
      tx'.work.idToColl = tx.work.idToColl := by
  induction l with
  | nil => intro tx b tx' e; cases e; exact ⟨rfl, rfl, rfl, rfl⟩
  | cons t l ih =>
    intro tx b tx' e
    unfold removeTripsLoop at e
    cases h1 : getStr tx.work.valToId t.fst <;> cases h2 : getStr tx.work.valToId t.snd <;>
      cases h3 : getStr tx.work.valToId t.thd <;> rw [h1, h2, h3] at e <;> dsimp only at e
    case some.some.some =>
      obtain ⟨a, b, c, d⟩ := ih _ _ _ e
      exact ⟨a, by rw [b]; simp [delIndexes, Tx.write], by rw [c]; simp [delIndexes, Tx.write],
        by rw [d]; simp [delIndexes, Tx.write]⟩
    all_goals (cases e; exact ⟨rfl, rfl, rfl, rfl⟩)

/-- No operation, committed or not, gives an allocated identifier a new meaning. -/
theorem fresh_exec {s : Heed} (h : Good s) (ok : Bool) (op : Op) : Fresh s (execTx ok s op).2.durable := by
  cases ok with
  | false => rw [(exec_spec h false op).2.2.1 rfl]; exact Fresh.refl s
  | true =>
  rcases Classical.em ((execTx true s op).1 = .ok ()) with hr | hr
  case inr => rw [(exec_spec h true op).2.1 hr]; exact Fresh.refl s
  cases op with
  | addCollection c =>
    simp only [execTx]
    rcases addCollection_cases h true c with ⟨_, e⟩ | ⟨_, _, e⟩ | ⟨_, _, i, _, hgt, t, e, _, hd⟩ <;> rw [e]
    · exact Fresh.refl s
    · exact Fresh.refl s
    · simp only [if_true] at hd
      dsimp only; rw [hd]
      refine ⟨?_, fun _ _ h => .inl h, ?_⟩
      · intro n hn; exact ⟨i, rfl, Nat.le_of_lt (hgt n hn)⟩
      · intro j x hx
        simp only at hx
        rw [BMap.get?_insert] at hx
        split at hx
        · rename_i e; subst e; exact .inr hgt
        · exact .inl hx
  | removeCollection c =>
    simp only [execTx]
    rcases removeCollection_cases h true c with ⟨_, e⟩ | ⟨i, _, t, e, _, hd⟩ <;> rw [e]
    · exact Fresh.refl s
    · simp only [if_true] at hd
      dsimp only; rw [hd]
      refine ⟨fun n hn => ⟨n, hn, Nat.le_refl n⟩, fun _ _ h => .inl h, ?_⟩
      intro j x hx
      simp only at hx
      rw [BMap.get?_erase] at hx
      split at hx
      · cases hx
      · exact .inl hx
  | addTriples c ts =>
    simp only [execTx, addTriplesTx, Tx.begin] at hr ⊢
    cases hc : getStr s.collToId c with
    | none => exact Fresh.refl s
    | some cid =>
      cases hn : s.ctr with
      | none => exact Fresh.refl s
      | some n =>
        simp only [hc, hn] at hr ⊢
        rcases e : addTripsLoop cid ts.toList (⟨s, s, [s]⟩, n) with ⟨_ | _, tx, vid⟩
        · rw [e] at hr; cases hr
        · have h1 := fresh_addTripsLoop cid ts.toList (⟨s, s, [s]⟩, n)
          have h2 := addTripsLoop_ctr cid ts.toList (⟨s, s, [s]⟩, n) hn tx vid e
          rw [e] at h1
          dsimp only [Tx.commit] at h1 ⊢
          have e1 : ({ s with ctr := some n } : Heed) = s := by rw [← hn]
          have e2 : ({ tx.work with ctr := some vid } : Heed) = tx.work := by rw [← h2]
          rw [e1, e2] at h1
          exact h1
  | removeTriples c ts =>
    simp only [execTx, removeTriplesTx, Tx.begin] at hr ⊢
    cases hc : getStr s.collToId c with
    | none => exact Fresh.refl s
    | some cid =>
      simp only [hc] at hr ⊢
      rcases e : removeTripsLoop cid ts.toList ⟨s, s, [s]⟩ with ⟨_ | _, tx⟩
      · rw [e] at hr; cases hr
      · obtain ⟨_, b, c, d⟩ := removeTripsLoop_tables cid ts.toList _ _ _ e
        exact Fresh.of_eq b c d

end Heed
end Verif
