import Verif.Proofs.HeedIds
/-!
# Outcomes of the LMDB store's operations, and crash histories
-/
namespace Verif
namespace Heed
open Spec

theorem world_isSome {s : Heed} (c : Str) : (worldOf s c).isSome = (s.collToId.get? c).isSome := by
  simp [worldOf, world]

/-- The counter can still supply `k` identifiers. -/
def Room (s : Heed) (k : Nat) : Prop := used s + k ≤ 2 ^ 64

/-- The text has a stored identifier. -/
def KnowsText (s : Heed) (v : Str) : Prop := ∃ i, s.valToId.get? v = some i

theorem outcome_addCollection {s : Heed} (h : Good s) (ok : Bool) (c : Str) (hr : Room s 1) :
    (execTx ok s (.addCollection c)).1 = .ok () := by
  simp only [execTx]
  rcases addCollection_cases h ok c with ⟨_, e⟩ | ⟨_, hx, e⟩ | ⟨_, _, i, _, hgt, t, e, _, hd⟩ <;> rw [e]
  simp only [Room, used, show s.ctr = _ from hx] at hr; omega

theorem outcome_removeCollection {s : Heed} (h : Good s) (ok : Bool) (c : Str) :
    (execTx ok s (.removeCollection c)).1 = if (worldOf s c).isSome then .ok () else .panic := by
  simp only [execTx, world_isSome]
  rcases removeCollection_cases h ok c with ⟨hc, e⟩ | ⟨i, hc, t, e, _⟩ <;> rw [e, hc] <;> rfl

theorem outcome_addTriples {s : Heed} (h : Good s) (ok : Bool) (c : Str) (ts : BSet Trip)
    (hr : Room s (3 * ts.toList.length)) :
    (execTx ok s (.addTriples c ts)).1 = if (worldOf s c).isSome then .ok () else .panic := by
  simp only [execTx, world_isSome]
  rcases addTriples_cases h ok c ts with ⟨hc, e⟩ | ⟨cid, hc, ⟨t, e, _, _, n, hn, hle⟩ | ⟨t, e, _⟩⟩ <;> rw [e, hc]
  · rfl
  · simp only [Room, used, hn] at hr; omega
  · rfl

theorem outcome_addTriples_missing {s : Heed} (h : Good s) (ok : Bool) (c : Str) (ts : BSet Trip)
    (hc : (worldOf s c) = none) : (execTx ok s (.addTriples c ts)).1 = .panic := by
  have hc' := congrArg Option.isSome hc
  rw [world_isSome] at hc'
  simp only [execTx]
  rcases addTriples_cases h ok c ts with ⟨_, e⟩ | ⟨cid, h1, _⟩
  · rw [e]
  · rw [h1] at hc'; cases hc'

theorem outcome_removeTriples {s : Heed} (h : Good s) (ok : Bool) (c : Str) (ts : BSet Trip) :
    ((execTx ok s (.removeTriples c ts)).1 = .ok () ↔
      (worldOf s c).isSome ∧ ∀ t ∈ ts, ∀ v ∈ tripTexts t, KnowsText s v) ∧
    ((execTx ok s (.removeTriples c ts)).1 ≠ .ok () → (execTx ok s (.removeTriples c ts)).1 = .panic) := by
  simp only [execTx, world_isSome]
  rcases removeTriples_cases h ok c ts with ⟨hc, e⟩ | ⟨cid, hc, ⟨hk, t, e, _⟩ | ⟨hk, t, e, _⟩⟩ <;> rw [e, hc]
  · simp
  · refine ⟨?_, by simp⟩
    simp only [reduceCtorEq, Option.isSome_some, true_and, false_iff]
    exact hk
  · refine ⟨?_, by simp⟩
    simp only [Option.isSome_some, true_and, true_iff]
    exact hk

theorem room_exec {s : Heed} (h : Good s) (op : Op) (k : Nat) (hr : Room s (op.cost + k)) : Room (exec ops s op).2 k := by
  unfold ops; rw [exec_eq]
  obtain ⟨_, h1, _, _, h2⟩ := exec_spec h true op
  unfold Room at *
  rcases Classical.em ((execTx true s op).1 = .ok ()) with hok | hok
  · have := (h2 rfl hok).1.ctr
    dsimp only; omega
  · rw [h1 hok]; dsimp only; omega

theorem mem_flatMap_texts {v : Str} {ts : BSet Trip} : v ∈ ts.toList.flatMap texts ↔ ∃ t ∈ ts, v ∈ tripTexts t := by
  rw [List.mem_flatMap]; rfl

theorem known_exec {s : Heed} (h : Good s) (op : Op) (v : Str) :
    KnowsText (exec ops s op).2 v ↔ KnowsText s v ∨ StoredBy [(op, (exec ops s op).1)] v := by
  unfold ops; rw [exec_eq]
  obtain ⟨_, h1, _, _, h2⟩ := exec_spec h true op
  rcases Classical.em ((execTx true s op).1 = .ok ()) with hok | hok
  · rw [show KnowsText _ v ↔ _ from (h2 rfl hok).1.known v]
    refine or_congr Iff.rfl ?_
    simp only [StoredBy, List.mem_singleton, Prod.mk.injEq, hok, and_true, mem_flatMap_texts]
    constructor
    · rintro ⟨hl, c, ts, rfl, hm⟩; exact ⟨hl, c, ts, rfl, hm⟩
    · rintro ⟨hl, c, ts, rfl, hm⟩; exact ⟨hl, c, ts, rfl, hm⟩
  · rw [h1 hok]
    constructor
    · exact .inl
    · rintro (h | ⟨_, c, ts, hm, _⟩)
      · exact h
      · simp only [List.mem_singleton, Prod.mk.injEq] at hm
        exact absurd hm.2.symm hok

theorem known_runOps (l : List Op) : ∀ (s : Heed), Good s → ∀ v,
    KnowsText (runOps ops s l).2 v ↔ KnowsText s v ∨ StoredBy (runOps ops s l).1 v := by
  induction l with
  | nil => intro s _ v; simp [runOps, StoredBy]
  | cons op l ih =>
    intro s h v
    simp only [runOps]
    rw [ih _ (show Good (exec ops s op).2 from good_exec h true op), known_exec h op]
    have : ∀ (e : Event) (h : List Event), StoredBy (e :: h) v ↔ StoredBy [e] v ∨ StoredBy h v := by
      intro e h
      simp only [StoredBy, List.mem_cons, List.not_mem_nil, or_false]
      constructor
      · rintro ⟨hl, c, ts, h1 | h1, h2⟩
        · exact .inl ⟨hl, c, ts, h1, h2⟩
        · exact .inr ⟨hl, c, ts, h1, h2⟩
      · rintro (⟨hl, c, ts, h1, h2⟩ | ⟨hl, c, ts, h1, h2⟩)
        · exact ⟨hl, c, ts, .inl h1, h2⟩
        · exact ⟨hl, c, ts, .inr h1, h2⟩
    rw [this _ (runOps ops (exec ops s op).2 l).1, or_assoc]

theorem good_runOps (l : List Op) : ∀ s, Good s → Good (runOps ops s l).2 :=
  runOps_inv ops Good (fun _ op h => good_exec h true op) l

theorem room_runOps (l : List Op) : ∀ (s : Heed) (k : Nat), Good s → Room s (costOf l + k) → Room (runOps ops s l).2 k := by
  induction l with
  | nil => intro s k _ h; simpa [costOf, runOps] using h
  | cons op l ih =>
    intro s k hg h
    simp only [runOps]
    refine ih _ k (good_exec hg true op) (room_exec hg op _ ?_)
    simpa [costOf, Nat.add_assoc] using h

/-- An operation, whatever its outcome, changes the world only at its target. -/
theorem worldOf_other {s : Heed} (h : Good s) (ok : Bool) (op : Op) (d : Str) (hd : d ≠ op.target) :
    worldOf (execTx ok s op).2.durable d = worldOf s d := by
  obtain ⟨_, h1, h2, _, h3⟩ := exec_spec h ok op
  cases ok with
  | false => rw [h2 rfl]
  | true =>
  rcases Classical.em ((execTx true s op).1 = .ok ()) with hok | hok
  case inr => rw [h1 hok]
  rcases Classical.em (LegalOp op) with hl | hl
  · rw [(h3 rfl hok).2 (legalOp_iff.mp hl)]
    exact apply_other false _ op d hd
  · cases op with
    | addCollection c =>
      simp only [execTx]
      rcases addCollection_cases h true c with ⟨_, e⟩ | ⟨_, _, e⟩ | ⟨hn, _, i, hi, hgt, t, e, _, hd'⟩ <;> rw [e]
      · rfl
      · rfl
      · simp only [if_true] at hd'
        dsimp only; rw [hd']
        have iv := inv_fresh_coll h i hi hgt c
        unfold worldOf
        rw [← iv.quads_eq, world_fresh_coll h i hgt c hn]
        split
        · exact apply_other false _ (.addCollection c) d hd
        · rfl
    | _ => exact absurd trivial hl

/-! ## Crashes -/

theorem Reach.good {s : Heed} (h : Reach s) : Good s := by
  induction h with
  | new => exact good_new
  | step ok op _ ih => exact (exec_spec ih ok op).2.2.2.1
  | crash ok op _ hd ih =>
    rcases (exec_spec ih ok op).1 _ hd with rfl | rfl
    · exact ih
    · exact (exec_spec ih ok op).2.2.2.1

theorem Later.good_fresh {s t : Heed} (hs : Good s) (h : Later s t) : Good t ∧ Fresh s t := by
  induction h with
  | refl => exact ⟨hs, Fresh.refl s⟩
  | step ok op _ ih => exact ⟨(exec_spec ih.1 ok op).2.2.2.1, ih.2.trans (fresh_exec ih.1 ok op)⟩
  | crash ok op _ hd ih =>
    rcases (exec_spec ih.1 ok op).1 _ hd with rfl | rfl
    · exact ih
    · exact ⟨(exec_spec ih.1 ok op).2.2.2.1, ih.2.trans (fresh_exec ih.1 ok op)⟩

theorem Reach.of_runOps (l : List Op) : Reach (runOps ops Heed.new l).2 := by
  suffices H : ∀ s, Reach s → Reach (runOps ops s l).2 from H _ Reach.new
  induction l with
  | nil => intro s h; exact h
  | cons op l ih =>
    intro s h
    refine ih _ ?_
    unfold ops; rw [exec_eq]; exact Reach.step true op h

end Heed
end Verif
