import Verif.Spec.HeedFull
import Verif.Proofs.HeedHist
/-!
# A map that runs full: the operation is as without limit, or nothing is stored
-/
namespace Verif
namespace Heed
open Spec

/-- Nothing has been stored yet. -/
def Still (s : Heed) (t : FTx) : Prop := t.tx.durable = s ∧ ∀ d ∈ t.tx.seen, d = s

theorem still_begin (left : Option Nat) (s : Heed) : Still s (FTx.begin left s) :=
  ⟨rfl, fun d hd => by simpa [FTx.begin, Tx.begin] using hd⟩

theorem still_write {s : Heed} {t : FTx} (h : Still s t) (f : Heed → Heed) : Still s (t.write f) := by
  unfold FTx.write
  split
  · exact h
  · split
    · refine ⟨h.1, ?_⟩
      intro d hd
      rcases List.mem_cons.mp hd with rfl | hd
      · exact h.1
      · exact h.2 d hd
    · exact h
    · refine ⟨h.1, ?_⟩
      intro d hd
      rcases List.mem_cons.mp hd with rfl | hd
      · exact h.1
      · exact h.2 d hd

/-- Without a failed write so far, one write either is that of the unlimited transaction or fails. -/
theorem write_cases (t : FTx) (hb : t.bad = false) (f : Heed → Heed) :
    ((t.write f).bad = false ∧ (t.write f).tx = t.tx.write f) ∨ (t.write f).bad = true := by
  unfold FTx.write
  rw [if_neg (by simp [hb])]
  split
  · exact .inl ⟨rfl, rfl⟩
  · exact .inr rfl
  · exact .inl ⟨rfl, rfl⟩

theorem write_none (t : FTx) (hb : t.bad = false) (hl : t.left = none) (f : Heed → Heed) :
    t.write f = ⟨t.tx.write f, none, false⟩ := by
  rw [FTx.write, if_neg (by simp [hb]), hl]

/-- Both a failed transaction, or not failed and equal to the unlimited one. -/
def Sim (t : FTx) (x : Tx) : Prop := t.bad = true ∨ (t.bad = false ∧ t.tx = x)

theorem sim_write {t : FTx} {x : Tx} (h : Sim t x) (f : Heed → Heed) : Sim (t.write f) (x.write f) := by
  rcases h with h | ⟨h, e⟩
  · left; unfold FTx.write; rw [if_pos h]; exact h
  · subst e
    rcases write_cases t h f with ⟨h1, h2⟩ | h1
    · exact .inr ⟨h1, h2⟩
    · exact .inl h1

theorem get_eq {t : FTx} (hb : t.bad = false) (db : Heed → BMap Str Nat) (k : Str) : t.get db k = getStr (db t.tx.work) k := by
  rw [FTx.get, if_neg (by simp [hb])]

/-- What is stored after a commit. -/
theorem commit_spec {s : Heed} {t : FTx} {x : Tx} (hs : Still s t) (h : Sim t x) (ok : Bool) :
    ((t.commit ok).tx.durable = s ∨ (t.bad = false ∧ (t.commit ok).tx = x.commit ok)) ∧
    (∀ d ∈ (t.commit ok).tx.seen, d = s ∨ d = (t.commit ok).tx.durable) := by
  constructor
  · rcases h with h | ⟨h, e⟩
    · left; simp [FTx.commit, Tx.commit, h, hs.1]
    · right; subst e; exact ⟨h, by simp [FTx.commit, h]⟩
  · intro d hd
    rcases List.mem_cons.mp hd with rfl | hd
    · exact .inr rfl
    · exact .inl (hs.2 d hd)

/-- What a limited operation may do, against the unlimited one. -/
structure Fair (s : Heed) (F : Res Unit × FTx) (G : Res Unit × Tx) : Prop where
  outcome : (F.2.bad = false ∧ F.1 = G.1 ∧ F.2.tx = G.2) ∨ (F.2.bad = true ∧ F.2.tx.durable = s ∧ (F.1 = .ok () ∨ F.1 = .panic))
  seen : ∀ d ∈ F.2.tx.seen, d = s ∨ d = F.2.tx.durable

theorem fair_still {s : Heed} {F : Res Unit × FTx} {G : Res Unit × Tx} (hs : Still s F.2)
    (h : (F.2.bad = false ∧ F.1 = G.1 ∧ F.2.tx = G.2) ∨ (F.2.bad = true ∧ (F.1 = .ok () ∨ F.1 = .panic))) : Fair s F G where
  outcome := by
    rcases h with h | ⟨h1, h2⟩
    · exact .inl h
    · exact .inr ⟨h1, hs.1, h2⟩
  seen d hd := .inl (hs.2 d hd)

theorem fair_commit {s : Heed} {t : FTx} {x : Tx} (hs : Still s t) (h : Sim t x) (ok : Bool) :
    Fair s (.ok (), t.commit ok) (.ok (), x.commit ok) where
  outcome := by
    rcases h with h | ⟨h, e⟩
    · exact .inr ⟨h, by simp [FTx.commit, Tx.commit, h, hs.1], .inl rfl⟩
    · subst e
      exact .inl ⟨h, rfl, by simp [FTx.commit, h]⟩
  seen := (commit_spec hs h ok).2

theorem addCollectionF_fair (ok : Bool) (left : Option Nat) (s : Heed) (c : Str) :
    Fair s (addCollectionF ok left s c) (addCollectionTx ok s c) := by
  unfold addCollectionF addCollectionTx
  have hs := still_begin left s
  simp only [get_eq (show (FTx.begin left s).bad = false from rfl), show (FTx.begin left s).tx = Tx.begin s from rfl]
  cases h1 : getStr (Tx.begin s).work.collToId c with
  | some i => exact fair_still hs (.inl ⟨rfl, rfl, rfl⟩)
  | none =>
    simp only
    have key : ∀ (id : Nat) (f : Heed → Heed), Fair s
        (if ((FTx.begin left s).write f).bad = true then (.panic, (FTx.begin left s).write f)
          else if (((FTx.begin left s).write f).write fun w => { w with collToId := putStr w.collToId c id }).bad = true then
            (.panic, ((FTx.begin left s).write f).write fun w => { w with collToId := putStr w.collToId c id })
          else (.ok (), ((((FTx.begin left s).write f).write fun w => { w with collToId := putStr w.collToId c id }).write
            fun w => { w with idToColl := w.idToColl.insert id c }).commit ok))
        (.ok (), ((((Tx.begin s).write f).write fun w => { w with collToId := putStr w.collToId c id }).write
            fun w => { w with idToColl := w.idToColl.insert id c }).commit ok) := by
      intro id f
      have s1 := still_write hs f
      have m1 := sim_write (t := FTx.begin left s) (x := Tx.begin s) (.inr ⟨rfl, rfl⟩) f
      split
      · rename_i h; exact fair_still s1 (.inr ⟨h, .inr rfl⟩)
      · split
        · rename_i h; exact fair_still (still_write s1 _) (.inr ⟨h, .inr rfl⟩)
        · exact fair_commit (still_write (still_write s1 _) _) (sim_write (sim_write m1 _) _) ok
    cases h2 : (Tx.begin s).work.ctr with
    | none => exact key 0 _
    | some v =>
      simp only
      cases h3 : inc v with
      | none => exact fair_still hs (.inl ⟨rfl, rfl, rfl⟩)
      | some id => exact key id _

theorem removeCollectionF_fair (ok : Bool) (left : Option Nat) (s : Heed) (c : Str) :
    Fair s (removeCollectionF ok left s c) (removeCollectionTx ok s c) := by
  unfold removeCollectionF removeCollectionTx
  have hs := still_begin left s
  simp only [get_eq (show (FTx.begin left s).bad = false from rfl), show (FTx.begin left s).tx = Tx.begin s from rfl]
  cases h1 : getStr (Tx.begin s).work.collToId c with
  | none => exact fair_still hs (.inl ⟨rfl, rfl, rfl⟩)
  | some id =>
    simp only
    have s1 := still_write hs (fun w => { w with collToId := w.collToId.erase c })
    have m1 := sim_write (t := FTx.begin left s) (x := Tx.begin s) (.inr ⟨rfl, rfl⟩) (fun w => { w with collToId := w.collToId.erase c })
    split
    · rename_i h; exact fair_still s1 (.inr ⟨h, .inr rfl⟩)
    · exact fair_commit (still_write s1 _) (sim_write m1 _) ok

/-- The same for the state inside `add_triples`: failed (with or without panic), or as without limit. -/
def SimV (F : Option Nat × FTx × Nat) (G : Option Nat × Tx × Nat) : Prop :=
  F.2.1.bad = true ∨ (F.2.1.bad = false ∧ F.1 = G.1 ∧ F.2.1.tx = G.2.1 ∧ F.2.2 = G.2.2)

theorem valueIdF_spec {s : Heed} (v : Str) (t : FTx) (vid : Nat) (hs : Still s t) :
    Still s (valueIdF v (t, vid)).2.1 ∧ (t.bad = false → SimV (valueIdF v (t, vid)) (valueId v (t.tx, vid))) ∧
    (t.bad = true → (valueIdF v (t, vid)).1 = none ∧ (valueIdF v (t, vid)).2.1.bad = true) := by
  unfold valueIdF valueId
  cases hb : t.bad with
  | true =>
    have : FTx.get valToId t v = none := by rw [FTx.get, if_pos hb]
    simp only [this, hb, if_true]
    exact ⟨hs, nofun, fun _ => ⟨trivial, trivial⟩⟩
  | false =>
    rw [get_eq hb]
    simp only
    cases h1 : getStr t.tx.work.valToId v with
    | some id => exact ⟨hs, fun _ => .inr ⟨hb, rfl, rfl, rfl⟩, nofun⟩
    | none =>
      simp only [Bool.false_eq_true, if_false]
      cases h2 : inc vid with
      | none => exact ⟨hs, fun _ => .inr ⟨hb, rfl, rfl, rfl⟩, nofun⟩
      | some w =>
        refine ⟨still_write (still_write hs _) _, fun _ => ?_, nofun⟩
        rcases sim_write (sim_write (t := t) (x := t.tx) (.inr ⟨hb, rfl⟩) (fun z => { z with valToId := putStr z.valToId v w }))
          (fun z => { z with idToVal := z.idToVal.insert w v }) with h | ⟨h, e⟩
        · exact .inl h
        · exact .inr ⟨h, rfl, e, rfl⟩

/-- Open and write: a panic leaves a failed transaction. -/
def SimB (F : Bool × FTx) (x : Tx) : Prop := F.2.bad = true ∨ (F.1 = true ∧ F.2.bad = false ∧ F.2.tx = x)

theorem openWrite_spec {s : Heed} {F : Bool × FTx} {x : Tx} (hs : Still s F.2) (h : SimB F x) (f : Heed → Heed) :
    Still s (openWrite f F).2 ∧ SimB (openWrite f F) (x.write f) := by
  unfold openWrite
  rcases h with h | ⟨h1, h2, h3⟩
  · simp only [h, if_true]
    split <;> exact ⟨hs, .inl h⟩
  · rw [if_pos h1, if_neg (by simp [h2])]
    refine ⟨still_write hs f, ?_⟩
    subst h3
    rcases write_cases F.2 h2 f with ⟨a, b⟩ | a
    · exact .inr ⟨rfl, a, b⟩
    · exact .inl a

theorem putIndexesF_spec {s : Heed} {F : Bool × FTx} {x : Tx} (hs : Still s F.2) (h : SimB F x) (c f se t : Nat) :
    Still s (putIndexesF c f se t F).2 ∧ SimB (putIndexesF c f se t F) (putIndexes c f se t x) := by
  unfold putIndexesF putIndexes
  have h1 := openWrite_spec hs h
  have h2 := fun f g => openWrite_spec (h1 f).1 (h1 f).2 g
  have h3 := fun f g k => openWrite_spec (h2 f g).1 (h2 f g).2 k
  have h4 := fun f g k l => openWrite_spec (h3 f g k).1 (h3 f g k).2 l
  have h5 := fun f g k l m => openWrite_spec (h4 f g k l).1 (h4 f g k l).2 m
  exact openWrite_spec (h5 _ _ _ _ _).1 (h5 _ _ _ _ _).2 _

theorem delIndexesF_spec {s : Heed} {F : Bool × FTx} {x : Tx} (hs : Still s F.2) (h : SimB F x) (c f se t : Nat) :
    Still s (delIndexesF c f se t F).2 ∧ SimB (delIndexesF c f se t F) (delIndexes c f se t x) := by
  unfold delIndexesF delIndexes
  have h1 := openWrite_spec hs h
  have h2 := fun f g => openWrite_spec (h1 f).1 (h1 f).2 g
  have h3 := fun f g k => openWrite_spec (h2 f g).1 (h2 f g).2 k
  have h4 := fun f g k l => openWrite_spec (h3 f g k).1 (h3 f g k).2 l
  have h5 := fun f g k l m => openWrite_spec (h4 f g k l).1 (h4 f g k l).2 m
  exact openWrite_spec (h5 _ _ _ _ _).1 (h5 _ _ _ _ _).2 _

/-- The same for the loops. -/
def SimL (F : Bool × FTx × Nat) (G : Bool × Tx × Nat) : Prop :=
  F.2.1.bad = true ∨ (F.2.1.bad = false ∧ F.1 = G.1 ∧ F.2.1.tx = G.2.1 ∧ F.2.2 = G.2.2)

theorem addTripF_spec {s : Heed} (cid : Nat) (trip : Trip) (t : FTx) (vid : Nat) (hs : Still s t) :
    Still s (addTripF cid trip (t, vid)).2.1 ∧ (t.bad = false → SimL (addTripF cid trip (t, vid)) (addTrip cid trip (t.tx, vid))) ∧
    (t.bad = true → (addTripF cid trip (t, vid)).2.1.bad = true) := by
  unfold addTripF
  cases hb : t.bad with
  | true => simp only [hb, if_true]; exact ⟨hs, nofun, fun _ => trivial⟩
  | false =>
    simp only [Bool.false_eq_true, if_false, addTrip, false_implies, and_true, true_implies]
    obtain ⟨a1, b1, _⟩ := valueIdF_spec trip.fst t vid hs
    have b1 := b1 hb
    rcases e1 : valueIdF trip.fst (t, vid) with ⟨o1, t1, v1⟩
    rcases g1 : valueId trip.fst (t.tx, vid) with ⟨p1, x1, w1⟩
    rw [e1] at a1 b1; rw [g1] at b1
    simp only at a1
    obtain ⟨a2, b2, c2⟩ := valueIdF_spec trip.snd t1 v1 a1
    rcases e2 : valueIdF trip.snd (t1, v1) with ⟨o2, t2, v2⟩
    rw [e2] at a2 b2 c2
    simp only at a2 c2
    obtain ⟨a3, b3, c3⟩ := valueIdF_spec trip.thd t2 v2 a2
    rcases e3 : valueIdF trip.thd (t2, v2) with ⟨o3, t3, v3⟩
    rw [e3] at a3 b3 c3
    simp only at a3 c3
    have hput := fun fid sid tid => putIndexesF_spec (F := openWrite (fun w => { w with ctr := some v3 }) (true, t3))
      (x := t3.tx.write (fun w => { w with ctr := some v3 })) (c := cid) (f := fid) (se := sid) (t := tid)
      (openWrite_spec (F := (true, t3)) (x := t3.tx) a3 (by
        cases h : t3.bad with
        | true => exact .inl h
        | false => exact .inr ⟨rfl, h, rfl⟩) _).1
      (openWrite_spec (F := (true, t3)) (x := t3.tx) a3 (by
        cases h : t3.bad with
        | true => exact .inl h
        | false => exact .inr ⟨rfl, h, rfl⟩) _).2
    rcases b1 with b1 | ⟨b1, q1, r1, s1⟩
    · -- the first value already met a failed write
      simp only at b1
      have := c2 b1
      cases o1 with
      | none => exact ⟨a1, .inl b1⟩
      | some fid =>
        simp only [e2]
        rw [this.1]
        exact ⟨a2, .inl this.2⟩
    · simp only at b1 q1 r1 s1
      subst q1 r1 s1
      cases o1 with
      | none => exact ⟨a1, .inr ⟨b1, rfl, rfl, rfl⟩⟩
      | some fid =>
        simp only [e2]
        replace b2 := b2 b1
        rcases g2 : valueId trip.snd (t1.tx, v1) with ⟨p2, x2, w2⟩
        rw [g2] at b2
        rcases b2 with b2 | ⟨b2, q2, r2, s2⟩
        · simp only at b2
          have := c3 b2
          cases o2 with
          | none => exact ⟨a2, .inl b2⟩
          | some sid =>
            simp only [e3]
            rw [this.1]
            exact ⟨a3, .inl this.2⟩
        · simp only at b2 q2 r2 s2
          subst q2 r2 s2
          cases o2 with
          | none => exact ⟨a2, .inr ⟨b2, rfl, rfl, rfl⟩⟩
          | some sid =>
            simp only [e3]
            replace b3 := b3 b2
            rcases g3 : valueId trip.thd (t2.tx, v2) with ⟨p3, x3, w3⟩
            rw [g3] at b3
            rcases b3 with b3 | ⟨b3, q3, r3, s3⟩
            · simp only at b3
              cases o3 with
              | none => exact ⟨a3, .inl b3⟩
              | some tid =>
                refine ⟨(hput fid sid tid).1, .inl ?_⟩
                rcases (hput fid sid tid).2 with h | ⟨h, h', _⟩
                · exact h
                · exfalso
                  have hbad : ∀ (F : Bool × FTx) f, F.2.bad = true → (openWrite f F).2.bad = true := by
                    intro F f hF
                    unfold openWrite
                    simp only [hF, if_true]
                    split <;> exact hF
                  have : (putIndexesF cid fid sid tid (openWrite (fun w => { w with ctr := some v3 }) (true, t3))).2.bad = true := by
                    unfold putIndexesF
                    exact hbad _ _ (hbad _ _ (hbad _ _ (hbad _ _ (hbad _ _ (hbad _ _ (hbad _ _ b3))))))
                  rw [this] at h'; cases h'
            · simp only at b3 q3 r3 s3
              subst q3 r3 s3
              cases o3 with
              | none => exact ⟨a3, .inr ⟨b3, rfl, rfl, rfl⟩⟩
              | some tid =>
                refine ⟨(hput fid sid tid).1, ?_⟩
                rcases (hput fid sid tid).2 with h | ⟨h, h', h''⟩
                · exact .inl h
                · exact .inr ⟨h', h, h'', rfl⟩

theorem addTripsLoopF_spec {s : Heed} (cid : Nat) (l : List Trip) : ∀ (t : FTx) (vid : Nat), Still s t →
    Still s (addTripsLoopF cid l (t, vid)).2.1 ∧
    (t.bad = false → SimL (addTripsLoopF cid l (t, vid)) (addTripsLoop cid l (t.tx, vid))) ∧
    (t.bad = true → (addTripsLoopF cid l (t, vid)).2.1.bad = true) := by
  induction l with
  | nil => intro t vid hs; exact ⟨hs, fun hb => .inr ⟨hb, rfl, rfl, rfl⟩, fun hb => hb⟩
  | cons trip rest ih =>
    intro t vid hs
    obtain ⟨a1, b1, c1⟩ := addTripF_spec cid trip t vid hs
    simp only [addTripsLoopF, addTripsLoop]
    rcases e1 : addTripF cid trip (t, vid) with ⟨o1, t1, v1⟩
    rcases g1 : addTrip cid trip (t.tx, vid) with ⟨p1, x1, w1⟩
    rw [e1] at a1 b1 c1; rw [g1] at b1
    simp only at a1 c1
    obtain ⟨a2, b2, c2⟩ := ih t1 v1 a1
    cases o1 with
    | false =>
      refine ⟨a1, ?_, c1⟩
      intro hb
      rcases b1 hb with h | ⟨h, q, r, z⟩
      · exact .inl h
      · simp only at h q r z
        subst q r z
        exact .inr ⟨h, rfl, rfl, rfl⟩
    | true =>
      refine ⟨a2, ?_, fun hb => c2 (c1 hb)⟩
      intro hb
      rcases b1 hb with h | ⟨h, q, r, z⟩
      · exact .inl (c2 h)
      · simp only at h q r z
        subst q r z
        exact b2 h

theorem addTriplesF_fair (ok : Bool) (left : Option Nat) (s : Heed) (c : Str) (ts : BSet Trip) :
    Fair s (addTriplesF ok left s c ts) (addTriplesTx ok s c ts) := by
  unfold addTriplesF addTriplesTx
  have hs := still_begin left s
  simp only [get_eq (show (FTx.begin left s).bad = false from rfl), show (FTx.begin left s).tx = Tx.begin s from rfl]
  cases h1 : getStr (Tx.begin s).work.collToId c with
  | none => exact fair_still hs (.inl ⟨rfl, rfl, rfl⟩)
  | some cid =>
    simp only
    cases h2 : (Tx.begin s).work.ctr with
    | none => exact fair_still hs (.inl ⟨rfl, rfl, rfl⟩)
    | some vid =>
      simp only
      obtain ⟨a, b, _⟩ := addTripsLoopF_spec cid ts.toList (FTx.begin left s) vid hs
      have b := b rfl
      rw [show (FTx.begin left s).tx = Tx.begin s from rfl] at b
      rcases e1 : addTripsLoopF cid ts.toList (FTx.begin left s, vid) with ⟨o1, t1, v1⟩
      rcases g1 : addTripsLoop cid ts.toList (Tx.begin s, vid) with ⟨p1, x1, w1⟩
      rw [e1] at a b; rw [g1] at b
      rcases b with b | ⟨b, q, r, z⟩
      · simp only at b
        cases o1 with
        | false => exact fair_still a (.inr ⟨b, .inr rfl⟩)
        | true =>
          refine ⟨.inr ⟨b, ?_, .inl rfl⟩, (commit_spec (x := t1.tx) a (.inl b) ok).2⟩
          have : t1.tx.durable = s := a.1
          simp [FTx.commit, Tx.commit, b, this]
      · simp only at b q r z
        subst q r z
        cases o1 with
        | false => exact fair_still a (.inl ⟨b, rfl, rfl⟩)
        | true => exact fair_commit a (.inr ⟨b, rfl⟩) ok

theorem removeTripsLoopF_spec {s : Heed} (cid : Nat) (l : List Trip) : ∀ (t : FTx), Still s t →
    Still s (removeTripsLoopF cid l t).2 ∧
    (t.bad = false → (removeTripsLoopF cid l t).2.bad = true ∨
      ((removeTripsLoopF cid l t).2.bad = false ∧ (removeTripsLoopF cid l t).1 = (removeTripsLoop cid l t.tx).1 ∧
        (removeTripsLoopF cid l t).2.tx = (removeTripsLoop cid l t.tx).2)) ∧
    (t.bad = true → (removeTripsLoopF cid l t).2.bad = true) := by
  induction l with
  | nil => intro t hs; exact ⟨hs, fun hb => .inr ⟨hb, rfl, rfl⟩, fun hb => hb⟩
  | cons trip rest ih =>
    intro t hs
    cases hb : t.bad with
    | true =>
      have : ∀ k, FTx.get valToId t k = none := fun k => by rw [FTx.get, if_pos hb]
      simp only [removeTripsLoopF, this]
      exact ⟨hs, nofun, fun _ => hb⟩
    | false =>
      simp only [removeTripsLoopF, removeTripsLoop, get_eq hb]
      cases h1 : getStr t.tx.work.valToId trip.fst with
      | none => exact ⟨hs, fun _ => .inr ⟨hb, rfl, rfl⟩, nofun⟩
      | some fid =>
        cases h2 : getStr t.tx.work.valToId trip.snd with
        | none => exact ⟨hs, fun _ => .inr ⟨hb, rfl, rfl⟩, nofun⟩
        | some sid =>
          cases h3 : getStr t.tx.work.valToId trip.thd with
          | none => exact ⟨hs, fun _ => .inr ⟨hb, rfl, rfl⟩, nofun⟩
          | some tid =>
            simp only
            obtain ⟨a, b⟩ := delIndexesF_spec (F := (true, t)) (x := t.tx) hs (.inr ⟨rfl, hb, rfl⟩) cid fid sid tid
            rcases e1 : delIndexesF cid fid sid tid (true, t) with ⟨o1, t1⟩
            rw [e1] at a b
            simp only at a
            obtain ⟨a2, b2, c2⟩ := ih t1 a
            cases o1 with
            | false =>
              refine ⟨a, fun _ => .inl ?_, nofun⟩
              rcases b with b | ⟨b, _⟩
              · exact b
              · cases b
            | true =>
              refine ⟨a2, fun _ => ?_, nofun⟩
              rcases b with b | ⟨_, b, e⟩
              · exact .inl (c2 b)
              · simp only at b e
                rw [← e]
                exact b2 b

theorem removeTriplesF_fair (ok : Bool) (left : Option Nat) (s : Heed) (c : Str) (ts : BSet Trip) :
    Fair s (removeTriplesF ok left s c ts) (removeTriplesTx ok s c ts) := by
  unfold removeTriplesF removeTriplesTx
  have hs := still_begin left s
  simp only [get_eq (show (FTx.begin left s).bad = false from rfl), show (FTx.begin left s).tx = Tx.begin s from rfl]
  cases h1 : getStr (Tx.begin s).work.collToId c with
  | none => exact fair_still hs (.inl ⟨rfl, rfl, rfl⟩)
  | some cid =>
    simp only
    obtain ⟨a, b, _⟩ := removeTripsLoopF_spec cid ts.toList (FTx.begin left s) hs
    have b := b rfl
    rw [show (FTx.begin left s).tx = Tx.begin s from rfl] at b
    rcases e1 : removeTripsLoopF cid ts.toList (FTx.begin left s) with ⟨o1, t1⟩
    rcases g1 : removeTripsLoop cid ts.toList (Tx.begin s) with ⟨p1, x1⟩
    rw [e1] at a b; rw [g1] at b
    rcases b with b | ⟨b, q, r⟩
    · simp only at b
      cases o1 with
      | false => exact fair_still a (.inr ⟨b, .inr rfl⟩)
      | true =>
        refine ⟨.inr ⟨b, ?_, .inl rfl⟩, (commit_spec (x := t1.tx) a (.inl b) ok).2⟩
        have : t1.tx.durable = s := a.1
        simp [FTx.commit, Tx.commit, b, this]
    · simp only at b q r
      subst q r
      cases o1 with
      | false => exact fair_still a (.inl ⟨b, rfl, rfl⟩)
      | true => exact fair_commit a (.inr ⟨b, rfl⟩) ok

theorem execFull_fair (ok : Bool) (left : Option Nat) (s : Heed) (op : Op) : Fair s (execFull ok left s op) (execTx ok s op) := by
  cases op with
  | addCollection c => exact addCollectionF_fair ok left s c
  | removeCollection c => exact removeCollectionF_fair ok left s c
  | addTriples c ts => exact addTriplesF_fair ok left s c ts
  | removeTriples c ts => exact removeTriplesF_fair ok left s c ts

/-- Adding a collection with room for two of its three writes. -/
theorem add_two {s : Heed} {Q} (h : Inv s Q) (c : Str) (hc : s.collToId.get? c = none) (hx : ¬ Exhausted s) :
    (addCollectionF true (some 2) s c).1 = .ok () ∧ (addCollectionF true (some 2) s c).2.tx.durable = s ∧
    (addCollectionF true (some 3) s c).2.bad = false := by
  have hget : ∀ n, FTx.get collToId (FTx.begin (some n) s) c = none := fun n => by
    rw [get_eq rfl]; exact (getStr_eq h c).trans hc
  simp only [addCollectionF, hget]
  rw [show ∀ n, (FTx.begin (some n) s).tx.work.ctr = s.ctr from fun _ => rfl]
  rw [show ∀ n, (FTx.begin (some n) s).tx.work.ctr = s.ctr from fun _ => rfl]
  cases hn : s.ctr with
  | none => simp [FTx.write, FTx.begin, FTx.commit, Tx.commit, Tx.begin, Tx.write]
  | some n =>
    have : inc n = some (n + 1) := by
      have hb := h.bound n hn
      unfold inc
      rw [if_pos]
      unfold Exhausted at hx
      rw [hn] at hx
      have : n ≠ 2 ^ 64 - 1 := fun e => hx (by rw [e])
      omega
    simp [this, FTx.write, FTx.begin, FTx.commit, Tx.commit, Tx.begin, Tx.write]

/-- No limit, no failure so far. -/
def Free (t : FTx) : Prop := t.left = none ∧ t.bad = false

theorem free_write {t : FTx} (h : Free t) (f : Heed → Heed) : Free (t.write f) := by
  rw [write_none t h.2 h.1]; exact ⟨rfl, rfl⟩

theorem free_open {F : Bool × FTx} (h : Free F.2) (f : Heed → Heed) : Free (openWrite f F).2 := by
  unfold openWrite
  split
  · split
    · exact h
    · exact free_write h f
  · exact h

theorem free_value (v : Str) (st : FTx × Nat) (h : Free st.1) : Free (valueIdF v st).2.1 := by
  unfold valueIdF
  split
  · exact h
  · split
    · exact h
    · split
      · exact h
      · exact free_write (free_write h _) _

theorem free_trip (cid : Nat) (trip : Trip) (st : FTx × Nat) (h : Free st.1) : Free (addTripF cid trip st).2.1 := by
  unfold addTripF
  split
  · exact h
  · have h1 := free_value trip.fst st h
    split
    · rename_i e; rw [e] at h1; exact h1
    · rename_i st1 e
      rw [e] at h1
      have h2 := free_value trip.snd st1 h1
      split
      · rename_i e; rw [e] at h2; exact h2
      · rename_i st2 e
        rw [e] at h2
        have h3 := free_value trip.thd st2 h2
        split
        · rename_i e; rw [e] at h3; exact h3
        · rename_i t3 v3 e
          rw [e] at h3
          unfold putIndexesF
          exact free_open (free_open (free_open (free_open (free_open (free_open (free_open (F := (true, t3)) h3 _) _) _) _) _) _) _

theorem free_loop (cid : Nat) (l : List Trip) : ∀ st : FTx × Nat, Free st.1 → Free (addTripsLoopF cid l st).2.1 := by
  induction l with
  | nil => intro st h; exact h
  | cons trip rest ih =>
    intro st h
    have h1 := free_trip cid trip st h
    rw [addTripsLoopF]
    split
    · rename_i e; rw [e] at h1; exact h1
    · rename_i e; rw [e] at h1; exact ih _ h1

theorem free_removeLoop (cid : Nat) (l : List Trip) : ∀ t : FTx, Free t → Free (removeTripsLoopF cid l t).2 := by
  induction l with
  | nil => intro st h; exact h
  | cons trip rest ih =>
    intro t h
    rw [removeTripsLoopF]
    split
    · rename_i f s d _ _ _
      have h1 : Free (delIndexesF cid f s d (true, t)).2 := by
        unfold delIndexesF
        exact free_open (free_open (free_open (free_open (free_open (free_open (F := (true, t)) h _) _) _) _) _) _
      split
      · rename_i e; rw [e] at h1; exact h1
      · rename_i e; rw [e] at h1; exact ih _ h1
    · exact h

/-- Without limit no write fails. -/
theorem execFull_none (ok : Bool) (s : Heed) (op : Op) : (execFull ok none s op).2.bad = false := by
  have hf : Free (FTx.begin none s) := ⟨rfl, rfl⟩
  cases op with
  | addCollection c =>
    simp only [execFull, addCollectionF]
    split
    · rfl
    · split
      · rfl
      · rename_i id t e
        have ht : Free t := by
          split at e
          · split at e
            · cases e; exact free_write hf _
            · cases e
          · cases e; exact free_write hf _
        split
        · exact ht.2
        · split
          · exact (free_write ht _).2
          · show (FTx.write _ (FTx.write _ t)).bad = false
            exact (free_write (free_write ht _) _).2
  | removeCollection c =>
    simp only [execFull, removeCollectionF]
    split
    · rfl
    · split
      · exact (free_write hf _).2
      · rfl
  | addTriples c ts =>
    simp only [execFull, addTriplesF]
    split
    · rfl
    · rename_i cid _
      split
      · rfl
      · rename_i vid _
        have h1 := free_loop cid ts.toList (FTx.begin none s, vid) hf
        split
        · rename_i e; rw [e] at h1; exact h1.2
        · rename_i e; rw [e] at h1; exact h1.2
  | removeTriples c ts =>
    simp only [execFull, removeTriplesF]
    split
    · rfl
    · rename_i cid _
      have h1 := free_removeLoop cid ts.toList (FTx.begin none s) hf
      split
      · rename_i e; rw [e] at h1; exact h1.2
      · rename_i e; rw [e] at h1; exact h1.2

end Heed
end Verif
