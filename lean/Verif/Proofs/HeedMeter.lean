import Verif.Proofs.HeedFull
/-!
# How many writes an operation makes, and what it answers when they do not all find room
-/
namespace Verif
namespace Heed
open Spec

/-- A step of a limited transaction: `none` is a panic. -/
abbrev FStep (β : Type) := FTx → Option β × FTx

/-- One step after another. -/
def FStep.andThen {β γ : Type} (P : FStep β) (Q : β → FStep γ) : FStep γ := fun t =>
  match P t with
  | (none, t) => (none, t)
  | (some b, t) => Q b t

/-- A failed transaction makes the step panic. -/
def StrictStep {β : Type} (P : FStep β) : Prop := ∀ t, t.bad = true → (P t).1 = none

/-- With room the step makes `W` writes, gives `o` and leaves `y`; without, it panics or goes on with a failed transaction. -/
structure Metered {β : Type} (P : FStep β) (x : Tx) (o : Option β) (y : Tx) (W : Nat) : Prop where
  enough : ∀ k, W ≤ k → P ⟨x, some k, false⟩ = (o, ⟨y, some (k - W), false⟩)
  short : ∀ k, k < W → (P ⟨x, some k, false⟩).1 = none ∨
    ((P ⟨x, some k, false⟩).1 = o ∧ (P ⟨x, some k, false⟩).2.bad = true)

/-- If just the last write fails, the answer is the same; otherwise a shortage makes it panic. -/
def EndsInWrite {β : Type} (P : FStep β) (x : Tx) (o : Option β) (W : Nat) : Prop :=
  0 < W ∧ (∀ k, k + 1 = W → (P ⟨x, some k, false⟩).1 = o ∧ (P ⟨x, some k, false⟩).2.bad = true) ∧
  (∀ k, k + 1 < W → (P ⟨x, some k, false⟩).1 = none)

theorem bind_none {β γ : Type} {P : FStep β} {Q : β → FStep γ} {t : FTx} (h : (P t).1 = none) : (P.andThen Q t).1 = none := by
  rcases e : P t with ⟨o, t'⟩
  rw [e] at h
  simp only at h
  subst h
  simp [FStep.andThen, e]

theorem bind_short {β γ : Type} {P : FStep β} {Q : β → FStep γ} {x y : Tx} {b : β} {W : Nat}
    (h : Metered P x (some b) y W) (hq : StrictStep (Q b)) (k : Nat) (hk : k < W) : (P.andThen Q ⟨x, some k, false⟩).1 = none := by
  rcases h.short k hk with a | ⟨a, c⟩
  · exact bind_none a
  · rcases e : P ⟨x, some k, false⟩ with ⟨p, t⟩
    rw [e] at a c
    simp only at a c
    subst a
    simp only [FStep.andThen, e]
    exact hq t c

theorem metered_none {β γ : Type} {P : FStep β} {Q : β → FStep γ} {x y : Tx} {W : Nat} (h : Metered P x none y W) :
    Metered (P.andThen Q) x none y W where
  enough k hk := by simp [FStep.andThen, h.enough k hk]
  short k hk := .inl (bind_none (by rcases h.short k hk with h | ⟨h, _⟩ <;> exact h))

theorem metered_bind {β γ : Type} {P : FStep β} {Q : β → FStep γ} {x y z : Tx} {b : β} {o : Option γ} {W V : Nat}
    (h : Metered P x (some b) y W) (h' : Metered (Q b) y o z V) (hq : StrictStep (Q b)) :
    Metered (P.andThen Q) x o z (W + V) where
  enough k hk := by
    simp only [FStep.andThen, h.enough k (by omega), h'.enough (k - W) (by omega)]
    rw [Nat.sub_sub]
  short k hk := by
    by_cases hW : W ≤ k
    · simp only [FStep.andThen, h.enough k hW]
      exact h'.short (k - W) (by omega)
    · exact .inl (bind_short h hq k (by omega))

theorem ends_bind {β γ : Type} {P : FStep β} {Q : β → FStep γ} {x y : Tx} {b : β} {o : Option γ} {W V : Nat}
    (h : Metered P x (some b) y W) (h' : EndsInWrite (Q b) y o V) (hq : StrictStep (Q b)) : EndsInWrite (P.andThen Q) x o (W + V) := by
  obtain ⟨h0, h1, h2⟩ := h'
  refine ⟨by omega, ?_, ?_⟩
  · intro k hk
    simp only [FStep.andThen, h.enough k (by omega)]
    exact h1 (k - W) (by omega)
  · intro k hk
    by_cases hW : W ≤ k
    · simp only [FStep.andThen, h.enough k hW]
      exact h2 (k - W) (by omega)
    · exact bind_short h hq k (by omega)

theorem strict_bind {β γ : Type} {P : FStep β} {Q : β → FStep γ} (h : StrictStep P) : StrictStep (P.andThen Q) :=
  fun t ht => bind_none (h t ht)

/-! ## The steps of the code -/

/-- `valueIdF` as a step. -/
def valueStep (v : Str) (vid : Nat) : FStep (Nat × Nat) := fun t =>
  ((valueIdF v (t, vid)).1.map fun id => (id, (valueIdF v (t, vid)).2.2), (valueIdF v (t, vid)).2.1)

theorem write_left (x : Tx) (k : Nat) (f : Heed → Heed) : FTx.write f ⟨x, some (k + 1), false⟩ = ⟨x.write f, some k, false⟩ := rfl
theorem write_full (x : Tx) (f : Heed → Heed) : FTx.write f ⟨x, some 0, false⟩ = ⟨x, some 0, true⟩ := rfl
theorem write_bad (t : FTx) (h : t.bad = true) (f : Heed → Heed) : FTx.write f t = t := by rw [FTx.write, if_pos h]

theorem valueStep_strict (v : Str) (vid : Nat) : StrictStep (valueStep v vid) := by
  intro t ht
  have h1 := ((valueIdF_spec (s := t.tx.durable) v ⟨⟨t.tx.durable, t.tx.work, []⟩, t.left, t.bad⟩ vid ⟨rfl, by simp⟩).2.2 ht).1
  have : (valueIdF v (t, vid)).1 = none := by
    unfold valueIdF
    rw [show FTx.get valToId t v = none by rw [FTx.get, if_pos ht]]
    simp [ht]
  simp [valueStep, this]

theorem valueStep_metered (v : Str) (vid : Nat) (x : Tx) : ∃ o y W, W ≤ 2 ∧ Metered (valueStep v vid) x o y W := by
  have hg : ∀ k, FTx.get valToId ⟨x, some k, false⟩ v = getStr x.work.valToId v := fun k => get_eq rfl _ _
  cases h1 : getStr x.work.valToId v with
  | some id =>
    exact ⟨some (id, vid), x, 0, by omega, ⟨fun k _ => by simp [valueStep, valueIdF, hg, h1], nofun⟩⟩
  | none =>
    cases h2 : inc vid with
    | none => exact ⟨none, x, 0, by omega, ⟨fun k _ => by simp [valueStep, valueIdF, hg, h1, h2], nofun⟩⟩
    | some w =>
      refine ⟨some (w, w), (x.write fun z => { z with valToId := putStr z.valToId v w }).write fun z => { z with idToVal := z.idToVal.insert w v },
        2, by omega, ⟨?_, ?_⟩⟩
      · intro k hk
        obtain ⟨j, rfl⟩ : ∃ j, k = j + 2 := ⟨k - 2, by omega⟩
        simp [valueStep, valueIdF, hg, h1, h2, write_left]
      · intro k hk
        right
        match k, hk with
        | 0, _ => simp [valueStep, valueIdF, hg, h1, h2, write_full, write_bad]
        | 1, _ => simp [valueStep, valueIdF, hg, h1, h2, write_full, write_left]

/-- One `openWrite` as a step. -/
def writeStep (f : Heed → Heed) : FStep Unit := fun t => (if (openWrite f (true, t)).1 then some () else none, (openWrite f (true, t)).2)

theorem writeStep_strict (f : Heed → Heed) : StrictStep (writeStep f) := by
  intro t ht; simp [writeStep, openWrite, ht]

theorem writeStep_metered (f : Heed → Heed) (x : Tx) : Metered (writeStep f) x (some ()) (x.write f) 1 where
  enough k hk := by
    obtain ⟨j, rfl⟩ : ∃ j, k = j + 1 := ⟨k - 1, by omega⟩
    simp [writeStep, openWrite, write_left]
  short k hk := by
    obtain rfl : k = 0 := by omega
    simp [writeStep, openWrite, write_full]

theorem writeStep_ends (f : Heed → Heed) (x : Tx) : EndsInWrite (writeStep f) x (some ()) 1 := by
  refine ⟨by omega, ?_, by omega⟩
  intro k hk
  obtain rfl : k = 0 := by omega
  simp [writeStep, openWrite, write_full]

/-- Several in a row. -/
def writeSteps : List (Heed → Heed) → FStep Unit
  | [] => fun t => (some (), t)
  | f :: fs => (writeStep f).andThen fun _ => writeSteps fs

theorem writeSteps_strict (f : Heed → Heed) (fs : List (Heed → Heed)) : StrictStep (writeSteps (f :: fs)) :=
  strict_bind (writeStep_strict f)

theorem writeSteps_metered (f : Heed → Heed) (fs : List (Heed → Heed)) : ∀ x : Tx, ∃ y,
    Metered (writeSteps (f :: fs)) x (some ()) y (fs.length + 1) ∧ EndsInWrite (writeSteps (f :: fs)) x (some ()) (fs.length + 1) := by
  induction fs generalizing f with
  | nil =>
    intro x
    have : writeSteps [f] = writeStep f := by
      funext t
      rcases e : writeStep f t with ⟨o, t'⟩
      cases o <;> simp [writeSteps, FStep.andThen, e]
    rw [this]
    exact ⟨_, writeStep_metered f x, writeStep_ends f x⟩
  | cons g gs ih =>
    intro x
    obtain ⟨y, h1, h2⟩ := ih g (x.write f)
    refine ⟨y, ?_, ?_⟩
    · have := metered_bind (Q := fun _ => writeSteps (g :: gs)) (writeStep_metered f x) h1 (writeSteps_strict g gs)
      rw [Nat.add_comm] at this; exact this
    · have := ends_bind (Q := fun _ => writeSteps (g :: gs)) (writeStep_metered f x) h2 (writeSteps_strict g gs)
      rw [Nat.add_comm] at this; exact this

/-- A chain of `openWrite`s is such a row. -/
theorem chain_eq (fs : List (Heed → Heed)) : ∀ st : Bool × FTx,
    (if st.1 then (writeSteps fs st.2) else (none, st.2)) =
      (if (fs.foldl (fun st f => openWrite f st) st).1 then some () else none, (fs.foldl (fun st f => openWrite f st) st).2) := by
  induction fs with
  | nil => rintro ⟨b, t⟩; cases b <;> simp [writeSteps]
  | cons f fs ih =>
    rintro ⟨b, t⟩
    rw [List.foldl_cons, ← ih]
    cases b with
    | false => simp [openWrite]
    | true =>
      simp only [if_true, writeSteps, FStep.andThen, writeStep]
      cases h : (openWrite f (true, t)).1 <;> simp

/-- The body of the loop of `add_triples` as a step. -/
def tripStep (cid : Nat) (trip : Trip) (vid : Nat) : FStep Nat := fun t =>
  (if (addTripF cid trip (t, vid)).1 then some (addTripF cid trip (t, vid)).2.2 else none, (addTripF cid trip (t, vid)).2.1)

/-- The writes that follow the three values. -/
def tripWrites (cid fid sid tid vid : Nat) : List (Heed → Heed) :=
  [fun w => { w with ctr := some vid },
   fun w => { w with cfst := w.cfst.insert (mergeArrays (beBytes cid) (beBytes fid) (beBytes sid) (beBytes tid)) },
   fun w => { w with cfts := w.cfts.insert (mergeArrays (beBytes cid) (beBytes fid) (beBytes tid) (beBytes sid)) },
   fun w => { w with csft := w.csft.insert (mergeArrays (beBytes cid) (beBytes sid) (beBytes fid) (beBytes tid)) },
   fun w => { w with cstf := w.cstf.insert (mergeArrays (beBytes cid) (beBytes sid) (beBytes tid) (beBytes fid)) },
   fun w => { w with ctfs := w.ctfs.insert (mergeArrays (beBytes cid) (beBytes tid) (beBytes fid) (beBytes sid)) },
   fun w => { w with ctsf := w.ctsf.insert (mergeArrays (beBytes cid) (beBytes tid) (beBytes sid) (beBytes fid)) }]

/-- The same, giving a value. -/
def tripTail (cid fid sid tid vid : Nat) : FStep Nat := fun t =>
  ((writeSteps (tripWrites cid fid sid tid vid) t).1.map fun _ => vid, (writeSteps (tripWrites cid fid sid tid vid) t).2)

theorem tripTail_strict (cid fid sid tid vid : Nat) : StrictStep (tripTail cid fid sid tid vid) := by
  intro t ht
  have : (writeSteps (tripWrites cid fid sid tid vid) t).1 = none := writeSteps_strict _ _ t ht
  simp [tripTail, this]

theorem tripTail_metered (cid fid sid tid vid : Nat) (x : Tx) : ∃ y,
    Metered (tripTail cid fid sid tid vid) x (some vid) y 7 ∧ EndsInWrite (tripTail cid fid sid tid vid) x (some vid) 7 := by
  obtain ⟨y, h1, h2⟩ : ∃ y, Metered (writeSteps (tripWrites cid fid sid tid vid)) x (some ()) y 7 ∧
      EndsInWrite (writeSteps (tripWrites cid fid sid tid vid)) x (some ()) 7 := writeSteps_metered _ _ x
  refine ⟨y, ⟨?_, ?_⟩, h2.1, ?_, ?_⟩
  · intro k hk; simp [tripTail, h1.enough k hk]
  · intro k hk
    rcases h1.short k hk with a | ⟨a, b⟩
    · left; simp [tripTail, a]
    · right; simp [tripTail, a, b]
  · intro k hk
    obtain ⟨a, b⟩ := h2.2.1 k hk
    simp [tripTail, a, b]
  · intro k hk
    simp [tripTail, h2.2.2 k hk]

theorem tripStep_strict (cid : Nat) (trip : Trip) (vid : Nat) : StrictStep (tripStep cid trip vid) := by
  intro t ht; simp [tripStep, addTripF, ht]

theorem tripStep_eq (cid : Nat) (trip : Trip) (vid : Nat) (t : FTx) (hb : t.bad = false) :
    tripStep cid trip vid t = ((valueStep trip.fst vid).andThen fun a => (valueStep trip.snd a.2).andThen fun b =>
      (valueStep trip.thd b.2).andThen fun c => tripTail cid a.1 b.1 c.1 c.2) t := by
  simp only [tripStep, addTripF, FStep.andThen, valueStep, hb, Bool.false_eq_true, if_false]
  rcases e1 : valueIdF trip.fst (t, vid) with ⟨o1, t1, v1⟩
  cases o1 with
  | none => simp
  | some fid =>
    simp only [Option.map_some]
    rcases e2 : valueIdF trip.snd (t1, v1) with ⟨o2, t2, v2⟩
    cases o2 with
    | none => simp
    | some sid =>
      simp only [Option.map_some]
      rcases e3 : valueIdF trip.thd (t2, v2) with ⟨o3, t3, v3⟩
      cases o3 with
      | none => simp
      | some tid =>
        simp only [Option.map_some, tripTail]
        have := chain_eq (tripWrites cid fid sid tid v3) (true, t3)
        simp only [if_true] at this
        rw [this]
        have e : (tripWrites cid fid sid tid v3).foldl (fun st f => openWrite f st) (true, t3) =
            putIndexesF cid fid sid tid (openWrite (fun w => { w with ctr := some v3 }) (true, t3)) := rfl
        rw [e]
        generalize putIndexesF cid fid sid tid (openWrite (fun w => { w with ctr := some v3 }) (true, t3)) = r
        cases r.1 <;> simp

theorem tripStep_metered (cid : Nat) (trip : Trip) (vid : Nat) (x : Tx) : ∃ o y W, Metered (tripStep cid trip vid) x o y W ∧
    (o ≠ none → 7 ≤ W ∧ W ≤ 13 ∧ EndsInWrite (tripStep cid trip vid) x o W) := by
  suffices h : ∃ o y W, Metered ((valueStep trip.fst vid).andThen fun a => (valueStep trip.snd a.2).andThen fun b =>
      (valueStep trip.thd b.2).andThen fun c => tripTail cid a.1 b.1 c.1 c.2) x o y W ∧
      (o ≠ none → 7 ≤ W ∧ W ≤ 13 ∧ EndsInWrite ((valueStep trip.fst vid).andThen fun a => (valueStep trip.snd a.2).andThen fun b =>
      (valueStep trip.thd b.2).andThen fun c => tripTail cid a.1 b.1 c.1 c.2) x o W) by
    obtain ⟨o, y, W, h1, h2⟩ := h
    have e := fun k => tripStep_eq cid trip vid ⟨x, some k, false⟩ rfl
    refine ⟨o, y, W, ⟨?_, ?_⟩, fun ho => ?_⟩
    · intro k hk; rw [e]; exact h1.enough k hk
    · intro k hk; rw [e]; exact h1.short k hk
    · obtain ⟨a, b, c, d, d'⟩ := h2 ho
      refine ⟨a, b, c, ?_, ?_⟩
      · intro k hk; rw [e]; exact d k hk
      · intro k hk; rw [e]; exact d' k hk
  obtain ⟨o1, y1, W1, l1, m1⟩ := valueStep_metered trip.fst vid x
  cases o1 with
  | none => exact ⟨none, _, _, metered_none m1, fun h => absurd rfl h⟩
  | some a =>
    obtain ⟨o2, y2, W2, l2, m2⟩ := valueStep_metered trip.snd a.2 y1
    cases o2 with
    | none =>
      exact ⟨none, _, _, metered_bind m1 (metered_none m2) (strict_bind (valueStep_strict _ _)), fun h => absurd rfl h⟩
    | some b =>
      obtain ⟨o3, y3, W3, l3, m3⟩ := valueStep_metered trip.thd b.2 y2
      cases o3 with
      | none =>
        exact ⟨none, _, _, metered_bind m1 (metered_bind m2 (metered_none m3) (strict_bind (valueStep_strict _ _)))
          (strict_bind (valueStep_strict _ _)), fun h => absurd rfl h⟩
      | some c =>
        obtain ⟨y4, m4, e4⟩ := tripTail_metered cid a.1 b.1 c.1 c.2 y3
        refine ⟨_, _, _, metered_bind m1 (metered_bind m2 (metered_bind m3 m4 (tripTail_strict _ _ _ _ _)) (strict_bind (valueStep_strict _ _)))
          (strict_bind (valueStep_strict _ _)), fun _ => ⟨by omega, by omega, ?_⟩⟩
        exact ends_bind m1 (ends_bind m2 (ends_bind m3 e4 (tripTail_strict _ _ _ _ _)) (strict_bind (valueStep_strict _ _)))
          (strict_bind (valueStep_strict _ _))

/-- The loop of `add_triples` as a step. -/
def loopStep (cid : Nat) (l : List Trip) (vid : Nat) : FStep Unit := fun t =>
  (if (addTripsLoopF cid l (t, vid)).1 then some () else none, (addTripsLoopF cid l (t, vid)).2.1)

theorem loopStep_cons (cid : Nat) (trip : Trip) (l : List Trip) (vid : Nat) :
    loopStep cid (trip :: l) vid = (tripStep cid trip vid).andThen fun v => loopStep cid l v := by
  funext t
  rcases e : addTripF cid trip (t, vid) with ⟨b, t1, v1⟩
  cases b <;> simp [loopStep, addTripsLoopF, FStep.andThen, tripStep, e]

theorem loopStep_metered (cid : Nat) (l : List Trip) : ∀ (vid : Nat) (x : Tx), ∃ o y W, Metered (loopStep cid l vid) x o y W ∧
    (o ≠ none → 7 * l.length ≤ W ∧ W ≤ 13 * l.length ∧ (l ≠ [] → EndsInWrite (loopStep cid l vid) x o W)) := by
  induction l with
  | nil =>
    intro vid x
    exact ⟨some (), x, 0, ⟨fun k _ => by simp [loopStep, addTripsLoopF], nofun⟩, fun _ => ⟨by simp, by simp, fun h => absurd rfl h⟩⟩
  | cons trip l ih =>
    intro vid x
    rw [loopStep_cons]
    obtain ⟨o1, y1, W1, m1, n1⟩ := tripStep_metered cid trip vid x
    cases o1 with
    | none => exact ⟨none, _, _, metered_none m1, fun h => absurd rfl h⟩
    | some v =>
      obtain ⟨a1, b1, e1⟩ := n1 (by simp)
      cases l with
      | nil =>
        refine ⟨some (), y1, W1, ⟨?_, ?_⟩, fun _ => ⟨by simpa using a1, by simpa using b1, fun _ => ⟨e1.1, ?_, ?_⟩⟩⟩
        · intro k hk; simp [FStep.andThen, m1.enough k hk, loopStep, addTripsLoopF]
        · intro k hk
          rcases m1.short k hk with a | ⟨a, b⟩
          · exact .inl (bind_none a)
          · right
            rcases e : tripStep cid trip vid ⟨x, some k, false⟩ with ⟨p, t⟩
            rw [e] at a b
            simp only at a b
            subst a
            simp [FStep.andThen, e, loopStep, addTripsLoopF, b]
        · intro k hk
          obtain ⟨a, b⟩ := e1.2.1 k hk
          rcases e : tripStep cid trip vid ⟨x, some k, false⟩ with ⟨p, t⟩
          rw [e] at a b
          simp only at a b
          subst a
          simp [FStep.andThen, e, loopStep, addTripsLoopF, b]
        · intro k hk
          exact bind_none (e1.2.2 k hk)
      | cons trip' l =>
        have hq : StrictStep (loopStep cid (trip' :: l) v) := by
          rw [loopStep_cons]; exact strict_bind (tripStep_strict _ _ _)
        obtain ⟨o2, y2, W2, m2, n2⟩ := ih v y1
        refine ⟨o2, y2, W1 + W2, metered_bind m1 m2 hq, fun ho => ?_⟩
        obtain ⟨a2, b2, e2⟩ := n2 ho
        simp only [List.length_cons] at a2 b2 ⊢
        exact ⟨by omega, by omega, fun _ => ends_bind m1 (e2 (by simp)) hq⟩

/-- The writes of the removal of one triple. -/
def delWrites (cid fid sid tid : Nat) : List (Heed → Heed) :=
  [fun w => { w with cfst := w.cfst.erase (mergeArrays (beBytes cid) (beBytes fid) (beBytes sid) (beBytes tid)) },
   fun w => { w with cfts := w.cfts.erase (mergeArrays (beBytes cid) (beBytes fid) (beBytes tid) (beBytes sid)) },
   fun w => { w with csft := w.csft.erase (mergeArrays (beBytes cid) (beBytes sid) (beBytes fid) (beBytes tid)) },
   fun w => { w with cstf := w.cstf.erase (mergeArrays (beBytes cid) (beBytes sid) (beBytes tid) (beBytes fid)) },
   fun w => { w with ctfs := w.ctfs.erase (mergeArrays (beBytes cid) (beBytes tid) (beBytes fid) (beBytes sid)) },
   fun w => { w with ctsf := w.ctsf.erase (mergeArrays (beBytes cid) (beBytes tid) (beBytes sid) (beBytes fid)) }]

/-- The loop of `remove_triples` as a step. -/
def removeStep (cid : Nat) (l : List Trip) : FStep Unit := fun t =>
  (if (removeTripsLoopF cid l t).1 then some () else none, (removeTripsLoopF cid l t).2)

theorem removeStep_strict (cid : Nat) (trip : Trip) (l : List Trip) : StrictStep (removeStep cid (trip :: l)) := by
  intro t ht
  have : ∀ k, FTx.get valToId t k = none := fun k => by rw [FTx.get, if_pos ht]
  simp [removeStep, removeTripsLoopF, this]

theorem removeStep_cons (cid : Nat) (trip : Trip) (l : List Trip) (t : FTx) {fid sid tid : Nat}
    (h1 : t.get valToId trip.fst = some fid) (h2 : t.get valToId trip.snd = some sid) (h3 : t.get valToId trip.thd = some tid) :
    removeStep cid (trip :: l) t = ((writeSteps (delWrites cid fid sid tid)).andThen fun _ => removeStep cid l) t := by
  have e : (delWrites cid fid sid tid).foldl (fun st f => openWrite f st) (true, t) = delIndexesF cid fid sid tid (true, t) := rfl
  have := chain_eq (delWrites cid fid sid tid) (true, t)
  simp only [if_true] at this
  rw [e] at this
  simp only [removeStep, removeTripsLoopF, h1, h2, h3, FStep.andThen, this]
  rcases delIndexesF cid fid sid tid (true, t) with ⟨b, t1⟩
  cases b <;> simp

theorem removeStep_metered (cid : Nat) (l : List Trip) : ∀ x : Tx, ∃ o y W, Metered (removeStep cid l) x o y W ∧
    (o ≠ none → W = 6 * l.length ∧ (l ≠ [] → EndsInWrite (removeStep cid l) x o W)) := by
  induction l with
  | nil =>
    intro x
    exact ⟨some (), x, 0, ⟨fun k _ => by simp [removeStep, removeTripsLoopF], nofun⟩, fun _ => ⟨by simp, fun h => absurd rfl h⟩⟩
  | cons trip l ih =>
    intro x
    by_cases hv : ∃ fid sid tid, getStr x.work.valToId trip.fst = some fid ∧ getStr x.work.valToId trip.snd = some sid ∧
        getStr x.work.valToId trip.thd = some tid
    case neg =>
      refine ⟨none, x, 0, ⟨?_, nofun⟩, fun h => absurd rfl h⟩
      intro k _
      simp only [removeStep, removeTripsLoopF, FTx.get, Bool.false_eq_true, if_false]
      split
      · rename_i a b c; exact absurd ⟨_, _, _, a, b, c⟩ hv
      · rfl
    case pos =>
      obtain ⟨fid, sid, tid, h1, h2, h3⟩ := hv
      have e := fun k => removeStep_cons cid trip l ⟨x, some k, false⟩ (fid := fid) (sid := sid) (tid := tid)
        (by rw [get_eq rfl]; exact h1) (by rw [get_eq rfl]; exact h2) (by rw [get_eq rfl]; exact h3)
      suffices h : ∃ o y W, Metered ((writeSteps (delWrites cid fid sid tid)).andThen fun _ => removeStep cid l) x o y W ∧
          (o ≠ none → W = 6 * (trip :: l).length ∧ EndsInWrite ((writeSteps (delWrites cid fid sid tid)).andThen fun _ => removeStep cid l) x o W) by
        obtain ⟨o, y, W, m, n⟩ := h
        refine ⟨o, y, W, ⟨?_, ?_⟩, fun ho => ?_⟩
        · intro k hk; rw [e]; exact m.enough k hk
        · intro k hk; rw [e]; exact m.short k hk
        · obtain ⟨a, c, d, d'⟩ := n ho
          refine ⟨a, fun _ => ⟨c, ?_, ?_⟩⟩
          · intro k hk; rw [e]; exact d k hk
          · intro k hk; rw [e]; exact d' k hk
      obtain ⟨y1, m1, e1⟩ : ∃ y, Metered (writeSteps (delWrites cid fid sid tid)) x (some ()) y 6 ∧
        EndsInWrite (writeSteps (delWrites cid fid sid tid)) x (some ()) 6 := writeSteps_metered _ _ x
      cases l with
      | nil =>
        have e2 : ((writeSteps (delWrites cid fid sid tid)).andThen fun _ => removeStep cid []) = writeSteps (delWrites cid fid sid tid) := by
          funext t
          rcases e : writeSteps (delWrites cid fid sid tid) t with ⟨o, t'⟩
          cases o <;> simp [FStep.andThen, e, removeStep, removeTripsLoopF]
        rw [e2]
        exact ⟨_, _, _, m1, fun _ => ⟨rfl, e1⟩⟩
      | cons trip' l =>
        obtain ⟨o2, y2, W2, m2, n2⟩ := ih y1
        refine ⟨o2, y2, 6 + W2, metered_bind m1 m2 (removeStep_strict _ _ _), fun ho => ?_⟩
        obtain ⟨a2, e2⟩ := n2 ho
        simp only [List.length_cons] at a2 ⊢
        exact ⟨by omega, ends_bind m1 (e2 (by simp)) (removeStep_strict _ _ _)⟩

/-- An operation that makes `W` writes. -/
structure Answers (ok : Bool) (s : Heed) (op : Op) (W : Nat) : Prop where
  enough : ∀ k, W ≤ k → (execFull ok (some k) s op).1 = .ok () ∧ (execFull ok (some k) s op).2.bad = false
  last : ∀ k, k + 1 = W → (execFull ok (some k) s op).1 = .ok () ∧ (execFull ok (some k) s op).2.bad = true
  short : ∀ k, k + 1 < W → (execFull ok (some k) s op).1 = .panic

/-- An operation that panics, with much room before any write fails. -/
def Panics (ok : Bool) (s : Heed) (op : Op) : Prop :=
  (∀ k, (execFull ok (some k) s op).1 = .panic) ∧ ∃ k, (execFull ok (some k) s op).2.bad = false

/-- A step whose `none` is a panic, then a commit. -/
theorem answers_of {P : FStep Unit} {ok : Bool} {s : Heed} {op : Op}
    (hop : ∀ k, execFull ok (some k) s op = (match P ⟨Tx.begin s, some k, false⟩ with
      | (none, t) => (.panic, t)
      | (some _, t) => (.ok (), t.commit ok)))
    {o : Option Unit} {y : Tx} {W : Nat} (m : Metered P (Tx.begin s) o y W) :
    (o = none → Panics ok s op) ∧
    ((W = 0 ∨ EndsInWrite P (Tx.begin s) o W) → o ≠ none → Answers ok s op W) := by
  constructor
  · rintro rfl
    refine ⟨fun k => ?_, W, by rw [hop, m.enough W (Nat.le_refl _)]⟩
    have : (P ⟨Tx.begin s, some k, false⟩).1 = none := by
      by_cases hk : W ≤ k
      · rw [m.enough k hk]
      · rcases m.short k (by omega) with h | ⟨h, _⟩ <;> exact h
    rw [hop]
    rcases e : P ⟨Tx.begin s, some k, false⟩ with ⟨p, t⟩
    rw [e] at this
    simp only at this
    subst this
    rfl
  · intro hW ho
    cases o with
    | none => exact absurd rfl ho
    | some u =>
      refine ⟨?_, ?_, ?_⟩
      · intro k hk
        rw [hop, m.enough k hk]
        exact ⟨rfl, rfl⟩
      · intro k hk
        rcases hW with hW | hW
        · omega
        · obtain ⟨a, b⟩ := hW.2.1 k hk
          rw [hop]
          rcases e : P ⟨Tx.begin s, some k, false⟩ with ⟨p, t⟩
          rw [e] at a b
          simp only at a b
          subst a
          exact ⟨rfl, b⟩
      · intro k hk
        rcases hW with hW | hW
        · omega
        · have a := hW.2.2 k hk
          rw [hop]
          rcases e : P ⟨Tx.begin s, some k, false⟩ with ⟨p, t⟩
          rw [e] at a
          simp only at a
          subst a
          rfl

theorem execFull_answers (ok : Bool) (s : Heed) (op : Op) :
    Panics ok s op ∨ ∃ W, WriteCount op W ∧ Answers ok s op W := by
  cases op with
  | addCollection c =>
    have hg : ∀ k, FTx.get collToId (FTx.begin (some k) s) c = getStr s.collToId c := fun k => get_eq rfl _ _
    have hc : ∀ k, (FTx.begin (some k) s).tx.work.ctr = s.ctr := fun k => rfl
    cases h1 : getStr s.collToId c with
    | some i =>
      exact .inr ⟨0, .inl rfl, ⟨fun k _ => by simp only [execFull, addCollectionF, hg, h1]; exact ⟨trivial, rfl⟩, nofun, nofun⟩⟩
    | none =>
      have key : ∀ id, (∀ k, execFull ok (some k) s (.addCollection c) =
          (match writeSteps [fun w => { w with ctr := some id }, fun w => { w with collToId := putStr w.collToId c id },
              fun w => { w with idToColl := w.idToColl.insert id c }] ⟨Tx.begin s, some k, false⟩ with
            | (none, t) => (.panic, t)
            | (some _, t) => (.ok (), t.commit ok))) → ∃ W, WriteCount (.addCollection c) W ∧ Answers ok s (.addCollection c) W := by
        intro id h
        obtain ⟨y, m, e⟩ := writeSteps_metered (fun w : Heed => { w with ctr := some id })
          [fun w => { w with collToId := putStr w.collToId c id }, fun w => { w with idToColl := w.idToColl.insert id c }] (Tx.begin s)
        exact ⟨3, .inr rfl, (answers_of h m).2 (.inr e) (by simp)⟩
      cases h2 : s.ctr with
      | none =>
        refine .inr (key 0 fun k => ?_)
        simp only [execFull, addCollectionF, hg, h1, hc, h2]
        show _ = _
        match k with
        | 0 => simp [writeSteps, FStep.andThen, writeStep, openWrite, FTx.begin, write_full]
        | 1 => simp [writeSteps, FStep.andThen, writeStep, openWrite, FTx.begin, write_full, write_left]
        | 2 => simp [writeSteps, FStep.andThen, writeStep, openWrite, FTx.begin, write_full, write_left]
        | k + 3 => simp [writeSteps, FStep.andThen, writeStep, openWrite, FTx.begin, write_left]
      | some n =>
        cases h3 : inc n with
        | none => exact .inl ⟨fun k => by simp [execFull, addCollectionF, hg, h1, hc, h2, h3], 0, by simp [execFull, addCollectionF, hg, h1, hc, h2, h3]; rfl⟩
        | some id =>
          refine .inr (key id fun k => ?_)
          simp only [execFull, addCollectionF, hg, h1, hc, h2, h3]
          match k with
          | 0 => simp [writeSteps, FStep.andThen, writeStep, openWrite, FTx.begin, write_full]
          | 1 => simp [writeSteps, FStep.andThen, writeStep, openWrite, FTx.begin, write_full, write_left]
          | 2 => simp [writeSteps, FStep.andThen, writeStep, openWrite, FTx.begin, write_full, write_left]
          | k + 3 => simp [writeSteps, FStep.andThen, writeStep, openWrite, FTx.begin, write_left]
  | removeCollection c =>
    have hg : ∀ k, FTx.get collToId (FTx.begin (some k) s) c = getStr s.collToId c := fun k => get_eq rfl _ _
    cases h1 : getStr s.collToId c with
    | none => exact .inl ⟨fun k => by simp [execFull, removeCollectionF, hg, h1], 0, by simp [execFull, removeCollectionF, hg, h1]; rfl⟩
    | some id =>
      obtain ⟨y, m, e⟩ := writeSteps_metered (fun w : Heed => { w with collToId := w.collToId.erase c })
        [fun w => { w with idToColl := w.idToColl.erase id }] (Tx.begin s)
      refine .inr ⟨2, rfl, (answers_of (fun k => ?_) m).2 (.inr e) (by simp)⟩
      simp only [execFull, removeCollectionF, hg, h1]
      match k with
      | 0 => simp [writeSteps, FStep.andThen, writeStep, openWrite, FTx.begin, write_full]
      | 1 => simp [writeSteps, FStep.andThen, writeStep, openWrite, FTx.begin, write_full, write_left]
      | k + 2 => simp [writeSteps, FStep.andThen, writeStep, openWrite, FTx.begin, write_left]
  | addTriples c ts =>
    have hg : ∀ k, FTx.get collToId (FTx.begin (some k) s) c = getStr s.collToId c := fun k => get_eq rfl _ _
    have hc : ∀ k, (FTx.begin (some k) s).tx.work.ctr = s.ctr := fun k => rfl
    cases h1 : getStr s.collToId c with
    | none => exact .inl ⟨fun k => by simp [execFull, addTriplesF, hg, h1], 0, by simp [execFull, addTriplesF, hg, h1]; rfl⟩
    | some cid =>
      cases h2 : s.ctr with
      | none => exact .inl ⟨fun k => by simp [execFull, addTriplesF, hg, h1, hc, h2], 0, by simp [execFull, addTriplesF, hg, h1, hc, h2]; rfl⟩
      | some vid =>
        obtain ⟨o, y, W, m, n⟩ := loopStep_metered cid ts.toList vid (Tx.begin s)
        have h : ∀ k, execFull ok (some k) s (.addTriples c ts) = (match loopStep cid ts.toList vid ⟨Tx.begin s, some k, false⟩ with
            | (none, t) => (.panic, t)
            | (some _, t) => (.ok (), t.commit ok)) := by
          intro k
          simp only [execFull, addTriplesF, hg, h1, hc, h2, loopStep]
          rw [show (FTx.begin (some k) s) = (⟨Tx.begin s, some k, false⟩ : FTx) from rfl]
          rcases addTripsLoopF cid ts.toList (⟨Tx.begin s, some k, false⟩, vid) with ⟨b, t, v⟩
          cases b <;> simp
        obtain ⟨a, b⟩ := answers_of h m
        cases o with
        | none => exact .inl (a rfl)
        | some u =>
          obtain ⟨n1, n2, n3⟩ := n (by simp)
          refine .inr ⟨W, ⟨n1, n2⟩, b ?_ (by simp)⟩
          by_cases hl : ts.toList = []
          · left; rw [hl] at n2; simpa using n2
          · exact .inr (n3 hl)
  | removeTriples c ts =>
    have hg : ∀ k, FTx.get collToId (FTx.begin (some k) s) c = getStr s.collToId c := fun k => get_eq rfl _ _
    cases h1 : getStr s.collToId c with
    | none => exact .inl ⟨fun k => by simp [execFull, removeTriplesF, hg, h1], 0, by simp [execFull, removeTriplesF, hg, h1]; rfl⟩
    | some cid =>
      obtain ⟨o, y, W, m, n⟩ := removeStep_metered cid ts.toList (Tx.begin s)
      have h : ∀ k, execFull ok (some k) s (.removeTriples c ts) = (match removeStep cid ts.toList ⟨Tx.begin s, some k, false⟩ with
          | (none, t) => (.panic, t)
          | (some _, t) => (.ok (), t.commit ok)) := by
        intro k
        simp only [execFull, removeTriplesF, hg, h1, removeStep]
        rw [show (FTx.begin (some k) s) = (⟨Tx.begin s, some k, false⟩ : FTx) from rfl]
        rcases removeTripsLoopF cid ts.toList ⟨Tx.begin s, some k, false⟩ with ⟨b, t⟩
        cases b <;> simp
      obtain ⟨a, b⟩ := answers_of h m
      cases o with
      | none => exact .inl (a rfl)
      | some u =>
        obtain ⟨n1, n3⟩ := n (by simp)
        refine .inr ⟨W, n1, b ?_ (by simp)⟩
        by_cases hl : ts.toList = []
        · left; rw [hl] at n1; simpa using n1
        · exact .inr (n3 hl)

/-- A panic stores nothing. -/
theorem execFull_panic (ok : Bool) (left : Option Nat) (s : Heed) (op : Op) (h : (execFull ok left s op).1 = .panic) :
    (execFull ok left s op).2.tx.durable = s := by
  have hs := still_begin left s
  cases op with
  | addCollection c =>
    revert h
    simp only [execFull, addCollectionF]
    split
    · nofun
    · split
      · exact fun _ => rfl
      · rename_i id t e
        have ht : Still s t := by
          split at e
          · split at e
            · cases e; exact still_write hs _
            · cases e
          · cases e; exact still_write hs _
        split
        · exact fun _ => ht.1
        · split
          · exact fun _ => (still_write ht _).1
          · nofun
  | removeCollection c =>
    revert h
    simp only [execFull, removeCollectionF]
    split
    · exact fun _ => rfl
    · split
      · exact fun _ => (still_write hs _).1
      · nofun
  | addTriples c ts =>
    revert h
    simp only [execFull, addTriplesF]
    split
    · exact fun _ => rfl
    · rename_i cid _
      split
      · exact fun _ => rfl
      · rename_i vid _
        have h1 := (addTripsLoopF_spec cid ts.toList (FTx.begin left s) vid hs).1
        split
        · rename_i e; rw [e] at h1; exact fun _ => h1.1
        · nofun
  | removeTriples c ts =>
    revert h
    simp only [execFull, removeTriplesF]
    split
    · exact fun _ => rfl
    · rename_i cid _
      have h1 := (removeTripsLoopF_spec cid ts.toList (FTx.begin left s) hs).1
      split
      · rename_i e; rw [e] at h1; exact fun _ => h1.1
      · nofun

end Heed
end Verif
