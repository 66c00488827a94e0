import Verif.Spec.Faulty
import Verif.Props.ScriptCrash
import Verif.Props.HeedFull
/-!
# C81: scripts on an LMDB-backed store that runs out of room, or whose commits fail
-/
namespace Verif
namespace Props
open Spec Eval

theorem execFull_steps {s : Heed} (hg : Heed.Good s) (f : Fault) (op : Op) :
    ((Heed.execFull f.1 f.2 s op).2.tx.durable = s ∨ (Heed.execFull f.1 f.2 s op).2.tx.durable = (exec Heed.ops s op).2) ∧
    ∀ d ∈ (Heed.execFull f.1 f.2 s op).2.tx.seen, d = s ∨ d = (Heed.execFull f.1 f.2 s op).2.tx.durable := by
  obtain ⟨ok, left⟩ := f
  obtain ⟨h1, h2⟩ := C68_all_or_nothing ok left s op
  refine ⟨?_, h2⟩
  rcases h1 with ⟨_, h⟩ | ⟨h, _⟩
  · cases ok with
    | true => exact .inr (by rw [exec_heed]; exact h)
    | false => exact .inl (h.trans ((Heed.exec_spec hg false op).2.2.1 rfl))
  · exact .inl h

theorem exec_faulty (s : Faulty) (op : Op) : exec faultyOps s op = s.update op := by cases op <;> rfl

/-- Where a run can have come to: the state is the work of some of the operations, and so is every state recorded. -/
structure Reached (s : Heed) (ops : List Op) (t : Faulty) : Prop where
  stored : ∃ os, List.Sublist os ops ∧ t.stored = (runOps Heed.ops s os).2
  seen : ∀ d ∈ t.seen, ∃ os, List.Sublist os ops ∧ d = (runOps Heed.ops s os).2

theorem Reached.mono {s : Heed} {ops more : List Op} {t : Faulty} (h : Reached s ops t) : Reached s (ops ++ more) t where
  stored := by obtain ⟨os, h1, h2⟩ := h.stored; exact ⟨os, h1.trans (List.sublist_append_left _ _), h2⟩
  seen d hd := by obtain ⟨os, h1, h2⟩ := h.seen d hd; exact ⟨os, h1.trans (List.sublist_append_left _ _), h2⟩

theorem Reached.step {s : Heed} (hg : Heed.Good s) {ops : List Op} {t : Faulty} (h : Reached s ops t) (op : Op) :
    Reached s (ops ++ [op]) (exec faultyOps t op).2 := by
  obtain ⟨os, h1, h2⟩ := h.stored
  have hgt : Heed.Good t.stored := by rw [h2]; exact Heed.good_runOps os s hg
  rw [exec_faulty]
  obtain ⟨a1, a2⟩ := execFull_steps hgt (t.faults.headD noFault) op
  have st : ∃ os, List.Sublist os (ops ++ [op]) ∧ (t.update op).2.stored = (runOps Heed.ops s os).2 := by
    rcases a1 with a | a
    · exact ⟨os, h1.trans (List.sublist_append_left _ _), a.trans h2⟩
    · refine ⟨os ++ [op], List.Sublist.append h1 (List.Sublist.refl _), a.trans ?_⟩
      rw [runOps_append, h2]; rfl
  refine ⟨st, fun d hd => ?_⟩
  rcases List.mem_append.mp hd with hd | hd
  · obtain ⟨os, h1, h2⟩ := h.seen d hd
    exact ⟨os, h1.trans (List.sublist_append_left _ _), h2⟩
  · rcases a2 d hd with rfl | rfl
    · exact ⟨os, h1.trans (List.sublist_append_left _ _), h2⟩
    · exact st

theorem Reached.let_ {s : Heed} (hg : Heed.Good s) {ops : List Op} {t : Faulty} (h : Reached s ops t) (w : Element × Network) :
    Reached s (ops ++ letOps [w]) (afterLet (Graph.ops faultyOps) t w) := by
  rw [afterLet_eq, letStore_graph]
  have a := h.step hg (.addCollection w.1.text)
  rcases e1 : exec faultyOps t (.addCollection w.1.text) with ⟨r, t1⟩
  rw [e1] at a
  have e : ops ++ letOps [w] = (ops ++ [.addCollection w.1.text]) ++ [.addTriples w.1.text (w.2.map Graph.entryToTrip)] := by simp [letOps]
  rw [e]
  cases r with
  | ok u =>
    have b := a.step hg (.addTriples w.1.text (w.2.map Graph.entryToTrip))
    simp only at b ⊢
    rcases e2 : exec faultyOps t1 (.addTriples w.1.text (w.2.map Graph.entryToTrip)) with ⟨r2, t2⟩
    rw [e2] at b
    cases r2 <;> exact b
  | err m => exact a.mono
  | panic => exact a.mono

theorem Reached.lets {s : Heed} (hg : Heed.Good s) (ws : List (Element × Network)) : ∀ {ops : List Op} {t : Faulty}, Reached s ops t →
    Reached s (ops ++ letOps ws) (afterLets (Graph.ops faultyOps) t ws) := by
  induction ws with
  | nil => intro ops t h; simpa [letOps, afterLets] using h
  | cons w ws ih =>
    intro ops t h
    have := ih (h.let_ hg w)
    rwa [List.append_assoc, show letOps [w] ++ letOps ws = letOps (w :: ws) by simp [letOps]] at this

theorem found_reached {s : Heed} {ops : List Op} {t : Faulty} (h : Reached s ops t) {d : Heed} (hd : d ∈ t.seen ∨ d = t.stored) :
    ∃ os, List.Sublist os ops ∧ d = (runOps Heed.ops s os).2 := by
  rcases hd with hd | rfl
  · exact h.seen d hd
  · exact h.stored

/-- C81: whatever faults strike while a script runs on a reachable LMDB-backed store, and whenever the process ends: what is found is what some of the
store operations of the script's lets, in order and without fault, leave (so it is again a state that operations alone can lead to, and everything
proved of those holds of it). -/
theorem C81_found_states (l : List Op) (calls : List Call) (faults : List Fault) :
    let s := (runOps Heed.ops Heed.new l).2
    ∃ ws : List (Element × Network), (∀ w ∈ ws, ∃ c ∈ calls, CallLets w.1 c) ∧
      ∀ d, FoundAfter calls s faults d → ∃ ops, List.Sublist ops (letOps ws) ∧ d = (runOps Heed.ops s ops).2 ∧ d = (runOps Heed.ops Heed.new (l ++ ops)).2 := by
  intro s
  obtain ⟨ws, h1, h2⟩ := C60_effect_is_lets (Graph.ops faultyOps) calls ⟨s, faults, []⟩
  refine ⟨ws, h1, fun d hd => ?_⟩
  have hr := Reached.lets (heed_good l) ws (ops := []) (t := ⟨s, faults, []⟩) ⟨⟨[], List.Sublist.refl _, rfl⟩, by simp⟩
  rw [List.nil_append] at hr
  obtain ⟨os, a, b⟩ := found_reached hr (d := d) (by rw [← h2]; exact hd)
  exact ⟨os, a, b, by rw [b, runOps_append]⟩

/-- C81: so nothing stored before is lost: every collection is still there with all its triples. -/
theorem C81_nothing_lost (l : List Op) (calls : List Call) (faults : List Fault) (d : Heed) :
    let s := (runOps Heed.ops Heed.new l).2
    FoundAfter calls s faults d → KeepsAll s d := by
  intro s hd
  obtain ⟨ws, _, h⟩ := C81_found_states l calls faults
  obtain ⟨ops, h1, h2, _⟩ := h d hd
  rw [h2]
  have adds : ∀ op ∈ ops, (∃ c, op = Op.addCollection c) ∨ ∃ c ts, op = Op.addTriples c ts := by
    intro op hop
    have := h1.subset hop
    simp only [letOps, List.mem_flatMap, List.mem_cons, List.not_mem_nil, or_false] at this
    obtain ⟨w, _, rfl | rfl⟩ := this
    · exact .inl ⟨_, rfl⟩
    · exact .inr ⟨_, _, rfl⟩
  have key : ∀ (ops : List Op) (t : Heed), Heed.Good t → KeepsAll s t → (∀ op ∈ ops, (∃ c, op = Op.addCollection c) ∨ ∃ c ts, op = Op.addTriples c ts) →
      KeepsAll s (runOps Heed.ops t ops).2 := by
    intro ops
    induction ops with
    | nil => intro t _ h _; exact h
    | cons op ops ih =>
      intro t hg h ha
      exact ih _ (Heed.good_exec hg true op) (keepsAll_step hg op (ha op (by simp)) h) (fun o ho => ha o (by simp [ho]))
  exact key ops s (heed_good l) (fun c ts h => ⟨ts, h, fun _ h => h⟩) adds

/-! ## Without faults -/

theorem faulty_rel : LigRel (fun (a : Faulty) (t : Heed) => a.faults = [] ∧ a.stored = t) (Graph.ops faultyOps) (Graph.ops Heed.ops) := by
  have key : ∀ (a : Faulty) (op : Op), a.faults = [] → (a.update op).1 = (exec Heed.ops a.stored op).1 ∧ (a.update op).2.faults = [] ∧
      (a.update op).2.stored = (exec Heed.ops a.stored op).2 := by
    intro a op h
    obtain ⟨h1, h2⟩ := C68_unlimited true a.stored op
    rw [exec_heed]
    simp only [Faulty.update, h, List.headD_nil, noFault]
    exact ⟨h1, rfl, h2⟩
  refine ⟨?_, ?_, ?_, ?_, ?_, ?_, ?_⟩
  · rintro a t ⟨_, rfl⟩; rfl
  · rintro a t c ⟨_, rfl⟩; rfl
  · rintro a t c p ⟨_, rfl⟩; rfl
  · rintro a t c ⟨h, rfl⟩
    have := key a (.addCollection c.text) h
    simp only [exec] at this
    simp only [Graph.ops, Graph.addCollection, faultyOps]
    exact ⟨by rw [this.1], this.2.1, this.2.2⟩
  · rintro a t c ⟨h, rfl⟩
    have := key a (.removeCollection c.text) h
    simp only [exec] at this
    simp only [Graph.ops, Graph.removeCollection, faultyOps]
    exact ⟨by rw [this.1], this.2.1, this.2.2⟩
  · rintro a t c es ⟨h, rfl⟩
    have := key a (.addTriples c.text (es.map Graph.entryToTrip)) h
    simp only [exec] at this
    simp only [Graph.ops, Graph.addEntries, faultyOps]
    exact ⟨by rw [this.1], this.2.1, this.2.2⟩
  · rintro a t c es ⟨h, rfl⟩
    have := key a (.removeTriples c.text (es.map Graph.entryToTrip)) h
    simp only [exec] at this
    simp only [Graph.ops, Graph.removeEntries, faultyOps]
    exact ⟨by rw [this.1], this.2.1, this.2.2⟩

/-- C81: the store with faults is the store when there are none: every list of calls has the same result and leaves the same stored state. -/
theorem C81_no_faults (calls : List Call) (s : Heed) :
    (runFaulty calls s []).1 = (runCalls (Graph.ops Heed.ops) common calls s).1 ∧
    (runFaulty calls s []).2.stored = (runCalls (Graph.ops Heed.ops) common calls s).2 := by
  obtain ⟨h1, h2⟩ := C26_parametric_calls _ _ _ faulty_rel _ _ (C26_standard_table _) calls ⟨s, [], []⟩ s ⟨rfl, rfl⟩
  exact ⟨h1, h2.2⟩

/-! ## What an acknowledged `let` means -/

theorem addTriplesF_ok {s : Heed} {ok : Bool} {left : Option Nat} {c : Str} {ts : BSet Trip}
    (h : (Heed.execFull ok left s (.addTriples c ts)).1 = .ok ()) : (s.collToId.get? c).isSome ∧ Heed.lmdbKey c = true := by
  simp only [Heed.execFull, Heed.addTriplesF] at h
  split at h
  · cases h
  · rename_i cid hc
    have : Heed.getStr s.collToId c = some cid := hc
    unfold Heed.getStr at this
    split at this
    · rename_i hk
      exact ⟨by rw [this]; rfl, by rw [← Heed.legalKey_eq]; exact hk⟩
    · cases this

theorem update_cases {t : Faulty} (hg : Heed.Good t.stored) (op : Op) :
    (t.update op).2.stored = t.stored ∨
    ((t.update op).2.stored = (exec Heed.ops t.stored op).2 ∧ (exec Heed.ops t.stored op).1 = .ok ()) := by
  rcases (execFull_steps hg (t.faults.headD noFault) op).1 with h | h
  · exact .inl h
  · by_cases hr : (exec Heed.ops t.stored op).1 = .ok ()
    · exact .inr ⟨h, hr⟩
    · refine .inl (h.trans ?_)
      rw [exec_heed] at hr ⊢
      exact (Heed.exec_spec hg true op).2.1 hr

/-- C81: when `let name network` succeeds on a reachable store, whatever faults struck: the collection is there, and it holds either what it held
before (nothing, if it was new) or that and all of the network; every other collection is as it was. -/
theorem C81_let_ok (l : List Op) (faults : List Fault) (name : Element) (n : Network) (v : Value) :
    let s := (runOps Heed.ops Heed.new l).2
    let r := runFaulty [call "let" [.element name, .network n]] s faults
    r.1 = .ok v →
    Listed Heed.ops r.2.stored name.text ∧
    (∃ E : BSet Trip, (Heed.ops.triples s name.text = .ok E ∨ (¬ Listed Heed.ops s name.text ∧ E = ∅)) ∧
      (Heed.ops.triples r.2.stored name.text = .ok E ∨ Heed.ops.triples r.2.stored name.text = .ok (E.union (n.map Graph.entryToTrip)))) ∧
    (∀ d, d ≠ name.text → (Listed Heed.ops r.2.stored d ↔ Listed Heed.ops s d) ∧ Heed.ops.triples r.2.stored d = Heed.ops.triples s d) := by
  intro s r hr
  have hg : Heed.Good s := heed_good l
  have er : r = letStore (Graph.ops faultyOps) name n ⟨s, faults, []⟩ := common_let _ _ _ _
  rw [er] at hr ⊢
  rw [letStore_graph, exec_faulty] at hr ⊢
  rcases e1 : Faulty.update ⟨s, faults, []⟩ (.addCollection name.text) with ⟨a, t1⟩
  have u1 := update_cases (t := ⟨s, faults, []⟩) hg (.addCollection name.text)
  rw [e1] at hr u1
  cases a with
  | err m => cases hr
  | panic => cases hr
  | ok u =>
  simp only at hr u1 ⊢
  rw [exec_faulty] at hr ⊢
  have g1 : Heed.Good t1.stored := by
    rcases u1 with h | ⟨h, _⟩
    · rw [h]; exact hg
    · rw [h]; exact Heed.good_exec hg true _
  have u2 := update_cases g1 (.addTriples name.text (n.map Graph.entryToTrip))
  rcases e2 : Faulty.update t1 (.addTriples name.text (n.map Graph.entryToTrip)) with ⟨b, t2⟩
  rw [e2] at hr u2
  cases b with
  | err m => cases hr
  | panic => cases hr
  | ok u' =>
  simp only at u2 ⊢
  have hl1 := addTriplesF_ok (s := t1.stored) (congrArg Prod.fst e2)
  obtain ⟨hl1, hk⟩ := hl1
  have hl1 := (heed_listed' g1 _).mpr hl1
  have g2 : Heed.Good t2.stored := by
    rcases u2 with h | ⟨h, _⟩
    · rw [h]; exact g1
    · rw [h]; exact Heed.good_exec g1 true _
  -- the contents after the first update
  have h1 : ∃ E : BSet Trip, (Heed.ops.triples s name.text = .ok E ∨ (¬ Listed Heed.ops s name.text ∧ E = ∅)) ∧
      Heed.ops.triples t1.stored name.text = .ok E := by
    obtain ⟨p, hp⟩ := Option.isSome_iff_exists.mp ((heed_listed g1 _).mp hl1)
    obtain ⟨E, hE, hmem⟩ := (heed_agrees g1).2 _ _ hp
    refine ⟨E, ?_, hE⟩
    rcases u1 with h | ⟨h, hok⟩
    · rw [h] at hE; exact .inl hE
    · by_cases hl : Listed Heed.ops s name.text
      · rw [h, heed_addCollection_listed hg _ hl] at hE; exact .inl hE
      · refine .inr ⟨hl, ?_⟩
        have hw := Heed.worldOf_exec hg (.addCollection name.text) hk
        rw [← h, hok] at hw
        have hn : Heed.worldOf s name.text = none := by rw [← Option.not_isSome_iff_eq_none, ← heed_listed hg]; exact hl
        rw [hw] at hp
        simp only [applyEvent, apply, hn, World.set, if_true, Option.some.injEq] at hp
        apply BSet.ext; intro x
        rw [hmem, ← hp]; simp
  obtain ⟨E, hE0, hE1⟩ := h1
  have h2 : Listed Heed.ops t2.stored name.text ∧
      (Heed.ops.triples t2.stored name.text = .ok E ∨ Heed.ops.triples t2.stored name.text = .ok (E.union (n.map Graph.entryToTrip))) := by
    rcases u2 with h | ⟨h, hok⟩
    · rw [h]; exact ⟨hl1, .inl hE1⟩
    · obtain ⟨p, hp⟩ := Option.isSome_iff_exists.mp ((heed_listed g1 _).mp hl1)
      have hw := Heed.worldOf_exec g1 (.addTriples name.text (n.map Graph.entryToTrip)) trivial
      rw [← h, hok] at hw
      have hw2 : Heed.worldOf t2.stored name.text = some (fun x => p x ∨ x ∈ n.map Graph.entryToTrip) := by
        rw [hw]; simp [applyEvent, apply, hp]
      refine ⟨(heed_listed g2 _).mpr (by rw [hw2]; rfl), .inr ?_⟩
      obtain ⟨E', hE', hm⟩ := (heed_agrees g1).2 _ _ hp
      rw [hE1] at hE'; cases hE'
      obtain ⟨F, hF, hm2⟩ := (heed_agrees g2).2 _ _ hw2
      rw [hF]
      congr 1
      apply BSet.ext; intro x
      rw [hm2, BSet.mem_union, hm]
  refine ⟨h2.1, ⟨E, hE0, h2.2⟩, ?_⟩
  intro d hd
  have i1 : (Listed Heed.ops t1.stored d ↔ Listed Heed.ops s d) ∧ Heed.ops.triples t1.stored d = Heed.ops.triples s d := by
    rcases u1 with h | ⟨h, _⟩
    · rw [h]; exact ⟨Iff.rfl, rfl⟩
    · rw [h]; have := heed_refines.isolated hg (.addCollection name.text) d hd; exact ⟨this.2, this.1⟩
  have i2 : (Listed Heed.ops t2.stored d ↔ Listed Heed.ops t1.stored d) ∧ Heed.ops.triples t2.stored d = Heed.ops.triples t1.stored d := by
    rcases u2 with h | ⟨h, _⟩
    · rw [h]; exact ⟨Iff.rfl, rfl⟩
    · rw [h]; have := heed_refines.isolated g1 (.addTriples name.text (n.map Graph.entryToTrip)) d hd; exact ⟨this.2, this.1⟩
  exact ⟨i2.1.trans i1.1, i2.2.trans i1.2⟩

/-- C81: `Ok` is no promise here either.  On every reachable store, for every new legal name, with identifiers enough: if only the second commit fails, `let`
succeeds all the same, and the collection is there with nothing in it. -/
theorem C81_ok_not_stored (l : List Op) (name : Element) (n : Network) (hc : ¬ Listed Heed.ops (runOps Heed.ops Heed.new l).2 name.text)
    (hk : Heed.lmdbKey name.text = true) (hr : costOf l + 1 + 3 * n.toList.length ≤ 2 ^ 64) :
    let r := runFaulty [call "let" [.element name, .network n]] (runOps Heed.ops Heed.new l).2 [(true, none), (false, none)]
    r.1 = .ok (.network ∅) ∧ Listed Heed.ops r.2.stored name.text ∧ Heed.ops.triples r.2.stored name.text = .ok ∅ := by
  have hg := heed_good l
  have hroom : Heed.Room (runOps Heed.ops Heed.new l).2 (1 + 3 * n.toList.length) :=
    Heed.room_runOps l Heed.new _ Heed.good_new (by simp only [Heed.Room, Heed.used, Heed.new]; omega)
  generalize (runOps Heed.ops Heed.new l).2 = s at *
  intro r
  have er : r = letStore (Graph.ops faultyOps) name n ⟨s, [(true, none), (false, none)], []⟩ := common_let _ _ _ _
  rw [er, letStore_graph, exec_faulty]
  have hle := length_map_le Graph.entryToTrip n
  have g1 := Heed.good_exec hg true (.addCollection name.text)
  change Heed.Good (exec Heed.ops s _).2 at g1
  have ok1 : (exec Heed.ops s (.addCollection name.text)).1 = .ok () := by
    rw [exec_heed]; exact Heed.outcome_addCollection hg true _ (by unfold Heed.Room at *; omega)
  have r1 : Heed.Room (exec Heed.ops s (.addCollection name.text)).2 (3 * n.toList.length) :=
    Heed.room_exec hg (.addCollection name.text) _ (by simpa only [Op.cost] using hroom)
  have w1 := Heed.worldOf_exec hg (.addCollection name.text) hk
  have hn : Heed.worldOf s name.text = none := by rw [← Option.not_isSome_iff_eq_none, ← heed_listed hg]; exact hc
  have hw : Heed.worldOf (exec Heed.ops s (.addCollection name.text)).2 name.text = some fun _ => False := by
    rw [w1, ok1]; simp [applyEvent, apply, hn, World.set]
  have e1 : Faulty.update ⟨s, [(true, none), (false, none)], []⟩ (.addCollection name.text) =
      (.ok (), ⟨(exec Heed.ops s (.addCollection name.text)).2, [(false, none)],
        (Heed.execFull true none s (.addCollection name.text)).2.tx.seen⟩) := by
    obtain ⟨h1, h2⟩ := C68_unlimited true s (.addCollection name.text)
    rw [exec_heed] at ok1 ⊢
    simp only at ok1
    simp only [Faulty.update, List.headD_cons, List.tail_cons, List.nil_append, h1, h2, ok1]
  rw [e1]
  simp only
  rw [exec_faulty]
  generalize (exec Heed.ops s (.addCollection name.text)).2 = s1 at *
  have ok2 : (Heed.execTx false s1 (.addTriples name.text (n.map Graph.entryToTrip))).1 = .ok () := by
    rw [Heed.outcome_addTriples g1 false _ _ (by unfold Heed.Room at *; omega), hw]; rfl
  obtain ⟨h1, h2⟩ := C68_unlimited false s1 (.addTriples name.text (n.map Graph.entryToTrip))
  have h3 := (Heed.exec_spec g1 false (.addTriples name.text (n.map Graph.entryToTrip))).2.2.1 rfl
  simp only [Faulty.update, List.headD_cons, h1, h2, h3, ok2]
  refine ⟨rfl, (heed_listed g1 _).mpr (by rw [hw]; rfl), ?_⟩
  obtain ⟨E, hE, hm⟩ := (heed_agrees g1).2 _ _ hw
  rw [hE]
  congr 1
  apply BSet.ext; intro x; rw [hm]; simp

/-- The hypotheses hold after `sampleOps` for a name not used there and a network of two entries. -/
example : ¬ Listed Heed.ops (runOps Heed.ops Heed.new sampleOps).2 (Element.of (lit "new")).text ∧ Heed.lmdbKey (Element.of (lit "new")).text = true ∧
    costOf sampleOps + 1 + 3 * (BSet.ofList [Entry.ext (.of (lit "x")) (.of (lit "y")), .ext (.of (lit "u")) (.of (lit "v"))]).toList.length ≤ 2 ^ 64 := by
  refine ⟨?_, by decide, by decide +kernel⟩
  rw [heed_listed' (heed_good _)]; decide +kernel

/-- C81: a script can find out.  Whatever faults strike, if a script that ends with `assert-equal (read c) N` succeeds, then `N` is what is stored under `c`
when it ends (and what a later process reads there). -/
theorem C81_verified (calls : List Call) (c : Element) (N : Network) (s : Heed) (faults : List Fault) (v : Value) :
    let r := runFaulty (calls ++ [call "assert-equal" [.quote [.element (.of (lit "read")), .element c], .network N]]) s faults
    r.1 = .ok v → (Graph.ops Heed.ops).entries r.2.stored c = .ok N ∧
      (runCalls (Graph.ops Heed.ops) common [call "read" [.element c]] r.2.stored).1 = .ok (.network N) := by
  intro r hr
  have er := runCalls_append (L := Graph.ops faultyOps) (cmds := common) calls
    [call "assert-equal" [.quote [.element (.of (lit "read")), .element c], .network N]] ⟨s, faults, []⟩
  change r = _ at er
  rw [er] at hr ⊢
  rcases h1 : runCalls (Graph.ops faultyOps) common calls ⟨s, faults, []⟩ with ⟨a, t⟩
  rw [h1] at hr
  cases a with
  | err m => cases hr
  | panic => cases hr
  | ok w =>
  simp only [List.cons_ne_nil, if_false] at hr ⊢
  rcases h2 : runCalls (Graph.ops faultyOps) common [call "assert-equal" [.quote [.element (.of (lit "read")), .element c], .network N]] t with ⟨b, t2⟩
  rw [h2] at hr
  simp only at hr
  subst hr
  obtain ⟨_, x, t1, h3, h4⟩ := (C23_assert_equal_iff _ _ _ _ _ _).mp h2
  simp only [argValue] at h3 h4
  rw [show (⟨Element.of (lit "read"), [Value.element c]⟩ : Call) = call "read" [.element c] from rfl, common_read] at h3
  simp only [Prod.mk.injEq, Res.ok.injEq] at h3 h4
  obtain ⟨h3, rfl⟩ := h3
  obtain ⟨rfl, rfl⟩ := h4
  rw [common_read]
  have e : Eval.read (Graph.ops Heed.ops) [.element c] t.stored = Eval.read (Graph.ops faultyOps) [.element c] t := rfl
  refine ⟨?_, by rw [← h3]; rfl⟩
  rw [← e] at h3
  simp only [Eval.read] at h3
  rcases h5 : (Graph.ops Heed.ops).entries t.stored c with m | m | _ <;> rw [h5] at h3 <;> simp_all

/-! ## Running the script again -/

/-- The world lies between `w` and the world after the lets. -/
structure Between (ws : List (Element × Network)) (w v : World) : Prop where
  kept : ∀ c, w c ≠ none → v c ≠ none
  only : ∀ c, v c ≠ none → w c ≠ none ∨ ∃ x ∈ ws, x.1.text = c
  all : ∀ c p t, w c = some p → p t → ∃ q, v c = some q ∧ q t
  nothing : ∀ c q t, v c = some q → q t → (∃ p, w c = some p ∧ p t) ∨ ∃ x ∈ ws, x.1.text = c ∧ t ∈ x.2.map Graph.entryToTrip

theorem Between.step {ws : List (Element × Network)} {w v : World} (h : Between ws w v) {op : Op} (ho : op ∈ letOps ws) (r : Res Unit) :
    Between ws w (applyEvent false v (op, r)) := by
  cases r with
  | err m => exact h
  | panic => exact h
  | ok u =>
  simp only [letOps, List.mem_flatMap, List.mem_cons, List.not_mem_nil, or_false] at ho
  obtain ⟨x, hx, rfl | rfl⟩ := ho
  · simp only [applyEvent, apply]
    cases hv : v x.1.text with
    | some p => exact h
    | none =>
      refine ⟨?_, ?_, ?_, ?_⟩ <;> intro c <;> by_cases e : c = x.1.text
      · subst e; simp [World.set]
      · simpa [World.set, e] using h.kept c
      · subst e; exact fun _ => .inr ⟨x, hx, rfl⟩
      · simpa [World.set, e] using h.only c
      · subst e
        intro p t hp ht
        obtain ⟨q, hq, _⟩ := h.all _ p t hp ht
        rw [hv] at hq; cases hq
      · simpa [World.set, e] using h.all c
      · subst e; intro q t hq ht; simp [World.set] at hq; subst hq; exact ht.elim
      · simpa [World.set, e] using h.nothing c
  · simp only [applyEvent, apply]
    cases hv : v x.1.text with
    | none => exact h
    | some p =>
      refine ⟨?_, ?_, ?_, ?_⟩ <;> intro c <;> by_cases e : c = x.1.text
      · subst e; simp [World.set]
      · simpa [World.set, e] using h.kept c
      · subst e; exact fun _ => .inr ⟨x, hx, rfl⟩
      · simpa [World.set, e] using h.only c
      · subst e
        intro p' t hp ht
        obtain ⟨q, hq, hqt⟩ := h.all _ p' t hp ht
        rw [hv] at hq; cases hq
        exact ⟨fun t => p t ∨ t ∈ x.2.map Graph.entryToTrip, by simp [World.set], .inl hqt⟩
      · simpa [World.set, e] using h.all c
      · subst e
        intro q t hq ht
        simp only [World.set, if_true, Option.some.injEq] at hq
        subst hq
        rcases ht with ht | ht
        · exact h.nothing _ p t hv ht
        · exact .inr ⟨x, hx, rfl, ht⟩
      · simpa [World.set, e] using h.nothing c

theorem between_runOps {ws : List (Element × Network)} {w : World} (hk : ∀ x ∈ ws, Heed.lmdbKey x.1.text = true) (ops : List Op) : ∀ {s : Heed}, Heed.Good s →
    Between ws w (Heed.worldOf s) → (∀ op ∈ ops, op ∈ letOps ws) → Between ws w (Heed.worldOf (runOps Heed.ops s ops).2) := by
  induction ops with
  | nil => intro s _ h _; exact h
  | cons op ops ih =>
    intro s hg h ho
    have hop := ho op (by simp)
    have hleg : Heed.LegalOp op := by
      simp only [letOps, List.mem_flatMap, List.mem_cons, List.not_mem_nil, or_false] at hop
      obtain ⟨x, hx, rfl | rfl⟩ := hop
      · exact hk x hx
      · exact trivial
    have := Heed.worldOf_exec hg op hleg
    exact ih (s := (exec Heed.ops s op).2) (Heed.good_exec hg true op) (by rw [this]; exact h.step hop _) (fun o ho' => ho o (by simp [ho']))

theorem costOf_append (a b : List Op) : costOf (a ++ b) = costOf a + costOf b := by simp [costOf]

theorem costOf_sublist {a b : List Op} (h : List.Sublist a b) : costOf a ≤ costOf b := by
  induction h with
  | slnil => exact Nat.le_refl _
  | cons x _ ih => simp only [costOf, List.map_cons, List.sum_cons] at *; omega
  | cons_cons x _ ih => simp only [costOf, List.map_cons, List.sum_cons] at *; omega

theorem costOf_letOps (ws : List (Element × Network)) : costOf (letOps ws) ≤ letsCost ws := by
  induction ws with
  | nil => exact Nat.le_refl _
  | cons x ws ih =>
    have hle := length_map_le Graph.entryToTrip x.2
    have e : letOps (x :: ws) = [.addCollection x.1.text, .addTriples x.1.text (x.2.map Graph.entryToTrip)] ++ letOps ws := rfl
    rw [e, costOf_append]
    simp only [letsCost, List.map_cons, List.sum_cons] at *
    simp only [costOf, List.map_cons, List.sum_cons, Op.cost, List.map_nil, List.sum_nil] at *
    omega

/-- However a list of lets ends, it is the first few of them that were run. -/
theorem lets_prefix {σ : Type u} (L : LigOps σ) (ws : List (Element × Network)) : ∀ (v : Value) (t : σ),
    ∃ k, (runCallsLoop L common (letCalls ws) v t).2 = afterLets L t (ws.take k) := by
  induction ws with
  | nil => intro v t; exact ⟨0, rfl⟩
  | cons x ws ih =>
    intro v t
    have hcall : runCall L common (call "let" [.element x.1, .network x.2]) t = letStore L x.1 x.2 t := by
      rw [← runCalls_single, common_let]
    have e : ∀ k, afterLets L t ((x :: ws).take (k + 1)) = afterLets L (letStore L x.1 x.2 t).2 (ws.take k) := by
      intro k
      show afterLets _ (afterLet _ t x) (ws.take k) = _
      rw [afterLet_eq]
    simp only [letCalls, List.map_cons, runCallsLoop]
    rw [hcall]
    rcases h1 : letStore L x.1 x.2 t with ⟨a, t1⟩
    rw [h1] at e
    cases a with
    | ok res =>
      obtain ⟨k, hk⟩ := ih res t1
      exact ⟨k + 1, by rw [e]; exact hk⟩
    | err m => exact ⟨1, by rw [e]; rfl⟩
    | panic => exact ⟨1, by rw [e]; rfl⟩

theorem letOps_take (ws : List (Element × Network)) (k : Nat) : List.Sublist (letOps (ws.take k)) (letOps ws) := by
  have : letOps ws = letOps (ws.take k) ++ letOps (ws.drop k) := by
    rw [letOps, letOps, letOps, ← List.flatMap_append, List.take_append_drop]
  rw [this]
  exact List.sublist_append_left _ _

/-- C81: and so a script of `let`s that was struck by faults, or cut off among them, can simply be run again.  On every reachable store, for `let`s under legal names with identifiers
enough to run them twice: whatever is found after a run with any faults, running the script again without faults succeeds, and the store then shows the same collections with the same triples
as if the script had run once, without faults. -/
theorem C81_run_again (l : List Op) (ws : List (Element × Network)) (hk : ∀ x ∈ ws, Heed.lmdbKey x.1.text = true)
    (hr : costOf l + 2 * letsCost ws ≤ 2 ^ 64) (faults : List Fault) (d : Heed) :
    let s := (runOps Heed.ops Heed.new l).2
    let once := runCalls (Graph.ops Heed.ops) common (letCalls ws) s
    let again := runCalls (Graph.ops Heed.ops) common (letCalls ws) d
    FoundAfter (letCalls ws) s faults d →
    again.1 = .ok (.network ∅) ∧ SameView Heed.ops again.2 Heed.ops once.2 := by
  intro s once again hd
  have hg : Heed.Good s := heed_good l
  have hroom : Heed.Room s (letsCost ws + letsCost ws) :=
    Heed.room_runOps l Heed.new _ Heed.good_new (by simp only [Heed.Room, Heed.used, Heed.new]; omega)
  obtain ⟨k, hk'⟩ := lets_prefix (Graph.ops faultyOps) ws emptyNet ⟨s, faults, []⟩
  have hreach := Reached.lets hg (ws.take k) (ops := []) (t := ⟨s, faults, []⟩) ⟨⟨[], List.Sublist.refl _, rfl⟩, by simp⟩
  rw [List.nil_append] at hreach
  obtain ⟨os, h1, rfl⟩ := found_reached hreach (d := d) (by rw [← hk']; exact hd)
  have h1 : List.Sublist os (letOps ws) := h1.trans (letOps_take ws k)
  have hcost := Nat.le_trans (costOf_sublist h1) (costOf_letOps ws)
  have gd := Heed.good_runOps os s hg
  have rd : Heed.Room (runOps Heed.ops s os).2 (letsCost ws) := Heed.room_runOps os s _ hg (by unfold Heed.Room at *; omega)
  have hb : Between ws (Heed.worldOf s) (Heed.worldOf (runOps Heed.ops s os).2) :=
    between_runOps hk os hg ⟨fun _ h => h, fun _ h => .inl h, fun _ p _ h h' => ⟨p, h, h'⟩, fun _ q _ h h' => .inl ⟨q, h, h'⟩⟩ (fun o ho => h1.subset ho)
  obtain ⟨a1, a2, a3, a4⟩ := lets_heed ws hg hk hroom emptyNet
  have ho : once = (.ok emptyNet, afterLets (Graph.ops Heed.ops) s ws) := by
    show runCallsLoop _ _ _ _ _ = _
    rw [a1]; simp
  obtain ⟨b1, b2, _, b4⟩ := lets_heed (k := 0) ws gd hk rd emptyNet
  have hag : again = (.ok emptyNet, afterLets (Graph.ops Heed.ops) (runOps Heed.ops s os).2 ws) := by
    show runCallsLoop _ _ _ _ _ = _
    rw [b1]; simp
  refine ⟨by rw [hag]; rfl, ?_⟩
  rw [hag, ho]
  have v1 := heed_agrees b2
  have v2 := heed_agrees a2
  rw [b4, letWorlds_between ws _ _ hb.kept hb.only hb.all hb.nothing, ← a4] at v1
  exact v1.sameView v2

/-- Three lets, the second struck: its collection cannot be written, and it panics, so that the third is not run; then all of them again. -/
example : (∀ x ∈ threeLets, Heed.lmdbKey x.1.text = true) ∧ costOf sampleOps + 2 * letsCost threeLets ≤ 2 ^ 64 ∧
    (let s := (runOps Heed.ops Heed.new sampleOps).2
     let r := runFaulty (letCalls threeLets) s [(true, none), (true, some 9), (true, some 1)]
     r.1 = .panic ∧ FoundAfter (letCalls threeLets) s [(true, none), (true, some 9), (true, some 1)] r.2.stored ∧
     r.2.stored ≠ (runCalls (Graph.ops Heed.ops) common (letCalls threeLets) s).2) := by
  refine ⟨?_, by decide +kernel, ?_, .inr rfl, ?_⟩
  · intro x hx
    simp only [threeLets, List.mem_cons, List.not_mem_nil, or_false] at hx
    rcases hx with rfl | rfl | rfl <;> decide
  · decide +kernel
  · decide +kernel

/-- A script that checks what it stored succeeds when there is room, and fails when the second commit fails. -/
example : let calls := [call "let" [.element (.of (lit "A")), .network (BSet.ofList [.ext (.of (lit "x")) (.of (lit "y"))])]] ++
      [call "assert-equal" [.quote [.element (.of (lit "read")), .element (.of (lit "A"))], .network (BSet.ofList [.ext (.of (lit "x")) (.of (lit "y"))])]]
    (runFaulty calls Heed.new [(true, some 40)]).1 = .ok (.network ∅) ∧
    (runFaulty calls Heed.new [(true, none), (false, none)]).1 =
      .err (lit "Assertion failed, {} != {\"x\" : \"y\"}") := by decide +kernel

end Props
end Verif
