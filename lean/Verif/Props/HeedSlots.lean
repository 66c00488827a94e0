import Verif.Proofs.HeedSlots
import Verif.Props.StoreHeed
import Verif.Props.ScriptsCross
/-!
# An LMDB-backed store over an environment with few database slots: C83
-/
namespace Verif
namespace Props
open Spec Eval

/-- C83: on any state that can be found in an environment, an update for which the slots suffice does exactly what it does with plenty; any other
update panics, and nothing is stored at any moment of it. -/
theorem C83_update (n : Nat) (ok : Bool) {s : Heed} (hs : Heed.Reach s) (op : Op) :
    (Heed.Enough n s op → Heed.execSlots n ok s op = Heed.execTx ok s op) ∧
    (¬ Heed.Enough n s op → (Heed.execSlots n ok s op).1 = .panic ∧ (Heed.execSlots n ok s op).2.durable = s ∧
      ∀ d ∈ (Heed.execSlots n ok s op).2.seen, d = s) :=
  ⟨Heed.execSlots_enough n ok hs.good op, fun h => Heed.execSlots_few n ok hs.good op h⟩

/-- C83: the listing needs two slots and reading a collection six; with fewer they panic. -/
theorem C83_read (n : Nat) (ok : Bool) (s : Heed) :
    (Heed.opsSlots n ok).collections s = (if 2 ≤ n then Heed.ops.collections s else .panic) ∧
    ∀ c, (Heed.opsSlots n ok).triples s c = (if 6 ≤ n then Heed.ops.triples s c else .panic) :=
  ⟨Heed.collectionsN_eq n s, fun c => Heed.triplesN_eq n s c⟩

/-- Five slots: the constructor succeeds, collections can be added and listed, a triple can neither be added nor read, and nothing of the attempt stays. -/
example :
    let s := (exec (Heed.opsSlots 5 true) Heed.new (.addCollection (lit "T"))).2
    (exec (Heed.opsSlots 5 true) Heed.new (.addCollection (lit "T"))).1 = .ok () ∧
    (Heed.opsSlots 5 true).collections s = .ok [lit "T"] ∧
    exec (Heed.opsSlots 5 true) s (.addTriples (lit "T") sampleSet) = (.panic, s) ∧
    exec (Heed.opsSlots 5 true) s (.addTriples (lit "T") ∅) = (.ok (), s) ∧
    (Heed.opsSlots 5 true).triples s (lit "T") = .panic ∧
    (Heed.opsSlots 11 true).triples s (lit "T") = .ok ∅ := by decide +kernel

theorem slots_step (n : Nat) {s : Heed} (hs : Heed.Reach s) (op : Op) :
    exec (Heed.opsSlots n true) s op = exec Heed.ops s op ∨ exec (Heed.opsSlots n true) s op = (.panic, s) := by
  obtain ⟨h1, h2⟩ := C83_update n true hs op
  rw [Heed.exec_slots_eq]
  rcases Classical.em (Heed.Enough n s op) with h | h
  · refine .inl ?_
    rw [h1 h]; unfold Heed.ops; rw [Heed.exec_eq]
  · refine .inr ?_
    obtain ⟨a, b, _⟩ := h2 h
    rw [a, b]

theorem reach_exec {s : Heed} (hs : Heed.Reach s) (op : Op) : Heed.Reach (exec Heed.ops s op).2 := by
  unfold Heed.ops; rw [Heed.exec_eq]; exact Heed.Reach.step true op hs

theorem exec_notOk {s : Heed} (hs : Heed.Reach s) (op : Op) (h : (exec Heed.ops s op).1 ≠ .ok ()) : (exec Heed.ops s op).2 = s := by
  unfold Heed.ops at h ⊢; rw [Heed.exec_eq] at h ⊢
  exact (Heed.exec_spec hs.good true op).2.1 h

theorem reportedOk_append (h h' : List Event) : Heed.reportedOk (h ++ h') = Heed.reportedOk h ++ Heed.reportedOk h' := by
  induction h with
  | nil => rfl
  | cons e h ih =>
    rcases e with ⟨op, r⟩
    cases r <;> simp [Heed.reportedOk, ih]

theorem slots_runOps (n : Nat) (l : List Op) : ∀ s, Heed.Reach s →
    (runOps (Heed.opsSlots n true) s l).2 = (runOps Heed.ops s (Heed.reportedOk (runOps (Heed.opsSlots n true) s l).1)).2 ∧
    Heed.Reach (runOps (Heed.opsSlots n true) s l).2 ∧
    ∀ e ∈ (runOps Heed.ops s (Heed.reportedOk (runOps (Heed.opsSlots n true) s l).1)).1, e.2 = .ok () := by
  induction l with
  | nil => intro s hs; exact ⟨rfl, hs, by simp [runOps, Heed.reportedOk]⟩
  | cons op l ih =>
    intro s hs
    simp only [runOps]
    have still : (exec (Heed.opsSlots n true) s op).2 = s → Heed.Reach (exec (Heed.opsSlots n true) s op).2 := fun e => by rw [e]; exact hs
    rcases slots_step n hs op with e | e
    · have hr := reach_exec hs op
      rw [e]
      obtain ⟨i1, i2, i3⟩ := ih _ hr
      rcases e1 : exec Heed.ops s op with ⟨r, s'⟩
      rw [e1] at i1 i2 i3
      dsimp only at i1 i2 i3 ⊢
      cases r with
      | ok u =>
        simp only [Heed.reportedOk, runOps, e1]
        refine ⟨i1, i2, fun e he => ?_⟩
        rcases List.mem_cons.mp he with rfl | he
        · rfl
        · exact i3 e he
      | err m =>
        have := exec_notOk hs op (by rw [e1]; simp)
        rw [e1] at this; dsimp only at this; subst this
        exact ⟨i1, i2, i3⟩
      | panic =>
        have := exec_notOk hs op (by rw [e1]; simp)
        rw [e1] at this; dsimp only at this; subst this
        exact ⟨i1, i2, i3⟩
    · rw [e]
      exact ih s hs

theorem runOps_append (T : TripsOps σ) (l l' : List Op) : ∀ s,
    (runOps T s (l ++ l')).2 = (runOps T (runOps T s l).2 l').2 ∧ (runOps T s (l ++ l')).1 = (runOps T s l).1 ++ (runOps T (runOps T s l).2 l').1 := by
  induction l with
  | nil => intro s; exact ⟨rfl, rfl⟩
  | cons op l ih =>
    intro s
    simp only [List.cons_append, runOps, ih, List.cons_append, and_self]

theorem sessions_spec (ps : List Heed.Session) : ∀ s, Heed.Reach s →
    (Heed.runSessions s ps).2 = (runOps Heed.ops s (Heed.reportedOk (Heed.runSessions s ps).1)).2 ∧
    ∀ e ∈ (runOps Heed.ops s (Heed.reportedOk (Heed.runSessions s ps).1)).1, e.2 = .ok () := by
  induction ps with
  | nil => intro s _; exact ⟨rfl, by simp [runOps, Heed.reportedOk, Heed.runSessions]⟩
  | cons p ps ih =>
    intro s hs
    obtain ⟨h1, h2, h3⟩ := slots_runOps p.1 p.2 s hs
    obtain ⟨i1, i2⟩ := ih _ h2
    simp only [Heed.runSessions]
    rw [reportedOk_append, (runOps_append _ _ _ s).1, (runOps_append _ _ _ s).2, ← h1]
    refine ⟨i1, fun e he => ?_⟩
    rcases List.mem_append.mp he with he | he
    · exact h3 e he
    · exact i2 e he

/-- C83: processes use one environment one after the other, each with its own number of slots.  What is stored in the end is what a store with plenty
of slots stores when it is given just the operations that were reported `Ok`, and such a store reports all of them `Ok`. -/
theorem C83_sessions (ps : List Heed.Session) :
    let r := Heed.runSessions Heed.new ps
    let full := runOps Heed.ops Heed.new (Heed.reportedOk r.1)
    r.2 = full.2 ∧ full.1 = (Heed.reportedOk r.1).map (·, .ok ()) := by
  intro r full
  obtain ⟨h1, h2⟩ := sessions_spec ps Heed.new .new
  refine ⟨h1, ?_⟩
  have ops_of : ∀ (l : List Op) s, (runOps Heed.ops s l).1.map Prod.fst = l := by
    intro l
    induction l with
    | nil => intro s; rfl
    | cons op l ih => intro s; simp only [runOps, List.map_cons, ih]
  have key : ∀ (h : List Event), (∀ e ∈ h, e.2 = .ok ()) → h = (h.map Prod.fst).map (·, .ok ()) := by
    intro h hh
    induction h with
    | nil => rfl
    | cons e h ih =>
      rw [List.map_cons, List.map_cons, ← ih (fun e he => hh e (by simp [he]))]
      congr 1
      have := hh e (by simp)
      rw [← this]
  have := key full.1 h2
  rw [ops_of] at this
  exact this

theorem worldAfter_reportedOk (h : List Event) : ∀ w, h.foldl (applyEvent false) w =
    ((Heed.reportedOk h).map (·, Res.ok ())).foldl (applyEvent false) w := by
  induction h with
  | nil => intro w; rfl
  | cons e h ih =>
    intro w
    rcases e with ⟨op, r⟩
    cases r with
    | ok u => simp only [List.foldl_cons, Heed.reportedOk, List.map_cons]; exact ih _
    | err m => simp only [List.foldl_cons, Heed.reportedOk]; exact ih _
    | panic => simp only [List.foldl_cons, Heed.reportedOk]; exact ih _

theorem reportedOk_mem {h : List Event} {op : Op} (hm : op ∈ Heed.reportedOk h) : (op, .ok ()) ∈ h := by
  induction h with
  | nil => cases hm
  | cons e h ih =>
    rcases e with ⟨op', r⟩
    cases r with
    | ok u =>
      rcases List.mem_cons.mp hm with rfl | hm
      · exact .head _
      · exact .tail _ (ih hm)
    | err m => exact .tail _ (ih hm)
    | panic => exact .tail _ (ih hm)

/-- C83: so the contents are those of a map from names to sets after the acknowledged updates, whatever the numbers of slots were. -/
theorem C83_contents (ps : List Heed.Session) (hl : ∀ e ∈ (Heed.runSessions Heed.new ps).1, Heed.LegalOp e.1) :
    Agrees Heed.ops (Heed.runSessions Heed.new ps).2 (worldAfter false (Heed.runSessions Heed.new ps).1) := by
  obtain ⟨h1, h2⟩ := C83_sessions ps
  have := C39_heed_refines_map (Heed.reportedOk (Heed.runSessions Heed.new ps).1) (fun op hop => hl _ (reportedOk_mem hop))
  rw [← h1, h2] at this
  unfold worldAfter at this ⊢
  rw [worldAfter_reportedOk]
  exact this

/-- Three processes: with three slots, with all eleven, and with four. -/
def threeSessions : List Heed.Session :=
  [(3, [.addCollection (lit "T"), .addTriples (lit "T") sampleSet]),
   (11, [.addTriples (lit "T") (BSet.ofList [sampleTrip]), .addCollection (lit "S")]),
   (4, [.addTriples (lit "T") sampleSet, .removeTriples (lit "T") (BSet.ofList [sampleTrip]), .removeCollection (lit "S")])]

example :
    (Heed.runSessions Heed.new threeSessions).1.map Prod.snd = [.ok (), .panic, .ok (), .ok (), .panic, .panic, .ok ()] ∧
    Heed.ops.collections (Heed.runSessions Heed.new threeSessions).2 = .ok [lit "T"] ∧
    Heed.ops.triples (Heed.runSessions Heed.new threeSessions).2 (lit "T") = .ok (BSet.ofList [sampleTrip]) := by decide +kernel

example : ∀ e ∈ (Heed.runSessions Heed.new threeSessions).1, Heed.LegalOp e.1 := by
  have ops : (Heed.runSessions Heed.new threeSessions).1.map Prod.fst =
      [.addCollection (lit "T"), .addTriples (lit "T") sampleSet, .addTriples (lit "T") (BSet.ofList [sampleTrip]), .addCollection (lit "S"),
       .addTriples (lit "T") sampleSet, .removeTriples (lit "T") (BSet.ofList [sampleTrip]), .removeCollection (lit "S")] := rfl
  intro e he
  have := (List.mem_map_of_mem (f := Prod.fst) he)
  rw [ops] at this
  simp only [List.mem_cons, List.not_mem_nil, or_false] at this
  rcases this with h | h | h | h | h | h | h <;> rw [h] <;> simp only [Heed.LegalOp] <;> decide

/-- C83: a script on a graph over the store either panics or does exactly what it does with plenty of slots. -/
theorem C83_script (n : Nat) (script : Str) {s : Heed} (hs : Heed.Reach s)
    (hp : (run (Graph.ops (Heed.opsSlots n true)) common script s).1 ≠ .panic) :
    run (Graph.ops (Heed.opsSlots n true)) common script s = run (Graph.ops Heed.ops) common script s := by
  have sim : LigSim (fun s t => s = t ∧ Heed.Reach s) (Graph.ops (Heed.opsSlots n true)) (Graph.ops Heed.ops) := by
    refine ⟨?_, ?_, ?_, ?_⟩
    · rintro s _ c ⟨rfl, _⟩ h
      have e := (C83_read n true s).2 c.text
      simp only [Graph.ops, Graph.entries, e] at h ⊢
      split at h
      · rename_i h6; rw [if_pos h6]
      · exact absurd rfl h
    · rintro s _ c p ⟨rfl, _⟩ h
      exact absurd rfl h
    · rintro s _ c ⟨rfl, hr⟩ h
      have e := slots_step n hr (.addCollection c.text)
      simp only [exec] at e
      have g : ∀ T : TripsOps Heed, (Graph.ops T).addCollection s c = ((T.addCollection s c.text).1.errTodo, (T.addCollection s c.text).2) := fun _ => rfl
      rw [g] at h
      rw [g, g]
      rcases e with e | e
      · rw [e]; exact ⟨rfl, rfl, reach_exec hr (.addCollection c.text)⟩
      · rw [e] at h; exact absurd rfl h
    · rintro s _ c es ⟨rfl, hr⟩ h
      have e := slots_step n hr (.addTriples c.text (es.map Graph.entryToTrip))
      have r := reach_exec hr (.addTriples c.text (es.map Graph.entryToTrip))
      simp only [exec, Prod.mk.injEq] at e
      have g : ∀ T : TripsOps Heed, (Graph.ops T).addEntries s c es = ((T.addTriples s c.text (es.map Graph.entryToTrip)).1.errTodo,
        (T.addTriples s c.text (es.map Graph.entryToTrip)).2.1, es) := fun _ => rfl
      rw [g] at h
      rw [g, g]
      rcases e with ⟨e1, e2⟩ | ⟨e1, e2⟩
      · rw [e1, e2]; exact ⟨rfl, rfl, r⟩
      · rw [e1] at h; exact absurd rfl h
  obtain ⟨h1, h2, _⟩ := C58_simulation _ _ _ sim script s s ⟨rfl, hs⟩ hp
  exact Prod.ext h1 h2

/-- With six slots an empty network can be stored and read, but no other. -/
example :
    (run (Graph.ops (Heed.opsSlots 6 true)) common (lit "let T {}, read T") Heed.new).1 = .ok emptyNet ∧
    (run (Graph.ops (Heed.opsSlots 6 true)) common (lit "let T {a r b}, read T") Heed.new).1 = .panic := by decide +kernel

end Props
end Verif
