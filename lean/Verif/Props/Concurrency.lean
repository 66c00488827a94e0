import Verif.Proofs.Linear
import Verif.Props.ScriptsCross
/-!
# C69: several handles on one LMDB environment
-/
namespace Verif
namespace Props
open Spec

/-- C69: whatever the schedule of any number of concurrent operations on one LMDB environment (commits may fail, operations may die at any point,
the lock then being released), there is a sequential order that accounts for it: the operations that returned, and some of those that did not,
each taking one turn between its call and its return, give the same answers one by one, and leave the same stored state. -/
theorem C69_linearizable {d : Heed} {s : Heed.Sys} {h : List Heed.Ev} (hr : Heed.Runs d s h) :
    ∃ S, Heed.Accounts h S ∧ Heed.OneByOne d S s.durable := by
  obtain ⟨S, hi⟩ := Heed.linv_runs hr
  exact ⟨S, hi.acc, hi.legal⟩

theorem oneByOne_world {S : List Heed.Turn} {s : Heed} (h : Heed.OneByOne Heed.new S s) (hl : ∀ t ∈ S, Heed.LegalReq t.req) :
    Heed.Good s ∧ Heed.worldOf s = Heed.worldOfTurns S ∧
    ∀ S1 t S2, S = S1 ++ t :: S2 → Heed.Fits (Heed.worldOfTurns S1) t.req t.ans := by
  induction h with
  | nil => exact ⟨Heed.good_new, Heed.worldOf_new, by simp⟩
  | @snoc S s i ok q _ ih =>
    obtain ⟨hg, hw, hf⟩ := ih (fun t ht => hl t (by simp [ht]))
    have ha := heed_agrees hg
    have key : Heed.Good (Heed.alone ok s q).2 ∧ Heed.worldOf (Heed.alone ok s q).2 = Heed.worldOfTurns (S ++ [⟨i, q, ok, (Heed.alone ok s q).1⟩]) ∧
        Heed.Fits (Heed.worldOfTurns S) q (Heed.alone ok s q).1 := by
      have hfold : Heed.worldOfTurns (S ++ [⟨i, q, ok, (Heed.alone ok s q).1⟩]) =
          Heed.turnEffect (Heed.worldOf s) ⟨i, q, ok, (Heed.alone ok s q).1⟩ := by
        rw [hw]; simp only [Heed.worldOfTurns, List.foldl_append, List.foldl_cons, List.foldl_nil]
      rw [hfold, ← hw]
      cases q with
      | collections =>
        refine ⟨hg, by cases ok <;> rfl, ?_⟩
        obtain ⟨l, h1, h2, h3⟩ := ha.1
        exact ⟨l, by show Heed.Ans.names (Heed.collections s) = _; rw [show Heed.collections s = .ok l from h1], h2, h3⟩
      | triples c =>
        refine ⟨hg, by cases ok <;> rfl, ?_⟩
        refine ⟨_, rfl, fun p hp => ?_⟩
        exact ha.2 c p hp
      | update op =>
        obtain ⟨_, h1, h2, h3, h4⟩ := Heed.exec_spec hg ok op
        have hop : Heed.LegalOp op := hl ⟨i, .update op, ok, (Heed.alone ok s (.update op)).1⟩ (by simp)
        refine ⟨h3, ?_, ⟨_, rfl⟩⟩
        simp only [Heed.alone, Heed.turnEffect]
        cases ok with
        | false => rw [h2 rfl]
        | true =>
          cases hr : (Heed.execTx true s op).1 with
          | ok u => exact (h4 rfl hr).2 (Heed.legalOp_iff.mp hop)
          | err m => rw [h1 (by rw [hr]; simp)]
          | panic => rw [h1 (by rw [hr]; simp)]
    refine ⟨key.1, key.2.1, ?_⟩
    intro S1 t S2 e
    rcases List.eq_nil_or_concat S2 with rfl | ⟨S3, u, rfl⟩
    · have := List.append_inj' e (by simp)
      obtain ⟨rfl, e2⟩ := this
      cases e2
      exact key.2.2
    · rw [List.concat_eq_append, ← List.cons_append, ← List.append_assoc] at e
      obtain ⟨e1, _⟩ := List.append_inj' e (by simp)
      exact hf S1 t S3 e1

/-- C69, in terms of what users see: on an environment used from new by any number of concurrent operations with legal collection names, there is a
sequential order that accounts for the history in which every listing names exactly the collections present at its turn and every read of a present
collection returns exactly its triples at that turn, the collections being those a plain map has after the updates of the earlier turns. -/
theorem C69_answers {s : Heed.Sys} {h : List Heed.Ev} (hr : Heed.Runs Heed.new s h) (hl : ∀ i q, Heed.Ev.inv i q ∈ h → Heed.LegalReq q) :
    ∃ S, Heed.Accounts h S ∧ Agrees Heed.ops s.durable (Heed.worldOfTurns S) ∧
      ∀ S1 t S2, S = S1 ++ t :: S2 → Heed.Fits (Heed.worldOfTurns S1) t.req t.ans := by
  obtain ⟨S, ha, ho⟩ := C69_linearizable hr
  obtain ⟨hg, hw, hf⟩ := oneByOne_world ho (fun t ht => hl t.id t.req (ha.called t ht))
  exact ⟨S, ha, by rw [← hw]; exact heed_agrees hg, hf⟩

/-- C69: no operation is ever stuck: whatever has happened so far, a called operation that has neither returned nor died can still return without
anybody dying. -/
theorem C69_no_deadlock {d : Heed} {s : Heed.Sys} {h : List Heed.Ev} (hr : Heed.Runs d s h) (i : Nat) (h1 : s.phase i ≠ .fresh)
    (h2 : s.phase i ≠ .dead) (h3 : s.phase i ≠ .returned) :
    ∃ t a, Heed.Runs d t (h ++ [.ret i a]) ∧ ∀ j, t.phase j = .dead → s.phase j = .dead :=
  Heed.finish hr i h1 h2 h3

/-- Two overlapping updates and a read: the read began before the second update ended and returns without its triples; the second update had to wait
for the first. -/
example : ∃ s h ts, Heed.Runs Heed.new s h ∧ h.length = 6 ∧ Heed.Ev.ret 2 (.trips (.ok ts)) ∈ h ∧ ts = ∅ ∧
    Heed.ops.triples s.durable (lit "T") = .ok sampleSet := by
  have r0 := Heed.Runs.start (d := Heed.new)
  have r1 := Heed.Runs.shown r0 (.call 0 (.update (.addCollection (lit "T"))) rfl)
  have r2 := Heed.Runs.shown r1 (.call 1 (.update (.addTriples (lit "T") sampleSet)) rfl)
  have r3 := Heed.Runs.quiet r2 (.beginWrite 0 _ rfl rfl)
  have r4 := Heed.Runs.quiet r3 (.endWrite 0 _ _ true rfl)
  have r5 := Heed.Runs.quiet r4 (.beginWrite 1 _ rfl rfl)
  have r6 := Heed.Runs.shown r5 (.call 2 (.triples (lit "T")) rfl)
  have r7 := Heed.Runs.quiet r6 (.beginRead 2 _ rfl nofun)
  have r8 := Heed.Runs.quiet r7 (.endWrite 1 _ _ true rfl)
  have r9 := Heed.Runs.shown r8 (.giveBack 1 _ rfl)
  have r10 := Heed.Runs.quiet r9 (.endRead 2 _ _ rfl)
  have r11 := Heed.Runs.shown r10 (.giveBack 2 _ rfl)
  have r12 := Heed.Runs.shown r11 (.giveBack 0 _ rfl)
  refine ⟨_, _, ∅, r12, rfl, ?_, rfl, by decide +kernel⟩
  have : Heed.triples (Heed.execTx true Heed.new (.addCollection (lit "T"))).2.durable (lit "T") = .ok ∅ := by decide +kernel
  simp only [Heed.lookup, List.mem_append, List.mem_singleton, Heed.Ev.ret.injEq]
  left; right
  exact ⟨trivial, congrArg Heed.Ans.trips this.symm⟩

/-- C69: the graph layer's `let` is two operations (`add_collection`, then `add_triples`), and it is not one step for other users.  In every
reachable state, for every unlisted legal name and non-empty set of triples: a read that comes between the two returns the empty set, although a read
before both would panic and a read after both return the triples. -/
theorem C69_let_not_atomic (l : List Op) (c : Str) (ts : BSet Trip) (hc : ¬ Listed Heed.ops (runOps Heed.ops Heed.new l).2 c)
    (hk : Heed.lmdbKey c = true) (hts : ts ≠ ∅) (hr : costOf l + 1 + 3 * ts.toList.length ≤ 2 ^ 64) :
    let d := (runOps Heed.ops Heed.new l).2
    (∃ s, Heed.Runs d s [.inv 0 (.update (.addCollection c)), .ret 0 (.done (.ok ())),
        .inv 2 (.triples c), .ret 2 (.trips (.ok ∅)),
        .inv 1 (.update (.addTriples c ts)), .ret 1 (.done (.ok ()))]) ∧
    Heed.ops.triples d c = .panic ∧
    Heed.ops.triples (runOps Heed.ops d [.addCollection c, .addTriples c ts]).2 c = .ok ts ∧ ts ≠ ∅ := by
  have hg := heed_good l
  have hroom : Heed.Room (runOps Heed.ops Heed.new l).2 (1 + (3 * ts.toList.length + 0)) := by
    apply Heed.room_runOps l _ _ Heed.good_new
    simp only [Heed.Room, Heed.used, Heed.new]; omega
  generalize (runOps Heed.ops Heed.new l).2 = s at *
  intro d
  subst d
  have hm : Heed.ops.triples s c = .panic := by
    rw [heed_listed' hg, Option.not_isSome_iff_eq_none] at hc
    show Heed.triples s c = .panic
    rw [Heed.triples, Heed.getStr_eq hg, hc]
  rw [heed_listed hg, Option.not_isSome_iff_eq_none] at hc
  obtain ⟨a1, a2, a3⟩ := heed_follower.addCollection _ _ c ⟨hg, hroom⟩ hc hk
  have hw : Heed.worldOf (exec Heed.ops s (.addCollection c)).2 c = some (fun _ => False) := by rw [a3]; simp [apply, hc]
  obtain ⟨b1, b2, b3⟩ := heed_follower.addTriples _ _ c ts a2 (by rw [hw]; rfl)
  have read0 : Heed.ops.triples (exec Heed.ops s (.addCollection c)).2 c = .ok ∅ := by
    obtain ⟨us, h1, h2⟩ := (heed_agrees a2.1).2 c _ hw
    rw [h1, show us = ∅ from BSet.ext (fun t => by rw [h2]; simp)]
  have read1 : Heed.ops.triples (exec Heed.ops (exec Heed.ops s (.addCollection c)).2 (.addTriples c ts)).2 c = .ok ts := by
    have hw1 : Heed.worldOf (exec Heed.ops (exec Heed.ops s (.addCollection c)).2 (.addTriples c ts)).2 c = some (fun t => False ∨ t ∈ ts) := by
      rw [b3]; simp [apply, hw]
    obtain ⟨us, h1, h2⟩ := (heed_agrees b2.1).2 c _ hw1
    rw [h1, show us = ts from BSet.ext (fun t => by rw [h2]; simp)]
  refine ⟨?_, hm, read1, hts⟩
  have e1 : ∀ s op, Heed.alone true s (.update op) = (.done (exec Heed.ops s op).1, (exec Heed.ops s op).2) := by
    intro s op
    rw [show Heed.ops = Heed.opsWith true from rfl, Heed.exec_eq]; rfl
  obtain ⟨t1, r1, d1, o1, p1⟩ := Heed.solo (Heed.Runs.start (d := s)) rfl 0 (.update (.addCollection c)) rfl
  obtain ⟨t2, r2, d2, o2, p2⟩ := Heed.solo r1 o1 2 (.triples c) (p1 2 (by decide))
  obtain ⟨t3, r3, d3, o3, p3⟩ := Heed.solo r2 o2 1 (.update (.addTriples c ts)) ((p2 1 (by decide)).trans (p1 1 (by decide)))
  refine ⟨t3, ?_⟩
  rw [show (Heed.Sys.start s).durable = s from rfl] at d1 r3
  rw [e1] at d1
  rw [show Heed.alone true t1.durable (.triples c) = (.trips (Heed.ops.triples t1.durable c), t1.durable) from rfl] at d2 r3
  simp only at d1 d2
  rw [e1, e1, d2, d1, a1, read0, b1] at r3
  exact r3

/-- The hypotheses hold after `sampleOps` for a name not used there. -/
example : ¬ Listed Heed.ops (runOps Heed.ops Heed.new sampleOps).2 (lit "new") ∧ Heed.lmdbKey (lit "new") = true ∧
    sampleSet ≠ ∅ ∧ costOf sampleOps + 1 + 3 * sampleSet.toList.length ≤ 2 ^ 64 := by
  refine ⟨?_, by decide, by decide +kernel, by decide +kernel⟩
  rw [heed_listed' (heed_good _)]; decide +kernel

end Props
end Verif
