import Verif.Proofs.HeedMeter
import Verif.Props.StoreContract
/-!
# C68: the LMDB-backed store when its map runs full
-/
namespace Verif
namespace Props
open Spec

/-- C68: an operation that may run out of room after any number of writes (`left`), on any stored state and with any outcome of its
commit, does one of two things: it reports and stores exactly what it reports and stores with unlimited room; or it stores nothing at all
and reports `Ok` or panics.  And what is stored at any moment during it is the state before it or the state after it. -/
theorem C68_all_or_nothing (ok : Bool) (left : Option Nat) (s : Heed) (op : Op) :
    let r := Heed.execFull ok left s op
    ((r.1 = (Heed.execTx ok s op).1 ∧ r.2.tx.durable = (Heed.execTx ok s op).2.durable) ∨
      (r.2.tx.durable = s ∧ (r.1 = .ok () ∨ r.1 = .panic))) ∧
    (∀ d ∈ r.2.tx.seen, d = s ∨ d = r.2.tx.durable) := by
  intro r
  have h := Heed.execFull_fair ok left s op
  refine ⟨?_, h.seen⟩
  rcases h.outcome with ⟨_, h1, h2⟩ | ⟨_, h1, h2⟩
  · exact .inl ⟨h1, by rw [h2]⟩
  · exact .inr ⟨h1, h2⟩

/-- The left count that a transaction started with runs out: a triple half written is not stored, and the call panics. -/
example :
    let s := (Heed.execTx true Heed.new (.addCollection (lit "T"))).2.durable
    ((Heed.execFull true (some 9) s (.addTriples (lit "T") sampleSet)).1 = .panic ∧
      (Heed.execFull true (some 9) s (.addTriples (lit "T") sampleSet)).2.tx.durable = s) ∧
    ((Heed.execFull true (some 40) s (.addTriples (lit "T") sampleSet)).1 = .ok () ∧
      (Heed.execFull true (some 40) s (.addTriples (lit "T") sampleSet)).2.tx.durable ≠ s) := by decide +kernel

/-- C68: with unlimited room the outcome and the stored state are those of the store without limit. -/
theorem C68_unlimited (ok : Bool) (s : Heed) (op : Op) :
    (Heed.execFull ok none s op).1 = (Heed.execTx ok s op).1 ∧
    (Heed.execFull ok none s op).2.tx.durable = (Heed.execTx ok s op).2.durable := by
  rcases (Heed.execFull_fair ok none s op).outcome with ⟨_, h1, h2⟩ | ⟨h, _⟩
  · exact ⟨h1, by rw [h2]⟩
  · rw [Heed.execFull_none ok s op] at h; cases h

/-- C68: what the caller is told.  An operation that panics with unlimited room panics with any room.  One that succeeds makes a number `W`
of writes (see `WriteCount`): with room for all of them it reports `Ok` and stores what it stores without limit; if just the last finds no
room it reports `Ok` and stores nothing; if any earlier one does it panics and stores nothing. -/
theorem C68_answer (ok : Bool) (s : Heed) (op : Op) :
    ((Heed.execTx ok s op).1 = .panic ∧ ∀ k, (Heed.execFull ok (some k) s op).1 = .panic ∧ (Heed.execFull ok (some k) s op).2.tx.durable = s) ∨
    ((Heed.execTx ok s op).1 = .ok () ∧ ∃ W, Heed.WriteCount op W ∧ ∀ k,
      let r := Heed.execFull ok (some k) s op
      (W ≤ k → r.1 = .ok () ∧ r.2.tx.durable = (Heed.execTx ok s op).2.durable) ∧
      (k + 1 = W → r.1 = .ok () ∧ r.2.tx.durable = s) ∧
      (k + 1 < W → r.1 = .panic ∧ r.2.tx.durable = s)) := by
  have hf := fun k => (Heed.execFull_fair ok (some k) s op).outcome
  rcases Heed.execFull_answers ok s op with ⟨h, K, hK⟩ | ⟨W, hW, h⟩
  · left
    have hp : (Heed.execTx ok s op).1 = .panic := by
      rcases hf K with ⟨_, e, _⟩ | ⟨e, _⟩
      · rw [← e]; exact h K
      · rw [hK] at e; cases e
    exact ⟨hp, fun k => ⟨h k, Heed.execFull_panic ok (some k) s op (h k)⟩⟩
  · right
    have ho : (Heed.execTx ok s op).1 = .ok () := by
      obtain ⟨e1, e2⟩ := h.enough W (Nat.le_refl _)
      rcases hf W with ⟨_, e, _⟩ | ⟨e, _⟩
      · rw [← e]; exact e1
      · rw [e2] at e; cases e
    refine ⟨ho, W, hW, fun k => ⟨fun hk => ?_, fun hk => ?_, fun hk => ?_⟩⟩
    · obtain ⟨e1, e2⟩ := h.enough k hk
      refine ⟨e1, ?_⟩
      rcases hf k with ⟨_, _, e⟩ | ⟨e, _⟩
      · rw [e]
      · rw [e2] at e; cases e
    · obtain ⟨e1, e2⟩ := h.last k hk
      refine ⟨e1, ?_⟩
      rcases hf k with ⟨e, _⟩ | ⟨_, e, _⟩
      · rw [e2] at e; cases e
      · exact e
    · have e1 := h.short k hk
      refine ⟨e1, ?_⟩
      rcases hf k with ⟨_, e, _⟩ | ⟨_, e, _⟩
      · rw [e1, ho] at e; cases e
      · exact e

/-- Two triples over four new values and one used twice, the counts at which the answer changes: 24 writes. -/
example :
    let s := (Heed.execTx true Heed.new (.addCollection (lit "T"))).2.durable
    let ts : BSet Trip := BSet.ofList [⟨lit "a", lit "b", lit "c"⟩, ⟨lit "a", lit "d", lit "e"⟩]
    (Heed.execFull true (some 24) s (.addTriples (lit "T") ts)).2.tx.durable ≠ s ∧
    (Heed.execFull true (some 23) s (.addTriples (lit "T") ts)).1 = .ok () ∧
    (Heed.execFull true (some 23) s (.addTriples (lit "T") ts)).2.tx.durable = s ∧
    (Heed.execFull true (some 22) s (.addTriples (lit "T") ts)).1 = .panic := by decide +kernel

/-- C68: `Ok` is no promise.  On every reachable state, adding a collection of a new legal name while only the last of its three writes
finds no room reports `Ok` (provided there is an identifier left) and stores nothing: the name is still not listed, while with room for all three writes it is listed after the same answer. -/
theorem C68_ok_not_stored (l : List Op) (c : Str) (hc : ¬ Listed Heed.ops (runOps Heed.ops Heed.new l).2 c) (hk : Heed.lmdbKey c = true)
    (hr : costOf l + 1 ≤ 2 ^ 64) :
    let s := (runOps Heed.ops Heed.new l).2
    let r := Heed.execFull true (some 2) s (.addCollection c)
    let r' := Heed.execFull true (some 3) s (.addCollection c)
    (r.1 = .ok () ∧ r.2.tx.durable = s ∧ ¬ Listed Heed.ops r.2.tx.durable c) ∧
    (r'.1 = .ok () ∧ Listed Heed.ops r'.2.tx.durable c) := by
  have hg := heed_good l
  have hroom : Heed.Room (runOps Heed.ops Heed.new l).2 1 :=
    Heed.room_runOps l Heed.new 1 Heed.good_new (by simpa [Heed.Room, Heed.used, Heed.new] using hr)
  generalize (runOps Heed.ops Heed.new l).2 = s at *
  intro s0 r r'
  subst s0
  have hc0 : s.collToId.get? c = none := by
    rw [heed_listed' hg, Option.not_isSome_iff_eq_none] at hc; exact hc
  have hx : ¬ Heed.Exhausted s := by
    intro he
    unfold Heed.Room Heed.used at hroom
    unfold Heed.Exhausted at he
    rw [he] at hroom
    simp at hroom
  obtain ⟨h1, h2, h3⟩ := Heed.add_two hg c hc0 hx
  refine ⟨⟨h1, h2, ?_⟩, ?_⟩
  · show ¬ Listed Heed.ops (Heed.addCollectionF true (some 2) s c).2.tx.durable c
    rw [h2]; exact hc
  · rcases (Heed.execFull_fair true (some 3) s (.addCollection c)).outcome with ⟨_, e1, e2⟩ | ⟨e, _⟩
    · obtain ⟨_, _, _, g1, g2⟩ := Heed.exec_spec hg true (.addCollection c)
      have e : (Heed.execTx true s (.addCollection c)).1 = .ok () := by
        rcases Heed.addCollection_cases hg true c with ⟨_, e⟩ | ⟨_, e, _⟩ | ⟨_, _, _, _, _, _, e, _⟩
        · simp only [Heed.execTx, e]
        · exact absurd e hx
        · simp only [Heed.execTx, e]
      refine ⟨e1.trans e, ?_⟩
      show Listed Heed.ops (Heed.execFull true (some 3) s (.addCollection c)).2.tx.durable c
      rw [e2, heed_listed g1, (g2 rfl e).2 (by rintro _ ⟨⟩; exact hk)]
      have : Heed.worldOf s c = none := by rw [← Option.not_isSome_iff_eq_none, ← heed_listed hg]; exact hc
      simp [apply, this]
    · exact absurd (h3.symm.trans e) (by simp)

/-- The hypotheses hold after `sampleOps` for a name not used there. -/
example : ¬ Listed Heed.ops (runOps Heed.ops Heed.new sampleOps).2 (lit "new") ∧ Heed.lmdbKey (lit "new") = true ∧
    costOf sampleOps + 1 ≤ 2 ^ 64 := by
  refine ⟨?_, by decide, by decide +kernel⟩
  rw [heed_listed' (heed_good _)]; decide +kernel

theorem livedFull_spec {h : List Heed.FullFate} {s : Heed} (hl : Heed.LivedFull h s) (hleg : ∀ f ∈ h, Heed.LegalOp f.op) :
    Heed.Good s ∧ Heed.ExplainsFull h (Heed.worldOf s) := by
  induction hl with
  | new => exact ⟨Heed.good_new, by rw [Heed.worldOf_new]; exact .nil⟩
  | @roomy h s op _ ih =>
    obtain ⟨hg, he⟩ := ih (fun f hf => hleg f (by simp [hf]))
    obtain ⟨_, h1, _, h3, h4⟩ := Heed.exec_spec hg true op
    obtain ⟨e1, e2⟩ := C68_unlimited true s op
    rw [e1, e2]
    refine ⟨h3, ?_⟩
    by_cases hr : (Heed.execTx true s op).1 = .ok ()
    · have hop : Heed.LegalOp op := hleg (.roomy op (Heed.execFull true none s op).1) (by simp)
      rw [(h4 rfl hr).2 (Heed.legalOp_iff.mp hop), hr]
      exact .acknowledged op he
    · rw [h1 hr]; exact .refused op _ hr he
  | @tight h s ok left op _ ih =>
    obtain ⟨hg, he⟩ := ih (fun f hf => hleg f (by simp [hf]))
    obtain ⟨_, h1, h2, h3, h4⟩ := Heed.exec_spec hg ok op
    rcases (C68_all_or_nothing ok left s op).1 with ⟨e1, e2⟩ | ⟨e1, _⟩
    · rw [e1, e2]
      refine ⟨h3, ?_⟩
      by_cases hr : (Heed.execTx ok s op).1 = .ok ()
      · cases ok with
        | false => rw [h2 rfl]; exact .tightNone op _ he
        | true =>
          have hop : Heed.LegalOp op := hleg (.tight op (Heed.execFull true left s op).1) (by simp)
          rw [(h4 rfl hr).2 (Heed.legalOp_iff.mp hop), hr]
          exact .tightAll op he
      · rw [h1 hr]; exact .tightNone op _ he
    · rw [e1]; exact ⟨hg, .tightNone op _ he⟩
  | @cutOff h s d ok left op _ hd ih =>
    obtain ⟨hg, he⟩ := ih (fun f hf => hleg f (by simp [hf]))
    obtain ⟨_, h1, h2, h3, h4⟩ := Heed.exec_spec hg ok op
    obtain ⟨e, hs⟩ := C68_all_or_nothing ok left s op
    rcases hs d hd with rfl | rfl
    · exact ⟨hg, .lost op he⟩
    · rcases e with ⟨e1, e2⟩ | ⟨e1, _⟩
      · rw [e2]
        refine ⟨h3, ?_⟩
        by_cases hr : (Heed.execTx ok s op).1 = .ok ()
        · cases ok with
          | false => rw [h2 rfl]; exact .lost op he
          | true =>
            have hop : Heed.LegalOp op := hleg (.cutOff op) (by simp)
            rw [(h4 rfl hr).2 (Heed.legalOp_iff.mp hop)]
            exact .kept op he
        · rw [h1 hr]; exact .lost op he
      · rw [e1]; exact ⟨hg, .lost op he⟩

/-- C68: whatever happened to a heed store (room running out at any write of any operation, commits failing, the process ending at any
write and the environment reopened; collection names legal), what it answers is explained by the history. -/
theorem C68_history {h : List Heed.FullFate} {s : Heed} (hl : Heed.LivedFull h s) (hleg : ∀ f ∈ h, Heed.LegalOp f.op) :
    ∃ w, Heed.ExplainsFull h w ∧ Agrees Heed.ops s w := by
  obtain ⟨hg, he⟩ := livedFull_spec hl hleg
  exact ⟨_, he, heed_agrees hg⟩

/-- A history with an operation that runs short, one that is cut off, and one that has room. -/
example : ∃ h s, Heed.LivedFull h s ∧ (∀ f ∈ h, Heed.LegalOp f.op) ∧ h.length = 4 ∧
    Heed.ops.triples s (lit "T") = .ok ∅ ∧ Heed.ops.collections s = .ok [lit "S", lit "T"] := by
  refine ⟨_, _, .roomy (.addCollection (lit "S"))
    (.cutOff (d := (Heed.execFull true none Heed.new (.addCollection (lit "T"))).2.tx.durable) true (some 12) (.addTriples (lit "T") sampleSet)
      (.tight true (some 8) (.addTriples (lit "T") sampleSet) (.roomy (.addCollection (lit "T")) .new)) (by decide +kernel)),
      ?_, rfl, by decide +kernel, by decide +kernel⟩
  intro f hf
  simp only [List.nil_append, List.cons_append, List.mem_cons, List.not_mem_nil, or_false] at hf
  rcases hf with rfl | rfl | rfl | rfl <;> simp only [Heed.FullFate.op, Heed.LegalOp] <;> decide

end Props
end Verif
