import Verif.Props.StoreHeed
/-!
# C57: histories with crashes on the LMDB-backed store
-/
namespace Verif
namespace Props
open Spec

theorem lived_spec {h : List Heed.Fate} {s : Heed} (hl : Heed.Lived h s) (hleg : ∀ f ∈ h, Heed.LegalOp f.op) :
    Heed.Good s ∧ Heed.Explains h (Heed.worldOf s) := by
  induction hl with
  | new => exact ⟨Heed.good_new, by rw [Heed.worldOf_new]; exact .nil⟩
  | @completed h s op _ ih =>
    obtain ⟨hg, he⟩ := ih (fun f hf => hleg f (by simp [hf]))
    obtain ⟨_, h1, _, h3, h4⟩ := Heed.exec_spec hg true op
    refine ⟨h3, ?_⟩
    by_cases hr : (Heed.execTx true s op).1 = .ok ()
    · have hop : Heed.LegalOp op := hleg (.completed op (Heed.execTx true s op).1) (by simp)
      rw [(h4 rfl hr).2 (Heed.legalOp_iff.mp hop), hr]
      exact .acknowledged op he
    · rw [h1 hr]; exact .refused op _ hr he
  | @commitFailed h s op _ ih =>
    obtain ⟨hg, he⟩ := ih (fun f hf => hleg f (by simp [hf]))
    obtain ⟨_, _, h2, h3, _⟩ := Heed.exec_spec hg false op
    refine ⟨h3, ?_⟩
    rw [h2 rfl]; exact .commitFailed op _ he
  | @cutOff h s d ok op _ hd ih =>
    obtain ⟨hg, he⟩ := ih (fun f hf => hleg f (by simp [hf]))
    obtain ⟨h0, h1, h2, h3, h4⟩ := Heed.exec_spec hg ok op
    rcases h0 d hd with rfl | rfl
    · exact ⟨hg, .lost op he⟩
    · refine ⟨h3, ?_⟩
      by_cases hr : (Heed.execTx ok s op).1 = .ok ()
      · cases ok with
        | false => rw [h2 rfl]; exact .lost op he
        | true =>
          have hop : Heed.LegalOp op := hleg (.cutOff op) (by simp)
          rw [(h4 rfl hr).2 (Heed.legalOp_iff.mp hop)]
          exact .kept op he
      · rw [h1 hr]; exact .lost op he

/-- C57: whatever happened to a heed store (operations completed, refused, with failed commits, or cut off by a crash at any write,
the environment reopened afterwards; collection names legal), what it answers is explained by the history: every operation
acknowledged with a good commit has had its effect, each cut-off one all of it or none, nothing else has. -/
theorem C57_crash_history {h : List Heed.Fate} {s : Heed} (hl : Heed.Lived h s) (hleg : ∀ f ∈ h, Heed.LegalOp f.op) :
    ∃ w, Heed.Explains h w ∧ Agrees Heed.ops s w := by
  obtain ⟨hg, he⟩ := lived_spec hl hleg
  exact ⟨_, he, heed_agrees hg⟩

/-- C57: without cut-off operations the history determines what is stored: a failed commit or a refused operation changes
nothing, and nothing acknowledged with a good commit is lost. -/
theorem C57_no_crash_determined {h : List Heed.Fate} {s : Heed} (hl : Heed.Lived h s) (hleg : ∀ f ∈ h, Heed.LegalOp f.op)
    (hc : ∀ f ∈ h, ∀ op, f ≠ .cutOff op) :
    Agrees Heed.ops s (worldAfter false (h.filterMap fun f => match f with
      | .completed op r => some (op, r)
      | _ => none)) := by
  obtain ⟨w, he, ha⟩ := C57_crash_history hl hleg
  suffices hw : ∀ {h : List Heed.Fate} {w : World}, Heed.Explains h w → (∀ f ∈ h, ∀ op, f ≠ .cutOff op) →
      w = worldAfter false (h.filterMap fun f => match f with
        | .completed op r => some (op, r)
        | _ => none) by
    rw [← hw he hc]; exact ha
  intro h w he hc
  induction he with
  | nil => rfl
  | acknowledged op _ ih =>
    rw [ih (fun f hf => hc f (by simp [hf]))]
    simp [worldAfter, List.filterMap_append, applyEvent]
  | refused op r hr _ ih =>
    rw [ih (fun f hf => hc f (by simp [hf]))]
    have : ∀ x : World, applyEvent false x (op, r) = x := by
      intro x
      cases r with
      | ok u => exact absurd rfl hr
      | err m => rfl
      | panic => rfl
    simp [worldAfter, List.filterMap_append, this]
  | commitFailed op r _ ih =>
    rw [ih (fun f hf => hc f (by simp [hf]))]
    simp [List.filterMap_append]
  | lost op _ _ => exact absurd rfl (hc (.cutOff op) (by simp) op)
  | kept op _ _ => exact absurd rfl (hc (.cutOff op) (by simp) op)

/-- A history with a crash in the middle of writing two triples, after which the collection is still empty. -/
example : ∃ h s, Heed.Lived h s ∧ (∀ f ∈ h, Heed.LegalOp f.op) ∧ h.length = 3 ∧
    Heed.ops.triples s (lit "T") = .ok ∅ ∧ Heed.ops.collections s = .ok [lit "S", lit "T"] := by
  refine ⟨_, _, .completed (.addCollection (lit "S"))
    (.cutOff (d := (Heed.execTx true Heed.new (.addCollection (lit "T"))).2.durable) true (.addTriples (lit "T") sampleSet)
      (.completed (.addCollection (lit "T")) .new) (by decide +kernel)), ?_, rfl, by decide +kernel, by decide +kernel⟩
  intro f hf
  simp only [List.nil_append, List.cons_append, List.mem_cons, List.not_mem_nil, or_false] at hf
  rcases hf with rfl | rfl | rfl <;> simp only [Heed.Fate.op, Heed.LegalOp] <;> decide

end Props
end Verif
