import Verif.Spec.Copy
import Verif.Props.Footprint
import Verif.Props.Backup
import Verif.Proofs.DuckSql
/-!
# Copying what a store shows into a new store
-/
namespace Verif
namespace Copy
open Spec

/-- The world after copying. -/
def copied (w : World) : List (Str × BSet Trip) → World
  | [] => w
  | p :: cs => copied (w.set p.1 (some fun t => t ∈ p.2)) cs

theorem copied_other (cs : List (Str × BSet Trip)) : ∀ (w : World) (c : Str), c ∉ cs.map Prod.fst → copied w cs c = w c := by
  induction cs with
  | nil => intro w c _; rfl
  | cons p cs ih =>
    intro w c hc
    simp only [List.map_cons, List.mem_cons, not_or] at hc
    rw [copied, ih _ c hc.2, World.set_other _ _ hc.1]

theorem copied_mem (cs : List (Str × BSet Trip)) : ∀ (w : World), (cs.map Prod.fst).Nodup → ∀ p ∈ cs,
    copied w cs p.1 = some fun t => t ∈ p.2 := by
  induction cs with
  | nil => intro w _ p hp; cases hp
  | cons q cs ih =>
    intro w hn p hp
    simp only [List.map_cons, List.nodup_cons] at hn
    rw [copied]
    rcases List.mem_cons.mp hp with rfl | hp
    · rw [copied_other cs _ _ hn.1, World.set_same]
    · exact ih _ hn.2 p hp

theorem copied_isSome (cs : List (Str × BSet Trip)) (hn : (cs.map Prod.fst).Nodup) (c : Str) :
    (copied emptyWorld cs c).isSome ↔ c ∈ cs.map Prod.fst := by
  constructor
  · intro h
    apply Classical.byContradiction
    intro hc
    rw [copied_other cs _ _ hc] at h; cases h
  · intro h
    obtain ⟨p, hp, rfl⟩ := List.mem_map.mp h
    rw [copied_mem cs _ hn p hp]; rfl

/-- Copying into any store whose additions succeed. -/
theorem copy_acked {T : TripsOps σ} (R : σ → World → Nat → Prop) (ok : Str → Prop)
    (h1 : ∀ s w k c, ok c → R s w (k + 1) → w c = none →
      (exec T s (.addCollection c)).1 = .ok () ∧ R (exec T s (.addCollection c)).2 (w.set c (some fun _ => False)) k)
    (h2 : ∀ s w k c ts, R s w (k + 3 * ts.toList.length) → w c = some (fun _ => False) →
      (exec T s (.addTriples c ts)).1 = .ok () ∧ R (exec T s (.addTriples c ts)).2 (w.set c (some fun t => t ∈ ts)) k) :
    ∀ (cs : List (Str × BSet Trip)) (s : σ) (w : World) (k : Nat), (cs.map Prod.fst).Nodup → (∀ p ∈ cs, ok p.1 ∧ w p.1 = none) →
      R s w (k + (cs.length + 3 * tripCount cs)) →
      Acked T s (copyOps cs) ∧ R (runOps T s (copyOps cs)).2 (copied w cs) k ∧
        (runOps T s (copyOps cs)).1 = (copyOps cs).map fun op => (op, .ok ())
  | [], s, w, k, _, _, hr => by
    refine ⟨by simp [Acked, copyOps, runOps], ?_, rfl⟩
    simpa [tripCount, copyOps, runOps, copied] using hr
  | p :: cs, s, w, k, hn, hp, hr => by
    simp only [List.map_cons, List.nodup_cons] at hn
    obtain ⟨a1, a2⟩ := hp p List.mem_cons_self
    have e : k + ((p :: cs).length + 3 * tripCount (p :: cs)) = k + (cs.length + 3 * tripCount cs) + 3 * p.2.toList.length + 1 := by
      simp only [tripCount, List.length_cons, List.map_cons, List.sum_cons]; omega
    rw [e] at hr
    obtain ⟨b1, b2⟩ := h1 s w _ p.1 a1 hr a2
    obtain ⟨c1, c2⟩ := h2 _ _ _ p.1 p.2 b2 (World.set_same _ _ _)
    have ew : (w.set p.1 (some fun _ => False)).set p.1 (some fun t => t ∈ p.2) = w.set p.1 (some fun t => t ∈ p.2) := by
      funext d
      by_cases h : d = p.1
      · subst h; simp
      · rw [World.set_other _ _ h, World.set_other _ _ h, World.set_other _ _ h]
    rw [ew] at c2
    obtain ⟨d1, d2, d3⟩ := copy_acked R ok h1 h2 cs _ (w.set p.1 (some fun t => t ∈ p.2)) k hn.2
      (fun q hq => ⟨(hp q (List.mem_cons_of_mem _ hq)).1, by
        have hne : q.1 ≠ p.1 := fun e => hn.1 (by rw [← e]; exact List.mem_map_of_mem hq)
        rw [World.set_other _ _ hne]; exact (hp q (List.mem_cons_of_mem _ hq)).2⟩) c2
    simp only [copyOps, runOps, copied, Acked, List.map_cons]
    refine ⟨?_, d2, ?_⟩
    · intro e he
      simp only [List.mem_cons] at he
      rcases he with rfl | rfl | he
      · exact b1
      · exact c1
      · exact d1 e he
    · rw [b1, c1, d3]

theorem heed_copy (cs : List (Str × BSet Trip)) (hn : (cs.map Prod.fst).Nodup) (hk : ∀ p ∈ cs, Heed.lmdbKey p.1 = true)
    (h64 : cs.length + 3 * tripCount cs ≤ 2 ^ 64) :
    Acked Heed.ops Heed.new (copyOps cs) ∧ Heed.Good (runOps Heed.ops Heed.new (copyOps cs)).2 ∧
      Heed.worldOf (runOps Heed.ops Heed.new (copyOps cs)).2 = copied emptyWorld cs ∧
        (runOps Heed.ops Heed.new (copyOps cs)).1 = (copyOps cs).map fun op => (op, .ok ()) := by
  obtain ⟨h1, ⟨h2, h3, _⟩, h4⟩ := copy_acked (T := Heed.ops) (fun s w k => Heed.Good s ∧ Heed.worldOf s = w ∧ Heed.Room s k) (fun c => Heed.lmdbKey c = true)
    (by
      rintro s w k c hc ⟨hg, rfl, hr⟩ _
      have x1 : (exec Heed.ops s (.addCollection c)).1 = .ok () := by
        unfold Heed.ops; rw [Heed.exec_eq]
        exact Heed.outcome_addCollection hg true c (by unfold Heed.Room at *; omega)
      refine ⟨x1, Heed.good_exec hg true _, ?_, Heed.room_exec hg _ _ (by simp only [Op.cost]; unfold Heed.Room at *; omega)⟩
      rw [Heed.worldOf_exec hg (.addCollection c) hc, x1]
      rename_i hw
      simp only [applyEvent, apply, hw])
    (by
      rintro s w k c ts ⟨hg, rfl, hr⟩ hw
      have x1 : (exec Heed.ops s (.addTriples c ts)).1 = .ok () := by
        unfold Heed.ops; rw [Heed.exec_eq]
        dsimp only
        rw [Heed.outcome_addTriples hg true c ts (by unfold Heed.Room at *; omega), hw]
        simp
      refine ⟨x1, Heed.good_exec hg true _, ?_, Heed.room_exec hg _ _ (by simp only [Op.cost]; unfold Heed.Room at *; omega)⟩
      rw [Heed.worldOf_exec hg (.addTriples c ts) trivial, x1]
      simp [applyEvent, apply, hw])
    cs Heed.new emptyWorld 0 hn (fun p hp => ⟨hk p hp, rfl⟩)
    ⟨Heed.good_new, Heed.worldOf_new, by simp only [Heed.Room, Heed.used, Heed.new]; omega⟩
  exact ⟨h1, h2, h3, h4⟩

theorem duck_copy (cs : List (Str × BSet Trip)) (hn : (cs.map Prod.fst).Nodup) :
    Acked Duck.ops Duck.new (copyOps cs) ∧ Duck.Inv (runOps Duck.ops Duck.new (copyOps cs)).2 ∧
      Duck.world (runOps Duck.ops Duck.new (copyOps cs)).2 = copied emptyWorld cs ∧
        (runOps Duck.ops Duck.new (copyOps cs)).1 = (copyOps cs).map fun op => (op, .ok ()) := by
  obtain ⟨h1, ⟨h2, h3⟩, h4⟩ := copy_acked (T := Duck.ops) (fun s w _ => Duck.Inv s ∧ Duck.world s = w) (fun _ => True)
    (by
      rintro s w k c _ ⟨hg, rfl⟩ hw
      obtain ⟨g1, g2, _⟩ := Duck.exec_spec hg (.addCollection c)
      have x1 : (exec Duck.ops s (.addCollection c)).1 = .ok () := by
        have := DuckSql.exec_outcome hg (.addCollection c)
        simp only [DuckOutcome, hw] at this
        simpa using this
      refine ⟨x1, g1, ?_⟩
      rw [g2, x1]
      simp [applyEvent, apply, hw])
    (by
      rintro s w k c ts ⟨hg, rfl⟩ hw
      obtain ⟨g1, g2, _⟩ := Duck.exec_spec hg (.addTriples c ts)
      have x1 : (exec Duck.ops s (.addTriples c ts)).1 = .ok () := by
        have := DuckSql.exec_outcome hg (.addTriples c ts)
        simp only [DuckOutcome, hw] at this
        simpa using this
      refine ⟨x1, g1, ?_⟩
      rw [g2, x1]
      simp [applyEvent, apply, hw])
    cs Duck.new emptyWorld 0 hn (fun p hp => ⟨trivial, rfl⟩) ⟨Duck.inv_new, Duck.world_new⟩
  exact ⟨h1, h2, h3, h4⟩

/-- What a store shows, from the world. -/
theorem copy_shows {T : TripsOps σ} {s : σ} {cs : List (Str × BSet Trip)} (hn : (cs.map Prod.fst).Nodup)
    (h : Agrees T s (copied emptyWorld cs)) :
    (∃ l, T.collections s = .ok l ∧ l.Perm (cs.map Prod.fst)) ∧ ∀ p ∈ cs, T.triples s p.1 = .ok p.2 := by
  obtain ⟨⟨l, a1, a2, a3⟩, a4⟩ := h
  refine ⟨⟨l, a1, (List.perm_ext_iff_of_nodup a2 hn).mpr fun c => ?_⟩, fun p hp => ?_⟩
  · rw [a3, copied_isSome cs hn]
  · obtain ⟨ts, b1, b2⟩ := a4 _ _ (copied_mem cs emptyWorld hn p hp)
    rw [b1]
    congr 1
    exact BSet.ext b2

theorem listedCount_copy {T : TripsOps σ} {s : σ} {cs : List (Str × BSet Trip)} {l : List Str} (hl : T.collections s = .ok l)
    (hp : l.Perm (cs.map Prod.fst)) : listedCount T s = cs.length := by
  unfold listedCount; rw [hl]
  simpa using hp.length_eq

theorem shown_copy {T : TripsOps σ} {s : σ} {cs : List (Str × BSet Trip)} {l : List Str} (hl : T.collections s = .ok l)
    (hp : l.Perm (cs.map Prod.fst)) (ht : ∀ p ∈ cs, T.triples s p.1 = .ok p.2) : shown T s = tripCount cs := by
  unfold shown; rw [hl]
  dsimp only
  rw [(hp.map (sizeIn T s)).sum_nat, List.map_map, tripCount]
  congr 1
  apply List.map_congr_left
  intro p hp'
  simp only [Function.comp, sizeIn, ht p hp']

theorem mem_textsIn {cs : List (Str × BSet Trip)} {v : Str} : v ∈ textsIn cs ↔ ∃ p ∈ cs, ∃ t ∈ p.2, v ∈ tripTexts t := by
  unfold textsIn
  rw [BSet.mem_ofList, List.mem_flatMap]
  constructor
  · rintro ⟨p, hp, h⟩
    rw [List.mem_flatMap] at h
    exact ⟨p, hp, h⟩
  · rintro ⟨p, hp, h⟩
    exact ⟨p, hp, List.mem_flatMap.mpr h⟩

theorem mem_copyOps {cs : List (Str × BSet Trip)} {op : Op} :
    op ∈ copyOps cs ↔ ∃ p ∈ cs, op = .addCollection p.1 ∨ op = .addTriples p.1 p.2 := by
  induction cs with
  | nil => simp [copyOps]
  | cons p cs ih =>
    simp only [copyOps, List.mem_cons, ih]
    constructor
    · rintro (h | h | ⟨q, hq, h⟩)
      · exact ⟨p, .inl rfl, .inl h⟩
      · exact ⟨p, .inl rfl, .inr h⟩
      · exact ⟨q, .inr hq, h⟩
    · rintro ⟨q, rfl | hq, h⟩
      · rcases h with h | h
        · exact .inl h
        · exact .inr (.inl h)
      · exact .inr (.inr ⟨q, hq, h⟩)

theorem storedTexts_copy (cs : List (Str × BSet Trip)) :
    storedTexts ((copyOps cs).map fun op => (op, .ok ())) = textsIn cs := by
  apply BSet.ext
  intro v
  rw [Heed.mem_storedTexts, mem_textsIn]
  constructor
  · rintro ⟨c, ts, h, t, ht, hv⟩
    obtain ⟨op, ho, e⟩ := List.mem_map.mp h
    cases e
    obtain ⟨p, hp, h | h⟩ := mem_copyOps.mp ho
    · cases h
    · cases h; exact ⟨p, hp, t, ht, hv⟩
  · rintro ⟨p, hp, t, ht, hv⟩
    exact ⟨p.1, p.2, List.mem_map.mpr ⟨_, mem_copyOps.mpr ⟨p, hp, .inr rfl⟩, rfl⟩, t, ht, hv⟩

theorem orphaned_copy (T : TripsOps σ) : ∀ (cs : List (Str × BSet Trip)) (s : σ), orphaned T s (copyOps cs) = 0
  | [], _ => rfl
  | p :: cs, s => by
    simp only [copyOps, orphaned, Nat.zero_add]
    exact orphaned_copy T cs _

end Copy
end Verif
