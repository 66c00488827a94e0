import Verif.Props.StoreHeed
/-!
# C47, C48: the DuckDB store, and agreement of all stores
-/
namespace Verif
namespace Props
open Spec

/-! ## C47 -/

/-- C47: after any history on a fresh DuckDB store, listing and reading answer like the plain map updated by the acknowledged
operations; reading a collection that is not there gives the empty set. -/
theorem C47_duck_refines_map (l : List Op) :
    Agrees Duck.ops (runOps Duck.ops Duck.new l).2 (worldAfter false (runOps Duck.ops Duck.new l).1) ∧
    ∀ c, worldAfter false (runOps Duck.ops Duck.new l).1 c = none →
      Duck.ops.triples (runOps Duck.ops Duck.new l).2 c = .ok ∅ := by
  obtain ⟨h, hw⟩ := Duck.rel_runOps l
  rw [← hw]
  refine ⟨Duck.agrees h, fun c hc => ?_⟩
  obtain ⟨ts, ht, hts⟩ := Duck.triples_spec h c
  have : ts = ∅ := BSet.ext fun t => by rw [hts, hc]; simp
  subst this; exact ht

/-- C47: which operations are acknowledged: adding a collection exactly when it is new, removing one exactly when it is absent or
empty, writing triples exactly when the collection exists (otherwise an error, not a panic). -/
theorem C47_duck_outcomes (l : List Op) (op : Op) :
    let w := worldAfter false (runOps Duck.ops Duck.new l).1
    let r := (exec Duck.ops (runOps Duck.ops Duck.new l).2 op).1
    match op with
    | .addCollection c => (w c = none → r = .ok ()) ∧ (w c ≠ none → r = .panic)
    | .removeCollection c => ((∃ p, w c = some p ∧ ∃ t, p t) → r = .panic) ∧ (¬ (∃ p, w c = some p ∧ ∃ t, p t) → r = .ok ())
    | .addTriples c _ | .removeTriples c _ => (w c ≠ none → r = .ok ()) ∧ (w c = none → ∃ m, r = .err m) := by
  intro w r
  obtain ⟨h, hw⟩ := Duck.rel_runOps l
  have ho := (Duck.exec_spec h op).2.2
  rw [hw] at ho
  cases op with
  | addCollection c =>
    refine ⟨fun hc => ?_, fun hc => ?_⟩
    · have hc' : worldAfter false (runOps Duck.ops Duck.new l).1 c = none := hc
      simp only [hc', Option.isSome_none, Bool.false_eq_true, if_false] at ho; exact ho
    · have hc' : (worldAfter false (runOps Duck.ops Duck.new l).1 c).isSome = true := Option.isSome_iff_ne_none.mpr hc
      simp only [hc', if_true] at ho; exact ho
  | removeCollection c =>
    have hr := Duck.referenced_iff h c
    rw [hw] at hr
    refine ⟨fun hc => ?_, fun hc => ?_⟩
    · simp only [hr.mpr hc, if_true] at ho; exact ho
    · have : ¬ _ := fun h => hc (hr.mp h)
      simp only [this] at ho; exact ho
  | addTriples c ts =>
    refine ⟨fun hc => ?_, fun hc => ?_⟩
    · have hc' : (worldAfter false (runOps Duck.ops Duck.new l).1 c).isSome = true := Option.isSome_iff_ne_none.mpr hc
      simp only [hc', if_true] at ho; exact ho
    · have hc' : worldAfter false (runOps Duck.ops Duck.new l).1 c = none := hc
      simp only [hc', Option.isSome_none, Bool.false_eq_true, if_false] at ho; exact ⟨_, ho⟩
  | removeTriples c ts =>
    refine ⟨fun hc => ?_, fun hc => ?_⟩
    · have hc' : (worldAfter false (runOps Duck.ops Duck.new l).1 c).isSome = true := Option.isSome_iff_ne_none.mpr hc
      simp only [hc', if_true] at ho; exact ho
    · have hc' : worldAfter false (runOps Duck.ops Duck.new l).1 c = none := hc
      simp only [hc', Option.isSome_none, Bool.false_eq_true, if_false] at ho; exact ⟨_, ho⟩

/-- Adding the same triples twice stores duplicate rows, which one removal deletes all. -/
def dupOps : List Op :=
  [.addCollection (lit "T"), .addTriples (lit "T") sampleSet, .addTriples (lit "T") sampleSet]

example : (runOps Duck.ops Duck.new dupOps).2.trips.length = 4 ∧
    Duck.ops.triples (runOps Duck.ops Duck.new dupOps).2 (lit "T") = .ok sampleSet ∧
    (Duck.ops.removeTriples (runOps Duck.ops Duck.new dupOps).2 (lit "T") sampleSet).2.1.trips.length = 0 ∧
    (runOps Duck.ops Duck.new sampleOps).1.map Prod.snd =
      [.ok (), .ok (), .ok (), .ok (), .err (lit "Collection U not found.")] := by decide +kernel

/-- C47: after one acknowledged removal none of the removed triples is read any more, however often each was added. -/
theorem C47_duck_removal_complete (l : List Op) (c : Str) (ts : BSet Trip)
    (hok : (Duck.ops.removeTriples (runOps Duck.ops Duck.new l).2 c ts).1 = .ok ()) :
    ∃ rest, Duck.ops.triples (Duck.ops.removeTriples (runOps Duck.ops Duck.new l).2 c ts).2.1 c = .ok rest ∧
      ∀ t ∈ ts, t ∉ rest := by
  have hg := duck_inv l
  generalize (runOps Duck.ops Duck.new l).2 = s at *
  obtain ⟨h1, h2, h3⟩ := Duck.exec_spec hg (.removeTriples c ts)
  have hr : (exec Duck.ops s (.removeTriples c ts)).1 = .ok () := hok
  rw [hr] at h2
  obtain ⟨rest, h4, h5⟩ := Duck.triples_spec h1 c
  refine ⟨rest, h4, fun t ht hrest => ?_⟩
  rw [h5, h2] at hrest
  obtain ⟨p, hp, hpt⟩ := hrest
  simp only [applyEvent, apply] at hp
  cases hc : Duck.world s c with
  | none => rw [hc] at hp; simp [hc] at hp
  | some q =>
    rw [hc] at hp
    simp only [World.set_same, Option.some.injEq] at hp
    subst hp
    exact hpt.2 ht

/-- `C47_duck_removal_complete` applies to removing triples of which one is there. -/
example := C47_duck_removal_complete sampleOps (lit "T") sampleSet (by decide +kernel)

/-! ## C48 -/

/-- What makes the three stores step together. -/
structure Together (m : Mem) (h : Heed) (d : Duck) (w : World) (K : Str → Prop) (k : Nat) : Prop where
  mem : Mem.world m = w
  good : Heed.Good h
  heed : Heed.worldOf h = w
  known : ∀ v, K v → Heed.KnowsText h v
  room : Heed.Room h k
  inv : Duck.Inv d
  duck : Duck.world d = w

theorem together_step {m : Mem} {h : Heed} {d : Duck} {w : World} {K K' : Str → Prop} {k : Nat} {op : Op}
    (t : Together m h d w K (op.cost + k)) (hl : Heed.LegalOp op)
    (hm : (exec Mem.ops m op).1 = .ok ()) (hh : (exec Heed.ops h op).1 = .ok ()) (hd : (exec Duck.ops d op).1 = .ok ())
    (ha : apply true w op = apply false w op)
    (hK : ∀ v, K' v → Heed.KnowsText (exec Heed.ops h op).2 v) :
    Together (exec Mem.ops m op).2 (exec Heed.ops h op).2 (exec Duck.ops d op).2 (apply false w op) K' k where
  mem := by
    rw [Mem.world_exec, hm, t.mem]; exact ha
  good := Heed.good_exec t.good true op
  heed := by
    rw [Heed.worldOf_exec t.good op hl, hh, t.heed]; rfl
  known := hK
  room := Heed.room_exec t.good op k t.room
  inv := (Duck.exec_spec t.inv op).1
  duck := by
    rw [(Duck.exec_spec t.inv op).2.1, hd, t.duck]; rfl

theorem together_run (l : List Op) : ∀ (m : Mem) (h : Heed) (d : Duck) (w : World) (K : Str → Prop),
    Together m h d w K (costOf l) → Disciplined (fun x => Heed.lmdbKey x = true) w K l →
    Acked Mem.ops m l ∧ Acked Heed.ops h l ∧ Acked Duck.ops d l ∧
    ∃ w', Agrees Mem.ops (runOps Mem.ops m l).2 w' ∧ Agrees Heed.ops (runOps Heed.ops h l).2 w' ∧
      Agrees Duck.ops (runOps Duck.ops d l).2 w' := by
  induction l with
  | nil =>
    intro m h d w K t _
    refine ⟨(fun e he => nomatch he), (fun e he => nomatch he), (fun e he => nomatch he), w, ?_, ?_, ?_⟩
    · have := Mem.agrees m; rw [t.mem] at this; exact this
    · have := heed_agrees t.good; rw [t.heed] at this; exact this
    · have := Duck.agrees t.inv; rw [t.duck] at this; exact this
  | cons op l ih =>
    intro m h d w K t hdisc
    have key : ∃ K', (exec Mem.ops m op).1 = .ok () ∧ (exec Heed.ops h op).1 = .ok () ∧ (exec Duck.ops d op).1 = .ok () ∧
        Together (exec Mem.ops m op).2 (exec Heed.ops h op).2 (exec Duck.ops d op).2 (apply false w op) K' (costOf l) ∧
        Disciplined (fun x => Heed.lmdbKey x = true) (apply false w op) K' l := by
      have hroom : Heed.Room h (op.cost + costOf l) := by simpa [costOf] using t.room
      have t' : Together m h d w K (op.cost + costOf l) := { t with room := hroom }
      have hroom1 : Heed.Room h op.cost := by unfold Heed.Room at *; omega
      have he : (exec Heed.ops h op).1 = (Heed.execTx true h op).1 := by
        show (exec (Heed.opsWith true) _ op).1 = _
        rw [Heed.exec_eq]
      have hdo := (Duck.exec_spec t.inv op).2.2
      rw [t.duck] at hdo
      have keepK : ∀ v, K v → Heed.KnowsText (exec Heed.ops h op).2 v := by
        intro v hv
        rw [Heed.known_exec t.good]; exact .inl (t.known v hv)
      cases op with
      | addCollection c =>
        obtain ⟨hc, hleg, hrest⟩ := hdisc
        have h1 : (exec Mem.ops m (.addCollection c)).1 = .ok () := rfl
        have h2 : (exec Heed.ops h (.addCollection c)).1 = .ok () := by
          rw [he]; exact Heed.outcome_addCollection t.good true c hroom1
        have h3 : (exec Duck.ops d (.addCollection c)).1 = .ok () := by
          simp only [hc, Option.isSome_none, Bool.false_eq_true, if_false] at hdo; exact hdo
        exact ⟨K, h1, h2, h3, together_step t' hleg h1 h2 h3 (by simp [apply, hc]) keepK, hrest⟩
      | removeCollection c =>
        obtain ⟨⟨p, hp, hempty⟩, hrest⟩ := hdisc
        have h1 : (exec Mem.ops m (.removeCollection c)).1 = .ok () := rfl
        have h2 : (exec Heed.ops h (.removeCollection c)).1 = .ok () := by
          rw [he, Heed.outcome_removeCollection t.good, t.heed, hp]; rfl
        have h3 : (exec Duck.ops d (.removeCollection c)).1 = .ok () := by
          have hr := Duck.referenced_iff t.inv c
          rw [t.duck] at hr
          have : ¬ _ := fun hx => by
            obtain ⟨q, hq, x, hx⟩ := hr.mp hx
            rw [hp] at hq; cases hq; exact hempty x hx
          simp only [this] at hdo; exact hdo
        exact ⟨K, h1, h2, h3, together_step t' trivial h1 h2 h3 rfl keepK, hrest⟩
      | addTriples c ts =>
        obtain ⟨hc, hleg, hrest⟩ := hdisc
        have h1 : (exec Mem.ops m (.addTriples c ts)).1 = .ok () := by
          have hc' := hc
          rw [← t.mem] at hc'
          simp only [Mem.world, Option.isSome_map] at hc'
          obtain ⟨S, hS⟩ := Option.isSome_iff_exists.mp hc'
          simp [exec, Mem.ops, Mem.addTriples, hS]
        have h2 : (exec Heed.ops h (.addTriples c ts)).1 = .ok () := by
          rw [he, Heed.outcome_addTriples t.good true c ts hroom1, t.heed, hc]; rfl
        have h3 : (exec Duck.ops d (.addTriples c ts)).1 = .ok () := by
          simp only [hc, if_true] at hdo; exact hdo
        refine ⟨_, h1, h2, h3, together_step t' trivial h1 h2 h3 rfl ?_, hrest⟩
        rintro v (hv | ⟨x, hx, hv⟩)
        · exact keepK v hv
        · rw [Heed.known_exec t.good, h2]
          exact .inr ⟨hleg x hx v hv, c, ts, by simp, x, hx, hv⟩
      | removeTriples c ts =>
        obtain ⟨hc, hk, hrest⟩ := hdisc
        have h1 : (exec Mem.ops m (.removeTriples c ts)).1 = .ok () := by
          have hc' := hc
          rw [← t.mem] at hc'
          simp only [Mem.world, Option.isSome_map] at hc'
          obtain ⟨S, hS⟩ := Option.isSome_iff_exists.mp hc'
          simp [exec, Mem.ops, Mem.removeTriples, hS]
        have h2 : (exec Heed.ops h (.removeTriples c ts)).1 = .ok () := by
          rw [he, (Heed.outcome_removeTriples t.good true c ts).1, t.heed]
          exact ⟨hc, fun x hx v hv => t.known v (hk x hx v hv)⟩
        have h3 : (exec Duck.ops d (.removeTriples c ts)).1 = .ok () := by
          simp only [hc, if_true] at hdo; exact hdo
        exact ⟨K, h1, h2, h3, together_step t' trivial h1 h2 h3 rfl keepK, hrest⟩
    obtain ⟨K', h1, h2, h3, t', hd'⟩ := key
    obtain ⟨a1, a2, a3, w', b⟩ := ih _ _ _ _ K' t' hd'
    refine ⟨?_, ?_, ?_, w', b⟩
    · intro e he
      simp only [runOps, List.mem_cons] at he
      rcases he with rfl | he
      · exact h1
      · exact a1 e he
    · intro e he
      simp only [runOps, List.mem_cons] at he
      rcases he with rfl | he
      · exact h2
      · exact a2 e he
    · intro e he
      simp only [runOps, List.mem_cons] at he
      rcases he with rfl | he
      · exact h3
      · exact a3 e he

/-- C48: on a disciplined history (using at most 2^64 identifiers, names and texts legal for LMDB) every store acknowledges every
operation and afterwards all three show the same collections with the same triples. -/
theorem C48_stores_agree (l : List Op)
    (hl : Disciplined (fun x => Heed.lmdbKey x = true) emptyWorld (fun _ => False) l) (hsize : costOf l ≤ 2 ^ 64) :
    (Acked Mem.ops Mem.new l ∧ Acked Heed.ops Heed.new l ∧ Acked Duck.ops Duck.new l) ∧
    SameView Mem.ops (runOps Mem.ops Mem.new l).2 Heed.ops (runOps Heed.ops Heed.new l).2 ∧
    SameView Mem.ops (runOps Mem.ops Mem.new l).2 Duck.ops (runOps Duck.ops Duck.new l).2 := by
  obtain ⟨a1, a2, a3, w, b1, b2, b3⟩ := together_run l Mem.new Heed.new Duck.new emptyWorld (fun _ => False)
    ⟨Mem.world_new, Heed.good_new, Heed.worldOf_new, fun _ h => absurd h id,
      by simpa [Heed.Room, Heed.used, Heed.new] using hsize, Duck.inv_new, Duck.world_new⟩ hl
  exact ⟨⟨a1, a2, a3⟩, b1.sameView b2, b1.sameView b3⟩

/-- A disciplined history with all four kinds of operation. -/
def goodOps : List Op :=
  [.addCollection (lit "T"), .addTriples (lit "T") sampleSet, .addCollection (lit "S"),
   .removeTriples (lit "T") (BSet.ofList [sampleTrip2]), .removeCollection (lit "S")]

example : Disciplined (fun x => Heed.lmdbKey x = true) emptyWorld (fun _ => False) goodOps ∧ costOf goodOps ≤ 2 ^ 64 := by
  refine ⟨?_, by decide +kernel⟩
  have hTS : lit "S" ≠ lit "T" := by decide
  have hST : lit "T" ≠ lit "S" := by decide
  simp only [goodOps, Disciplined]
  have e0 : apply false emptyWorld (.addCollection (lit "T")) = emptyWorld.set (lit "T") (some fun _ => False) := rfl
  rw [e0]
  generalize hw1 : emptyWorld.set (lit "T") (some fun _ => False) = w1
  have v1 : w1 (lit "T") = some fun _ => False := by rw [← hw1, World.set_same]
  have v1' : w1 (lit "S") = none := by rw [← hw1, World.set_other _ _ hTS]; rfl
  have e1 : apply false w1 (.addTriples (lit "T") sampleSet) = w1.set (lit "T") (some fun t => False ∨ t ∈ sampleSet) := by
    simp only [apply, v1]
  rw [e1]
  generalize hw2 : w1.set (lit "T") (some fun t => False ∨ t ∈ sampleSet) = w2
  have v2 : w2 (lit "T") = some fun t => False ∨ t ∈ sampleSet := by rw [← hw2, World.set_same]
  have v2' : w2 (lit "S") = none := by rw [← hw2, World.set_other _ _ hTS]; exact v1'
  have e2 : apply false w2 (.addCollection (lit "S")) = w2.set (lit "S") (some fun _ => False) := by simp only [apply, v2']
  rw [e2]
  generalize hw3 : w2.set (lit "S") (some fun _ => False) = w3
  have v3 : w3 (lit "T") = some fun t => False ∨ t ∈ sampleSet := by rw [← hw3, World.set_other _ _ hST]; exact v2
  have v3' : w3 (lit "S") = some fun _ => False := by rw [← hw3, World.set_same]
  have e3 : apply false w3 (.removeTriples (lit "T") (BSet.ofList [sampleTrip2])) =
      w3.set (lit "T") (some fun t => (False ∨ t ∈ sampleSet) ∧ ¬ t ∈ BSet.ofList [sampleTrip2]) := by
    simp only [apply, v3]
  rw [e3]
  refine ⟨rfl, by decide, by rw [v1]; rfl, ?_, v2', by decide, by rw [v3]; rfl, ?_,
    ⟨_, by rw [World.set_other _ _ hTS]; exact v3', fun _ h => h⟩, trivial⟩
  · intro t ht x hx
    simp only [sampleSet, BSet.mem_ofList, List.mem_cons, List.not_mem_nil, or_false] at ht
    rcases ht with rfl | rfl <;> simp only [tripTexts, sampleTrip, sampleTrip2, List.mem_cons, List.not_mem_nil, or_false] at hx <;>
      rcases hx with rfl | rfl | rfl <;> decide
  · intro t ht x hx
    simp only [BSet.mem_ofList, List.mem_singleton] at ht
    subst ht
    exact .inr ⟨sampleTrip2, by simp [sampleSet], hx⟩

end Props
end Verif
